import Verif.Spec.UserCode
import Verif.Proofs.LibType
/-!
# Proofs: simulating user code with effects by pure code that knows the answers
-/
namespace Varlen.Eff
variable {w : Nat}

/-- The states agree on the protected blocks and the log. -/
structure Agree (prot : Nat → Prop) (s sP : St) : Prop where
  same : Same s sP prot
  log : sP.log = s.log

theorem Agree.refl (prot : Nat → Prop) (s : St) : Agree prot s s := ⟨.refl _ _, rfl⟩

/-- The outcome `rE` with user code is like the outcome `rP` of the pure program, unless that one is undefined. -/
def Sim {α : Type} (U : World) (prot : Nat → Prop) (rE rP : Res St α) (Qok : α → Prop) (Qpanic : Prop) : Prop :=
  match rP with
  | .ub _ => True
  | .ok a sP => ∃ s', rE = .ok a s' ∧ U.ok s' prot ∧ Agree prot s' sP ∧ Qok a
  | .panic m sP => ∃ s', rE = .panic m s' ∧ U.ok s' prot ∧ Agree prot s' sP ∧ Qpanic

theorem Sim.ok {α : Type} {U : World} {prot : Nat → Prop} {a : α} {s' sP : St} {Qok : α → Prop} {Qpanic : Prop} (h1 : U.ok s' prot) (h2 : Agree prot s' sP) (h3 : Qok a) :
    Sim U prot (.ok a s') (.ok a sP) Qok Qpanic := ⟨s', rfl, h1, h2, h3⟩

theorem Sim.panic {α : Type} {U : World} {prot : Nat → Prop} {m : PanicMsg} {s' sP : St} {Qok : α → Prop} {Qpanic : Prop} (h1 : U.ok s' prot) (h2 : Agree prot s' sP) (h3 : Qpanic) :
    Sim U prot (.panic m s') (.panic m sP) Qok Qpanic := ⟨s', rfl, h1, h2, h3⟩

theorem Sim.bind {α β : Type} {U : World} {prot : Nat → Prop} {rE rP : Res St α} {Q : α → Prop} {QP : Prop} {f g : α → M β} {Q' : β → Prop} {QP' : Prop}
    (h : Sim U prot rE rP Q QP) (hf : ∀ a s sP, rE = .ok a s → U.ok s prot → Agree prot s sP → Q a → Sim U prot (f a s) (g a sP) Q' QP') (hp : QP → QP') :
    Sim U prot (rE.bind f) (rP.bind g) Q' QP' := by
  cases rP with
  | ub k => trivial
  | ok a sP =>
    obtain ⟨s', rfl, h2, h3, h4⟩ := h
    exact hf a s' sP rfl h2 h3 h4
  | panic m sP =>
    obtain ⟨s', rfl, h2, h3, h4⟩ := h
    exact ⟨s', rfl, h2, h3, hp h4⟩

theorem Sim.onUnwind {α : Type} {U : World} {prot : Nat → Prop} {x y : M α} {c d : M Unit} {s sP : St} {Q : α → Prop} {QP QP' : Prop}
    (h : Sim U prot (x s) (y sP) Q QP) (hc : ∀ m s1 sP1, x s = .panic m s1 → U.ok s1 prot → Agree prot s1 sP1 → QP → Sim U prot (c s1) (d sP1) (fun _ => QP') False) :
    Sim U prot (onUnwind x c s) (onUnwind y d sP) Q QP' := by
  unfold Varlen.onUnwind
  cases hr : y sP with
  | ub k => trivial
  | ok a sP1 =>
    rw [hr] at h
    obtain ⟨s', e1, e2⟩ := h
    rw [e1]; exact ⟨s', rfl, e2⟩
  | panic m sP1 =>
    rw [hr] at h
    obtain ⟨s', e1, e2, e3, e4⟩ := h
    rw [e1]
    exact (hc m s' sP1 e1 e2 e3 e4).bind (fun _ s2 sP2 _ f2 f3 f4 => .panic f2 f3 f4) False.elim

theorem onUnwind_ok_inv {α : Type} {x : M α} {c : M Unit} {s s' : St} {a : α} (h : Varlen.onUnwind x c s = .ok a s') : x s = .ok a s' := by
  unfold Varlen.onUnwind at h
  cases hx : x s with
  | ok b s1 => rw [hx] at h; exact h
  | ub k => rw [hx] at h; cases h
  | panic m s1 =>
    rw [hx] at h
    cases hc : c s1 with
    | ok b s2 => simp only [hc, Res.bind_ok] at h; cases h
    | ub k => simp only [hc, Res.bind_ub] at h; cases h
    | panic m' s2 => simp only [hc, Res.bind_panic] at h; cases h

theorem Sim.mono {α : Type} {U : World} {prot : Nat → Prop} {rE rP : Res St α} {Q Q' : α → Prop} {QP QP' : Prop}
    (h : Sim U prot rE rP Q QP) (h1 : ∀ a, Q a → Q' a) (h2 : QP → QP') : Sim U prot rE rP Q' QP' := by
  cases rP with
  | ub k => trivial
  | ok a sP => obtain ⟨s', e1, e2, e3, e4⟩ := h; exact ⟨s', e1, e2, e3, h1 _ e4⟩
  | panic m sP => obtain ⟨s', e1, e2, e3, e4⟩ := h; exact ⟨s', e1, e2, e3, h2 e4⟩

/-! ## The library's own steps -/

theorem Agree.logged {prot : Nat → Prop} {s sP : St} (h : Agree prot s sP) (es : List Event) : Agree prot (s.logged es) (sP.logged es) :=
  ⟨fun b hb => by simpa using h.same b hb, by simp [h.log]⟩

theorem World.ok_logged (U : World) {s : St} {prot : Nat → Prop} (h : U.ok s prot) (es : List Event) : U.ok (s.logged es) prot :=
  U.stable _ _ _ h rfl (fun b _ => by simp)

theorem Agree.write {prot : Nat → Prop} {s sP : St} (h : Agree prot s sP) {p : Ptr} (hp : prot p.blk) (img : Img) : Agree prot (s.write p img) (sP.write p img) := by
  refine ⟨fun b hb => ?_, by simp [h.log]⟩
  cases hB : s.blk p.blk with
  | none =>
    have hB' : sP.blk p.blk = none := by rw [h.same _ hp, hB]
    simp only [St.write, hB, hB']
    exact h.same b hb
  | some B =>
    have hB' : sP.blk p.blk = some B := by rw [h.same _ hp, hB]
    rw [St.blk_write hB, St.blk_write hB', h.same b hb]

theorem World.ok_write (U : World) {s : St} {prot : Nat → Prop} (h : U.ok s prot) {p : Ptr} (hp : prot p.blk) (img : Img) : U.ok (s.write p img) prot := by
  refine U.stable _ _ _ h (by simp) fun b hb => ?_
  cases hB : s.blk p.blk with
  | none => simp only [St.write, hB]
  | some B => rw [St.blk_write hB, if_neg]; rintro rfl; exact hb hp

section steps
variable {U : World} {prot : Nat → Prop} {s sP : St} (hU : U.ok s prot) (ha : Agree prot s sP) {p : Ptr} (hp : prot p.blk)
include hU ha hp

theorem sim_checkAlign (a : Nat) : Sim U prot (checkAlign p a s) (checkAlign p a sP) (fun _ => True) False := by
  simp only [checkAlign, ha.same.aligned hp]
  split
  · exact .ok hU ha trivial
  · trivial

theorem sim_checkAcc (n : Nat) : Sim U prot (checkAcc p n s) (checkAcc p n sP) (fun _ => True) False := by
  simp only [checkAcc, ha.same.acc hp]
  split
  · exact .ok hU ha trivial
  · trivial

theorem sim_writeBytes (img : Img) : Sim U prot (writeBytes p img s) (writeBytes p img sP) (fun _ => True) False := by
  simp only [writeBytes, ha.same.acc hp]
  split
  · exact .ok (U.ok_write hU hp _) (ha.write hp _) trivial
  · trivial

theorem sim_readBytes (n : Nat) : Sim U prot (readBytes p n s) (readBytes p n sP) (fun _ => True) False := by
  simp only [readBytes, ha.same.acc hp, ha.same.viewAt hp]
  split
  · exact .ok hU ha trivial
  · trivial

omit hU ha in
theorem sim_mkRef (n a : Nat) {s sP : St} (hU : U.ok s prot) (ha : Agree prot s sP) : Sim U prot (mkRef p n a s) (mkRef p n a sP) (fun _ => True) False := by
  simp only [mkRef, bind_apply]
  exact (sim_checkAlign hU ha hp a).bind (fun _ _ _ _ h1 h2 _ => sim_checkAcc h1 h2 hp n) id

omit hU ha in
theorem sim_writeVal (R : RTy) (img : Img) {s sP : St} (hU : U.ok s prot) (ha : Agree prot s sP) : Sim U prot (writeVal R p img s) (writeVal R p img sP) (fun _ => True) False := by
  simp only [writeVal, bind_apply]
  exact (sim_checkAlign hU ha hp _).bind (fun _ _ _ _ h1 h2 _ => sim_writeBytes h1 h2 hp img) id

omit hU ha in
theorem sim_readVal (R : RTy) {s sP : St} (hU : U.ok s prot) (ha : Agree prot s sP) : Sim U prot (readVal R p s) (readVal R p sP) (fun _ => True) False := by
  simp only [readVal, bind_apply]
  refine (sim_checkAlign hU ha hp _).bind (fun _ _ _ _ h1 h2 _ => (sim_readBytes h1 h2 hp R.size).bind (fun img _ _ _ h1 h2 _ => ?_) id) id
  split
  · exact .ok h1 h2 trivial
  · trivial

end steps

/-! ## `Wrote` -/

theorem Ran.wrote {U : World} {prot : Nat → Prop} {s s' : St} {es : List Event} (h : Ran U prot s s' es) (p : Ptr) (n : Nat) (own : Nat → Prop) : Wrote U prot s s' p n own es :=
  ⟨h.ok, fun b hb => by rw [h.keep b hb], fun b hb _ B hB => ⟨B.data, by rw [h.keep b hb, hB], fun _ _ => rfl⟩, h.log⟩

theorem Wrote.refl {U : World} {prot : Nat → Prop} {s : St} (h : U.ok s prot) (p : Ptr) (n : Nat) (own : Nat → Prop) : Wrote U prot s s p n own [] :=
  ⟨h, fun _ _ => Iff.rfl, fun _ _ _ B hB => ⟨B.data, hB, fun _ _ => rfl⟩, by simp⟩

theorem Wrote.ofTouch {U : World} {prot : Nat → Prop} {s s' : St} {p : Ptr} {n : Nat} {own : Nat → Prop} {es : List Event} (h : Touch s s' p n own) (hU : U.ok s prot) (hp : n ≠ 0 → prot p.blk)
    (ho : ∀ b, own b → prot b) (hl : s'.log = s.log ++ es) : Wrote U prot s s' p n own es := by
  refine ⟨U.stable _ _ _ hU h.len fun b hb => ?_, fun b _ => h.none, fun b _ => h.blk b, hl⟩
  cases hB : s.blk b with
  | none => exact h.none.2 hB
  | some B =>
    obtain ⟨d, h1, h2⟩ := h.blk b (fun hc => hb (ho _ hc)) B hB
    rw [h1]
    have : d = B.data := by
      funext i
      refine h2 i fun hc => ?_
      rcases Nat.eq_zero_or_pos n with h0 | h0
      · omega
      · exact hb (by rw [hc.1]; exact hp (by omega))
    rw [this]

theorem Wrote.trans {U : World} {prot : Nat → Prop} {s s' s'' : St} {p : Ptr} {n : Nat} {own : Nat → Prop} {es es' : List Event} (h : Wrote U prot s s' p n own es) (h' : Wrote U prot s' s'' p n own es') :
    Wrote U prot s s'' p n own (es ++ es') := by
  refine ⟨h'.ok, fun b hb => (h'.none b hb).trans (h.none b hb), fun b hb ho B hB => ?_, by rw [h'.log, h.log, List.append_assoc]⟩
  obtain ⟨d, e1, e2⟩ := h.blk b hb ho B hB
  obtain ⟨d', e3, e4⟩ := h'.blk b hb ho _ e1
  exact ⟨d', e3, fun i hi => (e4 i hi).trans (e2 i hi)⟩

theorem Wrote.mono {U : World} {prot : Nat → Prop} {s s' : St} {p q : Ptr} {n m : Nat} {own : Nat → Prop} {es : List Event} (h : Wrote U prot s s' p n own es)
    (hr : n = 0 ∨ (q.blk = p.blk ∧ q.off ≤ p.off ∧ p.off + n ≤ q.off + m)) : Wrote U prot s s' q m own es := by
  refine ⟨h.ok, h.none, fun b hb ho B hB => ?_, h.log⟩
  obtain ⟨d, e1, e2⟩ := h.blk b hb ho B hB
  refine ⟨d, e1, fun i hi => e2 i fun hc => hi ?_⟩
  rcases hr with h0 | ⟨h1, h2, h3⟩
  · omega
  · exact ⟨by rw [h1]; exact hc.1, by omega, by omega⟩

theorem Wrote.acc {U : World} {prot : Nat → Prop} {s s' : St} {p q : Ptr} {n m : Nat} {own : Nat → Prop} {es : List Event} (h : Wrote U prot s s' p n own es) (hq : prot q.blk) (ho : ¬ own q.blk)
    (ha : Acc s q m) : Acc s' q m := by
  rcases ha with h0 | ⟨B, h1, h2, h3⟩
  · exact .inl h0
  · obtain ⟨d, e1, _⟩ := h.blk _ hq ho B h1
    exact .inr ⟨_, e1, h2, h3⟩

theorem Wrote.aligned {U : World} {prot : Nat → Prop} {s s' : St} {p q : Ptr} {n a : Nat} {own : Nat → Prop} {es : List Event} (h : Wrote U prot s s' p n own es) (hq : prot q.blk) (ho : ¬ own q.blk)
    (ha : Aligned s q a) : Aligned s' q a := by
  unfold Aligned St.addr at *
  cases hB : s.blk q.blk with
  | none => rw [(h.none _ hq).2 hB]; rw [hB] at ha; exact ha
  | some B =>
    obtain ⟨d, e1, _⟩ := h.blk _ hq ho B hB
    rw [e1]; rw [hB] at ha; exact ha

theorem Wrote.view {U : World} {prot : Nat → Prop} {s s' : St} {p q : Ptr} {n : Nat} {own : Nat → Prop} {es : List Event} (h : Wrote U prot s s' p n own es) (hq : prot q.blk) (ho : ¬ own q.blk) (i : Nat)
    (hi : ¬ (q.blk = p.blk ∧ p.off ≤ q.off + i ∧ q.off + i < p.off + n)) : viewAt s' q i = viewAt s q i := by
  unfold viewAt
  cases hB : s.blk q.blk with
  | none => rw [(h.none _ hq).2 hB]
  | some B =>
    obtain ⟨d, e1, e2⟩ := h.blk _ hq ho B hB
    rw [e1]; exact e2 _ hi

theorem Wrote.same {U : World} {prot : Nat → Prop} {s s' : St} {p : Ptr} {n : Nat} {own : Nat → Prop} {es : List Event} (h : Wrote U prot s s' p n own es) {b : Nat} (hb : prot b) (ho : ¬ own b)
    (hne : n = 0 ∨ b ≠ p.blk) : s'.blk b = s.blk b := by
  cases hB : s.blk b with
  | none => exact (h.none _ hb).2 hB
  | some B =>
    obtain ⟨d, e1, e2⟩ := h.blk _ hb ho B hB
    rw [e1]
    have : d = B.data := by
      funext i
      refine e2 i fun hc => ?_
      rcases hne with h0 | h0
      · omega
      · exact h0 hc.1
    rw [this]

end Varlen.Eff
