import Verif.Spec.Arena
/-!
# Proofs: packed memory (Spec/Arena.lean)
-/
namespace Varlen.Arena
variable {w : Nat} {ρ : Place} {s m : St}

@[simp] theorem ptr_add (ρ : Place) (p : Ptr) (n : Nat) : ρ.ptr (p.add n) = (ρ.ptr p).add n := by
  simp [Place.ptr, Ptr.add_add, Ptr.add]
  omega
@[simp] theorem ptr_blk (ρ : Place) (p : Ptr) : (ρ.ptr p).blk = (ρ.loc p.blk).blk := rfl
@[simp] theorem ptr_off (ρ : Place) (p : Ptr) : (ρ.ptr p).off = (ρ.loc p.blk).off + p.off := rfl

theorem Packed.addr_ptr (h : Packed ρ s m) (p : Ptr) : m.addr (ρ.ptr p) = s.addr p := by
  unfold St.addr
  rw [ptr_blk, ptr_off]
  cases hb : s.blk p.blk with
  | none => rw [h.unused _ hb]; simp [St.blk]
  | some B =>
    obtain ⟨C, e1, e2⟩ := h.addr _ B hb
    simp only [e1]; omega

theorem Packed.aligned (h : Packed ρ s m) {p : Ptr} {a : Nat} : Aligned m (ρ.ptr p) a ↔ Aligned s p a := by
  unfold Aligned; rw [h.addr_ptr]

theorem Packed.acc (h : Packed ρ s m) {p : Ptr} {n : Nat} (ha : Acc s p n) : Acc m (ρ.ptr p) n := by
  rcases ha with rfl | ⟨B, e1, e2, e3⟩
  · exact .inl rfl
  · obtain ⟨C, f1, f2⟩ := h.addr _ B e1
    obtain ⟨g1, g2, g3⟩ := h.live _ B C e1 e2 f1
    exact .inr ⟨C, f1, g1, by rw [ptr_off]; omega⟩

theorem Packed.view (h : Packed ρ s m) {p : Ptr} {n : Nat} (ha : Acc s p n) {i : Nat} (hi : i < n) : viewAt m (ρ.ptr p) i = viewAt s p i := by
  rcases ha with rfl | ⟨B, e1, e2, e3⟩
  · omega
  · obtain ⟨C, f1, f2⟩ := h.addr _ B e1
    obtain ⟨g1, g2, g3⟩ := h.live _ B C e1 e2 f1
    simp only [viewAt, ptr_blk, ptr_off, f1, e1]
    rw [Nat.add_assoc]; exact g3 _ (by omega)

theorem write_nil (s : St) (p : Ptr) : s.write p [] = s := by
  unfold St.write
  cases hb : s.blk p.blk with
  | none => rfl
  | some B =>
    have hd : overwrite B.data p.off [] = B.data := by funext i; rw [overwrite_out]; simp
    have hB : { B with data := overwrite B.data p.off [] } = B := by rw [hd]
    show s.setBlk p.blk { B with data := overwrite B.data p.off [] } = s
    rw [hB]
    unfold St.setBlk
    have hp := St.blk_pos hb
    have hl : s.blocks.set (p.blk - 1) B = s.blocks := by
      apply List.ext_getElem?
      intro i
      rw [List.getElem?_set]
      split
      · next e =>
        subst e
        have : s.blk (p.blk - 1 + 1) = some B := by rw [Nat.sub_add_cancel hp.1]; exact hb
        rw [if_pos (by omega)]
        exact this.symm
      · rfl
    rw [hl]

theorem Packed.write (h : Packed ρ s m) {p : Ptr} {img : Img} (ha : Acc s p img.length) : Packed ρ (s.write p img) (m.write (ρ.ptr p) img) := by
  rcases ha with h0 | ⟨B, e1, e2, e3⟩
  · have : img = [] := List.eq_nil_of_length_eq_zero h0
    subst this
    rw [write_nil, write_nil]; exact h
  · obtain ⟨C, f1, f2⟩ := h.addr _ B e1
    obtain ⟨g1, g2, g3⟩ := h.live _ B C e1 e2 f1
    have hs : ∀ b B1, (s.write p img).blk b = some B1 → ∃ B0, s.blk b = some B0 ∧ B1 = { B0 with data := if b = p.blk then overwrite B0.data p.off img else B0.data } := by
      intro b B1 hb
      rw [St.blk_write e1] at hb
      split at hb
      · next e => subst e; cases hb; exact ⟨B, e1, by rw [if_pos rfl]⟩
      · next e => exact ⟨B1, hb, by rw [if_neg e]⟩
    have hm : ∀ c C1, (m.write (ρ.ptr p) img).blk c = some C1 → ∃ C0, m.blk c = some C0 ∧ C1 = { C0 with data := if c = (ρ.loc p.blk).blk then overwrite C0.data ((ρ.loc p.blk).off + p.off) img else C0.data } := by
      intro c C1 hc
      rw [St.blk_write (p := ρ.ptr p) f1] at hc
      split at hc
      · next e => rw [ptr_blk] at e; subst e; cases hc; exact ⟨C, f1, by rw [if_pos rfl]; rfl⟩
      · next e => rw [ptr_blk] at e; exact ⟨C1, hc, by rw [if_neg e]⟩
    have hm' : ∀ c C0, m.blk c = some C0 → (m.write (ρ.ptr p) img).blk c = some { C0 with data := if c = (ρ.loc p.blk).blk then overwrite C0.data ((ρ.loc p.blk).off + p.off) img else C0.data } := by
      intro c C0 hc
      rw [St.blk_write (p := ρ.ptr p) f1]
      split
      · next e => rw [ptr_blk] at e; subst e; rw [f1] at hc; cases hc; rw [if_pos rfl]; rfl
      · next e => rw [ptr_blk] at e; rw [if_neg e]; exact hc
    refine ⟨by simp [h.log], fun b hb => ?_, fun b B1 hb => ?_, fun b B1 C1 hb hl hc => ?_, fun b b' B1 B1' hne hb hb' hl hl' => ?_, fun b B1 hh hb hl => ?_, fun c c' C1 C1' hne hc hc' hl hl' => ?_, fun b B1 hb hl => ?_, fun c hc => ⟨?_, (h.chunks c hc).2⟩⟩
    · apply h.unused
      rw [St.blk_write e1] at hb
      split at hb
      · cases hb
      · exact hb
    · obtain ⟨B0, k1, rfl⟩ := hs b B1 hb
      obtain ⟨C0, k2, k3⟩ := h.addr b B0 k1
      exact ⟨_, hm' _ _ k2, k3⟩
    · obtain ⟨B0, k1, rfl⟩ := hs b B1 hb
      obtain ⟨C0, k2, rfl⟩ := hm _ C1 hc
      obtain ⟨j1, j2, j3⟩ := h.live b B0 C0 k1 hl k2
      refine ⟨j1, j2, fun i hi => ?_⟩
      simp only at hi ⊢
      by_cases hbp : b = p.blk
      · subst hbp
        rw [if_pos rfl, if_pos rfl]
        by_cases hin : p.off ≤ i ∧ i < p.off + img.length
        · have q1 : i = p.off + (i - p.off) := by omega
          have q2 : (ρ.loc p.blk).off + i = (ρ.loc p.blk).off + p.off + (i - p.off) := by omega
          rw [q2]
          conv => rhs; rw [q1]
          rw [overwrite_in _ _ _ _ (by omega), overwrite_in _ _ _ _ (by omega)]
        · rw [overwrite_out _ _ _ _ (by omega), overwrite_out _ _ _ _ hin]
          exact j3 i hi
      · rw [if_neg hbp]
        split
        · next e =>
          rcases h.disj b p.blk B0 B hbp k1 e1 hl e2 e with d | d
          · rw [overwrite_out _ _ _ _ (by omega)]; exact j3 i hi
          · rw [overwrite_out _ _ _ _ (by omega)]; exact j3 i hi
        · exact j3 i hi
    · obtain ⟨B0, k1, rfl⟩ := hs b B1 hb
      obtain ⟨B0', k1', rfl⟩ := hs b' B1' hb'
      exact h.disj b b' B0 B0' hne k1 k1' hl hl'
    · obtain ⟨B0, k1, rfl⟩ := hs b B1 hb
      obtain ⟨k2, ⟨C0, k3, k4⟩, k5⟩ := h.heap b B0 hh k1 hl
      refine ⟨k2, ⟨_, hm' _ _ k3, k4⟩, fun b' B1' hne hb' hl' => ?_⟩
      obtain ⟨B0', k1', rfl⟩ := hs b' B1' hb'
      exact k5 b' B0' hne k1' hl'
    · obtain ⟨C0, k1, rfl⟩ := hm c C1 hc
      obtain ⟨C0', k1', rfl⟩ := hm c' C1' hc'
      exact h.apart c c' C0 C0' hne k1 k1' hl hl'
    · obtain ⟨B0, k1, rfl⟩ := hs b B1 hb
      exact h.len b B0 k1 hl
    · obtain ⟨C0, k1⟩ := Option.ne_none_iff_exists'.1 (h.chunks c hc).1
      rw [hm' c C0 k1]; simp

theorem Packed.free (h : Packed ρ s m) {b : Nat} {B : Block} (hh : ρ.heap b) (hb : s.blk b = some B) (hl : B.live = true) : Packed ρ (s.free b) (m.free (ρ.loc b).blk) := by
  obtain ⟨C, f1, f2⟩ := h.addr _ B hb
  obtain ⟨_, _, hx⟩ := h.heap b B hh hb hl
  have hs : ∀ b1 B1, (s.free b).blk b1 = some B1 → ∃ B0, s.blk b1 = some B0 ∧ B1 = { B0 with live := if b1 = b then false else B0.live } := by
    intro b1 B1 hb1
    rw [St.blk_free hb] at hb1
    split at hb1
    · next e => subst e; cases hb1; exact ⟨B, hb, by rw [if_pos rfl]⟩
    · next e => exact ⟨B1, hb1, by rw [if_neg e]⟩
  have hm : ∀ c C1, (m.free (ρ.loc b).blk).blk c = some C1 → ∃ C0, m.blk c = some C0 ∧ C1 = { C0 with live := if c = (ρ.loc b).blk then false else C0.live } := by
    intro c C1 hc
    rw [St.blk_free f1] at hc
    split at hc
    · next e => subst e; cases hc; exact ⟨C, f1, by rw [if_pos rfl]⟩
    · next e => exact ⟨C1, hc, by rw [if_neg e]⟩
  have hm' : ∀ c C0, m.blk c = some C0 → (m.free (ρ.loc b).blk).blk c = some { C0 with live := if c = (ρ.loc b).blk then false else C0.live } := by
    intro c C0 hc
    rw [St.blk_free f1]
    split
    · next e => subst e; rw [f1] at hc; cases hc; rfl
    · next e => exact hc
  have hlive : ∀ b1 B0, (if b1 = b then false else B0.live) = true → b1 ≠ b ∧ (B0 : Block).live = true := by
    intro b1 B0 e
    split at e
    · cases e
    · next hne => exact ⟨hne, e⟩
  refine ⟨by simp [h.log], fun b1 hb1 => ?_, fun b1 B1 hb1 => ?_, fun b1 B1 C1 hb1 hl1 hc => ?_, fun b1 b' B1 B1' hne hb1 hb' hl1 hl' => ?_, fun b1 B1 hh1 hb1 hl1 => ?_, fun c c' C1 C1' hne hc hc' hl1 hl' => ?_, fun b1 B1 hb1 hl1 => ?_, fun c hc => ⟨?_, (h.chunks c hc).2⟩⟩
  · apply h.unused
    rw [St.blk_free hb] at hb1
    split at hb1
    · cases hb1
    · exact hb1
  · obtain ⟨B0, k1, rfl⟩ := hs b1 B1 hb1
    obtain ⟨C0, k2, k3⟩ := h.addr b1 B0 k1
    exact ⟨_, hm' _ _ k2, k3⟩
  · obtain ⟨B0, k1, rfl⟩ := hs b1 B1 hb1
    obtain ⟨C0, k2, rfl⟩ := hm _ C1 hc
    obtain ⟨n1, n2⟩ := hlive b1 B0 hl1
    obtain ⟨j1, j2, j3⟩ := h.live b1 B0 C0 k1 n2 k2
    refine ⟨?_, j2, j3⟩
    simp only
    rw [if_neg (hx b1 B0 n1 k1 n2)]; exact j1
  · obtain ⟨B0, k1, rfl⟩ := hs b1 B1 hb1
    obtain ⟨B0', k1', rfl⟩ := hs b' B1' hb'
    exact h.disj b1 b' B0 B0' hne k1 k1' (hlive _ _ hl1).2 (hlive _ _ hl').2
  · obtain ⟨B0, k1, rfl⟩ := hs b1 B1 hb1
    obtain ⟨k2, ⟨C0, k3, k4⟩, k5⟩ := h.heap b1 B0 hh1 k1 (hlive _ _ hl1).2
    refine ⟨k2, ⟨_, hm' _ _ k3, k4⟩, fun b' B1' hne hb' hl' => ?_⟩
    obtain ⟨B0', k1', rfl⟩ := hs b' B1' hb'
    exact k5 b' B0' hne k1' (hlive _ _ hl').2
  · obtain ⟨C0, k1, rfl⟩ := hm c C1 hc
    obtain ⟨C0', k1', rfl⟩ := hm c' C1' hc'
    refine h.apart c c' C0 C0' hne k1 k1' ?_ ?_
    · simp only at hl1; split at hl1
      · cases hl1
      · exact hl1
    · simp only at hl'; split at hl'
      · cases hl'
      · exact hl'
  · obtain ⟨B0, k1, rfl⟩ := hs b1 B1 hb1
    exact h.len b1 B0 k1 (hlive _ _ hl1).2
  · obtain ⟨C0, k1⟩ := Option.ne_none_iff_exists'.1 (h.chunks c hc).1
    rw [hm' c C0 k1]; simp

theorem Packed.emit (h : Packed ρ s m) (es : List Event) : Packed ρ { s with log := s.log ++ es } { m with log := m.log ++ es } :=
  ⟨by simp [h.log], h.unused, h.addr, h.live, h.disj, h.heap, h.apart, h.len, h.chunks⟩

/-! ## Programs -/

section
variable {α' α β' β : Type} {R : α' → α → Prop} {Q : β' → β → Prop}

theorem SimRes.bind {r' : Res St α'} {r : Res St α} {f' : α' → M β'} {f : α → M β} (h : SimRes ρ R r' r) (hf : ∀ a' a, R a' a → Sim ρ Q (f' a') (f a)) : SimRes ρ Q (r'.bind f') (r.bind f) := by
  cases r' with
  | ub k => trivial
  | ok a' s => obtain ⟨a, m, rfl, h1, h2⟩ := h; exact (hf a' a h2).run s m h1
  | panic e s => obtain ⟨m, rfl, h1⟩ := h; exact ⟨m, rfl, h1⟩

theorem Sim.bind {x' : M α'} {x : M α} {f' : α' → M β'} {f : α → M β} (h : Sim ρ R x' x) (hf : ∀ a' a, R a' a → Sim ρ Q (f' a') (f a)) : Sim ρ Q (x' >>= f') (x >>= f) :=
  ⟨fun s m hp => (h.run s m hp).bind hf⟩

theorem Sim.bindEq {x' x : M α} {f' : α → M β'} {f : α → M β} (h : Sim ρ (· = ·) x' x) (hf : ∀ a, Sim ρ Q (f' a) (f a)) : Sim ρ Q (x' >>= f') (x >>= f) :=
  h.bind fun a' a e => by subst e; exact hf a'

theorem Sim.pure {a' : α'} {a : α} (h : R a' a) : Sim ρ R (Pure.pure a' : M α') (Pure.pure a : M α) := ⟨fun _ m hp => ⟨a, m, rfl, hp, h⟩⟩
theorem Sim.panic (e : PanicMsg) : Sim ρ R (panicM e : M α') (panicM e : M α) := ⟨fun _ m hp => ⟨m, rfl, hp⟩⟩
theorem Sim.ub (k : UB) (x : M α) : Sim ρ R (ubM k : M α') x := ⟨fun _ _ _ => trivial⟩
theorem Sim.ite {c : Prop} [Decidable c] {x' y' : M α'} {x y : M α} (h1 : c → Sim ρ R x' x) (h2 : ¬ c → Sim ρ R y' y) : Sim ρ R (if c then x' else y') (if c then x else y) := by
  split
  · next h => exact h1 h
  · next h => exact h2 h

theorem Sim.onUnwind {x' : M α'} {x : M α} {c' c : M Unit} (h : Sim ρ R x' x) (hc : Sim ρ (· = ·) c' c) : Sim ρ R (onUnwind x' c') (onUnwind x c) := by
  refine ⟨fun s m hp => ?_⟩
  have h1 := h.run s m hp
  unfold Varlen.onUnwind
  cases hx : x' s with
  | ub k => trivial
  | ok a' s1 => rw [hx] at h1; obtain ⟨a, m1, e, h2⟩ := h1; rw [e]; exact ⟨a, m1, rfl, h2⟩
  | panic e s1 =>
    rw [hx] at h1; obtain ⟨m1, e1, h2⟩ := h1; rw [e1]
    exact (hc.run s1 m1 h2).bind fun _ _ _ => ⟨fun s2 m2 h3 => ⟨m2, rfl, h3⟩⟩
end

theorem sim_readBytes (p : Ptr) (n : Nat) : Sim ρ (· = ·) (readBytes p n) (readBytes (ρ.ptr p) n) := by
  refine ⟨fun s m h => ?_⟩
  by_cases ha : Acc s p n
  · rw [readBytes_ok ha, readBytes_ok (h.acc ha)]
    exact ⟨_, m, rfl, h, takeV_congr fun i hi => by rw [Nat.zero_add]; exact (h.view ha hi).symm⟩
  · unfold readBytes; rw [if_neg ha]; trivial

theorem sim_writeBytes (p : Ptr) (img : Img) : Sim ρ (· = ·) (writeBytes p img) (writeBytes (ρ.ptr p) img) := by
  refine ⟨fun s m h => ?_⟩
  by_cases ha : Acc s p img.length
  · rw [writeBytes_ok ha, writeBytes_ok (h.acc ha)]
    exact ⟨_, _, rfl, h.write ha, rfl⟩
  · unfold writeBytes; rw [if_neg ha]; trivial

theorem sim_checkAlign (p : Ptr) (a : Nat) : Sim ρ (· = ·) (checkAlign p a) (checkAlign (ρ.ptr p) a) := by
  refine ⟨fun s m h => ?_⟩
  by_cases ha : Aligned s p a
  · rw [checkAlign_ok ha, checkAlign_ok (h.aligned.2 ha)]
    exact ⟨_, m, rfl, h, rfl⟩
  · unfold checkAlign; rw [if_neg ha]; trivial

theorem sim_checkAcc (p : Ptr) (n : Nat) : Sim ρ (· = ·) (checkAcc p n) (checkAcc (ρ.ptr p) n) := by
  refine ⟨fun s m h => ?_⟩
  unfold checkAcc
  by_cases ha : Acc s p n
  · rw [if_pos ha, if_pos (h.acc ha)]
    exact ⟨_, m, rfl, h, rfl⟩
  · rw [if_neg ha]; trivial

theorem sim_mkRef (p : Ptr) (n a : Nat) : Sim ρ (· = ·) (mkRef p n a) (mkRef (ρ.ptr p) n a) := (sim_checkAlign p a).bindEq fun _ => sim_checkAcc p n

theorem sim_emit (es : List Event) : Sim ρ (· = ·) (emit es) (emit es) := ⟨fun _ _ h => ⟨_, _, rfl, h.emit es, rfl⟩⟩

theorem sim_copy (src dst : Ptr) (a n : Nat) : Sim ρ (· = ·) (copyNonoverlapping src dst a n) (copyNonoverlapping (ρ.ptr src) (ρ.ptr dst) a n) := by
  refine (sim_checkAlign src a).bindEq fun _ => (sim_checkAlign dst a).bindEq fun _ => ⟨fun s m h => ?_⟩
  rw [bind_apply, bind_apply]
  by_cases ha : Acc s src n
  · have hr := (sim_readBytes (ρ := ρ) src n).run s m h
    rw [readBytes_ok ha] at hr ⊢
    obtain ⟨a1, m1, e1, _, e3⟩ := hr
    rw [readBytes_ok (h.acc ha)] at e1 ⊢
    cases e1
    rw [Res.bind_ok, Res.bind_ok, ← e3]
    by_cases ho : n ≠ 0 ∧ src.blk = dst.blk ∧ src.off < dst.off + n ∧ dst.off < src.off + n
    · rw [if_pos ho]; trivial
    · rw [if_neg ho]
      by_cases hd : Acc s dst n
      · have hno : ¬ (n ≠ 0 ∧ (ρ.ptr src).blk = (ρ.ptr dst).blk ∧ (ρ.ptr src).off < (ρ.ptr dst).off + n ∧ (ρ.ptr dst).off < (ρ.ptr src).off + n) := by
          rintro ⟨o1, o2, o3, o4⟩
          rw [ptr_off, ptr_off] at o3 o4
          rw [ptr_blk, ptr_blk] at o2
          by_cases hbb : src.blk = dst.blk
          · rw [hbb] at o3 o4
            exact ho ⟨o1, hbb, by omega, by omega⟩
          · obtain ⟨B, f1, f2, f3⟩ := ha.resolve_left o1
            obtain ⟨B', g1, g2, g3⟩ := hd.resolve_left o1
            rcases h.disj _ _ B B' hbb f1 g1 f2 g2 o2 with d | d <;> omega
        rw [if_neg hno]
        exact (sim_writeBytes dst _).run s m h
      · unfold writeBytes
        rw [if_neg (by rw [takeV_length]; exact hd)]; trivial
  · unfold readBytes; rw [if_neg ha]; trivial

theorem sim_dealloc {p : Ptr} (hh : ρ.heap p.blk) (n a : Nat) : Sim ρ (· = ·) (deallocM p n a) (deallocM (ρ.ptr p) n a) := by
  refine ⟨fun s m h => ?_⟩
  unfold deallocM
  by_cases ho : ownsAlloc s p n a
  · obtain ⟨h0, B, h1, h2, h3, h4⟩ := ho
    obtain ⟨g1, ⟨C, g2, g3, g4⟩, _⟩ := h.heap _ B hh h1 h2
    rw [if_pos ⟨h0, B, h1, h2, h3, h4⟩, if_pos ⟨by rw [ptr_off]; omega, C, g2, (h.live _ B C h1 h2 g2).1, by omega, by omega⟩]
    exact ⟨_, _, rfl, h.free hh h1 h2, rfl⟩
  · rw [if_neg ho]; trivial

theorem sim_layoutUnchecked (n a : Nat) : Sim ρ (· = ·) (layoutUnchecked w n a) (layoutUnchecked w n a) := by
  refine ⟨fun s m h => ?_⟩
  unfold layoutUnchecked
  split
  · exact ⟨_, _, rfl, h, rfl⟩
  · trivial

theorem sim_readVal (R : RTy) (p : Ptr) : Sim ρ (· = ·) (readVal R p) (readVal R (ρ.ptr p)) :=
  (sim_checkAlign p _).bindEq fun _ => (sim_readBytes p _).bindEq fun _ => .ite (fun _ => .pure rfl) fun _ => .ub _ _

theorem sim_writeVal (R : RTy) (p : Ptr) (img : Img) : Sim ρ (· = ·) (writeVal R p img) (writeVal R (ρ.ptr p) img) :=
  (sim_checkAlign p _).bindEq fun _ => sim_writeBytes p _

theorem sim_dropInPlace (R : RTy) (p : Ptr) : Sim ρ (· = ·) (dropInPlace R p) (dropInPlace R (ρ.ptr p)) :=
  (sim_checkAlign p _).bindEq fun _ => .ite (fun _ => (sim_readVal R p).bindEq fun _ => (sim_emit _).bindEq fun _ => sim_writeBytes p _) fun _ => .pure rfl

theorem sim_dropElems (R : RTy) (p : Ptr) (n : Nat) : Sim ρ (· = ·) (dropElems R p n) (dropElems R (ρ.ptr p) n) := by
  induction n generalizing p with
  | zero => exact .pure rfl
  | succ n ih => exact (sim_dropInPlace R p).bindEq fun _ => by rw [← ptr_add]; exact ih _

theorem sim_dropArray (R : RTy) (p : Ptr) (o n : BitVec w) : Sim ρ (· = ·) (dropArray R p o n) (dropArray R (ρ.ptr p) o n) := by
  unfold dropArray; rw [← ptr_add]; exact sim_dropElems R _ _

/-- Slices correspond. -/
def SliceAt (ρ : Place) (a' a : Slice) : Prop := a = ⟨ρ.ptr a'.ptr, a'.len⟩

theorem sim_refArray (R : RTy) (p : Ptr) (o n : BitVec w) : Sim ρ (SliceAt ρ) (refArray R p o n) (refArray R (ρ.ptr p) o n) := by
  unfold refArray; rw [← ptr_add]; exact (sim_mkRef _ _ _).bindEq fun _ => .pure rfl

theorem sim_lenEval (len : LenFn w) (lens : List Img) : Sim ρ (· = ·) (len.eval lens) (len.eval lens) := by
  unfold LenFn.eval; exact .ite (fun _ => .pure rfl) fun _ => .panic _

/-! ## Types -/

theorem sim_catFieldFast {T : VarLen w} (hT : Reloc T) (p : Ptr) (o : BitVec w) : Sim ρ (· = ·) (catFieldFast T p o) (catFieldFast T (ρ.ptr p) o) := by
  unfold catFieldFast
  simp only [← ptr_add]
  exact (sim_mkRef _ _ _).bindEq fun _ => (hT.calculateLayout ρ _).bindEq fun _ => .pure rfl

theorem sim_vdropField {T : VarLen w} (hT : Reloc T) (p : Ptr) (o : BitVec w) (l : Layout w) : Sim ρ (· = ·) (vdropField T p o l) (vdropField T (ρ.ptr p) o l) := by
  unfold vdropField
  rw [← ptr_add]
  exact (sim_mkRef _ _ _).bindEq fun _ => hT.vdrop ρ _ l

theorem sim_refField (T : VarLen w) (p : Ptr) (o : BitVec w) : Sim ρ (fun a' a => a = ρ.ptr a') (refField T p o) (refField T (ρ.ptr p) o) := by
  unfold refField
  rw [← ptr_add]
  exact (sim_mkRef _ _ _).bindEq fun _ => .pure rfl

theorem sim_readLengths (p : Ptr) (fs : List (Fld w)) : Sim ρ (· = ·) (readLengths p fs) (readLengths (ρ.ptr p) fs) := by
  induction fs with
  | nil => exact .pure rfl
  | cons f fs ih =>
    cases f with
    | normal R off => exact ih
    | length R off =>
      unfold readLengths
      rw [← ptr_add]
      exact (sim_readVal R _).bindEq fun _ => ih.bindEq fun _ => .pure rfl
    | varlen T => exact ih
    | array R len => exact ih

theorem sim_catFieldsFast (p : Ptr) (lens : List Img) (fs : List (Fld w)) (h : ∀ T, Fld.varlen T ∈ fs → Reloc T) (cur : BitVec w) :
    Sim ρ (· = ·) (catFieldsFast p lens fs cur) (catFieldsFast (ρ.ptr p) lens fs cur) := by
  induction fs generalizing cur with
  | nil => exact .pure rfl
  | cons f fs ih =>
    have ih := ih fun T hT => h T (List.mem_cons_of_mem _ hT)
    cases f with
    | normal R off => exact ih cur
    | length R off => exact ih cur
    | varlen T =>
      unfold catFieldsFast
      exact (sim_catFieldFast (h T (List.mem_cons_self ..)) p cur).bindEq fun _ => (ih _).bindEq fun _ => .pure rfl
    | array R len =>
      unfold catFieldsFast
      exact (sim_lenEval len lens).bindEq fun _ => (ih _).bindEq fun _ => .pure rfl

theorem sim_vdropFields (p : Ptr) (fs : List (Fld w)) (h : ∀ T, Fld.varlen T ∈ fs → Reloc T) (ls : List (BitVec w × Layout w)) :
    Sim ρ (· = ·) (vdropFields p fs ls) (vdropFields (ρ.ptr p) fs ls) := by
  induction fs generalizing ls with
  | nil => exact .pure rfl
  | cons f fs ih =>
    have ih := ih fun T hT => h T (List.mem_cons_of_mem _ hT)
    cases f with
    | normal R off =>
      unfold vdropFields
      rw [← ptr_add]
      exact (sim_dropInPlace R _).bindEq fun _ => ih _
    | length R off =>
      unfold vdropFields
      rw [← ptr_add]
      exact (sim_dropInPlace R _).bindEq fun _ => ih _
    | varlen T =>
      cases ls with
      | nil => exact .ub _ _
      | cons a ls =>
        unfold vdropFields
        exact (sim_vdropField (h T (List.mem_cons_self ..)) p _ _).bindEq fun _ => ih _
    | array R len =>
      cases ls with
      | nil => exact .ub _ _
      | cons a ls =>
        obtain ⟨o, l⟩ := a
        cases l with
        | len n =>
          unfold vdropFields
          exact (sim_dropArray R p o n).bindEq fun _ => ih _
        | fixed _ => exact .ub _ _
        | array _ _ _ => exact .ub _ _
        | fields _ _ => exact .ub _ _

theorem sim_aggCalc (headSize : Nat) (fs : List (Fld w)) (h : ∀ T, Fld.varlen T ∈ fs → Reloc T) (p : Ptr) : Sim ρ (· = ·) (aggCalc headSize fs p) (aggCalc headSize fs (ρ.ptr p)) :=
  (sim_readLengths p fs).bindEq fun _ => (sim_catFieldsFast p _ fs h _).bindEq fun _ => .pure rfl

theorem sim_aggVdrop (fs : List (Fld w)) (h : ∀ T, Fld.varlen T ∈ fs → Reloc T) (p : Ptr) (l : Layout w) : Sim ρ (· = ·) (aggVdrop fs p l) (aggVdrop fs (ρ.ptr p) l) := by
  cases l with
  | fields sz ls => exact sim_vdropFields p fs h ls
  | fixed _ => exact .ub _ _
  | array _ _ _ => exact .ub _ _
  | len _ => exact .ub _ _

theorem sim_arrayCalc (R : RTy) (L : LenTy) (p : Ptr) : Sim ρ (· = ·) (Array.calculateLayout (w := w) R L p) (Array.calculateLayout R L (ρ.ptr p)) :=
  (sim_readVal L.ty p).bindEq fun _ => .pure rfl

theorem Movable.reloc {T : VarLen w} (h : Movable T) : Reloc T := by
  induction h with
  | @fixedLen R => exact ⟨fun _ _ => .pure rfl, fun _ p _ => sim_dropInPlace R p⟩
  | @array R L =>
    refine ⟨fun _ p => sim_arrayCalc R L p, fun _ p l => ?_⟩
    cases l with
    | array o n sz => exact sim_dropArray R p o n
    | fixed _ => exact .ub _ _
    | fields _ _ => exact .ub _ _
    | len _ => exact .ub _ _
  | @newtype T inv _ ih => exact ⟨ih.calculateLayout, fun ρ p l => .ite (fun _ => .pure rfl) fun _ => ih.vdrop ρ p l⟩
  | @tuple Ts _ ih =>
    have h : ∀ T, Fld.varlen T ∈ Ts.map Fld.varlen → Reloc T := by
      intro T hT
      obtain ⟨U, hU, e⟩ := List.mem_map.1 hT
      cases e; exact ih T hU
    exact ⟨fun _ p => sim_aggCalc 0 _ h p, fun _ p l => .ite (fun _ => .pure rfl) fun _ => sim_aggVdrop _ h p l⟩
  | @struct hs ha fs _ ih => exact ⟨fun _ p => sim_aggCalc hs _ ih p, fun _ p l => sim_aggVdrop _ ih p l⟩
  | user h => exact h

end Varlen.Arena
