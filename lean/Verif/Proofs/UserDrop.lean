import Verif.Spec.UserDrop
import Verif.Proofs.DropPanic
import Verif.Proofs.UserSim
namespace Varlen.UD
open Eff (World Ran Wrote)
open DP (Group Fate planFields aggPlan PLawful Quiet)
variable {w : Nat}

theorem wrote_trans {U U' : World} {prot : Nat → Prop} {s s' s'' : St} {p : Ptr} {n : Nat} {own : Nat → Prop} {es es' : List Event} (h : Wrote U prot s s' p n own es) (h' : Wrote U' prot s' s'' p n own es') :
    Wrote U' prot s s'' p n own (es ++ es') := by
  refine ⟨h'.ok, fun b hb => (h'.none b hb).trans (h.none b hb), fun b hb ho B hB => ?_, by rw [h'.log, h.log, List.append_assoc]⟩
  obtain ⟨d, e1, e2⟩ := h.blk b hb ho B hB
  obtain ⟨d', e3, e4⟩ := h'.blk b hb ho _ e1
  exact ⟨d', e3, fun i hi => (e4 i hi).trans (e2 i hi)⟩

theorem wrote_world {U U' : World} {prot : Nat → Prop} {s s' : St} {p : Ptr} {n : Nat} {own : Nat → Prop} {es : List Event} (h : Wrote U prot s s' p n own es) (hU : U'.ok s' prot) : Wrote U' prot s s' p n own es :=
  ⟨hU, h.none, h.blk, h.log⟩

theorem Owner.skips (W : Owner) {s : St} {prot : Nat → Prop} : ∀ {xs ys : List (RTy × Img)}, (∀ x ∈ xs, x.1.needsDrop = false) → (W.owing (xs ++ ys)).ok s prot → (W.owing ys).ok s prot
  | [], _, _, h => h
  | (R, x) :: xs, _, hq, h => W.skips (xs := xs) (fun x hx => hq x (by simp [hx])) (W.skip (R := R) (x := x) (hq (R, x) (by simp)) h)

theorem quiet_flatten {gs : List Group} (h : Quiet gs) : ∀ x ∈ gs.flatten, x.1.needsDrop = false := by
  intro x hx
  obtain ⟨g, hg, hx⟩ := List.mem_flatten.1 hx
  exact h g hg x hx

/-- The outcome `r`, from state `s`: the effects, the fate and the values not destroyed satisfy `O`, and of the protected memory only the `n` bytes at `p` have changed. -/
def Ends (W : Owner) (prot : Nat → Prop) (rest : List (RTy × Img)) (r : Res St Unit) (s : St) (p : Ptr) (n : Nat) (O : List Event → Fate → List (RTy × Img) → Prop) : Prop :=
  ∃ s' es f lost, r = f.res s' ∧ Wrote (W.owing (lost ++ rest)) prot s s' p n (fun _ => False) es ∧ O es f lost

section
variable {W : Owner} {prot : Nat → Prop} {d : Dtor} {E : Effects}

theorem Ends.mono {rest : List (RTy × Img)} {r : Res St Unit} {s : St} {p q : Ptr} {n m : Nat} {O O' : List Event → Fate → List (RTy × Img) → Prop} (h : Ends W prot rest r s p n O) (h1 : q.blk = p.blk) (h2 : q.off ≤ p.off)
    (h3 : p.off + n ≤ q.off + m) (hO : ∀ es f lost, O es f lost → O' es f lost) : Ends W prot rest r s q m O' := by
  obtain ⟨s', es, f, lost, e1, e2, e3⟩ := h
  exact ⟨s', es, f, lost, e1, e2.mono (.inr ⟨h1, h2, h3⟩), hO _ _ _ e3⟩

/-- Two statements. -/
theorem Ends.bind {x : M Unit} {k : Unit → M Unit} {xs rest : List (RTy × Img)} {s : St} {p q : Ptr} {n m : Nat} {O1 O2 O : List Event → Fate → List (RTy × Img) → Prop}
    (h : Ends W prot (xs ++ rest) (x s) s p n O1) (h1 : q.blk = p.blk) (h2 : q.off ≤ p.off) (h3 : p.off + n ≤ q.off + m) (h0 : ∀ es lost, O1 es .done lost → lost = [])
    (hk : ∀ s' es, O1 es .done [] → Wrote (W.owing (xs ++ rest)) prot s s' p n (fun _ => False) es → Ends W prot rest (k () s') s' q m O2)
    (hd : ∀ es es' f lost, O1 es .done [] → O2 es' f lost → O (es ++ es') f lost) (hs : ∀ es f lost, O1 es f lost → f ≠ .done → O es f (lost ++ xs)) : Ends W prot rest ((x >>= k) s) s q m O := by
  obtain ⟨s', es, f, lost, e1, e2, e3⟩ := h
  have e2' := e2.mono (q := q) (m := m) (.inr ⟨h1, h2, h3⟩)
  rw [bind_apply, e1]
  cases f with
  | done =>
    obtain rfl := h0 _ _ e3
    obtain ⟨s2, es2, f2, lost2, g1, g2, g3⟩ := hk s' es e3 e2
    exact ⟨s2, es ++ es2, f2, lost2, g1, wrote_trans e2' g2, hd _ _ _ _ e3 g3⟩
  | panicked => exact ⟨s', es, .panicked, lost ++ xs, rfl, wrote_world e2' (by rw [List.append_assoc]; exact e2'.ok), hs _ _ _ e3 (by simp)⟩
  | aborted => exact ⟨s', es, .aborted, lost ++ xs, rfl, wrote_world e2' (by rw [List.append_assoc]; exact e2'.ok), hs _ _ _ e3 (by simp)⟩

/-- What destroying one value may do. -/
def One (E : Effects) (R : RTy) (x : Img) (es : List Event) (f : Fate) : Prop :=
  if R.needsDrop = true then E R x es f else es = [] ∧ f = .done

theorem One.done {R : RTy} {x : Img} {es es' : List Event} {u : Bool} {g : Group} {f : Fate} {lost : List (RTy × Img)} (h : One E R x es .done) (hg : GroupEnds E u g es' f lost) : GroupEnds E u ((R, x) :: g) (es ++ es') f lost := by
  cases hd : R.needsDrop
  · obtain rfl : es = [] := by simpa [One, hd] using h
    exact .plain hd hg
  · exact .calm hd (by simpa [One, hd] using h) hg

theorem One.first {R : RTy} {x : Img} {es es' : List Event} {g : Group} {f : Fate} {lost : List (RTy × Img)} (h : One E R x es .panicked) (hg : GroupEnds E true g es' f lost) : GroupEnds E false ((R, x) :: g) (es ++ es') f lost := by
  cases hd : R.needsDrop
  · exact absurd h (by simp [One, hd])
  · exact .first hd (by simpa [One, hd] using h) hg

theorem One.second {R : RTy} {x : Img} {es : List Event} {g : Group} (h : One E R x es .panicked) : GroupEnds E true ((R, x) :: g) es .aborted g := by
  cases hd : R.needsDrop
  · exact absurd h (by simp [One, hd])
  · exact .second hd (by simpa [One, hd] using h)

theorem One.dead {R : RTy} {x : Img} {es : List Event} {u : Bool} {g : Group} (h : One E R x es .aborted) : GroupEnds E u ((R, x) :: g) es .aborted g := by
  cases hd : R.needsDrop
  · exact absurd h (by simp [One, hd])
  · exact .dead hd (by simpa [One, hd] using h)

theorem groupEnds_true {u : Bool} {g : Group} {es : List Event} {f : Fate} {lost : List (RTy × Img)} (h : GroupEnds E u g es f lost) : u = true → f ≠ .done := by
  induction h with
  | done => intro h; cases h
  | panicked => simp
  | plain _ _ ih => exact ih
  | calm _ _ _ ih => exact ih
  | first _ _ _ ih => intro h; cases h
  | second => simp
  | dead => simp

theorem groupEnds_done {u : Bool} {g : Group} {es : List Event} {f : Fate} {lost : List (RTy × Img)} (h : GroupEnds E u g es f lost) : f = .done → lost = [] := by
  induction h with
  | done => intro _; rfl
  | panicked => intro h; cases h
  | plain _ _ ih => exact ih
  | calm _ _ _ ih => exact ih
  | first _ _ _ ih => exact ih
  | second => intro h; cases h
  | dead => intro h; cases h

theorem runEnds_done {gs : List Group} {es : List Event} {f : Fate} {lost : List (RTy × Img)} (h : RunEnds E gs es f lost) : f = .done → lost = [] := by
  induction h with
  | nil => intro _; rfl
  | cons _ _ ih => exact ih
  | stop _ h => intro h'; exact absurd h' h

/-- One destructor. -/
theorem dropInPlace_ends (hd : DtorOk W d E) {s : St} {R : RTy} {p : Ptr} {x : Img} {rest : List (RTy × Img)} (ha : Acc s p R.size) (hal : Aligned s p R.align)
    (hi : takeV (viewAt s p) 0 R.size = x) (hv : R.valid x = true) (hp : prot p.blk) (hU : (W.owing ((R, x) :: rest)).ok s prot) :
    ∃ s' es f, dropInPlace d R p s = f.res s' ∧ Wrote (W.owing rest) prot s s' p R.size (fun _ => False) es ∧ One E R x es f := by
  subst hi
  unfold dropInPlace
  cases hn : R.needsDrop
  · exact ⟨s, [], .done, by simp [checkAlign_ok hal, Fate.res], .refl (W.skip hn hU) _ _ _, by simp [One, hn]⟩
  · obtain ⟨f, s1, es, e1, e2, e3⟩ := hd R _ rest s prot hn hv hU
    have ha1 : Acc s1 p R.size := (e2.wrote p 0 (fun _ => False)).acc hp (fun h => h) ha
    have hw : writeBytes p (List.replicate R.size none) s1 = .ok () (s1.write p (List.replicate R.size none)) := writeBytes_ok (by simpa using ha1)
    have t2 : Wrote (W.owing rest) prot s1 (s1.write p (List.replicate R.size none)) p R.size (fun _ => False) [] :=
      Wrote.ofTouch ((Touch.write (own := fun _ => False)).mono (.inr ⟨rfl, Nat.le_refl _, by simp⟩) (fun _ h => h)) e2.ok (fun _ => hp) (fun _ h => h.elim) (by simp)
    have t3 := wrote_trans (e2.wrote p R.size (fun _ => False)) t2
    rw [List.append_nil] at t3
    have e3' : One E R (takeV (viewAt s p) 0 R.size) es f := by simpa [One, hn] using e3
    simp only [if_true, bind_apply, checkAlign_ok hal, Res.bind_ok, readVal_ok ha hal hv, e1]
    cases f with
    | done => exact ⟨_, es, .done, by simp only [dtorRes, Res.bind_ok, bind_apply, hw]; rfl, t3, e3'⟩
    | panicked => exact ⟨_, es, .panicked, by simp only [dtorRes, Res.bind_ok, bind_apply, hw]; rfl, t3, e3'⟩
    | aborted => exact ⟨s1, es, .aborted, rfl, e2.wrote p R.size _, e3'⟩

section
variable {R : RTy} (hR : R.Ok w)
include hR

/-- The elements after one that panicked. -/
theorem dropRest_ends (hd : DtorOk W d E) {rest : List (RTy × Img)} : ∀ n p s xs, Acc s p (n * R.size) → Aligned s p R.align → elemsV (viewAt s p) 0 R.size n = xs →
    (∀ x ∈ xs, R.valid x = true) → prot p.blk → (W.owing ((xs.map fun x => (R, x)) ++ rest)).ok s prot →
    ∃ s' es f lost, (dropRest d R p n s = match f with
        | .aborted => .panic .abort s'
        | _ => .ok () s') ∧ Wrote (W.owing (lost ++ rest)) prot s s' p (n * R.size) (fun _ => False) es ∧ GroupEnds E true (xs.map fun x => (R, x)) es f lost := by
  intro n
  induction n with
  | zero => intro p s xs _ _ hx _ _ hU; subst hx; exact ⟨s, [], .panicked, [], rfl, .refl hU _ _ _, .panicked⟩
  | succ n ih =>
    intro p s xs ha hal hx hv hp hU
    subst hx
    obtain ⟨ha1, ha2, hal2⟩ := elems_rest hR ha hal
    have hmul : (n + 1) * R.size = n * R.size + R.size := Nat.succ_mul n _
    rw [elemsV_succ] at hv hU
    rw [elemsV_succ, List.map_cons]
    obtain ⟨s1, es, f0, h1, h2, h3⟩ := dropInPlace_ends hd (x := takeV (viewAt s p) 0 R.size) ha1 hal rfl (hv _ (by simp)) hp hU
    have h2' := h2.mono (q := p) (m := (n + 1) * R.size) (.inr ⟨rfl, Nat.le_refl _, by omega⟩)
    cases f0 with
    | done =>
      have hview : elemsV (viewAt s1 (p.add R.size)) 0 R.size n = elemsV (viewAt s p) (0 + R.size) R.size n := by
        rw [viewAt_add, elemsV_shift]
        apply elemsV_congr
        intro i hi
        simp only [Nat.add_zero, Nat.zero_add]
        exact h2.view hp (fun h => h) _ (by omega)
      obtain ⟨s2, es2, f, lost, h5, h6, h7⟩ := ih (p.add R.size) s1 _ (h2.acc hp (fun h => h) ha2) (h2.aligned hp (fun h => h) hal2) hview (fun x hx => hv x (by simp only [Nat.zero_add] at hx; simp [hx])) hp
        (by simpa using h2.ok)
      refine ⟨s2, es ++ es2, f, lost, ?_, wrote_trans h2' (h6.mono (.inr ⟨rfl, by simp, by simp; omega⟩)), h3.done h7⟩
      simp only [dropRest, bind_apply, DP.unwinding, h1, Fate.res, Res.bind_ok, h5]
    | panicked =>
      refine ⟨s1, es, .aborted, _, ?_, h2', h3.second⟩
      simp only [dropRest, bind_apply, DP.unwinding, h1, Fate.res, Res.bind_panic]
    | aborted =>
      refine ⟨s1, es, .aborted, _, ?_, h2', h3.dead⟩
      simp only [dropRest, bind_apply, DP.unwinding, h1, Fate.res, Res.bind_panic]

/-- Dropping the elements of a slice. -/
theorem dropElems_ends (hd : DtorOk W d E) {rest : List (RTy × Img)} : ∀ n p s xs, Acc s p (n * R.size) → Aligned s p R.align → elemsV (viewAt s p) 0 R.size n = xs →
    (∀ x ∈ xs, R.valid x = true) → prot p.blk → (W.owing ((xs.map fun x => (R, x)) ++ rest)).ok s prot →
    Ends W prot rest (dropElems d R p n s) s p (n * R.size) (GroupEnds E false (xs.map fun x => (R, x))) := by
  intro n
  induction n with
  | zero => intro p s xs _ _ hx _ _ hU; subst hx; exact ⟨s, [], .done, [], rfl, .refl hU _ _ _, .done⟩
  | succ n ih =>
    intro p s xs ha hal hx hv hp hU
    subst hx
    obtain ⟨ha1, ha2, hal2⟩ := elems_rest hR ha hal
    have hmul : (n + 1) * R.size = n * R.size + R.size := Nat.succ_mul n _
    rw [elemsV_succ] at hv hU
    rw [elemsV_succ, List.map_cons]
    obtain ⟨s1, es, f0, h1, h2, h3⟩ := dropInPlace_ends hd (x := takeV (viewAt s p) 0 R.size) ha1 hal rfl (hv _ (by simp)) hp hU
    have h2' := h2.mono (q := p) (m := (n + 1) * R.size) (.inr ⟨rfl, Nat.le_refl _, by omega⟩)
    have hview : elemsV (viewAt s1 (p.add R.size)) 0 R.size n = elemsV (viewAt s p) (0 + R.size) R.size n := by
      rw [viewAt_add, elemsV_shift]
      apply elemsV_congr
      intro i hi
      simp only [Nat.add_zero, Nat.zero_add]
      exact h2.view hp (fun h => h) _ (by omega)
    have hv2 : ∀ x ∈ elemsV (viewAt s p) (0 + R.size) R.size n, R.valid x = true := fun x hx => hv x (by simp only [Nat.zero_add] at hx; simp [hx])
    cases f0 with
    | done =>
      obtain ⟨s2, es2, f, lost, h5, h6, h7⟩ := ih (p.add R.size) s1 _ (h2.acc hp (fun h => h) ha2) (h2.aligned hp (fun h => h) hal2) hview hv2 hp (by simpa using h2.ok)
      refine ⟨s2, es ++ es2, f, lost, ?_, wrote_trans h2' (h6.mono (.inr ⟨rfl, by simp, by simp; omega⟩)), h3.done h7⟩
      simp only [dropElems, bind_apply, DP.onUnwind, h1, Fate.res, Res.bind_ok] at h5 ⊢
      exact h5
    | aborted => exact ⟨s1, es, .aborted, _, by simp only [dropElems, bind_apply, DP.onUnwind, h1, Fate.res, Res.bind_panic], h2', h3.dead⟩
    | panicked =>
      obtain ⟨s2, es2, f, lost, h5, h6, h7⟩ := dropRest_ends hR hd n (p.add R.size) s1 _ (h2.acc hp (fun h => h) ha2) (h2.aligned hp (fun h => h) hal2) hview hv2 hp (by simpa using h2.ok)
      refine ⟨s2, es ++ es2, f, lost, ?_, wrote_trans h2' (h6.mono (.inr ⟨rfl, by simp, by simp; omega⟩)), h3.first h7⟩
      have hf := groupEnds_true h7 rfl
      simp only [dropElems, bind_apply, DP.onUnwind, h1, Fate.res, h5]
      cases f with
      | done => exact absurd rfl hf
      | panicked => rfl
      | aborted => rfl
end

/-! ## Sequences of calls -/

theorem runEnds_append {gs : List Group} {hs : List Group} {es es' : List Event} {f : Fate} {lost : List (RTy × Img)} (h : RunEnds E gs es .done []) (h' : RunEnds E hs es' f lost) : RunEnds E (gs ++ hs) (es ++ es') f lost := by
  induction gs generalizing es with
  | nil => cases h; exact h'
  | cons g gs ih =>
    generalize hl : ([] : List (RTy × Img)) = l0 at h
    generalize hf : Fate.done = f0 at h
    cases h with
    | cons h1 h2 => subst hl; subst hf; rw [List.append_assoc]; exact .cons h1 (ih h2)
    | stop h1 h2 => exact absurd hf.symm h2

theorem runEnds_stop {gs : List Group} (hs : List Group) {es : List Event} {f : Fate} {lost : List (RTy × Img)} (h : RunEnds E gs es f lost) (hf : f ≠ .done) : RunEnds E (gs ++ hs) es f (lost ++ hs.flatten) := by
  induction gs generalizing es lost with
  | nil => cases h; exact absurd rfl hf
  | cons g gs ih =>
    cases h with
    | cons h1 h2 => exact .cons h1 (ih h2)
    | stop h1 h2 =>
      rw [List.append_assoc, ← List.flatten_append]
      exact .stop h1 h2

theorem runEnds_one {g : Group} {es : List Event} {f : Fate} {lost : List (RTy × Img)} (h : GroupEnds E false g es f lost) : RunEnds E [g] es f lost := by
  by_cases hf : f = .done
  · subst hf
    obtain rfl := groupEnds_done h rfl
    simpa using RunEnds.cons h .nil
  · simpa using RunEnds.stop (gs := []) h hf

theorem groupEnds_quiet : ∀ {g : Group}, (∀ x ∈ g, x.1.needsDrop = false) → GroupEnds E false g [] .done []
  | [], _ => .done
  | (R, x) :: g, h => .plain (h (R, x) (by simp)) (groupEnds_quiet fun y hy => h y (by simp [hy]))

theorem runEnds_quiet : ∀ {gs : List Group}, Quiet gs → RunEnds E gs [] .done []
  | [], _ => .nil
  | g :: gs, h => RunEnds.cons (es := []) (groupEnds_quiet (h g (by simp))) (runEnds_quiet fun g hg => h g (by simp [hg]))
end

/-! ## The types -/

/-- The contract of a type whose destructors are programs. -/
structure ULawful (T : Ty w) : Prop where
  law : PLawful T.base
  vdrop : ∀ {W : Owner} {d : Dtor} {E : Effects}, DtorOk W d E → ∀ {prot : Nat → Prop} {rest : List (RTy × Img)} {s : St} {p : Ptr} {v : V} {l : Layout w}, Valid T.base.T s p v l →
    prot p.blk → (W.owing ((T.base.plan v).flatten ++ rest)).ok s prot → Ends W prot rest (T.vdrop d p l s) s p l.size.toNat (RunEnds E (T.base.plan v))

theorem fixedLen_ulaw {R : RTy} (hR : R.Ok w) : ULawful (fixedLen w R) where
  law := DP.fixedLen_law hR
  vdrop := by
    rintro W d E hd prot rest s p v l ⟨ha, hal, img, rfl, rfl, h1, h2⟩ hp hU
    simp only [Layout.size, hR.sizeOf_toNat] at ha ⊢
    simp only [fixedLen, DP.fixedLen, FixedLen, hR.alignOf_toNat] at hal
    obtain ⟨s1, es, b, e1, e2, e3⟩ := dropInPlace_ends hd ha hal h1 h2 hp hU
    cases b with
    | done => exact ⟨s1, es, .done, [], e1, e2, runEnds_one (by simpa using e3.done .done)⟩
    | aborted => exact ⟨s1, es, .aborted, [], e1, e2, runEnds_one e3.dead⟩
    | panicked => exact ⟨s1, es, .panicked, [], e1, e2, runEnds_one (by simpa using e3.first .panicked)⟩

theorem array_ulaw {R : RTy} {L : LenTy} (hR : R.Ok w) (hL : L.Ok w) : ULawful (array w R L) where
  law := DP.array_law hR hL
  vdrop := by
    rintro W d E hd prot rest s p v l ⟨ha, hal, off, n, size, xs, rfl, rfl, hv, hn, ho, hs, hx, hxv⟩ hp hU
    simp only [Layout.size] at ha ⊢
    have hal' : Aligned s (p.add off.toNat) R.align :=
      (hal.of_dvd (Array.align_spec hR hL).2.2).add (by rw [ho]; exact roundUpN_mod _ _)
    have hview : elemsV (viewAt s (p.add off.toNat)) 0 R.size n.toNat = xs := by
      rw [viewAt_add, elemsV_shift]; simpa using hx
    have hU' : (W.owing ((xs.map fun x => (R, x)) ++ rest)).ok s prot := by simpa [array, DP.array] using hU
    exact (dropElems_ends hR hd n.toNat (p.add off.toNat) s xs (ha.sub (by omega)) hal' hview hxv hp hU').mono rfl (by simp) (by simp; omega) fun es f lost h => runEnds_one h

theorem newtypeInv_ulaw {T : Ty w} (hT : ULawful T) (inv : V → Prop) : ULawful (newtypeInv T inv) where
  law := DP.newtypeInv_law hT.law inv
  vdrop := by
    intro W d E hd prot rest s p v l h hp hU
    by_cases hn : T.base.T.NEEDS_VDROP = false
    · exact ⟨s, [], .done, [], by simp [newtypeInv, hn, Fate.res], .refl (W.skips (quiet_flatten (hT.law.quiet hn v l _ h.rep.1)) hU) _ _ _, runEnds_quiet (hT.law.quiet hn v l _ h.rep.1)⟩
    · have := hT.vdrop hd (NewtypeInv.valid_inner h) hp hU
      simp only [newtypeInv, hn]
      exact this

section fields
variable {hs ha : Nat}

theorem vdropFields_ends {W : Owner} {d : Dtor} {E : Effects} (hd : DtorOk W d E) {prot : Nat → Prop} {rest : List (RTy × Img)} {lens : List Img} {p : Ptr} (hp : prot p.blk) {fin : Nat} :
    ∀ (fs : List (Fld w)) vs ls cur s, (∀ f ∈ (fs.map Fld.fld).map DP.Fld.fld, f.Ok hs ha) → (∀ T, Fld.varlen T ∈ fs → ULawful T) →
    (((fs.map Fld.fld).map DP.Fld.fld).Pairwise fun a b => a.range.2 = 0 ∨ b.range.2 = 0 ∨ a.range.1 + a.range.2 ≤ b.range.1 ∨
      b.range.1 + b.range.2 ≤ a.range.1) →
    Acc s p fin → Aligned s p ha → (∀ a ∈ tailAligns ((fs.map Fld.fld).map DP.Fld.fld), Aligned s p a.toNat) → hs ≤ cur →
    RepHdr ((fs.map Fld.fld).map DP.Fld.fld) vs (viewAt s p) → RepTails lens ((fs.map Fld.fld).map DP.Fld.fld) vs ls cur fin (viewAt s p) →
    (W.owing ((planFields (fs.map Fld.fld) vs).flatten ++ rest)).ok s prot →
    Ends W prot rest (vdropFields d p fs ls s) s p fin (RunEnds E (planFields (fs.map Fld.fld) vs)) := by
  intro fs
  induction fs with
  | nil =>
    intro vs ls cur s _ _ _ _ _ _ _ _ h hU
    cases vs <;> cases ls <;> simp [RepTails] at h
    exact ⟨s, [], .done, [], rfl, .refl hU _ _ _, .nil⟩
  | cons f fs ih =>
    intro vs ls cur s hok hpl hdj hacc hal halt hcur hr h hU
    rw [List.map_cons, List.map_cons] at hok hdj halt hr h
    have hpl' : ∀ T, Fld.varlen T ∈ fs → ULawful T := fun T hT => hpl T (by simp [hT])
    have hok' : ∀ f ∈ (fs.map Fld.fld).map DP.Fld.fld, f.Ok hs ha := fun g hg => hok g (List.mem_cons_of_mem _ hg)
    have hf := hok f.fld.fld (by simp)
    obtain ⟨hdj1, hdj2⟩ := List.pairwise_cons.1 hdj
    cases vs with
    | nil => cases f <;> simp [RepTails, Fld.fld, DP.Fld.fld] at h
    | cons v vs =>
      have hdr : ∀ (R : RTy) (off : Nat) (img : Img), f.fld.fld.range = (off, R.size) →
          (R.Ok w ∧ off + R.size ≤ hs ∧ off % R.align = 0 ∧ R.align ∣ ha) →
          takeV (viewAt s p) off R.size = img ∧ R.valid img = true →
          RepHdr ((fs.map Fld.fld).map DP.Fld.fld) vs (viewAt s p) → RepTails lens ((fs.map Fld.fld).map DP.Fld.fld) vs ls cur fin (viewAt s p) →
          (∀ a ∈ tailAligns ((fs.map Fld.fld).map DP.Fld.fld), Aligned s p a.toNat) →
          (W.owing ((R, img) :: ((planFields (fs.map Fld.fld) vs).flatten ++ rest))).ok s prot →
          Ends W prot rest ((dropInPlace d R (p.add off) >>= fun _ => vdropFields d p fs ls) s) s p fin (RunEnds E ([(R, img)] :: planFields (fs.map Fld.fld) vs)) := by
        intro R off img hrange hfo hi hr2 ht2 halt2 hU2
        obtain ⟨hR, h1, h2, h3⟩ := hfo
        have hle := RepTails.le _ _ _ _ _ hok' ht2
        have hv : takeV (viewAt s (p.add off)) 0 R.size = img := by
          rw [viewAt_add, takeV_shift]; exact hi.1
        obtain ⟨s1, es, b, e1, e2, e3⟩ := dropInPlace_ends hd (R := R) (hacc.sub (o := off) (by omega)) ((hal.of_dvd h3).add h2) hv hi.2 hp hU2
        have e0 : Ends W prot ((planFields (fs.map Fld.fld) vs).flatten ++ rest) (dropInPlace d R (p.add off) s) s (p.add off) R.size (GroupEnds E false [(R, img)]) := by
          cases b with
          | done => exact ⟨s1, es, .done, [], e1, e2, by simpa using e3.done .done⟩
          | aborted => exact ⟨s1, es, .aborted, [], e1, e2, e3.dead⟩
          | panicked => exact ⟨s1, es, .panicked, [], e1, e2, by simpa using e3.first .panicked⟩
        clear e1 e2 e3 b es s1
        refine Ends.bind (q := p) (m := fin) e0 rfl (by simp) (by simp; omega) (fun es lost h => groupEnds_done h rfl) ?_ (fun es es' f lost h1 h2 => .cons h1 h2) (fun es f lost h1 h2 => .stop h1 h2)
        intro s1 es _ e2
        have hview : ∀ i, ¬ (off ≤ i ∧ i < off + R.size) → viewAt s p i = viewAt s1 p i := fun i hi =>
          (e2.view (q := p) hp (fun h => h) i (by simp; omega)).symm
        exact ih vs ls cur s1 hok' hpl' hdj2 (e2.acc hp (fun h => h) hacc)
          (e2.aligned hp (fun h => h) hal) (fun a ha => e2.aligned hp (fun h => h) (halt2 a ha)) hcur
          (RepHdr.congr _ _ (fun g hg i hi => hview _ (by
            have := hdj1 g hg
            rw [hrange] at this
            simp only at this
            omega)) hr2)
          (RepTails.congr _ _ _ _ _ hok' (fun i hi hi' => hview i (by omega)) ht2) e2.ok
      cases f with
      | normal R off =>
        cases v <;> simp only [RepHdr, Fld.fld, DP.Fld.fld] at hr
        exact hdr R off _ rfl hf hr.1 hr.2 h halt hU
      | length R off =>
        cases v <;> simp only [RepHdr, Fld.fld, DP.Fld.fld] at hr
        exact hdr R off _ rfl hf hr.1 hr.2 h halt hU
      | varlen T =>
        simp only [RepHdr, Fld.fld, DP.Fld.fld] at hr
        rcases ls with _ | ⟨⟨o1, l⟩, ls⟩
        · simp [RepTails, Fld.fld, DP.Fld.fld] at h
        simp only [RepTails, Fld.fld, DP.Fld.fld] at h
        obtain ⟨⟨h1, h2⟩, h3⟩ := h
        have hT := hpl T (by simp)
        have hle := RepTails.le _ _ _ _ _ hok' h3
        have hge := roundUpN_ge cur T.base.T.ALIGN.toNat (Lawful.align_pow2 hT.law.law).pos
        have hal1 : Aligned s (p.add o1.toNat) T.base.T.ALIGN.toNat :=
          (halt T.base.T.ALIGN (by simp [tailAligns, Fld.fld, DP.Fld.fld])).add (by rw [h1]; exact roundUpN_mod _ _)
        have hacc1 : Acc s (p.add o1.toNat) l.size.toNat := hacc.sub (by omega)
        have hval : Valid T.base.T s (p.add o1.toNat) v l := ⟨hacc1, hal1, by rw [viewAt_add]; exact h2⟩
        have e0 : Ends W prot ((planFields (fs.map Fld.fld) vs).flatten ++ rest) (vdropField d T p o1 l s) s (p.add o1.toNat) l.size.toNat (RunEnds E (T.base.plan v)) := by
          have := hT.vdrop hd (rest := (planFields (fs.map Fld.fld) vs).flatten ++ rest) hval hp (by
            have : (planFields ((Fld.varlen T :: fs).map Fld.fld) (v :: vs)).flatten = (T.base.plan v).flatten ++ (planFields (fs.map Fld.fld) vs).flatten := by
              simp [planFields, Fld.fld]
            rw [this, List.append_assoc] at hU
            exact hU)
          simp only [vdropField, bind_apply, mkRef_ok (hacc1.mono (Lawful.head_le hT.law.law _ _ _ h2)) (hal1.of_dvd (Lawful.head_align hT.law.law)), Res.bind_ok]
          exact this
        show Ends W prot rest ((vdropField d T p o1 l >>= fun _ => vdropFields d p fs ls) s) s p fin (RunEnds E (T.base.plan v ++ planFields (fs.map Fld.fld) vs))
        refine Ends.bind (q := p) (m := fin) e0 rfl (by simp) (by simp; omega) (fun es lost h => runEnds_done h rfl) ?_ (fun es es' f lost h1 h2 => runEnds_append h1 h2) (fun es f lost h1 h2 => runEnds_stop _ h1 h2)
        intro s1 es _ e2
        have hview : ∀ i, ¬ (o1.toNat ≤ i ∧ i < o1.toNat + l.size.toNat) → viewAt s p i = viewAt s1 p i := fun i hi =>
          (e2.view (q := p) hp (fun h => h) i (by simp; omega)).symm
        exact ih vs ls _ s1 hok' hpl' hdj2 (e2.acc hp (fun h => h) hacc)
          (e2.aligned hp (fun h => h) hal) (fun a ha => e2.aligned hp (fun h => h) (halt a (List.mem_cons_of_mem _ ha)))
          (by omega)
          (RepHdr.congr _ _ (fun g hg i hi => hview _ (by
            have := (hok' g hg).range_le (by omega)
            omega)) hr)
          (RepTails.congr _ _ _ _ _ hok' (fun i hi hi' => hview i (by omega)) h3) e2.ok
      | array R len =>
        simp only [RepHdr, Fld.fld, DP.Fld.fld] at hr
        rcases ls with _ | ⟨⟨o1, l⟩, ls⟩
        · simp [RepTails, Fld.fld, DP.Fld.fld] at h
        cases v <;> cases l <;> simp only [RepTails, Fld.fld, DP.Fld.fld] at h
        rename_i xs n
        obtain ⟨⟨h1, h2, h4, h5⟩, h3⟩ := h
        have hle := RepTails.le _ _ _ _ _ hok' h3
        have hge := roundUpN_ge cur R.align (RTy.Ok.align_pos hf)
        have hal1 : Aligned s (p.add o1.toNat) R.align := by
          have := halt (R.alignOf w) (by simp [tailAligns, Fld.fld, DP.Fld.fld])
          rw [RTy.Ok.alignOf_toNat hf] at this
          exact this.add (by rw [h1]; exact roundUpN_mod _ _)
        have hacc1 : Acc s (p.add o1.toNat) (n.toNat * R.size) := hacc.sub (by omega)
        have hv : elemsV (viewAt s (p.add o1.toNat)) 0 R.size n.toNat = xs := by
          rw [viewAt_add, elemsV_shift]; exact h4
        have e0 : Ends W prot ((planFields (fs.map Fld.fld) vs).flatten ++ rest) (dropArray d R p o1 n s) s (p.add o1.toNat) (n.toNat * R.size) (GroupEnds E false (xs.map fun x => (R, x))) :=
          dropElems_ends hf hd n.toNat _ _ xs hacc1 hal1 hv h5.1 hp (by
            have : (planFields ((Fld.array R len :: fs).map Fld.fld) (.arr xs :: vs)).flatten = (xs.map fun x => (R, x)) ++ (planFields (fs.map Fld.fld) vs).flatten := by
              simp [planFields, Fld.fld]
            rw [this, List.append_assoc] at hU
            exact hU)
        show Ends W prot rest ((dropArray d R p o1 n >>= fun _ => vdropFields d p fs ls) s) s p fin (RunEnds E ((xs.map fun x => (R, x)) :: planFields (fs.map Fld.fld) vs))
        refine Ends.bind (q := p) (m := fin) e0 rfl (by simp) (by simp; omega) (fun es lost h => groupEnds_done h rfl) ?_ (fun es es' f lost h1 h2 => .cons h1 h2) (fun es f lost h1 h2 => .stop h1 h2)
        intro s1 es _ e2
        have hview : ∀ i, ¬ (o1.toNat ≤ i ∧ i < o1.toNat + n.toNat * R.size) → viewAt s p i = viewAt s1 p i := fun i hi =>
          (e2.view (q := p) hp (fun h => h) i (by simp; omega)).symm
        exact ih vs ls _ s1 hok' hpl' hdj2 (e2.acc hp (fun h => h) hacc)
          (e2.aligned hp (fun h => h) hal) (fun a ha => e2.aligned hp (fun h => h) (halt a (List.mem_cons_of_mem _ ha)))
          (by omega)
          (RepHdr.congr _ _ (fun g hg i hi => hview _ (by
            have := (hok' g hg).range_le (by omega)
            omega)) hr)
          (RepTails.congr _ _ _ _ _ hok' (fun i hi hi' => hview i (by omega)) h3) e2.ok
end fields

theorem agg_ulaw {hs ha : Nat} {fs : List (Fld w)} (hok : StructOk hs ha ((fs.map Fld.fld).map DP.Fld.fld)) (hpl : ∀ T, Fld.varlen T ∈ fs → ULawful T)
    {T : Ty w} (hT : PLawful T.base) (hRep : T.base.T.Rep = aggRep hs ((fs.map Fld.fld).map DP.Fld.fld)) (hP : T.base.plan = aggPlan (fs.map Fld.fld))
    (hA : ha ∣ T.base.T.ALIGN.toNat) (hta : ∀ a ∈ tailAligns ((fs.map Fld.fld).map DP.Fld.fld), a.toNat ∣ T.base.T.ALIGN.toNat)
    (hvd : ∀ d p l, T.vdrop d p l = aggVdrop d fs p l ∨ (T.base.T.NEEDS_VDROP = false ∧ T.vdrop d p l = pure ())) : ULawful T where
  law := hT
  vdrop := by
    intro W d E hd prot rest s p v l hval hp hU
    obtain ⟨hacc, hal, hrep⟩ := hval
    rcases hvd d p l with hv | ⟨hn, hv⟩
    · rw [hRep] at hrep
      obtain ⟨vs, ls, size, rfl, rfl, hr, ht⟩ := hrep
      rw [hv]
      rw [hP] at hU ⊢
      exact vdropFields_ends hd hp fs vs ls _ s hok.flds hpl hok.disjoint hacc (hal.of_dvd hA) (fun a ha' => hal.of_dvd (hta a ha')) (Nat.le_refl _) hr ht hU
    · rw [hv]
      exact ⟨s, [], .done, [], rfl, .refl (W.skips (quiet_flatten (hT.quiet hn _ _ _ hrep)) hU) _ _ _, runEnds_quiet (hT.quiet hn _ _ _ hrep)⟩

theorem LibT.base {T : Ty w} (h : LibT T) : DP.LibT T.base := by
  induction h with
  | fixedLen hR => exact .fixedLen hR
  | array hR hL => exact .array hR hL
  | str hw hL => exact .str hw hL
  | newtype _ ih => exact .newtype ih
  | @tuple Ts hne _ ih =>
    refine .tuple (by simpa using hne) fun T hT => ?_
    obtain ⟨T', h', rfl⟩ := List.mem_map.1 hT
    exact ih T' h'
  | struct hh _ ih =>
    refine .struct hh fun T hT => ?_
    obtain ⟨f, hf, e⟩ := List.mem_map.1 hT
    cases f <;> simp only [Fld.fld] at e <;> cases e
    exact ih _ hf

theorem LibT.ulaw {T : Ty w} (h : LibT T) : ULawful T := by
  induction h with
  | fixedLen hR => exact fixedLen_ulaw hR
  | array hR hL => exact array_ulaw hR hL
  | str hw hL => exact newtypeInv_ulaw (array_ulaw (u8Ty_ok hw) hL) _
  | newtype _ ih => exact newtypeInv_ulaw ih _
  | @tuple Ts hne hl ih =>
    have hm : ((Ts.map Fld.varlen).map Fld.fld) = (Ts.map (·.base)).map DP.Fld.varlen := by simp [Fld.fld]
    have hm2 : ((Ts.map (·.base)).map DP.Fld.varlen).map DP.Fld.fld = ((Ts.map (·.base)).map (·.T)).map Varlen.Fld.varlen := by simp [DP.Fld.fld]
    have hL : ∀ T ∈ (Ts.map (·.base)).map (·.T), Lawful T := by
      intro T hT
      simp only [List.mem_map] at hT
      obtain ⟨T1, ⟨T2, h2, rfl⟩, rfl⟩ := hT
      exact (ih T2 h2).law.law
    have hne' : (Ts.map (·.base)).map (·.T) ≠ [] := by simpa using hne
    obtain ⟨h1, h2⟩ := Tuple.aligns hne' hL
    refine agg_ulaw (hs := 0) (ha := 1) (fs := Ts.map .varlen) (by rw [hm, hm2]; exact Tuple.structOk h1.wpos hL) ?_ (DP.LibT.law (LibT.base (.tuple hne hl))) (by rw [hm, hm2]; rfl) (by rw [hm]; rfl) (Nat.one_dvd _) ?_ ?_
    · intro T hT
      obtain ⟨T', h', e⟩ := List.mem_map.1 hT
      cases e
      exact ih T h'
    · rw [hm, hm2, tailAligns_map]
      intro a ha
      obtain ⟨T, hT', rfl⟩ := List.mem_map.1 ha
      exact h2 T hT'
    · intro d p l
      have e : Ts.any (·.base.T.NEEDS_VDROP) = (UD.tuple w Ts).base.T.NEEDS_VDROP := by
        show _ = ((Ts.map (·.base)).map (·.T)).any (·.NEEDS_VDROP)
        rw [List.any_map, List.any_map]; rfl
      by_cases h : Ts.any (·.base.T.NEEDS_VDROP) = false
      · right; exact ⟨by rw [← e]; exact h, by simp [UD.tuple, h]⟩
      · left; simp [UD.tuple, h]
  | @struct hs ha fs hh hl ih =>
    have hb := DP.LibT.law (LibT.base (.struct hh hl))
    have hpl : ∀ T, DP.Fld.varlen T ∈ fs.map Fld.fld → PLawful T := by
      intro T hT
      obtain ⟨f, hf, e⟩ := List.mem_map.1 hT
      cases f <;> simp only [Fld.fld] at e <;> cases e
      exact (ih _ hf).law
    have hok := DP.LibT.structOk hh hpl
    obtain ⟨_, h2, h3⟩ := Struct.aligns hok
    exact agg_ulaw hok ih hb rfl rfl h2 h3 (fun _ _ _ => .inl rfl)

/-! ## Boxes, owned values, sequences -/

section
variable {W : Owner} {prot : Nat → Prop} {d : Dtor} {E : Effects} {T : Ty w} {rest : List (RTy × Img)}

theorem Owned.drop_ends (hT : ULawful T) (hd : DtorOk W d E) {s : St} {p : Ptr} {v : V} {l : Layout w} (h : Valid T.base.T s p v l) (hp : prot p.blk)
    (hU : (W.owing ((T.base.plan v).flatten ++ rest)).ok s prot) : Ends W prot rest (Owned.drop d T p s) s p l.size.toNat (RunEnds E (T.base.plan v)) := by
  have := hT.vdrop hd h hp hU
  simpa [Owned.drop, derefBox_ok hT.law.law h, hT.law.law.calc_ok _ _ _ _ h] using this

theorem wrote_owns {U : World} {s s' : St} {p q : Ptr} {m n a : Nat} {es : List Event} (h : ownsAlloc s p n a) (hw : Wrote U prot s s' q m (fun _ => False) es) (hp : prot p.blk) : ownsAlloc s' p n a := by
  obtain ⟨h0, B, h1, h2, h3, h4⟩ := h
  obtain ⟨d, e1, _⟩ := hw.blk _ hp (fun h => h) B h1
  exact ⟨h0, _, e1, h2, h3, h4⟩

theorem world_free {U : World} {s : St} (hU : U.ok s prot) {b : Nat} (hb : prot b) : U.ok (s.free b) prot := by
  refine U.stable _ _ _ hU (by unfold St.free; split <;> simp) fun b' hb' => ?_
  cases hB : s.blk b with
  | none => simp [St.free, hB]
  | some B => rw [St.blk_free hB, if_neg]; rintro rfl; exact hb' hb

/-- Dropping a box. -/
theorem VBox.drop_ends (hT : ULawful T) (hd : DtorOk W d E) {s : St} {p : Ptr} {v : V} {l : Layout w} (h : BoxHas T.base.T s p v l) (hp : prot p.blk)
    (hU : (W.owing ((T.base.plan v).flatten ++ rest)).ok s prot) :
    ∃ s' es f lost, VBox.drop d T p s = f.res s' ∧ RunEnds E (T.base.plan v) es f lost ∧ (W.owing (lost ++ rest)).ok s' prot ∧ s'.log = s.log ++ es ∧
      (∀ b, prot b → b ≠ p.blk → s'.blk b = s.blk b) ∧
      (f = .done → ∃ B, s'.blk p.blk = some B ∧ B.live = false) ∧ (f ≠ .done → ownsAlloc s' p l.size.toNat T.base.T.ALIGN.toNat) := by
  obtain ⟨s1, es, f, lost, e1, e2, e3⟩ := hT.vdrop hd h.valid hp hU
  have ho := wrote_owns h.owns e2 hp
  have hk : ∀ b, prot b → b ≠ p.blk → s1.blk b = s.blk b := fun b hb hne => e2.same hb (fun h => h) (.inr hne)
  have hb : VBox.drop d T p s = (f.res s1).bind fun _ => deallocM p l.size.toNat T.base.T.ALIGN.toNat := by
    simp [VBox.drop, layoutUnchecked, h.fits, derefBox_ok hT.law.law h.valid, hT.law.law.calc_ok _ _ _ _ h.valid, e1]
  rw [hb]
  cases f with
  | done =>
    obtain ⟨h0, B, h1, _⟩ := ho
    refine ⟨s1.free p.blk, es, .done, lost, ?_, e3, world_free e2.ok hp, by simpa using e2.log, ?_, fun _ => ⟨_, by rw [St.blk_free h1, if_pos rfl], rfl⟩, fun h => absurd rfl h⟩
    · simp only [Fate.res, Res.bind_ok, deallocM_ok (wrote_owns h.owns e2 hp)]
    · intro b hb hne
      rw [St.blk_free h1, if_neg hne]; exact hk b hb hne
  | panicked => exact ⟨s1, es, .panicked, lost, rfl, e3, e2.ok, e2.log, hk, fun h => (by cases h), fun _ => ho⟩
  | aborted => exact ⟨s1, es, .aborted, lost, rfl, e3, e2.ok, e2.log, hk, fun h => (by cases h), fun _ => ho⟩

theorem valid_wrote {U : World} {T : VarLen w} (hT : Lawful T) {s s' : St} {p q : Ptr} {n : Nat} {v : V} {l : Layout w} {es : List Event} (h : Valid T s q v l) (hw : Wrote U prot s s' p n (fun _ => False) es) (hq : prot q.blk)
    (hd : q.off + l.size.toNat ≤ p.off ∨ p.off + n ≤ q.off) : Valid T s' q v l :=
  ⟨hw.acc hq (fun h => h) h.acc, hw.aligned hq (fun h => h) h.aligned, hT.rep_ext _ _ _ _ h.rep fun i hi => (hw.view hq (fun h => h) i (by omega)).symm⟩

theorem IterAt.after_wrote {U : World} (hT : Lawful T.base.T) {s s1 : St} {b : Ptr} {it : IterS w} {e : Elem w} {es : List (Elem w)} {ev : List Event} {cur cur' fin : Nat}
    (hp : Packed T.base.T.ALIGN.toNat cur (e :: es) fin) (h1 : IterAt T.base.T s b it cur' es fin) (hb : prot b.blk)
    (t1 : Wrote U prot s s1 (e.at T.base.T b) e.l.size.toNat (fun _ => False) ev) : IterAt T.base.T s1 b it cur' es fin := by
  have hpos := hT.align_pow2.pos
  have hd := Packed.pairwise hpos hp
  rw [List.pairwise_cons] at hd
  refine h1.of_valid fun x hx => ?_
  refine valid_wrote hT (h1.valid x hx) t1 hb ?_
  simp only [Elem.at, Ptr.add_off]
  rcases (hd.1 x hx).bytes hpos with h | h <;> omega

theorem OwnedElems.dropLoop_ends (hT : ULawful T) (hd : DtorOk W d E) (hw : 8 ≤ w) {b : Ptr} (hb : prot b.blk) {fin : Nat} : ∀ {es : List (Elem w)} {fuel : Nat} {s : St} {it : IterS w} {cur : Nat},
    IterAt T.base.T s b it cur es fin → es.length < fuel → (W.owing ((es.flatMap fun e => T.base.plan e.v).flatten ++ rest)).ok s prot →
    Ends W prot rest (OwnedElems.dropLoop d T fuel it s) s b (fin * T.base.T.ALIGN.toNat) (RunEnds E (es.flatMap fun e => T.base.plan e.v))
  | _, 0, _, _, _, _, hf, _ => by simp at hf
  | [], fuel + 1, s, it, cur, h, _, hU => ⟨s, [], .done, [], by simp [OwnedElems.dropLoop, Iter.next_nil h, Fate.res], .refl hU _ _ _, .nil⟩
  | e :: es, fuel + 1, s, it, cur, h, hf, hU => by
    obtain ⟨it1, e1, h1⟩ := Iter.next_cons hT.law.law hw h
    obtain ⟨i1, i2, i3⟩ := DP.elem_inside hT.law (b := b) h.packed
    rw [List.flatMap_cons, List.flatten_append, List.append_assoc] at hU
    have e0 := Owned.drop_ends hT hd (h.valid e (by simp)) hb hU
    have hprog : OwnedElems.dropLoop d T (fuel + 1) it s = (Owned.drop d T (e.at T.base.T b) >>= fun _ => OwnedElems.dropLoop d T fuel it1) s := by
      simp only [OwnedElems.dropLoop, bind_apply, e1, Res.bind_ok]
    rw [hprog, List.flatMap_cons]
    refine Ends.bind e0 i1.symm i2 i3 (fun es lost h => runEnds_done h rfl) ?_ (fun es es' f lost h1 h2 => runEnds_append h1 h2) (fun es f lost h1 h2 => runEnds_stop _ h1 h2)
    intro s1 ev _ t1
    exact OwnedElems.dropLoop_ends hT hd hw hb (IterAt.after_wrote hT.law.law h.packed h1 hb t1) (by simp at hf; omega) t1.ok

theorem OwnedElems.drop_ends (hT : ULawful T) (hd : DtorOk W d E) (hw : 8 ≤ w) {b : Ptr} (hb : prot b.blk) {fin cur : Nat} {es : List (Elem w)} {s : St} {it : IterS w} (h : IterAt T.base.T s b it cur es fin)
    (hU : (W.owing ((es.flatMap fun e => T.base.plan e.v).flatten ++ rest)).ok s prot) :
    Ends W prot rest (OwnedElems.drop d T it s) s b (fin * T.base.T.ALIGN.toNat) (RunEnds E (es.flatMap fun e => T.base.plan e.v)) := by
  unfold OwnedElems.drop
  by_cases hn : (T.base.T.headNeedsDrop || T.base.T.NEEDS_VDROP) = true
  · rw [if_pos hn]
    exact OwnedElems.dropLoop_ends hT hd hw hb h (by rw [h.len]; omega) hU
  · rw [if_neg hn]
    have hv : T.base.T.NEEDS_VDROP = false := by simp at hn; exact hn.2
    have hq : Quiet (es.flatMap fun e => T.base.plan e.v) := by
      intro g hg
      obtain ⟨e, he, hg⟩ := List.mem_flatMap.1 hg
      exact hT.law.quiet hv _ _ _ (h.valid e he).rep g hg
    exact ⟨s, [], .done, [], rfl, .refl (W.skips (quiet_flatten hq) hU) _ _ _, runEnds_quiet hq⟩

theorem OwnedElems.forEach_ends (hT : ULawful T) (hd : DtorOk W d E) (hw : 8 ≤ w) {b : Ptr} (hb : prot b.blk) {fin : Nat} : ∀ {es : List (Elem w)} {fuel : Nat} {s : St} {it : IterS w} {cur : Nat},
    IterAt T.base.T s b it cur es fin → es.length < fuel → (W.owing ((es.flatMap fun e => T.base.plan e.v).flatten ++ rest)).ok s prot →
    Ends W prot rest (OwnedElems.forEach d T fuel it s) s b (fin * T.base.T.ALIGN.toNat) (EachEnds E (es.map fun e => T.base.plan e.v))
  | _, 0, _, _, _, _, hf, _ => by simp at hf
  | [], fuel + 1, s, it, cur, h, _, hU => ⟨s, [], .done, [], by simp [OwnedElems.forEach, Iter.next_nil h, Fate.res], .refl hU _ _ _, .nil⟩
  | e :: es, fuel + 1, s, it, cur, h, hf, hU => by
    obtain ⟨it1, e1, h1⟩ := Iter.next_cons hT.law.law hw h
    obtain ⟨i1, i2, i3⟩ := DP.elem_inside hT.law (b := b) h.packed
    rw [List.flatMap_cons, List.flatten_append, List.append_assoc] at hU
    obtain ⟨s1, ev, f, lost, g1, g2, g3⟩ := Owned.drop_ends hT hd (h.valid e (by simp)) hb hU
    have h2 := IterAt.after_wrote hT.law.law h.packed h1 hb g2
    have g2' := g2.mono (q := b) (m := fin * T.base.T.ALIGN.toNat) (.inr ⟨i1.symm, i2, i3⟩)
    have hprog : OwnedElems.forEach d T (fuel + 1) it s =
        (DP.onUnwind (Owned.drop d T (e.at T.base.T b)) (OwnedElems.drop d T it1) >>= fun _ => OwnedElems.forEach d T fuel it1) s := by
      simp only [OwnedElems.forEach, bind_apply, e1, Res.bind_ok]
    rw [hprog, bind_apply]
    unfold DP.onUnwind
    rw [show Owned.drop d T (e.at T.base.T b) s = _ from g1]
    rw [List.map_cons]
    cases f with
    | done =>
      obtain rfl := runEnds_done g3 rfl
      obtain ⟨s2, ev2, f2, lost2, k1, k2, k3⟩ := OwnedElems.forEach_ends hT hd hw hb h2 (fuel := fuel) (by simp at hf; omega) g2.ok
      exact ⟨s2, ev ++ ev2, f2, lost2, by simpa [Fate.res] using k1, wrote_trans g2' k2, .cons g3 k3⟩
    | panicked =>
      have hU2 : (W.owing ((es.flatMap fun e => T.base.plan e.v).flatten ++ (lost ++ rest))).ok s1 prot := W.perm (by
        rw [← List.append_assoc, ← List.append_assoc]
        exact List.Perm.append_right _ List.perm_append_comm) g2.ok
      obtain ⟨s2, ev2, f2, lost2, k1, k2, k3⟩ := OwnedElems.drop_ends hT hd hw hb h2 hU2
      rw [List.flatMap_def] at k3
      have hU3 : (W.owing ((lost ++ lost2) ++ rest)).ok s2 prot := W.perm (by
        rw [← List.append_assoc]
        exact List.Perm.append_right _ List.perm_append_comm) k2.ok
      have k2' := wrote_world (wrote_trans g2' k2) hU3
      cases f2 with
      | done =>
        obtain rfl := runEnds_done k3 rfl
        exact ⟨s2, ev ++ ev2, .panicked, lost, by simp only [Fate.res, k1]; rfl, by simpa using k2', .unwound g3 k3⟩
      | panicked => exact ⟨s2, ev ++ ev2, .aborted, _, by simp only [Fate.res, k1]; rfl, k2', .twice g3 k3 (by simp)⟩
      | aborted => exact ⟨s2, ev ++ ev2, .aborted, _, by simp only [Fate.res, k1]; rfl, k2', .twice g3 k3 (by simp)⟩
    | aborted => exact ⟨s1, ev, .aborted, _, rfl, wrote_world g2' (by rw [List.append_assoc, ← List.flatMap_def]; exact g2'.ok), .aborted g3⟩

/-- Dropping a sequence. -/
theorem Seq.drop_ends (hT : ULawful T) (hd : DtorOk W d E) (hw : 8 ≤ w) {chk : Bool} {s : St} {q : SeqS w} {es : List (Elem w)} (h : SeqInv T.base.T chk s q es) (hp : q.cap ≠ 0 → prot q.ptr.blk)
    (hU : (W.owing ((es.flatMap fun e => T.base.plan e.v).flatten ++ rest)).ok s prot) :
    ∃ s' q' ev f lost, Seq.drop d chk T (s, q) = (match f with
        | .done => .ok () (s', q')
        | .panicked => .panic .user (s', q')
        | .aborted => .panic .abort (s', q')) ∧ RunEnds E (es.flatMap fun e => T.base.plan e.v) ev f lost ∧ (W.owing (lost ++ rest)).ok s' prot ∧ s'.log = s.log ++ ev ∧
      (∀ b, prot b → b ≠ q.ptr.blk → s'.blk b = s.blk b) ∧
      (q.cap.toNat ≠ 0 → if f = .done then ∃ B, s'.blk q.ptr.blk = some B ∧ B.live = false
        else ownsAlloc s' q.ptr (storageSize chk T.base.T.ALIGN.toNat q.cap.toNat) T.base.T.ALIGN.toNat) := by
  unfold Seq.drop
  simp only [bind_apply, getQ_apply, Res.bind_ok]
  by_cases hc : q.cap = 0
  · have hc' : q.cap.toNat = 0 := by rw [hc]; simp
    have := h.empty_of_cap hT.law.law hc'
    subst this
    rw [if_pos hc]
    exact ⟨s, q, [], .done, [], rfl, .nil, hU, by simp, fun _ _ _ => rfl, fun h => absurd hc' h⟩
  · have hc' : q.cap.toNat ≠ 0 := by
      intro h0; exact hc (BitVec.eq_of_toNat_eq (by simpa using h0))
    have hp := hp hc
    rw [if_neg hc]
    obtain ⟨s1, ev, f, lost, f1, t1, f2⟩ := OwnedElems.drop_ends hT hd hw hp (h.iterAt hT.law.law) hU
    have hown := wrote_owns (h.store.owns hc') t1 hp
    have hk : ∀ b, prot b → b ≠ q.ptr.blk → s1.blk b = s.blk b := fun b hb hne => t1.same hb (fun h => h) (.inr hne)
    simp only [bind_apply, Seq.takeElems_spec hw, Res.bind_ok, liftQ_apply, f1, getQ_apply]
    cases f with
    | done =>
      obtain ⟨h0, B, hB, _⟩ := id hown
      refine ⟨s1.free q.ptr.blk, { q with len := 0, occ := 0 }, ev, .done, lost, ?_, f2, world_free t1.ok hp, by simpa using t1.log, ?_, fun _ => by rw [if_pos rfl]; exact ⟨_, by rw [St.blk_free hB, if_pos rfl], rfl⟩⟩
      · have hfit := h.store.fits
        obtain ⟨hcb, _⟩ := h.cap_bytes hT.law.law
        have hm : (q.cap * T.base.T.ALIGN).toNat = q.cap.toNat * T.base.T.ALIGN.toNat := by rw [BitVec.toNat_mul, Nat.mod_eq_of_lt hcb]
        have hext : ∃ sz : BitVec w, extendedSize chk (q.cap * T.base.T.ALIGN) T.base.T.ALIGN s1 = .ok sz s1 ∧ sz.toNat = storageSize chk T.base.T.ALIGN.toNat q.cap.toNat := by
          unfold extendedSize
          cases chk with
          | false => exact ⟨_, rfl, by simp [storageSize, bitmaskBytes, Nat.mod_eq_of_lt hcb]⟩
          | true =>
            have := addBitmask_spec hw hT.law.law.align_pow2 hm (by have := storageSize_ge true T.base.T.ALIGN.toNat q.cap.toNat; omega) s1
            rw [if_pos hfit] at this
            obtain ⟨full, bm, e1, e2, e3⟩ := this
            exact ⟨full, by simp [e1], e3⟩
        obtain ⟨sz, e1, e2⟩ := hext
        have hlu : layoutUnchecked w (q.cap * T.base.T.ALIGN).toNat T.base.T.ALIGN.toNat s1 = .ok () s1 :=
          layoutUnchecked_ok (by rw [hm]; have := storageSize_ge chk T.base.T.ALIGN.toNat q.cap.toNat; omega)
        simp only [Fate.res, Res.bind_ok, bind_apply, getQ_apply, hlu, e1, e2, liftQ_apply, deallocM_ok hown]
      · intro b hb hne
        rw [St.blk_free hB, if_neg hne]; exact hk b hb hne
    | panicked => exact ⟨s1, { q with len := 0, occ := 0 }, ev, .panicked, lost, rfl, f2, t1.ok, t1.log, hk, fun _ => by rw [if_neg (by simp)]; exact hown⟩
    | aborted => exact ⟨s1, { q with len := 0, occ := 0 }, ev, .aborted, lost, rfl, f2, t1.ok, t1.log, hk, fun _ => by rw [if_neg (by simp)]; exact hown⟩
end

end Varlen.UD
