import Verif.Spec.Arrays
import Verif.Proofs.Newtype
/-! # Array initializers step by step, and assignment through `mut_slice` -/
namespace Varlen
variable {w : Nat}

section fill
variable {R : RTy} (hR : R.Ok w)
include hR

theorem fillLoop_calls {τ : Type} {f : Closure τ} (hf : ∀ t i img t', f.call t i = (some img, t') → R.valid img = true)
    {t t' : τ} {i : Nat} {xs : List Img} (h : Calls f t i xs t') :
    ∀ {s : St} {p : Ptr} {k : Nat}, Acc s p ((xs.length + k) * R.size) → Aligned s p R.align →
    ∃ s', fillLoop R f t p i (xs.length + k) s = fillLoop R f t' (p.add (xs.length * R.size)) (i + xs.length) k s' ∧
      elemsV (viewAt s' p) 0 R.size xs.length = xs ∧ Touch s s' p (xs.length * R.size) noOwn ∧ s'.log = s.log := by
  induction h with
  | nil =>
    intro s p k ha hal
    refine ⟨s, ?_, rfl, Touch.refl .., rfl⟩
    simp [Ptr.add]
  | @cons t t1 t2 i x xs h1 h2 ih =>
    intro s p k ha hal
    have e1 : (x :: xs).length + k = (xs.length + k) + 1 := by simp; omega
    rw [e1] at ha ⊢
    obtain ⟨a1, a2, a3⟩ := elems_rest hR ha hal
    have hl : x.length = R.size := hR.valid_len _ (hf _ _ _ _ h1)
    have hw : Touch s (s.write p x) p x.length noOwn := Touch.write
    obtain ⟨s', e, hel, ht, hlog⟩ := ih (s := s.write p x) (p := p.add R.size) (k := k) (hw.acc (fun h => h) a2) (hw.aligned (fun h => h) a3)
    have hst := elems_step (n := xs.length) hl (ha.mono (Nat.mul_le_mul_right _ (by omega))) ht hel
    refine ⟨s', ?_, hst.2, hst.1, ?_⟩
    · show fillLoop R f t p i ((xs.length + k) + 1) s = _
      rw [fillLoop, h1]
      simp only [bind_apply, writeVal_ok (by rw [hl]; exact a1) hal, Res.bind_ok]
      rw [e, Ptr.add_add]
      congr 1
      · congr 1; simp [Nat.add_mul]; omega
      · simp; omega
    · rw [hlog]; unfold St.write; split <;> rfl

theorem iterLoop_yields {τ : Type} {it : IterFn τ} (hf : ∀ t img t', it.next t = (.yield img, t') → R.valid img = true)
    {t t' : τ} {xs : List Img} (h : Yields it t xs t') :
    ∀ {s : St} {p : Ptr} {k : Nat}, Acc s p ((xs.length + k) * R.size) → Aligned s p R.align →
    ∃ s', iterLoop R it t p (xs.length + k) s = iterLoop R it t' (p.add (xs.length * R.size)) k s' ∧
      elemsV (viewAt s' p) 0 R.size xs.length = xs ∧ Touch s s' p (xs.length * R.size) noOwn ∧ s'.log = s.log := by
  induction h with
  | nil =>
    intro s p k ha hal
    refine ⟨s, ?_, rfl, Touch.refl .., rfl⟩
    simp [Ptr.add]
  | @cons t t1 t2 x xs h1 h2 ih =>
    intro s p k ha hal
    have e1 : (x :: xs).length + k = (xs.length + k) + 1 := by simp; omega
    rw [e1] at ha ⊢
    obtain ⟨a1, a2, a3⟩ := elems_rest hR ha hal
    have hl : x.length = R.size := hR.valid_len _ (hf _ _ _ h1)
    have hw : Touch s (s.write p x) p x.length noOwn := Touch.write
    obtain ⟨s', e, hel, ht, hlog⟩ := ih (s := s.write p x) (p := p.add R.size) (k := k) (hw.acc (fun h => h) a2) (hw.aligned (fun h => h) a3)
    have hst := elems_step (n := xs.length) hl (ha.mono (Nat.mul_le_mul_right _ (by omega))) ht hel
    refine ⟨s', ?_, hst.2, hst.1, ?_⟩
    · show iterLoop R it t p ((xs.length + k) + 1) s = _
      rw [iterLoop, h1]
      simp only [bind_apply, writeVal_ok (by rw [hl]; exact a1) hal, Res.bind_ok]
      rw [e, Ptr.add_add]
      congr 1
      congr 1; simp [Nat.add_mul]; omega
    · rw [hlog]; unfold St.write; split <;> rfl

theorem cloneLoop_steps {c : CloneFn} (hc : c.Ok R) : ∀ (xs ys : List Img) {k : Nat} {src p : Ptr} {s : St} {zs : List Img},
    SliceHas R s src (xs ++ zs) → xs.map c = ys.map some → Acc s p ((xs.length + k) * R.size) → Aligned s p R.align → src.blk ≠ p.blk →
    ∃ s', cloneLoop R c src p (xs.length + k) s = cloneLoop R c (src.add (xs.length * R.size)) (p.add (xs.length * R.size)) k s' ∧
      elemsV (viewAt s' p) 0 R.size ys.length = ys ∧ Touch s s' p (ys.length * R.size) noOwn ∧ s'.log = s.log ∧
      SliceHas R s' (src.add (xs.length * R.size)) zs
  | [], ys, k, src, p, s, zs, h, hm, ha, hal, hb => by
    cases ys with
    | nil => exact ⟨s, by simp [Ptr.add], rfl, Touch.refl .., rfl, by simpa [Ptr.add] using h⟩
    | cons => simp at hm
  | x :: xs, ys, k, src, p, s, zs, h, hm, ha, hal, hb => by
    cases ys with
    | nil => simp at hm
    | cons y ys =>
      simp only [List.map_cons, List.cons.injEq] at hm
      obtain ⟨hr, hh⟩ := SliceHas.head hR h
      have e1 : (x :: xs).length + k = (xs.length + k) + 1 := by simp; omega
      rw [e1] at ha ⊢
      obtain ⟨a1, a2, a3⟩ := elems_rest hR ha hal
      have hy : R.valid y = true := hc x y (h.valid x (by simp)) hm.1
      have hl : y.length = R.size := hR.valid_len _ hy
      have hw : Touch s (s.write p y) p y.length noOwn := Touch.write
      have hsame : Same s (s.write p y) (fun b => b = src.blk) := hw.same (fun _ _ h => h) (fun e => hb e.symm)
      have hh' : SliceHas R (s.write p y) (src.add R.size) (xs ++ zs) := SliceHas.of_same hh hsame rfl
      obtain ⟨s', e, hel, ht, hlog, hz⟩ := cloneLoop_steps hc xs ys (k := k) (src := src.add R.size) (s := s.write p y) (p := p.add R.size) hh' hm.2
        (hw.acc (fun h => h) a2) (hw.aligned (fun h => h) a3) hb
      have hlen : xs.length = ys.length := by simpa using congrArg List.length hm.2
      have hst := elems_step (n := ys.length) hl (ha.mono (Nat.mul_le_mul_right _ (by omega))) ht hel
      refine ⟨s', ?_, hst.2, hst.1, ?_, ?_⟩
      · show cloneLoop R c src p ((xs.length + k) + 1) s = _
        rw [cloneLoop]
        simp only [bind_apply, hr, Res.bind_ok, runClone, hm.1, pure_apply, writeVal_ok (by rw [hl]; exact a1) hal]
        rw [e, Ptr.add_add, Ptr.add_add]
        congr 2 <;> simp [Nat.add_mul] <;> omega
      · rw [hlog]; unfold St.write; split <;> rfl
      · rw [Ptr.add_add] at hz
        have : R.size + xs.length * R.size = (x :: xs).length * R.size := by simp [Nat.add_mul]; omega
        rwa [this] at hz

end fill

section set
variable {R : RTy} {L : LenTy} (hR : R.Ok w) (hL : L.Ok w)
include hR hL

/-- `array.mut_slice()[i] = x`. -/
theorem Array.set_spec {s : St} {p : Ptr} {xs : List Img} {l : Layout w} (h : Valid (Array w R L) s p (.arr xs) l) {i : Nat} {old x : Img}
    (hi : xs[i]? = some old) (hx : R.valid x = true) :
    ∃ sl s', Array.deref w R L p s = .ok sl s ∧ Slice.set R sl i x s = .ok () s' ∧ Valid (Array w R L) s' p (.arr (xs.set i x)) l ∧
      Touch s s' (sl.ptr.add (i * R.size)) R.size noOwn ∧ s'.log = s.log ++ R.drops old ∧ s'.copied = s.copied := by
  obtain ⟨sl, h1, h2, _, h3, h4, h5, h6, h7, h8, h9⟩ := Array.deref_spec hR hL h
  have hilt : i < xs.length := (List.getElem?_eq_some_iff.1 hi).1
  have hmul : (i + 1) * R.size ≤ sl.len * R.size := Nat.mul_le_mul_right _ (by omega)
  rw [Nat.add_mul, Nat.one_mul] at hmul
  have ha : Acc s (sl.ptr.add (i * R.size)) R.size := h6.sub (by omega)
  have hal : Aligned s (sl.ptr.add (i * R.size)) R.align := h7.add (Nat.mod_eq_zero_of_dvd (Nat.dvd_trans hR.dvd (Nat.dvd_mul_left ..)))
  have hold : takeV (viewAt s (sl.ptr.add (i * R.size))) 0 R.size = old := by
    rw [viewAt_add, takeV_shift]
    have := congrArg (·[i]?) h8
    simp only [elemsV_getElem?, hi] at this
    rw [if_pos (by omega)] at this
    simpa using this
  have holdv : R.valid old = true := h9 _ (List.mem_of_getElem? hi)
  obtain ⟨s1, e1, t1, l1, c1⟩ := dropInPlace_ok (R := R) ha hal (by rw [hold]; exact holdv)
  have hlx : x.length = R.size := hR.valid_len _ hx
  have ha1 : Acc s1 (sl.ptr.add (i * R.size)) x.length := by rw [hlx]; exact t1.acc (fun h => h) ha
  have hal1 := t1.aligned (fun h => h) hal
  have t2 : Touch s1 (s1.write (sl.ptr.add (i * R.size)) x) (sl.ptr.add (i * R.size)) R.size noOwn := by rw [← hlx]; exact Touch.write
  have t := t1.trans t2
  refine ⟨sl, s1.write (sl.ptr.add (i * R.size)) x, h1, ?_, ?_, t, ?_, ?_⟩
  · rw [Slice.set, if_pos (by omega), bind_apply, e1, Res.bind_ok, writeVal_ok ha1 hal1]
  · have hv := h
    obtain ⟨_, _, off, n, size, ys, hy, rfl, hval, hn, ho, hs, hel, hxv⟩ := h
    cases hy
    have hge := roundUpN_ge L.bytes R.align hR.align_pos
    simp only [Layout.size] at h5
    -- the slice starts at `off`
    have hoff : sl.ptr = p.add off.toNat := by
      have hd : Array.deref w R L p s = .ok ⟨p.add off.toNat, n.toNat⟩ s := by
        have hal' : Aligned s (p.add off.toNat) R.align :=
          (hv.aligned.of_dvd (Array.align_spec hR hL).2.2).add (by rw [ho]; exact roundUpN_mod _ _)
        have ha' : Acc s (p.add off.toNat) (n.toNat * R.size) := hv.acc.sub (by simp only [Layout.size]; omega)
        simp only [Array.deref, bind_apply, Array.calc_ok hR hL hv, Res.bind_ok, refArray, mkRef_ok ha' hal', pure_apply]
      rw [h1] at hd
      injection hd with hd
      rw [hd]
    rw [hoff] at t ha1 ⊢
    have hview : ∀ j, (j < off.toNat + i * R.size ∨ off.toNat + i * R.size + R.size ≤ j) →
        viewAt (s1.write ((p.add off.toNat).add (i * R.size)) x) p j = viewAt s p j := by
      intro j hj
      apply t.view (fun h => h)
      simp only [Ptr.add]
      omega
    have hvx : takeV (viewAt (s1.write ((p.add off.toNat).add (i * R.size)) x) p) (off.toNat + i * R.size) R.size = x := by
      have := takeV_viewAt_write ha1
      rw [Ptr.add_add] at this ⊢
      rw [viewAt_add, takeV_shift] at this
      simpa [hlx] using this
    have hnlen : n.toNat = xs.length := by rw [← hel]; simp [elemsV]
    refine ⟨t.acc (fun h => h) hv.acc, t.aligned (fun h => h) hv.aligned, off, n, size, xs.set i x, rfl, rfl, ?_, ?_, ho, hs, ?_, ?_⟩
    · rw [takeV_congr (off' := 0) (o' := viewAt s p) (fun j hj => hview _ (by omega))]; exact hval
    · rw [takeV_congr (off' := 0) (o' := viewAt s p) (fun j hj => hview _ (by omega))]; exact hn
    · apply List.ext_getElem?
      intro j
      rw [elemsV_getElem?, List.getElem?_set]
      by_cases hj : j < n.toNat
      · rw [if_pos hj]
        by_cases hij : i = j
        · subst hij
          rw [if_pos rfl, if_pos hilt, hvx]
        · rw [if_neg hij]
          have hoj : xs[j]? = some (takeV (viewAt s p) (off.toNat + j * R.size) R.size) := by
            rw [← hel, elemsV_getElem?, if_pos hj]
          rw [hoj]
          congr 1
          apply takeV_congr
          intro b hb
          apply hview
          rcases Nat.lt_or_gt_of_ne hij with hlt | hgt
          · have := Nat.mul_le_mul_right R.size (show i + 1 ≤ j by omega)
            rw [Nat.add_mul] at this; omega
          · have := Nat.mul_le_mul_right R.size (show j + 1 ≤ i by omega)
            rw [Nat.add_mul] at this; omega
      · rw [if_neg hj]
        have h0 : xs[j]? = none := List.getElem?_eq_none (by omega)
        by_cases hij : i = j
        · omega
        · rw [if_neg hij, h0]
    · intro y hy
      rcases List.mem_or_eq_of_mem_set hy with hy | rfl
      · exact hxv y hy
      · exact hx
  · show (s1.write _ x).log = _
    have : (s1.write (sl.ptr.add (i * R.size)) x).log = s1.log := by unfold St.write; split <;> rfl
    rw [this, l1, hold]
  · have : (s1.write (sl.ptr.add (i * R.size)) x).copied = s1.copied := by unfold St.write; split <;> rfl
    rw [this, c1]

end set

end Varlen
