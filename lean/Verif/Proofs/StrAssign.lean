import Verif.Proofs.Slice
/-! # Arbitrary in-place updates of an array's elements; `Str::mut_slice` -/
namespace Varlen
variable {w : Nat}

/-- Whatever safe code stores through `mut_slice()`: as long as only the slots change and hold values of the element type, the array is valid, with the same layout. -/
theorem Array.update_spec {R : RTy} {L : LenTy} (hR : R.Ok w) (hL : L.Ok w) {s s' : St} {p : Ptr} {xs ys : List Img} {l : Layout w}
    (h : Valid (Array w R L) s p (.arr xs) l) {sl : Slice} (hd : Array.deref w R L p s = .ok sl s) (ht : Touch s s' sl.ptr (sl.len * R.size) noOwn)
    (he : elemsV (viewAt s' sl.ptr) 0 R.size sl.len = ys) (hy : ∀ y ∈ ys, R.valid y = true) : Valid (Array w R L) s' p (.arr ys) l := by
  have hv := h
  obtain ⟨_, _, off, n, size, zs, hz, rfl, hval, hn, ho, hs, hel, hxv⟩ := h
  cases hz
  have hge := roundUpN_ge L.bytes R.align hR.align_pos
  have hoff : sl = ⟨p.add off.toNat, n.toNat⟩ := by
    have hd' : Array.deref w R L p s = .ok ⟨p.add off.toNat, n.toNat⟩ s := by
      have hal' : Aligned s (p.add off.toNat) R.align :=
        (hv.aligned.of_dvd (Array.align_spec hR hL).2.2).add (by rw [ho]; exact roundUpN_mod _ _)
      have ha' : Acc s (p.add off.toNat) (n.toNat * R.size) := hv.acc.sub (by simp only [Layout.size]; omega)
      simp only [Array.deref, bind_apply, Array.calc_ok hR hL hv, Res.bind_ok, refArray, mkRef_ok ha' hal', pure_apply]
    rw [hd] at hd'
    injection hd'
  subst hoff
  simp only at ht he
  have hview : ∀ j, j < off.toNat → viewAt s' p j = viewAt s p j := by
    intro j hj
    apply ht.view (fun h => h)
    simp only [Ptr.add]
    omega
  refine ⟨ht.acc (fun h => h) hv.acc, ht.aligned (fun h => h) hv.aligned, off, n, size, ys, rfl, rfl, ?_, ?_, ho, hs, ?_, hy⟩
  · rw [takeV_congr (off' := 0) (o' := viewAt s p) (fun j hj => hview _ (by omega))]; exact hval
  · rw [takeV_congr (off' := 0) (o' := viewAt s p) (fun j hj => hview _ (by omega))]; exact hn
  · rw [viewAt_add, elemsV_shift] at he
    simpa using he

/-- Storing a string of the same length through `mut_slice()`. -/
theorem Str.assign_spec {L : LenTy} (hw : 1 < w) (hL : L.Ok w) {s : St} {p : Ptr} {old new : String} {l : Layout w}
    (h : Valid (Str w L) s p (.arr (strBytes old)) l) :
    (new.utf8ByteSize = old.utf8ByteSize → ∃ s', Str.assign w L p new s = .ok () s' ∧ Valid (Str w L) s' p (.arr (strBytes new)) l ∧
      Touch s s' p l.size.toNat noOwn ∧ s'.log = s.log) ∧
    (new.utf8ByteSize ≠ old.utf8ByteSize → Str.assign w L p new s = .panic .user s) := by
  obtain ⟨sl, str, hstr, hd, hlen, hr, hb, h1, h2, h3⟩ := Str.deref_spec hw hL h
  have : str = old := by
    injection hstr with hstr
    exact (strBytes_inj hstr).symm
  subst this
  have hv := NewtypeInv.valid_inner h
  obtain ⟨sl', e1, e2, e3, e4, e5, e6, e7, e8, e9, e10⟩ := Array.deref_spec (u8Ty_ok hw) hL hv
  have hsl : sl' = sl := by
    have hi := Newtype.inner_ok (Array.lawful (u8Ty_ok hw) hL) hv
    have hu : IsUtf8 (strBytes str) := ⟨str, rfl⟩
    have : Str.deref w L p s = .ok sl' s := by simp [Str.deref, hi, e1, fromUtf8Unchecked, e3, hu]
    rw [hd] at this
    injection this with this
    exact this.symm
  subst hsl
  constructor
  · intro hn
    have hl : sl'.len = (strBytes new).length := by rw [strBytes_length, hlen, hn]
    obtain ⟨s', m1, m2, m3, m4, m5⟩ := moveLoop_spec (u8Ty_ok hw) (strBytes new) sl'.ptr s (strBytes_valid new) (by rw [← hl]; exact e7) e8
    rw [← hl] at m2 m3
    have hv' := Array.update_spec (u8Ty_ok hw) hL hv e1 m2 m3 (strBytes_valid new)
    refine ⟨s', ?_, ⟨hv'.acc, hv'.aligned, hv'.rep, new, rfl⟩, ?_, m4⟩
    · simp only [Str.assign, bind_apply, hd, Res.bind_ok, if_pos hl, m1]
    · exact m2.mono (.inr ⟨hb, by omega, by omega⟩) fun _ h => h
  · intro hn
    have hl : sl'.len ≠ (strBytes new).length := by rw [strBytes_length, hlen]; exact fun h => hn h.symm
    simp only [Str.assign, bind_apply, hd, Res.bind_ok, if_neg hl, panicM_apply]

end Varlen
