import Verif.Proofs.BorrowInit
/-!
# C63: the references that the library makes obey the aliasing rules

For every program that uses the references the library gives it as the borrow checker allows, no access is undefined under Tree Borrows: neither one of the library nor one of the program. All fields given by `refs()` and
`muts()`, and all items of `iter()` and `iter_mut()`, can be used at the same time. See Spec/TreeBorrows.lean and Spec/Borrow.lean.
-/
namespace Varlen.TB
open Varlen
variable {w : Nat}

theorem Quiet.some {m : B Unit} {S : Tree} (h : Quiet m S) : ∃ S', (m S).map (·.2) = Option.some S' ∧ Inv S' := by
  obtain ⟨S', h1, h2, -⟩ := h
  exact ⟨S', by rw [h1]; rfl, h2⟩

theorem gives_some {m : B Nat} {S : Tree} {t : Nat} {e : Ext} (h : ∃ r S', m S = some (r, S') ∧ Gives S S' t r e) : ∃ S', (m S).map (·.2) = Option.some S' ∧ Inv S' := by
  obtain ⟨r, S', h1, h2⟩ := h
  exact ⟨S', by rw [h1]; rfl, h2.inv⟩

/-- Each step succeeds. -/
theorem Step.ok {S : Tree} {r : Option Tree} (hi : Inv S) (h : Step w S r) : ∃ S', r = some S' ∧ Inv S' := by
  cases h with
  | read h => exact (Quiet.access (wr := false) hi h).some
  | write h => exact (Quiet.access (wr := true) hi h).some
  | store h =>
    obtain ⟨S', h1, h2, -⟩ := store_ok hi h
    exact ⟨S', by rw [h1]; rfl, h2⟩
  | shared h h1 h2 =>
    obtain ⟨P, S', h3, h4⟩ := retag_grow (uniq := false) hi h h1 h2
    exact ⟨S', by rw [h3]; rfl, h4.inv⟩
  | mutable h h1 h2 =>
    obtain ⟨P, S', h3, h4⟩ := retag_grow (uniq := true) hi h h1 h2
    exact ⟨S', by rw [h3]; rfl, h4.inv⟩
  | done h h1 =>
    obtain ⟨S', h3, h4⟩ := kill_grow hi h h1
    exact ⟨S', by rw [h3]; rfl, h4.inv⟩
  | returned h h1 =>
    obtain ⟨S', h3, h4⟩ := ret_grow hi h h1
    exact ⟨S', by rw [h3]; rfl, h4.inv⟩
  | layout hC hl hr =>
    obtain ⟨v, o, hrep⟩ := hl
    exact (hC.ok.1.calc_ok S _ _ v _ o hrep hi hr).some
  | refs hf hl hr =>
    obtain ⟨v, o, hrep⟩ := hl
    obtain ⟨ha, hok, hC⟩ := hf.ok
    obtain ⟨size, ls, rfl, h1, h2⟩ := agg_facts hok hrep
    obtain ⟨rs, S', h3, h4⟩ := refs_ok hC h1 h2 hi hr
    exact ⟨S', by rw [h3]; rfl, h4.inv⟩
  | muts hf hl hr =>
    obtain ⟨v, o, hrep⟩ := hl
    obtain ⟨ha, hok, hC⟩ := hf.ok
    obtain ⟨size, ls, rfl, h1, h2⟩ := agg_facts hok hrep
    obtain ⟨rs, S', h3, h4⟩ := muts_ok _ hC h1 hok.disjoint h2 hi hr
    exact ⟨S', by rw [h3]; rfl, h4.inv⟩
  | trySet hf hl hr =>
    obtain ⟨v, o, hrep⟩ := hl
    obtain ⟨ha, hok, hC⟩ := hf.ok
    obtain ⟨size, ls, rfl, h1, h2⟩ := agg_facts hok hrep
    exact (trySet_quiet _ _ (l := .fields size ls) (Lays.le _ _ _ _ h2) h1 hi hr).some
  | deref hR hL hl hr =>
    obtain ⟨v, o, hrep⟩ := hl
    obtain ⟨r, S', off, n, size, rfl, h1, h2⟩ := arrayDeref_ok _ hR hL hrep hi hr
    exact ⟨S', by rw [h1]; rfl, h2.inv⟩
  | mutSlice hR hL hl hw =>
    obtain ⟨v, o, hrep⟩ := hl
    obtain ⟨r, S', off, n, size, rfl, h1, h2⟩ := arrayMutSlice_ok _ hR hL hrep hi hw
    exact ⟨S', by rw [h1]; rfl, h2.inv⟩
  | inner hC hl hr =>
    obtain ⟨v, o, hrep⟩ := hl
    exact gives_some (newtypeRef_ok (hC.ok.1.head v _ o hrep) hi hr)
  | innerMut hC hl hr =>
    obtain ⟨v, o, hrep⟩ := hl
    exact gives_some (newtypeMut_ok _ (hC.ok.1.head v _ o hrep) hi hr)
  | asRef hC hl hr =>
    obtain ⟨v, o, hrep⟩ := hl
    obtain ⟨r, S', h1, h2, -⟩ := asRef_ok (hC.ok.1.head v _ o hrep) hi hr
    exact ⟨S', by rw [h1]; rfl, h2.inv⟩
  | asMut hC hl hr =>
    obtain ⟨v, o, hrep⟩ := hl
    exact gives_some (asMut_ok (hC.ok.1.head v _ o hrep) hi hr)
  | iterNext hC hl hr =>
    obtain ⟨v, o, hrep⟩ := hl
    obtain ⟨r, S', h1, h2, -⟩ := iterNext_ok hC.ok.1 hrep hi hr
    exact ⟨S', by rw [h1]; rfl, h2.inv⟩
  | iterMutNext hC hl hr =>
    obtain ⟨v, o, hrep⟩ := hl
    exact gives_some (iterMutNext_ok hC.ok.1 hrep hi hr)
  | ownedNext hC hl hr =>
    obtain ⟨v, o, hrep⟩ := hl
    exact (ownedNext_quiet hC.ok.1 hrep hi hr).some
  | ownedDrop hC hl hr =>
    obtain ⟨v, o, hrep⟩ := hl
    exact (ownedDrop_quiet hC.ok.1 hrep hi hr).some
  | init hI hl hs hw =>
    obtain ⟨v, o, hrep⟩ := hl
    exact (hI.ok S _ _ v _ o hrep hi hw hs).some
  | seqPush hI hl hs hw hb =>
    obtain ⟨v, o, hrep⟩ := hl
    refine Quiet.some (Quiet.bind (.access (wr := false) hi hb.canRead) ?_)
    intro S1 hi1 hg1
    refine Quiet.bind (.access (wr := true) hi1 (hb.quiet hg1)) ?_
    intro S2 hi2 hg2
    exact hI.ok S2 _ _ v _ o hrep hi2 ((hw.quiet hg1).quiet hg2) (.quiet hi1 (hs.quiet hi hg1) hg2)
  | allocStorage hw => exact (takeElems_quiet hi hw).some
  | growStorage h1 h2 h3 h4 => exact (growStorage_quiet hi h1 h2 h3 h4).some
  | takeElems hw => exact (takeElems_quiet hi hw).some

theorem Reach.inv {S : Tree} (h : Reach w S) : Inv S := by
  induction h with
  | new n => exact .new n
  | step _ hs ih =>
    obtain ⟨S', e, h⟩ := hs.ok ih
    cases e; exact h

/-- Whatever a program has done with its references so far: no further access of its own or of the library is undefined behaviour. -/
theorem C63_no_ub {S : Tree} {r : Option Tree} (h : Reach w S) (hs : Step w S r) : r ≠ none := by
  obtain ⟨S', e, -⟩ := hs.ok h.inv
  rw [e]; simp

/-- Nor is dropping the box or the sequence. -/
theorem C63_drop_no_ub {S : Tree} {r : Option Tree} (h : Reach w S) (hs : End w S r) : r ≠ none := by
  have hi := h.inv
  cases hs with
  | boxDrop hC hl hle hw =>
    rename_i C l
    obtain ⟨v, o, hrep⟩ := hl
    have hq : Quiet (boxDrop C 0 l) S := by
      refine Quiet.bind (ownedDrop_quiet hC.ok.1 hrep hi (hw.sub (Nat.le_refl _) (by omega))) ?_
      intro S' hi' hg
      exact dealloc_ok hi' (by rw [hg.size]; exact hw.quiet hg)
    obtain ⟨S', e, -⟩ := hq.some
    rw [e]; simp
  | seqDrop hC he hm hw =>
    rename_i C mask n es
    have hq : Quiet (seqDrop C 0 mask n es) S := by
      refine Quiet.bind (takeElems_quiet hi (hw.sub (by omega) (by omega))) ?_
      intro S1 hi1 hg1
      show Quiet (if _ then _ else _) S1
      split
      · refine Quiet.bind (ownedElemsDrop_quiet hC.ok.1 es he hi1 ((hw.quiet hg1).sub (by omega) (by omega))) ?_
        intro S2 hi2 hg2
        exact dealloc_ok hi2 (by rw [hg2.size, hg1.size]; exact (hw.quiet hg1).quiet hg2)
      · exact dealloc_ok hi1 (by rw [hg1.size]; exact hw.quiet hg1)
    obtain ⟨S', e, -⟩ := hq.some
    rw [e]; simp

/-- `refs()` gives a shared reference to each field; all of them can be used. What may be changed through them is the subject of C70. -/
theorem C63_refs {S : Tree} {hs : Nat} {fs : List (BFld w)} {t lo : Nat} {l : Layout w} (h : Reach w S) (hf : LibFields hs fs) (hl : FieldsLayout hs fs l) (hr : CanRead S t lo l.size.toNat) :
    ∃ rs S', refs hs fs t lo l S = some (rs, S') ∧ Returns S S' t rs ((fieldExts false lo fs (layoutFields l)).map (Ext.within (aggIm hs fs lo))) := by
  obtain ⟨v, o, hrep⟩ := hl
  obtain ⟨ha, hok, hC⟩ := hf.ok
  obtain ⟨size, ls, rfl, h1, h2⟩ := agg_facts hok hrep
  obtain ⟨rs, S', h3, h4⟩ := refs_ok hC h1 h2 h.inv hr
  exact ⟨rs, S', h3, returns_of h.inv h4.inv h4.grow h4.refs (.inl (by
    intro e he
    obtain ⟨e', h, rfl⟩ := List.mem_map.mp he
    exact fieldExts_shared lo fs ls e' h))⟩

/-- `muts()` gives a mutable reference to each field (a shared one to those with `#[controls_layout]`), for disjoint bytes; all of them can be used, in any order. -/
theorem C63_muts {S : Tree} {pin : Bool} {hs : Nat} {fs : List (BFld w)} {t lo : Nat} {l : Layout w} (h : Reach w S) (hf : LibFields hs fs) (hl : FieldsLayout hs fs l)
    (hw : CanWrite S t lo l.size.toNat) :
    ∃ rs S', muts pin hs fs t lo l S = some (rs, S') ∧ Returns S S' t rs (fieldExts true lo fs (layoutFields l)) := by
  obtain ⟨v, o, hrep⟩ := hl
  obtain ⟨ha, hok, hC⟩ := hf.ok
  obtain ⟨size, ls, rfl, h1, h2⟩ := agg_facts hok hrep
  obtain ⟨rs, S', h3, h4⟩ := muts_ok pin hC h1 hok.disjoint h2 h.inv hw
  exact ⟨rs, S', h3, returns_of h.inv h4.inv h4.grow h4.refs (.inr (fieldExts_apart true lo hs fs ls _ _ h2 h1 (Nat.le_refl _) hok.disjoint))⟩

/-- One reference: what `Returns` needs. -/
theorem Gives.returns {S S' : Tree} {t r : Nat} {e : Ext} (hi : Inv S) (h : Gives S S' t r e) : Returns S S' t [r] [e] :=
  returns_of hi h.inv h.grow h.gave.refs (.inr (List.pairwise_singleton _ _))

/-- `&array[..]` gives a shared reference to exactly the elements. -/
theorem C63_deref {S : Tree} {pin : Bool} {R : RTy} {L : LenTy} {t lo : Nat} {l : Layout w} (h : Reach w S) (hR : R.Ok w) (hL : L.Ok w) (hl : HasLayout (BTy.array pin w R L) l)
    (hr : CanRead S t lo l.size.toNat) :
    ∃ r S' off n size, l = .array off n size ∧ arrayDeref pin R L t lo l S = some (r, S') ∧ Returns S S' t [r] [⟨false, lo + off.toNat, n.toNat * R.size, noIm⟩] := by
  obtain ⟨v, o, hrep⟩ := hl
  obtain ⟨r, S', off, n, size, h1, h2, h3⟩ := arrayDeref_ok pin hR hL hrep h.inv hr
  exact ⟨r, S', off, n, size, h1, h2, h3.returns h.inv⟩

/-- `mut_slice()` gives a mutable one. -/
theorem C63_mut_slice {S : Tree} {pin : Bool} {R : RTy} {L : LenTy} {t lo : Nat} {l : Layout w} (h : Reach w S) (hR : R.Ok w) (hL : L.Ok w) (hl : HasLayout (BTy.array pin w R L) l)
    (hw : CanWrite S t lo l.size.toNat) :
    ∃ r S' off n size, l = .array off n size ∧ arrayMutSlice pin R L t lo l S = some (r, S') ∧ Returns S S' t [r] [⟨true, lo + off.toNat, n.toNat * R.size, sliceIm R (lo + off.toNat) n.toNat⟩] := by
  obtain ⟨v, o, hrep⟩ := hl
  obtain ⟨r, S', off, n, size, h1, h2, h3⟩ := arrayMutSlice_ok pin hR hL hrep h.inv hw
  exact ⟨r, S', off, n, size, h1, h2, h3.returns h.inv⟩

/-- The accessors of a newtype, `Deref` and `as_mut` of boxes and owned objects: a reference to the whole object. -/
theorem C63_inner {S : Tree} {C : BTy w} {t lo : Nat} {l : Layout w} (h : Reach w S) (hC : LibBTy C) (hl : HasLayout C l) (hr : CanRead S t lo l.size.toNat) :
    (∃ r S', newtypeRef C t lo l S = some (r, S') ∧ Returns S S' t [r] [⟨false, lo, l.size.toNat, C.im lo⟩]) ∧
    (∃ r S', asRef C t lo l S = some (r, S') ∧ Returns S S' t [r] [⟨false, lo, l.size.toNat, C.im lo⟩]) := by
  obtain ⟨v, o, hrep⟩ := hl
  obtain ⟨r, S', h1, h2⟩ := newtypeRef_ok (hC.ok.1.head v _ o hrep) h.inv hr
  rw [show Ext.within (C.im lo) ⟨false, lo, l.size.toNat, C.im lo⟩ = ⟨false, lo, l.size.toNat, C.im lo⟩ by simp [Ext.within]] at h2
  obtain ⟨r', S'', h3, h4, -⟩ := asRef_ok (hC.ok.1.head v _ o hrep) h.inv hr
  exact ⟨⟨r, S', h1, h2.returns h.inv⟩, r', S'', h3, h4.returns h.inv⟩

theorem C63_inner_mut {S : Tree} {C : BTy w} {t lo : Nat} {l : Layout w} (pin : Bool) (h : Reach w S) (hC : LibBTy C) (hl : HasLayout C l) (hw : CanWrite S t lo l.size.toNat) :
    (∃ r S', newtypeMut pin C t lo l S = some (r, S') ∧ Returns S S' t [r] [⟨true, lo, l.size.toNat, C.im lo⟩]) ∧
    (∃ r S', asMut C t lo l S = some (r, S') ∧ Returns S S' t [r] [⟨true, lo, l.size.toNat, C.im lo⟩]) := by
  obtain ⟨v, o, hrep⟩ := hl
  obtain ⟨r, S', h1, h2⟩ := newtypeMut_ok pin (hC.ok.1.head v _ o hrep) h.inv hw
  obtain ⟨r', S'', h3, h4⟩ := asMut_ok (hC.ok.1.head v _ o hrep) h.inv hw
  exact ⟨⟨r, S', h1, h2.returns h.inv⟩, r', S'', h3, h4.returns h.inv⟩

/-- All items of `iter()` can be kept and used together. -/
theorem C63_iter {S : Tree} {C : BTy w} {t fin : Nat} {es : List (Nat × Layout w)} (h : Reach w S) (hC : LibBTy C) (he : Elems C es 0 fin) (hr : CanRead S t 0 fin) :
    ∃ rs S', iterAll (iterNext C t) es S = some (rs, S') ∧ Returns S S' t rs (es.map fun e => ⟨false, e.1, e.2.size.toNat, C.im e.1⟩) := by
  obtain ⟨rs, S', h1, h2⟩ := iterAll_ref hC.ok.1 es he h.inv (by simpa using hr)
  refine ⟨rs, S', h1, returns_of h.inv h2.inv h2.grow h2.refs (.inl ?_)⟩
  intro e hm
  obtain ⟨x, -, rfl⟩ := List.mem_map.mp hm
  rfl

/-- So can all items of `iter_mut()`; each may be written. -/
theorem C63_iter_mut {S : Tree} {C : BTy w} {t fin : Nat} {es : List (Nat × Layout w)} (h : Reach w S) (hC : LibBTy C) (he : Elems C es 0 fin) (hw : CanWrite S t 0 fin) :
    ∃ rs S', iterAll (iterMutNext C t) es S = some (rs, S') ∧ Returns S S' t rs (es.map fun e => ⟨true, e.1, e.2.size.toNat, C.im e.1⟩) := by
  obtain ⟨rs, S', h1, h2⟩ := iterAll_mut hC.ok.1 es he h.inv (by
    intro e hm
    have := Elems.mem true es _ _ he e hm
    exact hw.sub (by omega) (by omega))
  exact ⟨rs, S', h1, returns_of h.inv h2.inv h2.grow h2.refs (.inr (Elems.apart true es _ _ he))⟩

end Varlen.TB
