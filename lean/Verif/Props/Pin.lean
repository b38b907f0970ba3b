import Verif.Spec.Pin
import Verif.Props.SeqDemo
import Verif.Props.Boxes
/-!
# C64: pinned objects

The promise of `Pin` (Spec/Pin.lean) is kept by everything except three operations: a push that makes the sequence grow (all elements are moved), the use of a `VBox` as an initializer (the object is
moved), and the reuse of the storage after the elements taken out of it have been forgotten. These break it for every type and every object that has a destructor.
-/
namespace Varlen
variable {w : Nat} {T : VarLen w} {chk : Bool} {s : St} {q : SeqS w} {h : List (BitVec w × V)} {m : Nat} {t : Bool}

theorem not_pinKept {s s' : St} {p : Ptr} {v : V} {l : Layout w} {ev : List Event} (hg : ¬ Valid T s' p v l) (hlog : s'.log = s.log ++ ev) {a : Event}
    (ha : ev.count a < (T.drops v).count a) : ¬ PinKept T s s' p v l := by
  rintro (hv | ⟨ev', h1, h2⟩)
  · exact hg hv
  · rw [hlog] at h1
    have := List.append_cancel_left h1
    subst this
    have := h2 a
    omega

theorem count_pos_of_ne_nil {l : List Event} (h : l ≠ []) : ∃ a, 0 < l.count a := by
  cases l with
  | nil => exact absurd rfl h
  | cons x l => exact ⟨x, by simp⟩

theorem not_valid_of_freed {s : St} {p : Ptr} {v : V} {l : Layout w} (hf : Freed s p.blk) (hz : 0 < l.size.toNat) : ¬ Valid T s p v l := by
  intro hv
  obtain ⟨B, h1, h2⟩ := hf
  obtain h3 | ⟨B', h4, h5, _⟩ := hv.acc
  · omega
  · rw [h1] at h4
    cases h4
    simp [h2] at h5

theorem count_drops_le {h : List (BitVec w × V)} {o : BitVec w} {v : V} (hm : (o, v) ∈ h) (a : Event) : (T.drops v).count a ≤ (h.flatMap fun e => T.drops e.2).count a := by
  obtain ⟨h1, h2, rfl⟩ := List.append_of_mem hm
  simp only [List.flatMap_append, List.flatMap_cons, List.count_append]
  omega

theorem fromOffset_blk {q : SeqS w} {o : BitVec w} {p : Ptr} {s s' : St} (h : Seq.fromOffsetUnchecked T q o s = .ok p s') : p.blk = q.ptr.blk := by
  unfold Seq.fromOffsetUnchecked derefBox at h
  simp only [bind_apply] at h
  cases hr : mkRef (q.ptr.add (o * T.ALIGN).toNat) T.headSize T.headAlign s with
  | ok u s1 => rw [hr] at h; cases h; rfl
  | panic m s1 => rw [hr] at h; cases h
  | ub k => rw [hr] at h; cases h

/-! ## Where it fails -/

/-- Growing breaks the promise. After any history, take any element, pinned (a `Pin<&mut T>` to it is what `iter_mut()` and `from_offset_mut()` return). A push beyond the capacity returns with the element
at another address, in another allocation; the memory it was pinned in is freed, and the only destructors that have run are those of leftovers of the initializer: if they are not those of the element, the promise is
broken. (`realloc` always moves here; the allocator may do that.) -/
theorem C64_growing_push_moves (hT : LibType T) (hw : 8 ≤ w) (hh : Hist T chk s q h m t) (A : Allocator) {I : Init w} (ha : PushArg T I s q) {s' : St} {q' : SeqS w}
    (e : Seq.push A chk T I (s, q) = .ok () (s', q')) (hg : (Seq.capacityInOffsets q).toNat < (Seq.offset q').toNat) {o : BitVec w} {v : V} (hm : (o, v) ∈ h) :
    ∃ p p' l, Seq.fromOffsetUnchecked T q o s = .ok p s ∧ Valid T s p v l ∧ Seq.fromOffsetUnchecked T q' o s' = .ok p' s' ∧ RefTo T s' p' v ∧
      p'.blk ≠ p.blk ∧ Freed s' p.blk ∧ s'.log = s.log ++ I.left ∧
      (∀ a, I.left.count a < (T.drops v).count a → ¬ PinKept T s s' p v l) := by
  obtain ⟨v1, _, _, hk⟩ := C20_push_keeps_names hT hw hh A ha e
  obtain ⟨p', hp1, hp2⟩ := hk o v hm
  obtain ⟨es, i1, rfl, i3, i4⟩ := hh.inv hT.lawful hw
  obtain ⟨x, hx, hoe⟩ := List.mem_map.1 hm
  simp only [Elem.entry, Prod.mk.injEq] at hoe
  obtain ⟨rfl, rfl⟩ := hoe
  have hpos := hT.lawful.align_pow2.pos
  have hxs := (Packed.mem hpos i1.packed x hx)
  rcases Seq.push_spec hT.lawful hw A i1 ha.lawful ha.pre ha.apart ha.nonzero with ⟨s0, e', hd, hn⟩ | ⟨l, hl, ⟨v', hv', s'', q'', e', k1, k2, k3, k4⟩ | ⟨hv', m', s'', q'', e', k⟩⟩
  · rw [e'] at e; cases e
  · rw [e'] at e
    cases e
    simp only [Seq.offset, Seq.capacityInOffsets] at hg
    have hn : ¬ q.occ.toNat + units T.ALIGN.toNat l.size.toNat ≤ q.cap.toNat := by omega
    have hc0 : q.cap.toNat ≠ 0 := by
      intro h0
      have := i1.le
      have := Packed.length_le hpos i1.packed
      have hl : 0 < es.length := List.length_pos_of_mem hx
      omega
    have hval := i1.valid x hx
    have hfr : Freed s' (x.at T q.ptr).blk := k2.freed hn hc0
    have hp'b : p'.blk = q'.ptr.blk := fromOffset_blk hp1
    have hsz : 0 < x.l.size.toNat := hxs.2.2
    refine ⟨_, p', x.l, Seq.fromOffsetUnchecked_spec hT.lawful i1 hx (i1.elem_off hT.lawful hx).2.1, hval, hp1, hp2, ?_, hfr, k2.log, fun a ha => ?_⟩
    · rw [hp'b]
      intro hb
      have := k2.fresh hn
      obtain ⟨_, B, hB, _⟩ := i1.store.owns hc0
      rw [hb] at this
      exact absurd (this.symm.trans hB) (by simp)
    · exact not_pinKept (not_valid_of_freed hfr hsz) k2.log ha
  · rw [e'] at e; cases e

/-- Moving out of a box breaks it: the box's object, to which `as_mut` hands out a pinned reference, is copied elsewhere when the box is used as an initializer, the allocation is freed and no destructor runs. -/
theorem C64_vbox_init_moves (hT : LibType T) {s : St} {p d : Ptr} {v : V} {l : Layout w} (hb : BoxHas T s p v l) (ha : Acc s d l.size.toNat) (hal : Aligned s d T.ALIGN.toNat) (hne : d.blk ≠ p.blk)
    (hz : 0 < l.size.toNat) (hd : T.drops v ≠ []) :
    ∃ s', (VBox.init T p v l).initTo d l s = .ok () s' ∧ Valid T s' d v l ∧ ¬ PinKept T s s' p v l := by
  obtain ⟨_, s', e, _, hv, hlog, hf, _⟩ := C12_vbox_moves hT hb ha hal hne
  obtain ⟨a, hc⟩ := count_pos_of_ne_nil hd
  exact ⟨s', e, hv, not_pinKept (ev := []) (not_valid_of_freed hf hz) (by simpa using hlog) (by simpa using hc)⟩

/-- Forgetting breaks it: take the elements out of a sequence, forget the iterator (`mem::forget` is safe), and push something that fits: the new element is built at the address of the old first element, whose
destructor has not run. If the two values differ, the promise made for the first one is broken. -/
theorem C64_forgotten_overwritten (hT : LibType T) (hw : 8 ≤ w) {o : BitVec w} {v : V} (hh : Hist T chk s q ((o, v) :: h) m t) (A : Allocator) {it : IterS w} {s1 : St} {q1 : SeqS w}
    (e1 : Seq.takeElems chk T (s, q) = .ok it (s1, q1)) {I : Init w} (ha : PushArg T I s1 q1) {s' : St} {q' : SeqS w}
    (e : Seq.push A chk T I (s1, q1) = .ok () (s', q')) (hg : (Seq.offset q').toNat ≤ (Seq.capacityInOffsets q1).toNat) :
    ∃ p l v' l', Seq.fromOffsetUnchecked T q o s = .ok p s ∧ Valid T s p v l ∧ I.val = some v' ∧ Valid T s' p v' l' ∧ s'.log = s.log ++ I.left ∧
      (v ≠ v' → ∀ a, I.left.count a < (T.drops v).count a → ¬ PinKept T s s' p v l) := by
  have hh1 := hh.forget e1
  rw [Seq.takeElems_spec hw] at e1
  cases e1
  obtain ⟨v', hv', ⟨p', hp1, l', hp2⟩, _⟩ := C20_push_keeps_names hT hw hh1 A ha e
  obtain ⟨es, i1, hes, i3, i4⟩ := hh.inv hT.lawful hw
  cases es with
  | nil => cases hes
  | cons x es =>
    simp only [List.map_cons, List.cons.injEq, Elem.entry, Prod.mk.injEq] at hes
    obtain ⟨⟨rfl, rfl⟩, rfl⟩ := hes
    have hx0 : x.off = 0 := i1.packed.1
    have hpt : q'.ptr = q.ptr := by
      obtain ⟨_, _, _, hfit, _⟩ := C25_growth_policy hT hw hh1 A ha e
      exact (hfit hg).2.1
    have hp : p' = x.at T q.ptr := by
      have : Seq.fromOffsetUnchecked T q' (Seq.offset { q with len := 0, occ := 0 }) s' = .ok p' s' := hp1
      unfold Seq.fromOffsetUnchecked derefBox at this
      simp only [bind_apply] at this
      generalize hr : mkRef (q'.ptr.add (Seq.offset { q with len := 0, occ := 0 } * T.ALIGN).toNat) T.headSize T.headAlign s' = r at this
      cases r with
      | ok u s1 => cases this; simp [Elem.at, hx0, hpt, Seq.offset]
      | panic m s1 => cases this
      | ub k => cases this
    subst hp
    have hlog : s'.log = s.log ++ I.left := by
      obtain ⟨es', j1, hes', _⟩ := hh1.inv hT.lawful hw
      rcases Seq.push_spec hT.lawful hw A j1 ha.lawful ha.pre ha.apart ha.nonzero with ⟨s0, e', hd, hn⟩ | ⟨l, hl, ⟨v', hv', s'', q'', e', k1, k2, k3, k4⟩ | ⟨hv', m', s'', q'', e', k⟩⟩
      · rw [e'] at e; cases e
      · rw [e'] at e
        cases e
        exact k2.log
      · rw [e'] at e; cases e
    refine ⟨_, x.l, v', l', Seq.fromOffsetUnchecked_spec hT.lawful i1 (List.mem_cons_self ..) (i1.elem_off hT.lawful (List.mem_cons_self ..)).2.1, i1.valid x (List.mem_cons_self ..), hv', hp2, hlog, fun hne a hc => ?_⟩
    exact not_pinKept (fun hv => hne (hT.lawful.rep_unique _ _ _ _ _ hv.rep hp2.rep).1) hlog hc

namespace Demo
/-- After pushing `[5, 6, 7]` to the sequence with the elements `[1, 2, 3]` and `[4]`: 10 offsets are needed, there were 8. -/
def σ6 : St × SeqS 64 := after (pushD [5, 6, 7]) σ2
/-- After forgetting what `take_elems` returns and pushing `[8]`. -/
def σ7 : St × SeqS 64 := after (pushD [8]) σ3
end Demo
open Demo

/-- The property fails: with safe calls only, a sequence hands out a pinned reference to an array with three destructors, `push` then moves it. -/
theorem C64_pinned_object_moved : ∃ (s s' : St) (q q' : SeqS 64) (v : V) (l : Layout 64) (m : Nat) (p : Ptr), LibType ArrT ∧
    Hist ArrT true s q [(0, v), (4, elem [4])] m false ∧ Seq.fromOffset ArrT q 0 s = .ok p s ∧ Valid ArrT s p v l ∧ ArrT.drops v = [1, 2, 3] ∧
    Seq.push alloc true ArrT (arrInit [5, 6, 7]) (s, q) = .ok () (s', q') ∧ s'.log = [] ∧ Freed s' p.blk ∧ ¬ PinKept ArrT s s' p v l := by
  obtain ⟨m, hh⟩ := hist2
  have e := run_unit (pushD [5, 6, 7]) σ2 (by decide +kernel)
  have ha := arr_pushArg [5, 6, 7] σ2.1 σ2.2 (by decide +kernel)
  have hm : ((0 : BitVec 64), elem [1, 2, 3]) ∈ [((0 : BitVec 64), elem [1, 2, 3]), (4, elem [4])] := List.mem_cons_self ..
  obtain ⟨p, p', l, h1, h2, h3, h4, h5, h6, h7, h8⟩ := C64_growing_push_moves ArrT_lib (by decide) hh alloc ha e (by decide +kernel) hm
  refine ⟨_, _, _, _, _, l, m, p, ArrT_lib, hh, ?_, h2, by decide +kernel, e, by decide +kernel, h6, h8 1 (by decide +kernel)⟩
  simp only [Seq.fromOffset, bind_apply, (C22_elements_are_valid ArrT_lib (by decide) hh hm).1, Res.bind_ok, if_true]
  exact h1

/-- The hypotheses of `C64_forgotten_overwritten` are met: `[8]` overwrites `[1, 2, 3]`, whose destructors have not run. -/
example : ∃ (p : Ptr) (l : Layout 64), Valid ArrT σ2.1 p (elem [1, 2, 3]) l ∧ ¬ PinKept ArrT σ2.1 σ7.1 p (elem [1, 2, 3]) l := by
  obtain ⟨m, hh⟩ := hist2
  have e1 := run_eq ⟨⟨0, 0⟩, 0⟩ (Seq.takeElems true ArrT) σ2 (by decide +kernel)
  have e := run_unit (pushD [8]) σ3 (by decide +kernel)
  obtain ⟨p, l, v', l', h1, h2, h3, h4, h5, h6⟩ := C64_forgotten_overwritten ArrT_lib (by decide) hh alloc e1 (arr_pushArg [8] σ3.1 σ3.2 (by decide +kernel)) e (by decide +kernel)
  refine ⟨p, l, h2, h6 ?_ 1 (by decide +kernel)⟩
  intro h
  subst h
  have h4 : ArrT.drops (elem [8]) = ArrT.drops (elem [1, 2, 3]) := by
    have : elem [8] = elem [1, 2, 3] := by
      show ((arrInit [8]).val).getD (.arr []) = _
      rw [h3]
      rfl
    rw [this]
  revert h4
  decide +kernel

/-- And those of `C64_vbox_init_moves`: a box with a struct that owes four destructors. -/
example : ∃ s p v l, BoxHas Demo.S s p v l ∧ 0 < l.size.toNat ∧ Demo.S.drops v ≠ [] := by
  obtain ⟨s, p, v, l, hb, hv⟩ := Demo.box_has
  refine ⟨s, p, v, l, hb, ?_, by rw [hv]; decide +kernel⟩
  have := (LibType.lawful (Demo.S_lib)).head_le _ _ _ hb.valid.rep
  exact Nat.lt_of_lt_of_le (show 0 < Demo.S.headSize by decide) this

/-! ## Where it holds -/

/-- A push that fits keeps all the elements where they are. (The full property, that no operation moves a pinned object, is false: see above.) -/
theorem C64_fitting_push_partial (hT : LibType T) (hw : 8 ≤ w) (hh : Hist T chk s q h m t) (A : Allocator) {I : Init w} (ha : PushArg T I s q) {s' : St} {q' : SeqS w}
    (e : Seq.push A chk T I (s, q) = .ok () (s', q')) (hg : (Seq.offset q').toNat ≤ (Seq.capacityInOffsets q).toNat) {o : BitVec w} {v : V} (hm : (o, v) ∈ h) :
    ∃ p l, Seq.fromOffsetUnchecked T q o s = .ok p s ∧ Valid T s p v l ∧ Seq.fromOffsetUnchecked T q' o s' = .ok p s' ∧ PinKept T s s' p v l := by
  obtain ⟨es, i1, rfl, i3, i4⟩ := hh.inv hT.lawful hw
  obtain ⟨x, hx, hoe⟩ := List.mem_map.1 hm
  simp only [Elem.entry, Prod.mk.injEq] at hoe
  obtain ⟨rfl, rfl⟩ := hoe
  rcases Seq.push_spec hT.lawful hw A i1 ha.lawful ha.pre ha.apart ha.nonzero with ⟨s0, e', hd, hn⟩ | ⟨l, hl, ⟨v', hv', s'', q'', e', k1, k2, k3, k4⟩ | ⟨hv', m', s'', q'', e', k⟩⟩
  · rw [e'] at e; cases e
  · rw [e'] at e
    cases e
    simp only [Seq.offset, Seq.capacityInOffsets] at hg
    rw [k3] at hg
    have hp := k2.ptr hg
    have hx' : x ∈ es ++ [⟨q.occ.toNat, v', l⟩] := List.mem_append_left _ hx
    refine ⟨_, x.l, Seq.fromOffsetUnchecked_spec hT.lawful i1 hx (i1.elem_off hT.lawful hx).2.1, i1.valid x hx, ?_, .inl ?_⟩
    · rw [← hp]
      exact Seq.fromOffsetUnchecked_spec hT.lawful k1 hx' (k1.elem_off hT.lawful hx').2.1
    · have := k1.valid x hx'
      rwa [hp] at this
  · rw [e'] at e; cases e

/-- Dropping a sequence, a box or an `Owned` runs the destructors of the objects that were pinned in it. -/
theorem C64_seq_drop_partial (hT : LibType T) (hw : 8 ≤ w) (hh : Hist T chk s q h m t) {o : BitVec w} {v : V} (hm : (o, v) ∈ h) :
    ∃ s' q', Seq.drop chk T (s, q) = .ok () (s', q') ∧ ∃ p l, Seq.fromOffsetUnchecked T q o s = .ok p s ∧ Valid T s p v l ∧ PinKept T s s' p v l := by
  obtain ⟨s', q', e, hlog, _⟩ := C29_drop hT hw hh
  obtain ⟨i, hi⟩ := List.mem_iff_getElem?.1 hm
  obtain ⟨p, h1, ⟨l, h2⟩, _⟩ := C20_offset_names_element hT hw hh hi
  exact ⟨s', q', e, p, l, h1, h2, .inr ⟨_, hlog, count_drops_le hm⟩⟩

theorem C64_vbox_drop_partial (hT : LibType T) {s : St} {p : Ptr} {v : V} {l : Layout w} (hb : BoxHas T s p v l) : ∃ s', VBox.drop T p s = .ok () s' ∧ PinKept T s s' p v l := by
  obtain ⟨s', e, hlog, _⟩ := C11_vbox_drop hT hb
  exact ⟨s', e, .inr ⟨_, hlog, fun a => Nat.le_refl _⟩⟩

theorem C64_owned_drop_partial (hT : LibType T) {s : St} {p : Ptr} {v : V} {l : Layout w} (hb : Valid T s p v l) : ∃ s', Owned.drop T p s = .ok () s' ∧ PinKept T s s' p v l := by
  obtain ⟨s', e, hlog, _⟩ := C15_owned_drop hT hb
  exact ⟨s', e, .inr ⟨_, hlog, fun a => Nat.le_refl _⟩⟩

/-- Taking the elements out and dropping them all (in any order, some of them after the iterator) runs their destructors, before the storage can be used again. -/
theorem C64_drain_partial (hT : LibType T) (hw : 8 ≤ w) (hh : Hist T chk s q h m t) (k : Nat) {o : BitVec w} {v : V} (hm : (o, v) ∈ h) :
    ∃ it q1 ps it', Seq.takeElems chk T (s, q) = .ok it (s, q1) ∧ Iter.take T k it s = .ok (ps, it') s ∧
    ∀ before after : List Ptr, (before ++ after).Perm ps →
      ∃ s3 s4 s5, dropEach T before s = .ok () s3 ∧ OwnedElems.drop T it' s3 = .ok () s4 ∧ dropEach T after s4 = .ok () s5 ∧
        ∃ p l, Seq.fromOffsetUnchecked T q o s = .ok p s ∧ Valid T s p v l ∧ ∃ ev, s5.log.Perm (s.log ++ ev) ∧ ∀ a, (T.drops v).count a ≤ ev.count a := by
  obtain ⟨it, q1, e1, _, _, _, ps, it', e2, _, hd⟩ := C28_drain hT hw hh k
  obtain ⟨i, hi⟩ := List.mem_iff_getElem?.1 hm
  obtain ⟨p, h1, ⟨l, h2⟩, _⟩ := C20_offset_names_element hT hw hh hi
  refine ⟨it, q1, ps, it', e1, e2, fun before after hperm => ?_⟩
  obtain ⟨s3, s4, s5, f1, f2, f3, _, _, hl, _⟩ := hd before after [] (by simpa using hperm)
  exact ⟨s3, s4, s5, f1, f2, f3, p, l, h1, h2, _, hl rfl, count_drops_le hm⟩

end Varlen
