import Verif.Props.Demo
import Verif.Proofs.SeqExtend
/-!
# C19–C22, C25–C32, C34, C44, C48: sequences

All statements are about an arbitrary history (`Hist`, Spec/SeqHist.lean) of operations on one sequence, of elements of non-zero size, that has led to memory `s` and
sequence `q`; `h` is the list of (offset, value) pairs a plain list would hold.
-/
namespace Varlen
variable {w : Nat} {T : VarLen w} {chk : Bool} {s : St} {q : SeqS w} {h : List (BitVec w × V)} {m : Nat} {t : Bool}

/-- `⌈n / a⌉` -/
def ceilDiv (n a : Nat) : Nat := (n + a - 1) / a

theorem units_eq_ceilDiv {a : Nat} (ha : 0 < a) (n : Nat) : units a n = ceilDiv n a := by
  unfold units ceilDiv
  congr 1
  omega

/-- Pointers `ps` refer to the current values `vs`, in order. -/
def RefsTo (T : VarLen w) (s : St) (ps : List Ptr) (vs : List V) : Prop :=
  ps.length = vs.length ∧ ∀ (i : Nat) p v, ps[i]? = some p → vs[i]? = some v → RefTo T s p v

theorem refsTo_elems {s : St} {b : Ptr} : ∀ {es : List (Elem w)}, (∀ e ∈ es, Valid T s (e.at T b) e.v e.l) →
    RefsTo T s (es.map (Elem.at T b)) (es.map (·.v)) := by
  intro es he
  refine ⟨by simp, fun i p v hp hv => ?_⟩
  simp only [List.getElem?_map, Option.map_eq_some_iff] at hp hv
  obtain ⟨e, h1, rfl⟩ := hp
  obtain ⟨e', h2, rfl⟩ := hv
  rw [h1] at h2
  cases h2
  exact ⟨_, he e (List.mem_of_getElem? h1)⟩

theorem entries_snd (es : List (Elem w)) : (es.map Elem.entry).map (·.2) = es.map (·.v) := by simp [Elem.entry]

theorem Packed.sum {a : Nat} (ha : 0 < a) : ∀ {es : List (Elem w)} {cur fin : Nat}, Packed a cur es fin →
    fin = cur + (es.map fun e => ceilDiv e.l.size.toNat a).sum ∧
    ∀ (i : Nat) e, es[i]? = some e → e.off = cur + ((es.take i).map fun e => ceilDiv e.l.size.toNat a).sum
  | [], cur, fin, h => by
    simp only [Packed] at h
    exact ⟨by simp [h], by simp⟩
  | x :: es, cur, fin, h => by
    obtain ⟨ih1, ih2⟩ := Packed.sum ha h.2.2
    rw [units_eq_ceilDiv ha] at ih1 ih2
    refine ⟨by rw [ih1]; simp; omega, ?_⟩
    intro i e he
    cases i with
    | zero => simp at he; subst he; simpa using h.1
    | succ i => rw [ih2 i e (by simpa using he)]; simp; omega

theorem Packed.ordered {a : Nat} (ha : 0 < a) : ∀ {es : List (Elem w)} {cur fin : Nat}, Packed a cur es fin →
    ∀ (i j : Nat) e e', i < j → es[i]? = some e → es[j]? = some e' → e.off * a + e.l.size.toNat ≤ e'.off * a
  | [], _, _, _, i, j, e, e', _, h1, _ => by simp at h1
  | x :: es, cur, fin, h, i, j, e, e', hij, h1, h2 => by
    cases j with
    | zero => omega
    | succ j =>
      have hj : es[j]? = some e' := by simpa using h2
      cases i with
      | zero =>
        simp at h1
        subst h1
        have h3 := (Packed.mem ha h.2.2 e' (List.mem_of_getElem? hj)).1
        have h4 := Nat.mul_le_mul_right a h3
        have h5 := units_mul_ge ha x.l.size.toNat
        rw [Nat.add_mul] at h4
        rw [h.1]
        omega
      | succ i => exact Packed.ordered ha h.2.2 i j e e' (by omega) (by simpa using h1) hj

/-! ## C19 -/

/-- The sequence is the list: `len()` is the number of values, and iterating (`k` calls of `next`, for any `k`) yields references to exactly the first `k` values in order;
after the last one it yields `None`. Iterating changes nothing. -/
theorem C19_seq_is_list (hT : LibType T) (hw : 8 ≤ w) (hh : Hist T chk s q h m t) :
    (Seq.len q).toNat = h.length ∧
    ∀ k, ∃ ps it, Iter.take T k (Seq.iter q) s = .ok (ps, it) s ∧ RefsTo T s ps ((h.map (·.2)).take k) ∧
      (h.length ≤ k → Iter.next T it s = .ok (none, it) s) := by
  obtain ⟨es, i1, rfl, i3, i4⟩ := hh.inv hT.lawful hw
  refine ⟨by rw [List.length_map]; exact i1.len, fun k => ?_⟩
  obtain ⟨it, cur, e, hit⟩ := Iter.take_spec hT.lawful hw k (i1.iterAt hT.lawful)
  refine ⟨_, it, e, ?_, fun hk => ?_⟩
  · have := refsTo_elems (T := T) (s := s) (b := q.ptr) (es := es.take k) fun e he => i1.valid e (List.mem_of_mem_take he)
    rwa [entries_snd, ← List.map_take]
  · rw [List.drop_of_length_le (by simpa using hk)] at hit
    exact Iter.next_nil hit

/-! ## C20 -/

/-- Offsets are stable names: for each value pushed since the last `take_elems`, the value `o` that `offset()` had before its push names it: `from_offset_unchecked(o)` is
a reference to the (current) value, the same one that iteration yields. -/
theorem C20_offset_names_element (hT : LibType T) (hw : 8 ≤ w) (hh : Hist T chk s q h m t) {i : Nat} {o : BitVec w} {v : V} (hi : h[i]? = some (o, v)) :
    ∃ p, Seq.fromOffsetUnchecked T q o s = .ok p s ∧ RefTo T s p v ∧
      ∃ ps it, Iter.take T (i + 1) (Seq.iter q) s = .ok (ps, it) s ∧ ps[i]? = some p := by
  obtain ⟨es, i1, rfl, i3, i4⟩ := hh.inv hT.lawful hw
  simp only [List.getElem?_map, Option.map_eq_some_iff] at hi
  obtain ⟨e, he, hoe⟩ := hi
  simp only [Elem.entry, Prod.mk.injEq] at hoe
  obtain ⟨rfl, rfl⟩ := hoe
  have hm := List.mem_of_getElem? he
  obtain ⟨it, cur, e1, _⟩ := Iter.take_spec hT.lawful hw (i + 1) (i1.iterAt hT.lawful)
  refine ⟨_, Seq.fromOffsetUnchecked_spec hT.lawful i1 hm (i1.elem_off hT.lawful hm).2.1, ⟨_, i1.valid e hm⟩, _, it, e1, ?_⟩
  simp [List.getElem?_map, he]

/-- The offset recorded for a value is `offset()` just before its push, and pushing (which may reallocate) does not change the names of the others. -/
theorem C20_push_keeps_names (hT : LibType T) (hw : 8 ≤ w) (hh : Hist T chk s q h m t) (A : Allocator) {I : Init w} (ha : PushArg T I s q) {s' : St} {q' : SeqS w}
    (e : Seq.push A chk T I (s, q) = .ok () (s', q')) :
    ∃ v, I.val = some v ∧ (∃ p, Seq.fromOffsetUnchecked T q' (Seq.offset q) s' = .ok p s' ∧ RefTo T s' p v) ∧
      ∀ o v', (o, v') ∈ h → ∃ p, Seq.fromOffsetUnchecked T q' o s' = .ok p s' ∧ RefTo T s' p v' := by
  rcases hh.push_cases hT.lawful hw A ha with ⟨v, s2, q2, need, e2, hv, hh2, _⟩ | ⟨msg, s2, q2, e2, _⟩
  · rw [e] at e2
    cases e2
    refine ⟨v, hv, ?_, fun o v' hm => ?_⟩
    · obtain ⟨p, h1, h2, _⟩ := C20_offset_names_element hT hw hh2 (i := h.length) (o := Seq.offset q) (v := v) (by simp)
      exact ⟨p, h1, h2⟩
    · obtain ⟨i, hi⟩ := List.mem_iff_getElem?.1 hm
      obtain ⟨p, h1, h2, _⟩ := C20_offset_names_element hT hw hh2 (i := i) (o := o) (v := v') (by
        rw [List.getElem?_append_left]
        · exact hi
        · exact (List.getElem?_eq_some_iff.1 hi).1)
      exact ⟨p, h1, h2⟩
  · rw [e] at e2
    cases e2

/-! ## C21 -/

/-- Offset accounting. With `ls` the layouts of the elements (as `calculate_layout` reports them): the offset of the `i`-th element is the sum of `⌈size/ALIGN⌉` over the
elements before it; `offset()` is the sum over all and is at most `capacity_in_offsets()`; the byte ranges `[o·ALIGN, o·ALIGN + size)` of the elements are
in push order without overlap. -/
theorem C21_offset_accounting (hT : LibType T) (hw : 8 ≤ w) (hh : Hist T chk s q h m t) :
    ∃ ls : List (Layout w), ls.length = h.length ∧
      (∀ (i : Nat) o v l, h[i]? = some (o, v) → ls[i]? = some l → ∃ p, Seq.fromOffsetUnchecked T q o s = .ok p s ∧ T.calculateLayout p s = .ok l s ∧
        o.toNat = ((ls.take i).map fun l => ceilDiv l.size.toNat T.ALIGN.toNat).sum) ∧
      (Seq.offset q).toNat = (ls.map fun l => ceilDiv l.size.toNat T.ALIGN.toNat).sum ∧
      (Seq.offset q).toNat ≤ (Seq.capacityInOffsets q).toNat ∧
      (∀ (i j : Nat) o v o' v' l, i < j → h[i]? = some (o, v) → h[j]? = some (o', v') → ls[i]? = some l →
        o.toNat * T.ALIGN.toNat + l.size.toNat ≤ o'.toNat * T.ALIGN.toNat) := by
  have hpos := hT.lawful.align_pow2.pos
  obtain ⟨es, i1, rfl, i3, i4⟩ := hh.inv hT.lawful hw
  obtain ⟨p1, p2⟩ := Packed.sum hpos i1.packed
  refine ⟨es.map (·.l), by simp, ?_, ?_, i1.le, ?_⟩
  · intro i o v l ho hl
    simp only [List.getElem?_map, Option.map_eq_some_iff, Elem.entry, Prod.mk.injEq] at ho hl
    obtain ⟨e, he, rfl, rfl⟩ := ho
    obtain ⟨e', he', rfl⟩ := hl
    rw [he] at he'
    cases he'
    have hm := List.mem_of_getElem? he
    have h1 := i1.elem_off hT.lawful hm
    refine ⟨_, Seq.fromOffsetUnchecked_spec hT.lawful i1 hm h1.2.1, hT.lawful.calc_ok _ _ _ _ (i1.valid e hm), ?_⟩
    rw [h1.2.1, p2 i e he, ← List.map_take, List.map_map]
    simp only [Function.comp_def, Nat.zero_add]
  · simp only [Seq.offset, p1, List.map_map, Function.comp_def, Nat.zero_add]
  · intro i j o v o' v' l hij ho ho' hl
    simp only [List.getElem?_map, Option.map_eq_some_iff, Elem.entry, Prod.mk.injEq] at ho ho' hl
    obtain ⟨e, he, rfl, rfl⟩ := ho
    obtain ⟨e2, he2, rfl, rfl⟩ := ho'
    obtain ⟨e', he', rfl⟩ := hl
    rw [he] at he'
    cases he'
    rw [(i1.elem_off hT.lawful (List.mem_of_getElem? he)).2.1, (i1.elem_off hT.lawful (List.mem_of_getElem? he2)).2.1]
    exact Packed.ordered hpos i1.packed i j e e2 hij he he2

/-! ## C22 -/

/-- Checked indexing accepts every element: in an `IndexableSeq`, `is_offset_valid` is true at the offset of every current element and `from_offset` returns a reference
to it, after any history (including `take_elems` and reuse). -/
theorem C22_elements_are_valid (hT : LibType T) (hw : 8 ≤ w) (hh : Hist T true s q h m t) {o : BitVec w} {v : V} (hm : (o, v) ∈ h) :
    Seq.isOffsetValid T q o s = .ok true s ∧ ∃ p, Seq.fromOffset T q o s = .ok p s ∧ RefTo T s p v := by
  obtain ⟨es, i1, rfl, i3, i4⟩ := hh.inv hT.lawful hw
  obtain ⟨e, he, hoe⟩ := List.mem_map.1 hm
  simp only [Elem.entry, Prod.mk.injEq] at hoe
  obtain ⟨rfl, rfl⟩ := hoe
  have h1 := (i1.elem_off hT.lawful he).2.1
  have h2 := Seq.isOffsetValid_elem hT.lawful hw i1 he h1
  refine ⟨h2, _, ?_, ⟨_, i1.valid e he⟩⟩
  simp only [Seq.fromOffset, bind_apply, h2, Res.bind_ok, if_true]
  exact Seq.fromOffsetUnchecked_spec hT.lawful i1 he h1

/-! ## C25 -/

/-- Growth policy: a push that fits (`offset() + ⌈size/ALIGN⌉ ≤ capacity`) neither moves nor grows the storage. One that does not fit grows the capacity to
`max(needed, ⌈32/ALIGN⌉, 2·capacity)` offsets, in a fresh allocation, moving the old storage once. -/
theorem C25_growth_policy (hT : LibType T) (hw : 8 ≤ w) (hh : Hist T chk s q h m t) (A : Allocator) {I : Init w} (ha : PushArg T I s q) {s' : St} {q' : SeqS w}
    (e : Seq.push A chk T I (s, q) = .ok () (s', q')) :
    ∃ l, I.cautious s = .ok (some l) s ∧
      (Seq.offset q').toNat = (Seq.offset q).toNat + ceilDiv l.size.toNat T.ALIGN.toNat ∧
      ((Seq.offset q').toNat ≤ (Seq.capacityInOffsets q).toNat →
        Seq.capacityInOffsets q' = Seq.capacityInOffsets q ∧ q'.ptr = q.ptr ∧ s'.copied = s.copied) ∧
      ((Seq.capacityInOffsets q).toNat < (Seq.offset q').toNat →
        (Seq.capacityInOffsets q').toNat = max (max (Seq.offset q').toNat (ceilDiv 32 T.ALIGN.toNat)) (2 * (Seq.capacityInOffsets q).toNat) ∧
        s.blk q'.ptr.blk = none ∧
        s'.copied = s.copied + (Seq.capacityInOffsets q).toNat * T.ALIGN.toNat + if chk then ceilDiv (Seq.capacityInOffsets q).toNat 8 else 0) := by
  obtain ⟨es, i1, rfl, i3, i4⟩ := hh.inv hT.lawful hw
  have hpos := hT.lawful.align_pow2.pos
  rcases Seq.push_spec hT.lawful hw A i1 ha.lawful ha.pre ha.apart ha.nonzero with ⟨s0, e', hd, hn⟩ | ⟨l, hl, ⟨v', hv', s'', q'', e', k1, k2, k3, k4⟩ | ⟨hv', m', s'', q'', e', k⟩⟩
  · rw [e'] at e; cases e
  · rw [e'] at e
    cases e
    refine ⟨l, ha.lawful.calc_some ha.pre hl, by simp only [Seq.offset, k3, units_eq_ceilDiv hpos], ?_⟩
    have hcap := k2.cap
    have hcp := k2.copied
    simp only [Seq.offset, Seq.capacityInOffsets]
    rw [← k3] at hcap hcp k2
    refine ⟨fun hle => ?_, fun hgt => ?_⟩
    · rw [if_pos hle] at hcap hcp
      exact ⟨BitVec.eq_of_toNat_eq hcap, k2.ptr hle, by simpa using hcp⟩
    · have hle : ¬ q'.occ.toNat ≤ q.cap.toNat := by omega
      rw [if_neg hle] at hcap hcp
      refine ⟨?_, k2.fresh hle, ?_⟩
      · rw [hcap]; rfl
      · rw [hcp]
        simp only [storageSize, bitmaskBytes, ceilDiv]
        cases chk <;> simp <;> omega
  · rw [e'] at e; cases e

/-- Amortised constant cost: over the whole history, all reallocations together have moved fewer bytes than the current capacity in bytes (for checked indexing counting one
more byte per offset, for the bitmask), or none. -/
theorem C25_amortised (hT : LibType T) (hw : 8 ≤ w) (hh : Hist T chk s q h m t) :
    m = 0 ∨ m < (Seq.capacityInOffsets q).toNat * (T.ALIGN.toNat + if chk then 1 else 0) := by
  obtain ⟨es, i1, rfl, i3, i4⟩ := hh.inv hT.lawful hw
  rcases i4 with ⟨_, h⟩ | h
  · exact .inl h
  · exact .inr h

/-! ## C26 -/

/-- A push that panics although its initializer's `initialize` would not (size overflow, allocation failure, or a panic of `calculate_layout_cautious`) has left the sequence as it was, and all that has happened to memory is that
the initializer was dropped: the values it holds are destroyed, the boxes it owns freed, and no other block has changed; in particular not the storage of the sequence. -/
theorem C26_failed_push (hT : LibType T) (hw : 8 ≤ w) (hh : Hist T chk s q h m t) (A : Allocator) {I : Init w} (ha : PushArg T I s q) {v : V} (hv : I.val = some v)
    {msg : PanicMsg} {s' : St} {q' : SeqS w} (e : Seq.push A chk T I (s, q) = .panic msg (s', q')) : q' = q ∧ s'.blk q.ptr.blk = s.blk q.ptr.blk ∧ Dropped I s s' ∧
    (msg = .layoutOverflow ∨ I.cautious s = .panic msg s) := by
  obtain ⟨es, i1, rfl, i3, i4⟩ := hh.inv hT.lawful hw
  rcases Seq.push_spec hT.lawful hw A i1 ha.lawful ha.pre ha.apart ha.nonzero with ⟨s0, e', hd, hn⟩ | ⟨l, hl, ⟨v', hv', s'', q'', e', k1, k2, k3, k4⟩ | ⟨hv', m', s'', q'', e', k⟩⟩
  · rw [e'] at e
    cases e
    refine ⟨rfl, hd.frame _ fun h => ha.apart (ha.lawful.mods_fp _ h), hd, ?_⟩
    cases hb : I.bad with
    | true => exact .inr (ha.lawful.calc_panic s ha.pre hb)
    | false => exact .inl rfl
  · rw [e'] at e; cases e
  · rw [hv] at hv'; cases hv'

/-- A push only fails for lack of space: if the element fits in the current capacity, the push does not fail (unless the initializer itself panics). -/
theorem C26_fitting_push_succeeds (hT : LibType T) (hw : 8 ≤ w) (hh : Hist T chk s q h m t) (A : Allocator) {I : Init w} (ha : PushArg T I s q) {v : V}
    (hv : I.val = some v) {l : Layout w} (hl : I.cautious s = .ok (some l) s)
    (hfit : (Seq.offset q).toNat + ceilDiv l.size.toNat T.ALIGN.toNat ≤ (Seq.capacityInOffsets q).toNat) :
    ∃ s' q', Seq.push A chk T I (s, q) = .ok () (s', q') := by
  obtain ⟨es, i1, rfl, i3, i4⟩ := hh.inv hT.lawful hw
  have hc := (ha.lawful.of_cautious ha.pre hl).1
  rcases Seq.push_spec hT.lawful hw A i1 ha.lawful ha.pre ha.apart ha.nonzero with ⟨s0, e', hd, hn⟩ | ⟨l, hl, ⟨v', hv', s'', q'', e', k1, k2, k3, k4⟩ | ⟨hv', m', s'', q'', e', k⟩⟩
  · have := hn l hc
    rw [units_eq_ceilDiv hT.lawful.align_pow2.pos] at this
    simp only [Seq.offset, Seq.capacityInOffsets] at hfit
    omega
  · exact ⟨s'', q'', e'⟩
  · rw [hv] at hv'; cases hv'

/-! ## C29 -/

/-- Dropping the sequence runs the destructors of exactly its current values, once each, in order; its storage is freed (with the layout it was allocated with, or the model
would report undefined behaviour); no other memory changes. -/
theorem C29_drop (hT : LibType T) (hw : 8 ≤ w) (hh : Hist T chk s q h m t) :
    ∃ s' q', Seq.drop chk T (s, q) = .ok () (s', q') ∧ s'.log = s.log ++ h.flatMap (fun e => T.drops e.2) ∧
      (∀ b, b ≠ q.ptr.blk → s'.blk b = s.blk b) ∧ (Seq.capacityInOffsets q ≠ 0 → ∃ B, s'.blk q.ptr.blk = some B ∧ B.live = false) := by
  obtain ⟨es, i1, rfl, i3, i4⟩ := hh.inv hT.lawful hw
  obtain ⟨s', q', e, h1, _, h2, h3⟩ := Seq.drop_spec hT.lawful hw i1
  refine ⟨s', q', e, ?_, h2, fun hc => h3 ?_⟩
  · rw [h1, List.flatMap_map]
    rfl
  · intro h0
    exact hc (BitVec.eq_of_toNat_eq (by simp only [Seq.capacityInOffsets]; simpa using h0))

/-! ## C27 -/

/-- A panicking push leaves the sequence usable: the history continues with the same values at the same offsets, `len()` and `offset()` are unchanged; the destructors that
ran are those of values still held by the initializer (`lost` if the initializer's own code panicked, everything it holds if the push was refused), boxes owned by the
initializer are freed; and dropping the sequence then runs each value's destructor once. -/
theorem C27_panicking_initializer (hT : LibType T) (hw : 8 ≤ w) (hh : Hist T chk s q h m t) (A : Allocator) {I : Init w} (ha : PushArg T I s q)
    {msg : PanicMsg} {s' : St} {q' : SeqS w} (e : Seq.push A chk T I (s, q) = .panic msg (s', q')) :
    (∃ m', Hist T chk s' q' h m' t) ∧ Seq.len q' = Seq.len q ∧ Seq.offset q' = Seq.offset q ∧ ((q' = q ∧ Dropped I s s') ∨ (I.val = none ∧ s'.log = s.log ++ I.lost)) ∧
    (∀ b, I.owns b → ∃ B, s'.blk b = some B ∧ B.live = false) ∧
    (∀ b B, s.blk b = some B → b ≠ q.ptr.blk → ¬ I.mods b → s'.blk b = some B) ∧
    ∃ s'' q'', Seq.drop chk T (s', q') = .ok () (s'', q'') ∧ s''.log = s'.log ++ h.flatMap (fun e => T.drops e.2) := by
  have hh' := hh.pushPanic A ha e
  obtain ⟨s'', q'', d1, d2, _⟩ := C29_drop hT hw hh'
  refine ⟨⟨_, hh'⟩, ?_⟩
  obtain ⟨es, i1, rfl, i3, i4⟩ := hh.inv hT.lawful hw
  rcases Seq.push_spec hT.lawful hw A i1 ha.lawful ha.pre ha.apart ha.nonzero with
    ⟨s0, e', hd, hn⟩ | ⟨l, hl, ⟨v', hv', s'', q'', e', k1, k2, k3, k4⟩ | ⟨hv', m', s'', q'', e', k1, k2, k3, k4, k5⟩⟩
  · rw [e'] at e
    cases e
    exact ⟨rfl, rfl, .inl ⟨rfl, hd⟩, hd.freed, fun b B hB _ ho => by rw [hd.frame b ho, hB], s'', q'', d1, d2⟩
  · rw [e'] at e; cases e
  · rw [e'] at e
    cases e
    exact ⟨k3, k2, .inr ⟨hv', k4.log⟩, k5, k4.frame, _, _, d1, d2⟩

/-! ## C28 -/

/-- `take_elems` drains. The call empties the sequence (same capacity) and returns an iterator over all values: `k` calls of `next` yield references to the first `k`
values. Then let the caller drop some of these owned values (`before`) in any order, drop the iterator, and drop some more (`after`): everything is
defined, the sequence is an ordinary empty sequence of the same capacity afterwards. If all items obtained were dropped (none leaked), each value's
destructor has run exactly once; if they were dropped in order before the iterator, in order. -/
theorem C28_drain (hT : LibType T) (hw : 8 ≤ w) (hh : Hist T chk s q h m t) (k : Nat) :
    ∃ it q1, Seq.takeElems chk T (s, q) = .ok it (s, q1) ∧ Seq.len q1 = 0 ∧ Seq.offset q1 = 0 ∧ Seq.capacityInOffsets q1 = Seq.capacityInOffsets q ∧
    ∃ ps it', Iter.take T k it s = .ok (ps, it') s ∧ RefsTo T s ps ((h.map (·.2)).take k) ∧
    ∀ before after rest : List Ptr, (before ++ after ++ rest).Perm ps →
      ∃ s3 s4 s5, dropEach T before s = .ok () s3 ∧ OwnedElems.drop T it' s3 = .ok () s4 ∧ dropEach T after s4 = .ok () s5 ∧
        Hist T chk s5 q1 [] m true ∧ (∀ b, b ≠ q.ptr.blk → s5.blk b = s.blk b) ∧
        (rest = [] → s5.log.Perm (s.log ++ h.flatMap fun e => T.drops e.2)) ∧
        (before = ps → s5.log = s.log ++ h.flatMap fun e => T.drops e.2) := by
  obtain ⟨es, i1, hes, i3, i4⟩ := hh.inv hT.lawful hw
  have hvs : h.map (·.2) = es.map (·.v) := by rw [← hes, entries_snd]
  have hte := Seq.takeElems_spec (T := T) (chk := chk) hw s q
  obtain ⟨it', cur', e1, hit⟩ := Iter.take_spec hT.lawful hw k (i1.iterAt hT.lawful)
  refine ⟨_, _, hte, rfl, rfl, rfl, _, it', e1, ?_, ?_⟩
  · have := refsTo_elems (T := T) (s := s) (b := q.ptr) (es := es.take k) fun e he => i1.valid e (List.mem_of_mem_take he)
    rwa [hvs, ← List.map_take]
  · intro before after rest hperm
    obtain ⟨L', hL, hmap⟩ := Perm.of_map hperm _ rfl
    obtain ⟨L1, zs, rfl, hm1, hz⟩ := List.append_eq_map_iff.1 hmap
    obtain ⟨xs, ys, rfl, hx, hy⟩ := List.append_eq_map_iff.1 hm1.symm
    obtain ⟨_, it1, f1, s1', s2', s3', f2, f3, f4, f5, f6, f7, f8⟩ := Seq.drain_spec hT.lawful hw i1 k hL
    rw [e1] at f1
    cases f1
    rw [hx] at f2
    rw [hy] at f4
    have hdr : h.flatMap (fun e => T.drops e.2) = es.flatMap (fun e => T.drops e.v) := by
      rw [← hes, List.flatMap_map]; rfl
    refine ⟨s1', s2', s3', f2, f3, f4, hh.drain k hte e1 hperm f2 f3 f4, fun b hb => f7.blk_eq (fun h => h) hb, ?_, ?_⟩
    · intro hr
      rw [f5, hdr]
      refine List.Perm.append_left _ (List.Perm.flatMap_right _ ?_)
      have hz0 : zs = [] := by
        rw [hr] at hz
        simpa using hz
      subst hz0
      rw [List.append_nil] at hL
      have h1 : (xs ++ es.drop k ++ ys).Perm (xs ++ ys ++ es.drop k) := by
        rw [List.append_assoc, List.append_assoc]
        exact List.Perm.append_left _ List.perm_append_comm
      refine h1.trans ((List.Perm.append_right _ hL).trans ?_)
      rw [List.take_append_drop]
    · intro hbp
      rw [f5, hdr]
      have hlen := hperm.length_eq
      rw [hbp] at hlen
      have hy0 : ys = [] := by
        have : after.length = 0 := by simp only [List.length_append] at hlen; omega
        rw [← hy] at this
        simpa using this
      subst hy0
      have hinj : xs = es.take k := by
        rw [hbp] at hx
        have hsub : ∀ e ∈ xs, e ∈ es := fun e he => List.mem_of_mem_take ((hL.mem_iff).1 (by simp [he]))
        have hoff : ∀ (A B : List (Elem w)), (∀ e ∈ A, e ∈ es) → (∀ e ∈ B, e ∈ es) → A.map (Elem.at T q.ptr) = B.map (Elem.at T q.ptr) → A = B := by
          intro A
          induction A with
          | nil => intro B _ _ h; cases B <;> simp at h ⊢
          | cons a A ih =>
            intro B hA hB h
            cases B with
            | nil => simp at h
            | cons b B =>
              simp only [List.map_cons, List.cons.injEq] at h
              have hab : a = b := by
                have ha := hA a (by simp)
                have hb := hB b (by simp)
                have h1 : a.off * T.ALIGN.toNat = b.off * T.ALIGN.toNat := by
                  have := congrArg Ptr.off h.1
                  simp only [Elem.at, Ptr.add] at this
                  omega
                have h2 : a.off = b.off := Nat.eq_of_mul_eq_mul_right hT.lawful.align_pow2.pos h1
                obtain ⟨i, hi⟩ := List.mem_iff_getElem?.1 ha
                obtain ⟨j, hj⟩ := List.mem_iff_getElem?.1 hb
                rcases Nat.lt_trichotomy i j with hlt | rfl | hlt
                · have := Packed.ordered hT.lawful.align_pow2.pos i1.packed i j a b hlt hi hj
                  have hp := (Packed.mem hT.lawful.align_pow2.pos i1.packed a ha).2.2
                  rw [h2] at this; omega
                · rw [hi] at hj; cases hj; rfl
                · have := Packed.ordered hT.lawful.align_pow2.pos i1.packed j i b a hlt hj hi
                  have hp := (Packed.mem hT.lawful.align_pow2.pos i1.packed b hb).2.2
                  rw [h2] at this; omega
              rw [hab, ih B (fun e he => hA e (by simp [he])) (fun e he => hB e (by simp [he])) h.2]
        exact hoff _ _ hsub (fun e he => List.mem_of_mem_take he) hx
      rw [hinj]
      simp

/-- `take_elems().count()`, after `k` calls of `next`: it returns the number of values not yet yielded and runs their destructors, each once and in order; the items obtained before are intact, the sequence is an ordinary
empty one. -/
theorem C31_owned_count (hT : LibType T) (hw : 8 ≤ w) (hh : Hist T chk s q h m t) (k : Nat) :
    ∃ it q1 ps it', Seq.takeElems chk T (s, q) = .ok it (s, q1) ∧ Iter.take T k it s = .ok (ps, it') s ∧
      ∃ n s', OwnedElems.count T it' s = .ok n s' ∧ n.toNat = h.length - k ∧ s'.log = s.log ++ (h.drop k).flatMap (fun e => T.drops e.2) ∧
        RefsTo T s' ps ((h.map (·.2)).take k) ∧ (∀ b, b ≠ q.ptr.blk → s'.blk b = s.blk b) ∧ Hist T chk s' q1 [] m true := by
  obtain ⟨es, i1, hes, i3, i4⟩ := hh.inv hT.lawful hw
  have hpos := hT.lawful.align_pow2.pos
  have hte := Seq.takeElems_spec (T := T) (chk := chk) hw s q
  obtain ⟨it', cur', e1, hit⟩ := Iter.take_spec hT.lawful hw k (i1.iterAt hT.lawful)
  obtain ⟨s2, f2, t2, l2, c2, k2⟩ := OwnedElems.drop_spec hT.lawful hw hit
  have hpw := Packed.pairwise hpos i1.packed
  rw [← List.take_append_drop k es, List.pairwise_append] at hpw
  have hvs : h.map (·.2) = es.map (·.v) := by rw [← hes, entries_snd]
  have hlen : h.length = es.length := by simpa using congrArg List.length hvs
  refine ⟨_, _, _, it', hte, e1, it'.len, s2, ?_, ?_, ?_, ?_, fun b hb => t2.blk_eq (fun h => h) hb, ?_⟩
  · simp [OwnedElems.count, bind_apply, f2, pure_apply]
  · rw [hit.len, List.length_drop, hlen]
  · rw [l2, ← hes]
    congr 1
    rw [← List.map_drop, List.flatMap_map]; rfl
  · rw [hvs, ← List.map_take]
    exact refsTo_elems (T := T) (s := s2) (b := q.ptr) (es := es.take k) fun e he =>
      k2 e (fun x hx => hpw.2.2 e he x hx) (i1.valid e (List.mem_of_mem_take he))
  · exact hh.drain k hte e1 (before := []) (after := []) (rest := (es.take k).map (Elem.at T q.ptr)) (by simp) rfl f2 rfl

end Varlen
