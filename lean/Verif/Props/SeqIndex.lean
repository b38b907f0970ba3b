import Verif.Props.Seq
/-! # C23, C24, C30–C34, C44, C47, C48: iterators, checked indexing, definedness -/
namespace Varlen
variable {w : Nat} {T : VarLen w} {chk : Bool} {s : St} {q : SeqS w} {h : List (BitVec w × V)} {m : Nat} {t : Bool}

/-- The element at offset `o`. -/
def SeqS.ptrAt (T : VarLen w) (q : SeqS w) (o : BitVec w) : Ptr := q.ptr.add (o.toNat * T.ALIGN.toNat)

theorem SeqInv.ptrs (hT : Lawful T) {es : List (Elem w)} (i1 : SeqInv T chk s q es) :
    es.map (Elem.at T q.ptr) = (es.map Elem.entry).map fun x => q.ptrAt T x.1 := by
  rw [List.map_map]
  refine List.map_congr_left fun e he => ?_
  simp only [Elem.at, Function.comp_apply, SeqS.ptrAt, Elem.entry, (i1.elem_off hT he).2.1]

/-- The addresses that iteration yields. -/
theorem Hist.iter (hT : LibType T) (hw : 8 ≤ w) (hh : Hist T chk s q h m t) (k : Nat) :
    ∃ it, Iter.take T k (Seq.iter q) s = .ok ((h.take k).map (fun x => q.ptrAt T x.1), it) s := by
  obtain ⟨es, i1, rfl, i3, i4⟩ := hh.inv hT.lawful hw
  obtain ⟨it, cur, e, hit⟩ := Iter.take_spec hT.lawful hw k (i1.iterAt hT.lawful)
  refine ⟨it, ?_⟩
  rw [e, List.map_take, i1.ptrs hT.lawful, List.map_take]

/-! ## C23, C24 -/

/-- Checked indexing, for histories without `take_elems`: `is_offset_valid(o)` is true exactly if some current element starts at `o`, for every `o`. (Missing: histories with
`take_elems`, where the claim is false, see `C23_stale_offset_accepted`.) -/
theorem C23_only_elements_are_valid_partial (hT : LibType T) (hw : 8 ≤ w) (hh : Hist T true s q h m false) (o : BitVec w) :
    ∃ b, Seq.isOffsetValid T q o s = .ok b s ∧ (b = true ↔ ∃ v, (o, v) ∈ h) := by
  obtain ⟨es, i1, rfl, i3, i4⟩ := hh.inv hT.lawful hw
  rcases Seq.fromOffset_spec hT.lawful hw i1 (i3 rfl) o with ⟨e, he, ho, h1, _⟩ | ⟨hn, h1, _⟩
  · refine ⟨true, h1, ⟨fun _ => ⟨e.v, List.mem_map.2 ⟨e, he, ?_⟩⟩, fun _ => rfl⟩⟩
    simp only [Elem.entry, ho, bv_ofNat_toNat]
  · refine ⟨false, h1, ⟨fun h => (by cases h), ?_⟩⟩
    rintro ⟨v, hv⟩
    obtain ⟨e, he, hee⟩ := List.mem_map.1 hv
    simp only [Elem.entry, Prod.mk.injEq] at hee
    refine absurd ?_ (hn e he)
    rw [← hee.1, (i1.elem_off hT.lawful he).2.1]

/-- `from_offset` is safe, for histories without `take_elems`: for every `o` it either returns a reference to the current element at `o`, or panics, changing nothing.
(Missing: histories with `take_elems`, where the claim is false, see `C24_from_offset_undefined`.) -/
theorem C24_from_offset_safe_partial (hT : LibType T) (hw : 8 ≤ w) (hh : Hist T true s q h m false) (o : BitVec w) :
    (∃ p v, Seq.fromOffset T q o s = .ok p s ∧ (o, v) ∈ h ∧ RefTo T s p v) ∨
    (Seq.fromOffset T q o s = .panic .invalidOffset s ∧ ∀ v, (o, v) ∉ h) := by
  obtain ⟨es, i1, rfl, i3, i4⟩ := hh.inv hT.lawful hw
  rcases Seq.fromOffset_spec hT.lawful hw i1 (i3 rfl) o with ⟨e, he, ho, _, h1⟩ | ⟨hn, _, h1⟩
  · refine .inl ⟨_, e.v, h1, List.mem_map.2 ⟨e, he, ?_⟩, ⟨_, i1.valid e he⟩⟩
    simp only [Elem.entry, ho, bv_ofNat_toNat]
  · refine .inr ⟨h1, ?_⟩
    intro v hv
    obtain ⟨e, he, hee⟩ := List.mem_map.1 hv
    simp only [Elem.entry, Prod.mk.injEq] at hee
    refine absurd ?_ (hn e he)
    rw [← hee.1, (i1.elem_off hT.lawful he).2.1]

/-- What checked indexing does after every history, with or without `take_elems`: `is_offset_valid(o)` is true exactly if `o < offset()` and some push ever started
to write an element at `o`, be it one that `take_elems` has removed since (that is the bug: only current elements should count). -/
theorem C23_valid_iff_ever_pushed (hT : LibType T) (hw : 8 ≤ w) {U : List (BitVec w)} (hh : HistU T true s q h m t U) (o : BitVec w) :
    ∃ b, Seq.isOffsetValid T q o s = .ok b s ∧ (b = true ↔ o.toNat < (Seq.offset q).toNat ∧ o ∈ U) := by
  obtain ⟨es, ⟨i1, i2, i3, i4⟩, i5⟩ := hh.inv hT.lawful hw
  refine ⟨_, Seq.isOffsetValid_spec hT.lawful hw i1 o, ?_⟩
  have hle := i1.le
  simp only [Bool.and_eq_true, decide_eq_true_eq, Seq.offset]
  refine ⟨fun ⟨h1, h2⟩ => ⟨h1, ?_⟩, fun ⟨h1, h2⟩ => ⟨h1, ?_⟩⟩
  · obtain ⟨o', h3, h4⟩ := (i5.bits rfl _ (bit_div_lt (by omega))).1 h2
    rwa [BitVec.eq_of_toNat_eq h4] at h3
  · exact (i5.bits rfl _ (bit_div_lt (by omega))).2 ⟨o, h2, rfl⟩

/-- In particular the answer for a current element is always `true`, and (since the offsets of current elements are offsets of pushes) every wrong answer is "valid" for an
offset of a removed element. -/
theorem C23_elements_always_valid (hT : LibType T) (hw : 8 ≤ w) (hh : Hist T true s q h m t) {o : BitVec w} {v : V} (hm : (o, v) ∈ h) :
    Seq.isOffsetValid T q o s = .ok true s := by
  obtain ⟨es, i1, rfl, i3, i4⟩ := hh.inv hT.lawful hw
  obtain ⟨e, he, hee⟩ := List.mem_map.1 hm
  simp only [Elem.entry, Prod.mk.injEq] at hee
  exact Seq.isOffsetValid_elem hT.lawful hw i1 he (by rw [← hee.1, (i1.elem_off hT.lawful he).2.1])

/-- `from_offset` after every history: it returns a reference to the current element at `o` if there is one; it panics, changing nothing, if `o` was never the offset of
a push or is not below `offset()`. Only for the offset of an element that was removed by `take_elems` (below the current `offset()`, and not the start of a current element)
does it do anything else. -/
theorem C24_from_offset_any_history (hT : LibType T) (hw : 8 ≤ w) {U : List (BitVec w)} (hh : HistU T true s q h m t U) (o : BitVec w) :
    (∀ v, (o, v) ∈ h → ∃ p, Seq.fromOffset T q o s = .ok p s ∧ RefTo T s p v) ∧
    (¬ (o.toNat < (Seq.offset q).toNat ∧ o ∈ U) → Seq.fromOffset T q o s = .panic .invalidOffset s) := by
  refine ⟨fun v hm => ?_, fun hn => ?_⟩
  · have hv := C23_elements_always_valid hT hw ⟨U, hh⟩ hm
    obtain ⟨es, ⟨i1, rfl, i3, i4⟩, i5⟩ := hh.inv hT.lawful hw
    obtain ⟨e, he, hee⟩ := List.mem_map.1 hm
    simp only [Elem.entry, Prod.mk.injEq] at hee
    obtain ⟨rfl, rfl⟩ := hee
    refine ⟨_, ?_, _, i1.valid e he⟩
    simp only [Seq.fromOffset, bind_apply, hv, Res.bind_ok]
    exact Seq.fromOffsetUnchecked_spec hT.lawful i1 he (i1.elem_off hT.lawful he).2.1
  · obtain ⟨b, e, hb⟩ := C23_valid_iff_ever_pushed hT hw hh o
    have : b = false := Bool.eq_false_iff.2 fun h => hn (hb.1 h)
    subst this
    simp only [Seq.fromOffset, bind_apply, e, Res.bind_ok]
    rfl

/-! ## C30 -/

/-- `iter_mut` yields each element once, in order, as references to disjoint byte ranges. Modifying one element through its reference (changing only its own bytes and keeping
its layout) gives the history in which exactly that value is replaced: every other reference still refers to its old value. -/
theorem C30_iter_mut (hT : LibType T) (hw : 8 ≤ w) (hh : Hist T chk s q h m t) :
    ∃ ps it, Iter.take T h.length (Seq.iter q) s = .ok (ps, it) s ∧ RefsTo T s ps (h.map (·.2)) ∧
      (∀ (i j : Nat) p p' l, i < j → ps[i]? = some p → ps[j]? = some p' → T.calculateLayout p s = .ok l s → p.blk = p'.blk ∧ p.off + l.size.toNat ≤ p'.off) ∧
      (∀ (i : Nat) p o v v' l s', ps[i]? = some p → h[i]? = some (o, v) → T.calculateLayout p s = .ok l s → Touch s s' p l.size.toNat (fun _ => False) →
        T.Rep v' l (viewAt s' p) → Hist T chk s' q (h.set i (o, v')) m t ∧ RefsTo T s' ps ((h.map (·.2)).set i v')) := by
  obtain ⟨it, e⟩ := hh.iter hT hw h.length
  rw [List.take_length] at e
  have refs : ∀ {s' : St} {h' : List (BitVec w × V)}, Hist T chk s' q h' m t → RefsTo T s' (h'.map fun x => q.ptrAt T x.1) (h'.map (·.2)) := by
    intro s' h' hh'
    obtain ⟨es, i1, rfl, _⟩ := hh'.inv hT.lawful hw
    rw [← i1.ptrs hT.lawful, entries_snd]
    exact refsTo_elems i1.valid
  refine ⟨_, it, e, refs hh, ?_, ?_⟩
  · intro i j p p' l hij hp hp' hl
    simp only [List.getElem?_map, Option.map_eq_some_iff] at hp hp'
    obtain ⟨⟨o, v⟩, ho, rfl⟩ := hp
    obtain ⟨⟨o', v'⟩, ho', rfl⟩ := hp'
    refine ⟨rfl, ?_⟩
    obtain ⟨ls, hlen, h1, _, _, h2⟩ := C21_offset_accounting hT hw hh
    have hi : i < ls.length := by rw [hlen]; exact (List.getElem?_eq_some_iff.1 ho).1
    obtain ⟨p, hp1, hp2, _⟩ := h1 i o v _ ho (List.getElem?_eq_getElem hi)
    have hpp : p = q.ptrAt T o := by
      obtain ⟨es, i1, rfl, _⟩ := hh.inv hT.lawful hw
      simp only [List.getElem?_map, Option.map_eq_some_iff, Elem.entry, Prod.mk.injEq] at ho
      obtain ⟨e, he, rfl, rfl⟩ := ho
      have hm := List.mem_of_getElem? he
      rw [Seq.fromOffsetUnchecked_spec hT.lawful i1 hm (i1.elem_off hT.lawful hm).2.1] at hp1
      cases hp1
      simp only [Elem.at, SeqS.ptrAt, (i1.elem_off hT.lawful hm).2.1]
    rw [hpp] at hp2
    simp only at hl
    rw [hl] at hp2
    injection hp2 with hp2
    have := h2 i j o v o' v' _ hij ho ho' (List.getElem?_eq_getElem hi)
    rw [← hp2] at this
    simp only [SeqS.ptrAt, Ptr.add]
    omega
  · intro i p o v v' l s' hp ho hl ht hr
    simp only [List.getElem?_map, ho, Option.map_some, Option.some.injEq] at hp
    subst hp
    have hi := (List.getElem?_eq_some_iff.1 ho).1
    have hget := (List.getElem?_eq_some_iff.1 ho).2
    have hsplit : h = h.take i ++ (o, v) :: h.drop (i + 1) := by
      rw [← hget, List.getElem_cons_drop, List.take_append_drop]
    have hset : h.set i (o, v') = h.take i ++ (o, v') :: h.drop (i + 1) := by
      rw [List.set_eq_take_append_cons_drop, if_pos hi]
    have hfrom : Seq.fromOffsetUnchecked T q o s = .ok (q.ptrAt T o) s := by
      obtain ⟨es, i1, rfl, _⟩ := hh.inv hT.lawful hw
      simp only [List.getElem?_map, Option.map_eq_some_iff, Elem.entry, Prod.mk.injEq] at ho
      obtain ⟨e, he, rfl, rfl⟩ := ho
      have hm := List.mem_of_getElem? he
      rw [Seq.fromOffsetUnchecked_spec hT.lawful i1 hm (i1.elem_off hT.lawful hm).2.1]
      simp only [Elem.at, SeqS.ptrAt, (i1.elem_off hT.lawful hm).2.1]
    have hh' : Hist T chk s' q (h.set i (o, v')) m t := by
      rw [hset]
      rw [hsplit] at hh
      exact hh.modify hfrom hl ht hr
    refine ⟨hh', ?_⟩
    have := refs hh'
    rw [List.map_set, List.map_set] at this
    simp only at this
    have hsame : (h.map fun x => q.ptrAt T x.1).set i (q.ptrAt T o) = h.map fun x => q.ptrAt T x.1 := by
      apply List.ext_getElem?
      intro j
      by_cases hj : i = j
      · subst hj
        simp [hi, hget]
      · simp [hj]
    rwa [hsame] at this

/-! ## C31 -/

theorem Packed.take {a cur fin : Nat} (ha : 0 < a) {es : List (Elem w)} (hp : Packed a cur es fin) (n : Nat) : ∃ mid, mid ≤ fin ∧ Packed a cur (es.take n) mid := by
  rw [← List.take_append_drop n es] at hp
  obtain ⟨mid, h1, h2⟩ := hp.split
  refine ⟨mid, ?_, h1⟩
  have := Packed.length_le ha h2
  omega

/-- Iterator bookkeeping: after `k` calls of `next`, `size_hint()`, `count()` and `len()` are exactly the number of values still to come; `limited_to(n)` yields exactly
the first `min(n, remaining)` of them (its own `len()` says so), then `None`. -/
theorem C31_iterator_counts (hT : LibType T) (hw : 8 ≤ w) (hh : Hist T chk s q h m t) (k : Nat) :
    ∃ ps it, Iter.take T k (Seq.iter q) s = .ok (ps, it) s ∧
      (∃ n, Iter.sizeHint it = (n, some n) ∧ Iter.count it = n ∧ Iter.len it = n ∧ n.toNat = h.length - k) ∧
      ∀ n : BitVec w, (Iter.len (Iter.limitedTo it n)).toNat = min n.toNat (h.length - k) ∧
        ∀ j, ∃ ps' it', Iter.take T j (Iter.limitedTo it n) s = .ok (ps', it') s ∧ RefsTo T s ps' ((((h.map (·.2)).drop k).take n.toNat).take j) ∧
          (min n.toNat (h.length - k) ≤ j → Iter.next T it' s = .ok (none, it') s) := by
  obtain ⟨es, i1, rfl, i3, i4⟩ := hh.inv hT.lawful hw
  obtain ⟨it, cur, e, hit⟩ := Iter.take_spec hT.lawful hw k (i1.iterAt hT.lawful)
  have hlen : it.len.toNat = es.length - k := by rw [hit.len, List.length_drop]
  refine ⟨_, it, e, ⟨it.len, rfl, rfl, rfl, by simpa using hlen⟩, fun n => ?_⟩
  have hll : (Iter.limitedTo it n).len.toNat = min n.toNat (es.length - k) := by
    simp only [Iter.limitedTo]
    split <;> omega
  refine ⟨by simpa [Iter.len] using hll, fun j => ?_⟩
  obtain ⟨mid, hmid, hpk⟩ := hit.packed.take hT.lawful.align_pow2.pos n.toNat
  have hlim : IterAt T s q.ptr (Iter.limitedTo it n) cur ((es.drop k).take n.toNat) mid := by
    refine ⟨hit.ptr, ?_, hpk, fun e he => hit.valid e (List.mem_of_mem_take he), ?_⟩
    · rw [hll, List.length_take, List.length_drop]
    · have := Nat.mul_le_mul_right T.ALIGN.toNat hmid
      have := hit.fits
      omega
  obtain ⟨it', cur', e', hit'⟩ := Iter.take_spec hT.lawful hw j hlim
  refine ⟨_, it', e', ?_, fun hj => ?_⟩
  · rw [entries_snd, ← List.map_drop, ← List.map_take, ← List.map_take]
    exact refsTo_elems fun e he => hlim.valid e (List.mem_of_mem_take he)
  · rw [List.drop_of_length_le (by simpa using hj)] at hit'
    exact Iter.next_nil hit'

/-! ## C32 -/

/-- `offset_of` inverts `from_offset`: for a reference to a current element it returns the offset it was pushed at; for an address outside the occupied storage it panics. -/
theorem C32_offset_of (hT : LibType T) (hw : 8 ≤ w) (hh : Hist T chk s q h m t) :
    (∀ o v, (o, v) ∈ h → ∃ p, Seq.fromOffsetUnchecked T q o s = .ok p s ∧ Seq.offsetOf T q p s = .ok o s) ∧
    (∀ p, s.addr p < 2 ^ w → s.addr p < s.addr q.ptr ∨ s.addr q.ptr + (Seq.offset q).toNat * T.ALIGN.toNat ≤ s.addr p →
      Seq.offsetOf T q p s = .panic .outOfBounds s) := by
  obtain ⟨es, i1, rfl, i3, i4⟩ := hh.inv hT.lawful hw
  refine ⟨fun o v hm => ?_, fun p hp hout => Seq.offsetOf_outside hT.lawful i1 hp hout⟩
  obtain ⟨e, he, hee⟩ := List.mem_map.1 hm
  simp only [Elem.entry, Prod.mk.injEq] at hee
  obtain ⟨rfl, rfl⟩ := hee
  exact ⟨_, Seq.fromOffsetUnchecked_spec hT.lawful i1 he (i1.elem_off hT.lawful he).2.1, Seq.offsetOf_elem hT.lawful i1 he⟩

/-! ## C34 -/

/-- Index storage: a non-empty capacity is one live allocation, of `capacity·ALIGN` bytes plus, for checked indexing, exactly `⌈capacity/8⌉` bytes; the byte holding the bit of an offset
`o < capacity` lies inside it, behind the element storage. -/
theorem C34_storage (hT : LibType T) (hw : 8 ≤ w) (hh : Hist T chk s q h m t) (hc : Seq.capacityInOffsets q ≠ 0) :
    ∃ B, s.blk q.ptr.blk = some B ∧ B.live = true ∧ q.ptr.off = 0 ∧ B.align = T.ALIGN.toNat ∧
      B.size = (Seq.capacityInOffsets q).toNat * T.ALIGN.toNat + (if chk then ceilDiv (Seq.capacityInOffsets q).toNat 8 else 0) ∧
      (chk = true → ∀ o : BitVec w, o.toNat < (Seq.capacityInOffsets q).toNat →
        (Seq.capacityInOffsets q).toNat * T.ALIGN.toNat ≤ (q.cap * T.ALIGN + o / 8).toNat ∧ (q.cap * T.ALIGN + o / 8).toNat < B.size) := by
  obtain ⟨es, i1, rfl, i3, i4⟩ := hh.inv hT.lawful hw
  have h0 : q.cap.toNat ≠ 0 := fun h => hc (BitVec.eq_of_toNat_eq (by simpa [Seq.capacityInOffsets] using h))
  obtain ⟨h1, B, hB, h2, h3, h4⟩ := i1.store.owns h0
  have hsz : B.size = q.cap.toNat * T.ALIGN.toNat + (if chk then ceilDiv q.cap.toNat 8 else 0) := by
    rw [h3]
    simp only [storageSize, bitmaskBytes, ceilDiv]
    cases chk <;> simp
  refine ⟨B, hB, h2, h1, h4, hsz, ?_⟩
  intro hchk o ho
  obtain ⟨k1, _⟩ := i1.bit_index hT.lawful hw hchk ho
  rw [k1, hsz]
  simp only [Seq.capacityInOffsets, hchk, if_true, ceilDiv] at ho ⊢
  omega

/-! ## C44 -/

/-- Growing preserves the index: across a push (that may reallocate), the answer of `is_offset_valid` for every old offset is the same, the new element's offset is valid,
and all other offsets beyond the old capacity are invalid. Holds after any history, including `take_elems`. -/
theorem C44_growth_keeps_index (hT : LibType T) (hw : 8 ≤ w) (hh : Hist T true s q h m t) (A : Allocator) {I : Init w} (ha : PushArg T I s q) {s' : St} {q' : SeqS w}
    (e : Seq.push A true T I (s, q) = .ok () (s', q')) :
    (∀ o : BitVec w, o.toNat < (Seq.offset q).toNat → ∃ b, Seq.isOffsetValid T q o s = .ok b s ∧ Seq.isOffsetValid T q' o s' = .ok b s') ∧
    Seq.isOffsetValid T q' (Seq.offset q) s' = .ok true s' ∧
    (∀ o : BitVec w, o ≠ Seq.offset q → (Seq.capacityInOffsets q).toNat ≤ o.toNat → Seq.isOffsetValid T q' o s' = .ok false s') := by
  have hhigh := hh.high hT.lawful hw
  obtain ⟨es, i1, rfl, i3, i4⟩ := hh.inv hT.lawful hw
  rcases Seq.push_spec hT.lawful hw A i1 ha.lawful ha.pre ha.apart ha.nonzero with ⟨s0, e', _⟩ | ⟨l, hl, ⟨v', hv', s'', q'', e', k1, k2, k3, k4⟩ | ⟨hv', m', s'', q'', e', k⟩⟩
  · rw [e'] at e; cases e
  · rw [e'] at e
    cases e
    have hle := i1.le
    have hle' := k1.le
    refine ⟨fun o ho => ?_, ?_, fun o hne ho => ?_⟩
    · refine ⟨_, Seq.isOffsetValid_spec hT.lawful hw i1 o, ?_⟩
      rw [Seq.isOffsetValid_spec hT.lawful hw k1 o]
      simp only [Seq.offset] at ho
      have h1 : o.toNat / 8 < bitmaskBytes true q.cap.toNat := bit_div_lt (by omega)
      have h2 : o.toNat / 8 < bitmaskBytes true q'.cap.toNat := bit_div_lt (by omega)
      rw [k2.bits rfl _ h2]
      have h3 : o.toNat ≠ q.occ.toNat := by omega
      have h4 : o.toNat < q'.occ.toNat := by omega
      simp [h1, h3, h4, ho]
    · exact Seq.isOffsetValid_elem hT.lawful hw k1 (e := ⟨q.occ.toNat, v', l⟩) (by simp) rfl
    · rw [Seq.isOffsetValid_spec hT.lawful hw k1 o]
      by_cases hlt : o.toNat < q'.occ.toNat
      · have h2 : o.toNat / 8 < bitmaskBytes true q'.cap.toNat := bit_div_lt (by omega)
        rw [k2.bits rfl _ h2]
        have h3 : o.toNat ≠ q.occ.toNat := fun h => hne (BitVec.eq_of_toNat_eq h)
        by_cases h5 : o.toNat / 8 < bitmaskBytes true q.cap.toNat
        · have := hhigh o.toNat h5 ho
          simp [h3, this]
        · simp [h3, h5]
      · simp [hlt]
  · rw [e'] at e; cases e

/-! ## C48 -/

/-- `extend` pushes the items in order: either all of them, or it panics at some item `n` (which failed to be pushed), with exactly the items before it pushed; in both cases
the result is a sequence with a history. Destructors run for what the initializers held and did not place (`left`), for the item that failed (all it holds if it was refused, `lost` if
its own code panicked), and, if the iterator held them (`own`), for the items after it. Boxes owned by items that were handed over, or held, are freed; nothing else
changes outside the sequence. -/
theorem C48_extend (hT : LibType T) (hw : 8 ≤ w) (hh : Hist T chk s q h m t) (A : Allocator) (own : Bool) {is : List (Init w)} (ha : ExtendArg T is s q) :
    (∃ s' q' h' m', Seq.extend A chk T own is (s, q) = .ok () (s', q') ∧ h'.map (fun e => some e.2) = is.map (·.val) ∧ Hist T chk s' q' (h ++ h') m' t ∧
      s'.log = s.log ++ is.flatMap (·.left) ∧ (∀ b B, s.blk b = some B → b ≠ q.ptr.blk → (∀ I ∈ is, ¬ I.mods b) → s'.blk b = some B) ∧
      (∀ I ∈ is, ∀ b, I.owns b → ∃ B, s'.blk b = some B ∧ B.live = false)) ∨
    (∃ n I ev msg s' q' h' m', Seq.extend A chk T own is (s, q) = .panic msg (s', q') ∧ is[n]? = some I ∧ h'.map (fun e => some e.2) = (is.take n).map (·.val) ∧
      Hist T chk s' q' (h ++ h') m' t ∧ (ev = I.owes ∨ I.val = none ∧ ev = I.lost) ∧
      s'.log = s.log ++ (is.take n).flatMap (·.left) ++ ev ++ (if own then (is.drop (n + 1)).flatMap (·.owes) else []) ∧
      (∀ b B, s.blk b = some B → b ≠ q.ptr.blk → (∀ I ∈ is, ¬ I.mods b) → s'.blk b = some B) ∧
      (∀ J ∈ if own then is else is.take (n + 1), ∀ b, J.owns b → ∃ B, s'.blk b = some B ∧ B.live = false)) := Hist.extend_spec hT.lawful hw A own is hh ha

/-- `collect` / `seq![…]`: a new sequence holding exactly the items' values; or a panic, after which the values already pushed have been destroyed in order, the storage of the
unfinished sequence is freed, and no other existing memory has changed (except what the items own). -/
theorem C48_from_iter (hT : LibType T) (hw : 8 ≤ w) (A : Allocator) (s : St) (q0 : SeqS w) (own : Bool) {is : List (Init w)} (ha : ExtendArg T is s (Seq.new T)) :
    (∃ s' q' h' m', Seq.fromIter A chk T own is (s, q0) = .ok () (s', q') ∧ h'.map (fun e => some e.2) = is.map (·.val) ∧ Hist T chk s' q' h' m' false ∧
      s'.log = s.log ++ is.flatMap (·.left)) ∨
    (∃ (n : Nat) (I : Init w) (ev : List Event) (vs : List V) (msg : PanicMsg) (s' : St) (q' q1 : SeqS w), Seq.fromIter A chk T own is (s, q0) = .panic msg (s', q') ∧ is[n]? = some I ∧ vs.map some = (is.take n).map (·.val) ∧
      (ev = I.owes ∨ I.val = none ∧ ev = I.lost) ∧
      s'.log = s.log ++ (is.take n).flatMap (·.left) ++ ev ++ (if own then (is.drop (n + 1)).flatMap (·.owes) else []) ++ vs.flatMap T.drops ∧
      (∀ b B, s.blk b = some B → b ≠ (Seq.new T).ptr.blk → b ≠ q1.ptr.blk → (∀ I ∈ is, ¬ I.mods b) → s'.blk b = some B) ∧
      (Seq.capacityInOffsets q1 ≠ 0 → ∃ B, s'.blk q1.ptr.blk = some B ∧ B.live = false)) := by
  have e : Seq.fromIter A chk T own is (s, q0) = onUnwind (Seq.extend A chk T own is) (Seq.drop chk T) (s, Seq.new T) := by
    simp only [Seq.fromIter, bind_apply, putQ, Res.bind_ok]
  rcases C48_extend hT hw (Hist.new (T := T) (chk := chk) s) A own ha with ⟨s', q', h', m', e1, e2, e3, e4, _⟩ | ⟨n, I, ev, msg, s', q', h', m', e1, e2, e3, e4, e5, e6, e7, e8⟩
  · exact .inl ⟨s', q', h', m', by rw [e, onUnwind_ok e1], e2, by simpa using e3, e4⟩
  · obtain ⟨s2, q2, d1, d2, d3, d4⟩ := C29_drop hT hw e4
    refine .inr ⟨n, I, ev, h'.map (·.2), msg, s2, q2, q', by rw [e, onUnwind_panic e1 d1], e2, by rw [← e3]; simp, e5, ?_, fun b B hB hn1 hn2 ho => ?_, d4⟩
    · rw [d2, e6, List.nil_append, List.flatMap_map]
    · rw [d3 b hn2]
      exact e7 b B hB hn1 ho

/-! ## C33 -/

/-- The outcome is not undefined behaviour. -/
def Defined {σ α : Type} (r : Res σ α) : Prop := ∀ k, r ≠ .ub k

theorem Defined.of_ok {σ α : Type} {r : Res σ α} {a s} (h : r = .ok a s) : Defined r := by intro k e; rw [h] at e; cases e
theorem Defined.of_panic {σ α : Type} {r : Res σ α} {a s} (h : r = .panic a s) : Defined r := by intro k e; rw [h] at e; cases e

/-- After any history, the next operation is defined: pushing, extending, iterating, dropping, draining (dropping obtained items before and after the iterator, in any order), `offset_of`
of any pointer, unchecked access at an element's offset, `is_offset_valid` of any offset; and `from_offset` of any offset if `take_elems` was never called, or if the offset is not
the offset of a removed element.
(Missing: `from_offset` at the offset of an element that `take_elems` removed, where it is false, see `C24_from_offset_undefined`.) -/
theorem C33_no_undefined_behaviour_partial (hT : LibType T) (hw : 8 ≤ w) {U : List (BitVec w)} (hhU : HistU T chk s q h m t U) :
    (∀ A I, PushArg T I s q → Defined (Seq.push A chk T I (s, q))) ∧
    (∀ A own is, ExtendArg T is s q → Defined (Seq.extend A chk T own is (s, q))) ∧
    (∀ k, Defined (Iter.take T k (Seq.iter q) s)) ∧
    (∀ o v, (o, v) ∈ h → Defined (Seq.fromOffsetUnchecked T q o s)) ∧
    (∀ p, Defined (Seq.offsetOf T q p s)) ∧
    Defined (Seq.drop chk T (s, q)) ∧
    Defined (Seq.takeElems chk T (s, q)) ∧
    (∀ it s1 q1 k ps it' s2 before after rest, Seq.takeElems chk T (s, q) = .ok it (s1, q1) → Iter.take T k it s1 = .ok (ps, it') s2 →
      (before ++ after ++ rest : List Ptr).Perm ps → Defined ((do dropEach T before; OwnedElems.drop T it'; dropEach T after : M Unit) s2)) ∧
    (chk = true → ∀ o, Defined (Seq.isOffsetValid T q o s)) ∧
    (chk = true → t = false → ∀ o, Defined (Seq.fromOffset T q o s)) ∧
    (chk = true → ∀ o, (o ∈ U → ∃ v, (o, v) ∈ h) → Defined (Seq.fromOffset T q o s)) := by
  have hh : Hist T chk s q h m t := ⟨U, hhU⟩
  refine ⟨?_, ?_, ?_, ?_, ?_, ?_, ?_, ?_, ?_, ?_, ?_⟩
  · intro A I ha
    rcases hh.push_cases hT.lawful hw A ha with ⟨v, s', q', need, e, _⟩ | ⟨msg, s', q', e, _⟩
    · exact .of_ok e
    · exact .of_panic e
  · intro A own is ha
    rcases C48_extend hT hw hh A own ha with ⟨s', q', h', m', e, _⟩ | ⟨n, I, ev, msg, s', q', h', m', e, _⟩
    · exact .of_ok e
    · exact .of_panic e
  · intro k
    obtain ⟨ps, it, e, _⟩ := (C19_seq_is_list hT hw hh).2 k
    exact .of_ok e
  · intro o v hm
    obtain ⟨p, e, _⟩ := (C32_offset_of hT hw hh).1 o v hm
    exact .of_ok e
  · intro p k e
    simp only [Seq.offsetOf] at e
    split at e <;> cases e
  · obtain ⟨s', q', e, _⟩ := C29_drop hT hw hh
    exact .of_ok e
  · obtain ⟨it, q1, e, _⟩ := C28_drain hT hw hh 0
    exact .of_ok e
  · intro it s1 q1 k ps it' s2 before after rest e1 e2 hp
    obtain ⟨it0, q0, f1, _, _, _, ps0, it0', f2, _, f3⟩ := C28_drain hT hw hh k
    rw [f1] at e1
    cases e1
    rw [f2] at e2
    cases e2
    obtain ⟨s3, s4, s5, g1, g2, g3, _⟩ := f3 before after rest hp
    refine .of_ok (s := s5) (a := ()) ?_
    simp only [bind_apply, g1, Res.bind_ok, g2, g3]
  · intro hchk o
    subst hchk
    obtain ⟨es, i1, _⟩ := hh.inv hT.lawful hw
    exact .of_ok (Seq.isOffsetValid_spec hT.lawful hw i1 o)
  · intro hchk ht o
    subst hchk ht
    rcases C24_from_offset_safe_partial hT hw hh o with ⟨p, v, e, _⟩ | ⟨e, _⟩
    · exact .of_ok e
    · exact .of_panic e

  · intro hchk o ho
    subst hchk
    obtain ⟨h1, h2⟩ := C24_from_offset_any_history hT hw hhU o
    by_cases hU : o ∈ U
    · obtain ⟨v, hv⟩ := ho hU
      obtain ⟨p, e, _⟩ := h1 v hv
      exact .of_ok e
    · exact .of_panic (h2 fun h => hU h.2)

end Varlen
