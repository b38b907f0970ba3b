import Verif.Props.Demo
import Verif.Proofs.Layout
/-! # C01–C05, C41: layouts -/
namespace Varlen
variable {w : Nat}

/-! ## C01 -/

/-- If `calculate_layout_cautious` returned `Some(layout)` and `initialize(dst, layout)` returned, then `calculate_layout` on the new object returns that layout,
and changes nothing. -/
theorem C01_layouts_agree {T : VarLen w} {I : Init w} (h : LibInit T I) {s : St} {p : Ptr} {l : Layout w} (hs : Suitable T I s p l) {s' : St}
    (hi : I.initTo p l s = .ok () s') : T.calculateLayout p s' = .ok l s' := by
  obtain ⟨hT, hI⟩ := h.lib
  rcases hs.run hI with ⟨v, s1, _, e, _, _, hv, _⟩ | ⟨m, s1, _, e, _⟩
  · rw [hi] at e; cases e
    exact hT.lawful.calc_ok _ _ _ _ hv
  · rw [hi] at e; cases e

/-- The agreement lasts: it still holds after any further activity that does not write to the object's bytes or free its allocation. -/
theorem C01_layout_stable {T : VarLen w} {I : Init w} (h : LibInit T I) {s : St} {p : Ptr} {l : Layout w} (hs : Suitable T I s p l) {s' s'' : St}
    (hi : I.initTo p l s = .ok () s') {q : Ptr} {n : Nat} {own : Nat → Prop} (ht : Touch s' s'' q n own) (ho : ¬ own p.blk)
    (hd : p.blk ≠ q.blk ∨ p.off + l.size.toNat ≤ q.off ∨ q.off + n ≤ p.off) : T.calculateLayout p s'' = .ok l s'' := by
  obtain ⟨hT, hI⟩ := h.lib
  rcases hs.run hI with ⟨v, s1, _, e, _, _, hv, _⟩ | ⟨m, s1, _, e, _⟩
  · rw [hi] at e; cases e
    exact hT.lawful.calc_ok _ _ _ _ (hv.of_touch hT.lawful ht ho hd)
  · rw [hi] at e; cases e

example : ∃ l s', Suitable Demo.S (Demo.sInit 7 3 [1, 2] [10, 11, 12] [5]) Demo.st1 Demo.p1 l ∧
    (Demo.sInit 7 3 [1, 2] [10, 11, 12] [5]).initTo Demo.p1 l Demo.st1 = .ok () s' ∧ Demo.S.calculateLayout Demo.p1 s' = .ok l s' := by
  obtain ⟨l, hl⟩ := Demo.struct_suitable
  rcases hl.run (Demo.sInit_lib ..).lib.2 with ⟨v, s', _, e, _⟩ | ⟨m, s', h, _⟩
  · exact ⟨l, s', hl, e, C01_layouts_agree (Demo.sInit_lib ..) hl e⟩
  · exact absurd h (by decide +kernel)

/-! ## C02 -/

/-- Array: the checked computation fails exactly when the exact end offset of the elements does not fit `usize`; otherwise offset, length and size are exact. -/
theorem C02_array_overflow_exact {R : RTy} {L : LenTy} (hR : R.Ok w) (hL : L.Ok w) (len : Img) (I : ArrInit) (s : St) :
    ∃ off, NextAligned L.bytes R.align off ∧
      (2 ^ w ≤ off + (L.asUsize w len).toNat * R.size → (SizedInit w R L len I).cautious s = .ok none s) ∧
      (off + (L.asUsize w len).toNat * R.size < 2 ^ w → ∃ o size : BitVec w, (SizedInit w R L len I).cautious s = .ok (some (.array o (L.asUsize w len) size)) s ∧
        o.toNat = off ∧ size.toNat = off + (L.asUsize w len).toNat * R.size) := by
  refine ⟨roundUpN L.bytes R.align, (nextAligned_iff hR.align_pos).2 rfl, fun h => ?_, fun h => ?_⟩
  · have := (SizedInit.cautious_none hR hL (len := len)).2 h
    simp [SizedInit, this]
  · cases e : SizedInit.cautious w R L len with
    | none =>
      have := (SizedInit.cautious_none hR hL (len := len)).1 e
      omega
    | some l =>
      obtain ⟨o, size, rfl, h1, h2⟩ := (SizedInit.cautious_eq hR hL).1 e
      exact ⟨o, size, by simp [SizedInit, e], h1, by omega⟩

/-- Struct and tuple: if every field initializer reports a layout, there is an exact packing of the requested fields (over unbounded numbers); the checked
computation fails exactly when the end of that packing does not fit `usize`, and otherwise returns exactly that packing. If a field initializer
has no layout, or a length expression no value, neither has the whole: the computation reports an overflow or, if one of these panics, may panic. -/
theorem C02_fields_overflow_exact {headSize headAlign : Nat} {fis : List (FI w)} (h : StructLit headSize headAlign fis) {s : St}
    (hp : (Struct.init headSize headAlign fis).pre s) :
    (requested (initLengths fis) fis = none → (Struct.init headSize headAlign fis).cautious s = .ok none s ∨
      (Struct.init headSize headAlign fis).cautious s = .panic .user s ∧ ¬ Calm (initLengths fis) fis) ∧
    ∀ r, requested (initLengths fis) fis = some r → ∃ fs fin, PackedFrom headSize fs fin ∧ fs.map (fun f => (f.align, f.size)) = r ∧
      (2 ^ w ≤ fin → (Struct.init headSize headAlign fis).cautious s = .ok none s) ∧
      (fin < 2 ^ w → ∃ (size : BitVec w) (ls : List (BitVec w × Layout w)), (Struct.init headSize headAlign fis).cautious s = .ok (some (.fields size ls)) s ∧
        size.toNat = fin ∧ tailFields (fis.map FI.fld) ls = fs) := by
  have hcalc := h.lib.lib.2.calc_ok s hp
  have hhs : (BitVec.ofNat w headSize).toNat = headSize := by
    rw [BitVec.toNat_ofNat]; exact Nat.mod_eq_of_lt h.header.head_lt
  have hok := h.structOk
  have hfl : ∀ f ∈ fis, f.fld.Ok headSize headAlign := fun f hf => hok.flds _ (List.mem_map_of_mem hf)
  have hlay : (Struct.init headSize headAlign fis).lay =
      (layFields (initLengths fis) fis (BitVec.ofNat w headSize)).map fun (ls, size) => .fields size ls := rfl
  have hbad : (Struct.init headSize headAlign fis).bad = badFields (initLengths fis) fis (BitVec.ofNat w headSize) := rfl
  rw [hlay, hbad] at hcalc
  refine ⟨fun hn => ?_, fun r hr => ?_⟩
  · cases hb : badFields (initLengths fis) fis (BitVec.ofNat w headSize) with
    | false => rw [hcalc hb, layFields_none_of_requested _ _ hn]; exact .inl rfl
    | true =>
      refine .inr ⟨h.lib.lib.2.calc_panic s hp (hbad.trans hb), fun hcalm => ?_⟩
      rw [calm_good fis _ s h.flds hp.1 hcalm] at hb
      cases hb
  · have hcalc := hcalc (requested_good fis _ r h.flds hr)
    obtain ⟨fs, fin, h1, h2, h3⟩ := layFields_exact fis (BitVec.ofNat w headSize) r hfl hr
    rw [hhs] at h1
    refine ⟨fs, fin, h1, h2, ?_⟩
    rw [hcalc]
    cases e : layFields (initLengths fis) fis (BitVec.ofNat w headSize) with
    | none =>
      simp only [e] at h3
      exact ⟨fun _ => rfl, fun h => absurd h3 (by omega)⟩
    | some x =>
      obtain ⟨ls, size⟩ := x
      simp only [e] at h3
      refine ⟨fun h => ?_, fun _ => ⟨size, ls, rfl, h3⟩⟩
      have := size.isLt
      omega

/-- The same for tuples. -/
theorem C02_tuple_overflow_exact (hw : 0 < w) {fis : List (VarLen w × Init w)} (h : ∀ f ∈ fis, LibInit f.1 f.2) {s : St} (hp : (Tuple.init fis).pre s) :
    (requested [] (fis.map fun (T, I) => .varlen T I) = none → (Tuple.init fis).cautious s = .ok none s ∨
      (Tuple.init fis).cautious s = .panic .user s ∧ ¬ Calm [] (fis.map fun (T, I) => .varlen T I)) ∧
    ∀ r, requested [] (fis.map fun (T, I) => .varlen T I) = some r → ∃ fs fin, PackedFrom 0 fs fin ∧ fs.map (fun f => (f.align, f.size)) = r ∧
      (2 ^ w ≤ fin → (Tuple.init fis).cautious s = .ok none s) ∧
      (fin < 2 ^ w → ∃ (size : BitVec w) (ls : List (BitVec w × Layout w)), (Tuple.init fis).cautious s = .ok (some (.fields size ls)) s ∧
        size.toNat = fin ∧ tailFields (fis.map fun f => .varlen f.1) ls = fs) := by
  have hlit : StructLit 0 1 (fis.map fun (T, I) => FI.varlen T I) := by
    refine ⟨⟨⟨0, hw, rfl⟩, Nat.two_pow_pos w, ?_, ?_, ?_, ?_⟩, ?_, ?_, ?_, ?_⟩
    · intro R off h; simp [FI.fld] at h
    · intro R off h; simp [FI.fld] at h
    · intro R off h; simp [FI.fld] at h
    · rw [List.map_map]
      rw [List.pairwise_map]
      exact List.pairwise_of_forall fun _ _ => .inl rfl
    · intro R off img h; simp at h
    · intro R off img h; simp at h
    · intro T I h'
      obtain ⟨f, hf, e⟩ := List.mem_map.1 h'
      cases e
      exact h f hf
    · intro R len I h; simp at h
  have := C02_fields_overflow_exact hlit hp
  rw [initLengths_varlen] at this
  have e : (fis.map fun (T, I) => FI.varlen T I).map FI.fld = fis.map fun f => Fld.varlen f.1 := by
    rw [List.map_map]; rfl
  rw [e] at this
  exact this

-- Both branches occur: on a 16-bit target, 20000 elements of 4 bytes overflow; 3 do not.
example : (SizedInit 16 Demo.D4 Demo.lenU16 (encLE 2 20000) (MoveFrom Demo.D4 [])).lay.isNone = true := by decide +kernel
example : (SizedInit 16 Demo.D4 Demo.lenU16 (encLE 2 3) (MoveFrom Demo.D4 [])).lay.isNone = false := by decide +kernel
example : requested (initLengths (Demo.sFis 7 3 [1, 2] [10, 11, 12] [5])) (Demo.sFis 7 3 [1, 2] [10, 11, 12] [5]) = some [(4, 12), (1, 3), (4, 8)] := by decide +kernel

/-! ## C03 -/

/-- On a valid struct object, `calculate_layout` (the wrapping computation) returns a layout in which each tail field is at the first aligned position at or after the
end of the previous one (the first: after the head), and `size()` is the end of the last one. The layout describes every tail field. -/
theorem C03_struct_packed {headSize headAlign : Nat} {fs : List (Fld w)} (hh : HeaderOk headSize headAlign fs) (hT : ∀ T, Fld.varlen T ∈ fs → LibType T)
    {s : St} {p : Ptr} {v : V} {l : Layout w} (hv : Valid (Struct w headSize headAlign fs) s p v l) :
    ∃ size ls, (Struct w headSize headAlign fs).calculateLayout p s = .ok (.fields size ls) s ∧ l = .fields size ls ∧
      PackedFrom headSize (tailFields fs ls) size.toNat ∧ (tailFields fs ls).length = (fs.filter Fld.isTail).length := by
  have hok := hh.structOk fun T hT' => (hT T hT').lawful
  have hc := (Struct.lawful hok).calc_ok _ _ _ _ hv
  obtain ⟨vs, ls, size, rfl, rfl, hr, ht⟩ := Valid.rep hv
  obtain ⟨h1, h2⟩ := ((rep_iff fs vs ls headSize size.toNat).1 ⟨hr, ht⟩).1.packed hok.flds
  exact ⟨size, ls, hc, rfl, h1, h2⟩

/-- The same for tuples, whose head is empty. -/
theorem C03_tuple_packed {Ts : List (VarLen w)} (hne : Ts ≠ []) (hT : ∀ T ∈ Ts, LibType T) {s : St} {p : Ptr} {v : V} {l : Layout w}
    (hv : Valid (Tuple w Ts) s p v l) :
    ∃ size ls, (Tuple w Ts).calculateLayout p s = .ok (.fields size ls) s ∧ l = .fields size ls ∧
      PackedFrom 0 (tailFields (Ts.map .varlen) ls) size.toNat ∧ (tailFields (Ts.map .varlen) ls).length = Ts.length := by
  have hL := Tuple.lawful hne fun T h => (hT T h).lawful
  have hok := Tuple.structOk hL.align_pow2.wpos fun T h => (hT T h).lawful
  have hc := hL.calc_ok _ _ _ _ hv
  obtain ⟨vs, ls, size, rfl, rfl, hr, ht⟩ := Valid.rep hv
  obtain ⟨h1, h2⟩ := ((rep_iff _ vs ls 0 size.toNat).1 ⟨hr, ht⟩).1.packed hok.flds
  refine ⟨size, ls, hc, rfl, h1, h2.trans ?_⟩
  have : (Ts.map Fld.varlen).filter Fld.isTail = Ts.map .varlen := List.filter_eq_self.2 (by simp [Fld.isTail])
  rw [this, List.length_map]

/-- The same for arrays: the elements start at the first aligned position after the length. -/
theorem C03_array_packed {R : RTy} {L : LenTy} (hR : R.Ok w) (hL : L.Ok w) {s : St} {p : Ptr} {v : V} {l : Layout w} (hv : Valid (Array w R L) s p v l) :
    ∃ off n size, (Array w R L).calculateLayout p s = .ok (.array off n size) s ∧ NextAligned L.bytes R.align off.toNat ∧
      size.toNat = off.toNat + n.toNat * R.size ∧ ∃ xs, v = .arr xs ∧ xs.length = n.toNat := by
  have hc := (Array.lawful hR hL).calc_ok _ _ _ _ hv
  obtain ⟨off, n, size, xs, rfl, rfl, _, _, h1, h2, h3, _⟩ := Valid.rep hv
  exact ⟨off, n, size, hc, (nextAligned_iff hR.align_pos).2 h1, h2, xs, rfl, by rw [← h3]; simp [elemsV]⟩

/-- Non-vacuity for C03 and C04: a valid struct object with three tail fields at offsets 8, 20, 24. -/
theorem Demo.valid_struct : ∃ s' v, Valid Demo.S s' Demo.p1 v (.fields 32 [(8, .array 4 2 12), (20, .len 3), (24, .array 4 1 8)]) := by
  obtain ⟨l, hl⟩ := Demo.struct_suitable
  have he : Demo.S.headSize = 8 := rfl
  rcases hl.run (Demo.sInit_lib ..).lib.2 with ⟨v, s', _, _, _, _, hv, _⟩ | ⟨m, s', h, _⟩
  · have : (Demo.sInit 7 3 [1, 2] [10, 11, 12] [5]).cautious Demo.st1 = .ok (some (.fields 32 [(8, .array 4 2 12), (20, .len 3), (24, .array 4 1 8)])) Demo.st1 := rfl
    have h2 := hl.layout
    rw [this] at h2
    cases h2
    exact ⟨s', v, hv⟩
  · exact absurd h (by decide +kernel)

/-! ## C04 -/

/-- What a layout of tail fields guarantees about an object at `p`: after the head, in declaration order without overlap, inside `size()`, aligned. -/
def WellPlaced (s : St) (p : Ptr) (headSize size : Nat) (fs : List TailField) : Prop :=
  (∀ f ∈ fs, headSize ≤ f.off ∧ f.off + f.size ≤ size ∧ Aligned s (p.add f.off) f.align) ∧ fs.Pairwise (fun a b => a.off + a.size ≤ b.off)

/-- Fields of a struct: the tail fields are well placed; header fields are inside the head and do not overlap each other. -/
theorem C04_struct_fields_disjoint {headSize headAlign : Nat} {fs : List (Fld w)} (hh : HeaderOk headSize headAlign fs) (hT : ∀ T, Fld.varlen T ∈ fs → LibType T)
    {s : St} {p : Ptr} {v : V} {l : Layout w} (hv : Valid (Struct w headSize headAlign fs) s p v l) :
    ∃ size ls, (Struct w headSize headAlign fs).calculateLayout p s = .ok (.fields size ls) s ∧ headSize ≤ size.toNat ∧
      WellPlaced s p headSize size.toNat (tailFields fs ls) := by
  have hok := hh.structOk fun T hT' => (hT T hT').lawful
  obtain ⟨size, ls, hc, rfl, hp, _⟩ := C03_struct_packed hh hT hv
  obtain ⟨h1, h2, h3⟩ := hp.props
  have hal := hv.aligned
  have hA := (Struct.aligns hok).2.2
  refine ⟨size, ls, hc, h1, fun f hf => ⟨(h2 f hf).1, (h2 f hf).2.1, ?_⟩, h3⟩
  obtain ⟨a, ha, e⟩ := tailFields_align hok.flds hf
  have hdv : f.align ∣ (Struct w headSize headAlign fs).ALIGN.toNat := e ▸ hA a ha
  exact (hal.of_dvd hdv).add (Nat.mod_eq_zero_of_dvd (h2 f hf).2.2)

/-- Fields of a tuple. -/
theorem C04_tuple_fields_disjoint {Ts : List (VarLen w)} (hne : Ts ≠ []) (hT : ∀ T ∈ Ts, LibType T) {s : St} {p : Ptr} {v : V} {l : Layout w}
    (hv : Valid (Tuple w Ts) s p v l) :
    ∃ size ls, (Tuple w Ts).calculateLayout p s = .ok (.fields size ls) s ∧ WellPlaced s p 0 size.toNat (tailFields (Ts.map .varlen) ls) := by
  obtain ⟨size, ls, hc, rfl, hp, _⟩ := C03_tuple_packed hne hT hv
  obtain ⟨h1, h2, h3⟩ := hp.props
  have hal := hv.aligned
  have hA := (Tuple.aligns hne fun T h => (hT T h).lawful).2
  refine ⟨size, ls, hc, fun f hf => ⟨(h2 f hf).1, (h2 f hf).2.1, ?_⟩, h3⟩
  obtain ⟨T, hT', e⟩ := tailFields_align_tuple hf
  exact (hal.of_dvd (e ▸ hA T hT')).add (Nat.mod_eq_zero_of_dvd (h2 f hf).2.2)

example : (tailFields Demo.sFs [(8, .array 4 2 12), (20, .len 3), (24, .array 4 1 8)] : List TailField) = [⟨8, 4, 12⟩, ⟨20, 1, 3⟩, ⟨24, 4, 8⟩] := by decide +kernel

/-! ## C05 -/

/-- `ALIGN` of every type is a power of two, hence non-zero, and a multiple of the alignment of the type's head. -/
theorem C05_align_pow2 {T : VarLen w} (h : LibType T) : (∃ k, k < w ∧ T.ALIGN.toNat = 2 ^ k) ∧ 0 < T.ALIGN.toNat ∧ T.headAlign ∣ T.ALIGN.toNat :=
  ⟨h.lawful.align_pow2, h.lawful.align_pow2.pos, h.lawful.head_align⟩

/-- The alignments of the parts of a struct: the head and the tail fields. -/
def partAligns (headAlign : Nat) : List (Fld w) → List Nat
  | [] => [headAlign]
  | .varlen T :: fs => T.ALIGN.toNat :: partAligns headAlign fs
  | .array R _ :: fs => R.align :: partAligns headAlign fs
  | _ :: fs => partAligns headAlign fs

theorem partAligns_mem {headAlign : Nat} {fs : List (Fld w)} (hok : ∀ R len, Fld.array R len ∈ fs → R.Ok w) (x : Nat) :
    x ∈ partAligns headAlign fs ↔ x = headAlign ∨ ∃ a ∈ tailAligns fs, a.toNat = x := by
  induction fs with
  | nil => simp [partAligns, tailAligns]
  | cons f fs ih =>
    have ih := ih fun R len h => hok R len (by simp [h])
    cases f with
    | normal R off => simpa [partAligns, tailAligns] using ih
    | length R off => simpa [partAligns, tailAligns] using ih
    | varlen T =>
      simp only [partAligns, tailAligns, List.mem_cons, ih]
      constructor
      · rintro (rfl | rfl | ⟨a, h, rfl⟩)
        · exact .inr ⟨_, .inl rfl, rfl⟩
        · exact .inl rfl
        · exact .inr ⟨a, .inr h, rfl⟩
      · rintro (rfl | ⟨a, rfl | h, rfl⟩)
        · exact .inr (.inl rfl)
        · exact .inl rfl
        · exact .inr (.inr ⟨a, h, rfl⟩)
    | array R len =>
      have hR := (hok R len (by simp)).alignOf_toNat
      simp only [partAligns, tailAligns, List.mem_cons, ih]
      constructor
      · rintro (rfl | rfl | ⟨a, h, rfl⟩)
        · exact .inr ⟨_, .inl rfl, hR⟩
        · exact .inl rfl
        · exact .inr ⟨a, .inr h, rfl⟩
      · rintro (rfl | ⟨a, rfl | h, rfl⟩)
        · exact .inr (.inl rfl)
        · exact .inl hR
        · exact .inr (.inr ⟨a, h, rfl⟩)

/-- `ALIGN` of a struct is a multiple of the alignment of the head, of every tail field and of every header field, and equals the largest of them (it is one of
them). -/
theorem C05_struct_align_max {headSize headAlign : Nat} {fs : List (Fld w)} (hh : HeaderOk headSize headAlign fs) (hT : ∀ T, Fld.varlen T ∈ fs → LibType T) :
    (Struct w headSize headAlign fs).ALIGN.toNat ∈ partAligns headAlign fs ∧
    (∀ a ∈ partAligns headAlign fs, a ∣ (Struct w headSize headAlign fs).ALIGN.toNat) ∧
    (∀ R off, Fld.normal R off ∈ fs ∨ Fld.length R off ∈ fs → R.align ∣ (Struct w headSize headAlign fs).ALIGN.toNat) := by
  have hok := hh.structOk fun T hT' => (hT T hT').lawful
  obtain ⟨_, h1, h2⟩ := Struct.aligns hok
  refine ⟨?_, ?_, ?_⟩
  · rw [partAligns_mem hh.array]
    have := (arrayMax_spec (BitVec.ofNat w headAlign :: tailAligns fs)).1 (by simp)
    rcases List.mem_cons.1 this with h | h
    · left
      obtain ⟨k, hk, e⟩ := hh.head_pow2
      have e2 : (Struct w headSize headAlign fs).ALIGN = BitVec.ofNat w headAlign := h
      rw [e2, BitVec.toNat_ofNat]
      exact Nat.mod_eq_of_lt (e ▸ Nat.pow_lt_pow_right (by decide) hk)
    · exact .inr ⟨_, h, rfl⟩
  · intro a ha
    rcases (partAligns_mem hh.array a).1 ha with rfl | ⟨b, hb, rfl⟩
    · exact h1
    · exact h2 b hb
  · rintro R off (h | h)
    · exact Nat.dvd_trans (hh.normal R off h).2.2.2 h1
    · exact Nat.dvd_trans (hh.length R off h).2.2.2 h1

/-- `ALIGN` of a tuple is the largest field alignment. -/
theorem C05_tuple_align_max {Ts : List (VarLen w)} (hne : Ts ≠ []) (hT : ∀ T ∈ Ts, LibType T) :
    (∃ T ∈ Ts, (Tuple w Ts).ALIGN = T.ALIGN) ∧ ∀ T ∈ Ts, T.ALIGN.toNat ∣ (Tuple w Ts).ALIGN.toNat := by
  refine ⟨?_, (Tuple.aligns hne fun T h => (hT T h).lawful).2⟩
  have := (arrayMax_spec (Ts.map (·.ALIGN))).1 (by simpa using hne)
  obtain ⟨T, h, e⟩ := List.mem_map.1 this
  exact ⟨T, h, e.symm⟩

/-- `ALIGN` of an array is the larger of the alignments of the length and of the elements. -/
theorem C05_array_align_max {R : RTy} {L : LenTy} (hR : R.Ok w) (hL : L.Ok w) : (Array w R L).ALIGN.toNat = max L.align R.align := by
  have h1 := hR.alignOf_toNat
  have h2 := hL.ty.alignOf_toNat
  have h3 : L.ty.align = L.align := rfl
  have hm := arrayMax_spec [L.ty.alignOf w, R.alignOf w]
  have e : (Array w R L).ALIGN = arrayMax [L.ty.alignOf w, R.alignOf w] := rfl
  rw [e]
  have ha := hm.2 (L.ty.alignOf w) (by simp)
  have hb := hm.2 (R.alignOf w) (by simp)
  rcases List.mem_cons.1 (hm.1 (by simp)) with h | h
  · rw [h] at ha hb ⊢; omega
  · rw [List.mem_singleton] at h
    rw [h] at ha hb ⊢; omega

example : LibType Demo.S ∧ Demo.S.ALIGN.toNat = 4 := ⟨Demo.S_lib, by decide +kernel⟩

/-! ## C41 -/

/-- From `s` to `s'` every allocation not in `except` is still there with the same address, size, alignment and liveness, and all its bytes outside `[p, p + n)` are the same. -/
def OnlyIn (s s' : St) (p : Ptr) (n : Nat) (except : Nat → Prop) : Prop :=
  ∀ b B, s.blk b = some B → ¬ except b → ∃ B', s'.blk b = some B' ∧ B'.base = B.base ∧ B'.size = B.size ∧ B'.align = B.align ∧ B'.live = B.live ∧
    ∀ i, ¬ (b = p.blk ∧ p.off ≤ i ∧ i < p.off + n) → B'.data i = B.data i

/-- Given suitable storage, `initialize` either returns or panics (never undefined behaviour). In both cases every byte outside `[dst, dst + size())` of every
allocation is unchanged, except in allocations whose ownership the initializer had taken: the boxes it owned (`owns`), which are freed in both cases, and, if it panics,
storage of values it owned (`mods`), whose destructors then run. Destructors run only for values the initializer held and did not place: `left` if it returns, `lost` if it
panics (see C51). -/
theorem C41_init_in_bounds {T : VarLen w} {I : Init w} (h : LibInit T I) {s : St} {p : Ptr} {l : Layout w} (hs : Suitable T I s p l) :
    ∃ s', ((I.initTo p l s = .ok () s' ∧ I.val ≠ none ∧ s'.log = s.log ++ I.left ∧ OnlyIn s s' p l.size.toNat I.owns) ∨
        (∃ m, I.initTo p l s = .panic m s' ∧ I.val = none ∧ s'.log = s.log ++ I.lost ∧ OnlyIn s s' p l.size.toNat I.mods)) ∧
      s'.blocks.length = s.blocks.length ∧ ∀ b, I.owns b → ∃ B, s'.blk b = some B ∧ B.live = false := by
  have key : ∀ s' own, Touch s s' p l.size.toNat own → OnlyIn s s' p l.size.toNat own := by
    intro s' own ht b B hb ho
    obtain ⟨d, h1, h2⟩ := ht.blk b ho B hb
    exact ⟨_, h1, rfl, rfl, rfl, rfl, h2⟩
  rcases hs.run h.lib.2 with ⟨v, s', hv, e, ht, hf, _, hlog, _⟩ | ⟨m, s', hv, e, ht, hf, hlog, _⟩
  · exact ⟨s', .inl ⟨e, by simp [hv], hlog, key s' _ ht⟩, ht.len, hf⟩
  · exact ⟨s', .inr ⟨m, e, hv, hlog, key s' _ ht⟩, ht.len, hf⟩

example : ∃ l, Suitable Demo.S (Demo.sInit 7 3 [1, 2] [10, 11, 12] [5]) Demo.st1 Demo.p1 l := Demo.struct_suitable

end Varlen
