import Verif.Props.SeqDemo
import Verif.Proofs.SeqZero
/-!
# C47: elements of size zero

The theorems about sequences (Props/Seq.lean, Props/SeqIndex.lean) require elements of non-zero size. This is why: for a zero-sized element type (here a unit-like type with a
destructor, as `FixedLen`), pushing, dropping and `offset_of` do not do what C19, C29, C32 and C33 say.
-/
namespace Varlen.Demo

/-- `struct Z;` with a `Drop` implementation whose effect is logged as 7. -/
def Z : RTy where
  size := 0
  align := 1
  valid := fun img => img.length == 0
  needsDrop := true
  dropEv := fun _ => [7]

theorem Z_ok : Z.Ok 64 where
  align_pow2 := ⟨0, by decide, rfl⟩
  dvd := ⟨0, rfl⟩
  size_lt := by decide
  valid_len := by
    intro img h
    simpa [Z] using h

abbrev ZT : VarLen 64 := FixedLen 64 Z
abbrev zInit : Init 64 := FixedLen.init 64 Z []

/-- Two pushes with unchecked indexing. -/
abbrev zTwo : MQ 64 Unit := Seq.extend alloc false ZT false [zInit, zInit]
def ζ : St × SeqS 64 := after zTwo (st0, Seq.new ZT)

end Varlen.Demo

namespace Varlen
open Demo

/-- With checked indexing, the first push of a zero-sized value writes its index bit through a dangling pointer: undefined behaviour. -/
theorem C47_zero_size_checked_push_undefined : LibType ZT ∧ LibInit ZT zInit ∧ Seq.push alloc true ZT zInit (st0, Seq.new ZT) = .ub .outOfBounds := by
  refine ⟨.fixedLen Z_ok, .fixedLen Z_ok rfl, ?_⟩
  have hu : ubOf (Seq.push alloc true ZT zInit (st0, Seq.new ZT)) = some .outOfBounds := by decide +kernel
  revert hu
  cases Seq.push alloc true ZT zInit (st0, Seq.new ZT) <;> simp [ubOf]

/-- With unchecked indexing, zero-sized values can be pushed, but dropping the sequence does not run their destructors. -/
theorem C47_zero_size_never_dropped : LibType ZT ∧ LibInit ZT zInit ∧
    ∃ s q, Seq.extend alloc false ZT false [zInit, zInit] (st0, Seq.new ZT) = .ok () (s, q) ∧ (Seq.len q).toNat = 2 ∧ s.log = [] ∧ Z.drops [] = [7] ∧
      ∃ s' q', Seq.drop false ZT (s, q) = .ok () (s', q') ∧ s'.log = [] := by
  refine ⟨.fixedLen Z_ok, .fixedLen Z_ok rfl, ζ.1, ζ.2, run_unit zTwo _ (by decide +kernel), by decide +kernel, by decide +kernel, by decide +kernel, ?_⟩
  have e := run_unit (Seq.drop false ZT) ζ (by decide +kernel)
  exact ⟨_, _, e, by decide +kernel⟩

/-- And `offset_of` panics for a reference to an element of such a sequence. -/
theorem C47_zero_size_offset_of : ∃ s q p it it', Seq.extend alloc false ZT false [zInit, zInit] (st0, Seq.new ZT) = .ok () (s, q) ∧ Seq.iter q = it ∧
    Iter.next ZT it s = .ok (some p, it') s ∧ Seq.offsetOf ZT q p s = .panic .outOfBounds s := by
  refine ⟨ζ.1, ζ.2, ⟨0, 1⟩, _, ⟨⟨0, 1⟩, 1⟩, run_unit zTwo _ (by decide +kernel), rfl, by rfl, by rfl⟩

/-- What does hold for zero-sized values, with unchecked indexing and if the head of the type is aligned like the type: `extend` pushes all of them, `len()` counts them, nothing is allocated,
`offset()` and capacity stay 0, and iterating yields a reference to each value in order. But dropping the sequence does nothing at all, so no destructor is run.
(Missing: checked indexing and destructors, where the claim is false, see `C47_zero_size_checked_push_undefined`, `C47_zero_size_never_dropped`, `C47_zero_size_offset_of`; and types whose head is
less aligned, see `C47_zero_size_misaligned`.) -/
theorem C47_zero_size_unchecked_partial {w : Nat} {T : VarLen w} (hT : LibType T) (hal : T.headAlign = T.ALIGN.toNat) (A : Allocator) {own : Bool} {is : List (Init w)} {s : St}
    (hlen : is.length < 2 ^ w) (ha : ZeroItems T is s) :
    ∃ s' q', Seq.extend A false T own is (s, Seq.new T) = .ok () (s', q') ∧ (Seq.len q').toNat = is.length ∧ Seq.offset q' = 0 ∧ Seq.capacityInOffsets q' = 0 ∧
      s'.blocks.length = s.blocks.length ∧ s'.log = s.log ++ is.flatMap (·.left) ∧
      (∀ k, ∃ ps it, Iter.take T k (Seq.iter q') s' = .ok (ps, it) s' ∧ RefsTo T s' ps ((is.filterMap (·.val)).take k)) ∧
      Seq.drop false T (s', q') = .ok () (s', q') := by
  obtain ⟨s', e1, e2, e3, e4, e5⟩ := Seq.extend_zero hT.lawful hal A (q := Seq.new T) ⟨rfl, rfl, rfl⟩ ha
  refine ⟨s', _, e1, ?_, rfl, rfl, e2, e3, fun k => ?_, ?_⟩
  · simp [Seq.len, Seq.new, Nat.mod_eq_of_lt hlen]
  · have hqlen : (Seq.iter { Seq.new T with len := (Seq.new T).len + BitVec.ofNat w is.length }).len.toNat = is.length := by
      simp [Seq.iter, Seq.new, Nat.mod_eq_of_lt hlen]
    cases is with
    | nil => exact ⟨[], _, Iter.take_zero_nil T k (by simpa using hqlen) s', by simp [RefsTo]⟩
    | cons I is =>
      obtain ⟨v, hv⟩ := Option.ne_none_iff_exists'.1 (ha.each I (by simp)).2.2.2
      obtain ⟨l, hr, hz⟩ := e5 I (by simp) v hv
      obtain ⟨it, hit⟩ := Iter.take_zero hT.lawful hal hr hz s' k (Seq.iter { Seq.new T with len := (Seq.new T).len + BitVec.ofNat w (I :: is).length }).len
      refine ⟨_, it, hit, ?_⟩
      rw [hqlen]
      have hfm : ((I :: is).filterMap (·.val)).length = (I :: is).length := by
        rw [List.length_filterMap_eq_countP, List.countP_eq_length]
        intro J hJ
        exact Option.isSome_iff_ne_none.2 (ha.each J hJ).2.2.2
      refine ⟨by rw [List.length_take, hfm, List.length_replicate], fun i p v' hp hv' => ?_⟩
      have hp := List.mem_of_getElem? hp
      have hp := (List.mem_replicate.1 hp).2
      subst hp
      obtain ⟨J, hJ, hJv⟩ := List.mem_filterMap.1 (List.mem_of_mem_take (List.mem_of_getElem? hv'))
      obtain ⟨l', hr', hz'⟩ := e5 J hJ v' hJv
      refine ⟨l', ?_, ?_, ?_⟩
      · rw [hz']; exact .inl rfl
      · simp [Aligned, addr_dangling, hal]
      · rw [viewAt_dangling]; exact hr'
  · simp [Seq.drop, Seq.new, bind_apply, getQ_apply, pure_apply]

/-- The hypotheses are met: two zero-sized values with a destructor. -/
example : LibType ZT ∧ ZT.headAlign = ZT.ALIGN.toNat ∧ ZeroItems ZT [zInit, zInit] st0 := by
  refine ⟨.fixedLen Z_ok, by decide, ?_, ?_⟩
  · intro I hI
    have : I = zInit := by simpa using hI
    subst this
    exact ⟨(LibInit.fixedLen Z_ok rfl).lib.2, trivial, ⟨_, rfl, by decide⟩, by simp [zInit, FixedLen.init]⟩
  · simp [FixedLen.init]

end Varlen

namespace Varlen.Demo
/-- `[u64; 0]`: size 0, alignment 8. -/
def Z8 : RTy where
  size := 0
  align := 8
  valid := fun img => img.length == 0
  needsDrop := false
  dropEv := fun _ => []

theorem Z8_ok : Z8.Ok 64 where
  align_pow2 := ⟨3, by decide, rfl⟩
  dvd := ⟨0, rfl⟩
  size_lt := by decide
  valid_len := by
    intro img h
    simpa [Z8] using h

/-- `Tup1<FixedLen<[u64; 0]>>`: its head (the tuple itself) has alignment 1, but `ALIGN` is 8. -/
abbrev ZTup : VarLen 64 := Tuple 64 [FixedLen 64 Z8]
abbrev zTupInit : Init 64 := Tuple.init [(FixedLen 64 Z8, FixedLen.init 64 Z8 [])]
end Varlen.Demo

namespace Varlen
open Demo

/-- A never-allocated sequence points to `align_of::<T>()`, not to a multiple of `T::ALIGN`: pushing a zero-sized value of a type whose head is less aligned than its fields writes through
a misaligned pointer, also with unchecked indexing. -/
theorem C47_zero_size_misaligned : LibType ZTup ∧ LibInit ZTup zTupInit ∧ Seq.push alloc false ZTup zTupInit (st0, Seq.new ZTup) = .ub .misaligned := by
  refine ⟨.tuple (by simp) (by intro T hT; simp only [List.mem_singleton] at hT; subst hT; exact .fixedLen Z8_ok),
    .tuple (fis := [(FixedLen 64 Z8, FixedLen.init 64 Z8 [])]) (by simp) (by intro f hf; simp only [List.mem_singleton] at hf; subst hf; exact .fixedLen Z8_ok rfl), ?_⟩
  have hu : ubOf (Seq.push alloc false ZTup zTupInit (st0, Seq.new ZTup)) = some .misaligned := by decide +kernel
  revert hu
  cases Seq.push alloc false ZTup zTupInit (st0, Seq.new ZTup) <;> simp [ubOf]

/-! ## For every zero-sized type -/

/-- This is not particular to the types above. For every type, every initializer of the library that announces a value of size zero, every allocator and every state: pushing it onto a new
`IndexableSeq` is undefined behaviour. -/
theorem C47_every_zero_size_checked_push_undefined {w : Nat} {T : VarLen w} {I : Init w} (hI : LibInit T I) (A : Allocator) {s : St} (hpre : I.pre s) {l : Layout w} (hl : I.lay = some l)
    (hz : l.size.toNat = 0) : Seq.push A true T I (s, Seq.new T) = .ub .outOfBounds :=
  Seq.push_zero_checked hI.lib.1.lawful hI.lib.2 A ⟨rfl, rfl, rfl⟩ hpre hl hz

example : LibInit ZT zInit ∧ zInit.pre st0 ∧ ∃ l, zInit.lay = some l ∧ l.size.toNat = 0 := ⟨.fixedLen Z_ok rfl, trivial, _, rfl, by decide⟩
example : LibInit ZTup zTupInit := .tuple (fis := [(FixedLen 64 Z8, FixedLen.init 64 Z8 [])]) (by simp) (by intro f hf; simp only [List.mem_singleton] at hf; subst hf; exact .fixedLen Z8_ok rfl)

/-- For every type whose head is aligned like the type: however many zero-sized values have been pushed with unchecked indexing, dropping the sequence changes nothing (in particular, runs no destructor, although
the values pushed have `drops` to run), and `offset_of` panics for every reference to an element. -/
theorem C47_every_zero_size_never_dropped {w : Nat} {T : VarLen w} (hT : LibType T) (hal : T.headAlign = T.ALIGN.toNat) (A : Allocator) {own : Bool} {is : List (Init w)} {s : St}
    (ha : ZeroItems T is s) :
    ∃ s' q', Seq.extend A false T own is (s, Seq.new T) = .ok () (s', q') ∧ s'.log = s.log ++ is.flatMap (·.left) ∧ Seq.drop false T (s', q') = .ok () (s', q') ∧
      ∀ p, Seq.offsetOf T q' p s' = .panic .outOfBounds s' := by
  obtain ⟨s', e1, e2, e3, e4, e5⟩ := Seq.extend_zero hT.lawful hal A (q := Seq.new T) (own := own) ⟨rfl, rfl, rfl⟩ ha
  refine ⟨s', _, e1, e3, ?_, fun p => ?_⟩
  · simp [Seq.drop, Seq.new, bind_apply, getQ_apply, pure_apply]
  · simp [Seq.offsetOf, Seq.new]

end Varlen
