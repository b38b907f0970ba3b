import Verif.Proofs.LibType
import Verif.Proofs.SeqHist
/-!
# A concrete world for the non-vacuity examples

The examples beside the theorems are tests that the hypotheses can be met; they are not the proofs of the properties.
-/
namespace Varlen.Demo

/-- The result of an outcome, forgetting how it got there. -/
def okOf {σ α : Type} : Res σ α → Option (α × σ)
  | .ok a s => some (a, s)
  | _ => none

/-- The undefined behaviour of an outcome. -/
def ubOf {σ α : Type} : Res σ α → Option UB
  | .ub k => some k
  | _ => none

/-- The panic of an outcome. -/
def panicOf {σ α : Type} : Res σ α → Option (PanicMsg × σ)
  | .panic m s => some (m, s)
  | _ => none

theorem of_okOf {σ α : Type} {r : Res σ α} (h : (okOf r).isSome = true) : ∃ a s, r = .ok a s := by
  cases r <;> simp [okOf] at h ⊢

theorem ok_of_map {σ α β : Type} {r : Res σ α} {f : α × σ → β} {b : β} (h : (okOf r).map f = some b) : ∃ a s, r = .ok a s ∧ f (a, s) = b := by
  cases r with
  | ok a s => exact ⟨a, s, rfl, by simpa [okOf] using h⟩
  | panic m s => simp [okOf] at h
  | ub k => simp [okOf] at h

/-- Whether a run returned. -/
def isOk {σ α : Type} : Res σ α → Bool
  | .ok _ _ => true
  | _ => false

/-- The state after a run (the old state if it did not return). -/
def after {σ α : Type} (x : MS σ α) (s : σ) : σ :=
  match x s with
  | .ok _ s' => s'
  | _ => s

/-- The result of a run. -/
def result {σ α : Type} (d : α) (x : MS σ α) (s : σ) : α :=
  match x s with
  | .ok a _ => a
  | _ => d

theorem run_eq {σ α : Type} (d : α) (x : MS σ α) (s : σ) (h : isOk (x s) = true) : x s = .ok (result d x s) (after x s) := by
  unfold result after
  cases hx : x s <;> simp [hx, isOk] at h ⊢

theorem run_unit {σ : Type} (x : MS σ Unit) (s : σ) (h : isOk (x s) = true) : x s = .ok () (after x s) := run_eq () x s h

/-- An allocator that puts allocations on consecutive pages. -/
def alloc : Allocator := fun s _ _ => some (4096 * s.blocks.length + 4096)

/-- An allocator that is out of memory. -/
def noMem : Allocator := fun _ _ _ => none

/-- Empty memory. -/
def st0 : St := ⟨[], [], 0⟩

/-- A 4-byte droppable type whose destructor logs its value. -/
def D4 : RTy where
  size := 4
  align := 4
  valid := fun img => img.length == 4 && img.all (·.isSome)
  needsDrop := true
  dropEv := fun img => [decLE img]

/-- The length type `u8`. -/
def lenU8 : LenTy := ⟨1, 1, false⟩
/-- The length type `u16`. -/
def lenU16 : LenTy := ⟨2, 2, false⟩
/-- The length type `usize` on a 64-bit target. -/
def lenUsize : LenTy := .usize 64 8

theorem lenU8_ok : lenU8.Ok 64 := ⟨⟨0, by decide, rfl⟩, ⟨1, rfl⟩, by decide, by decide⟩
theorem lenU16_ok : lenU16.Ok 64 := ⟨⟨1, by decide, rfl⟩, ⟨1, rfl⟩, by decide, by decide⟩
theorem lenUsize_ok : lenUsize.Ok 64 := ⟨⟨3, by decide, rfl⟩, ⟨1, rfl⟩, by decide, fun _ => rfl⟩

theorem D4_ok : D4.Ok 64 where
  align_pow2 := ⟨2, by decide, rfl⟩
  dvd := ⟨1, rfl⟩
  size_lt := by decide
  valid_len := by
    intro img h
    simp only [D4, Bool.and_eq_true, beq_iff_eq] at h
    exact h.1

/-- The value `n` of type `D4`. -/
def d4 (n : Nat) : Img := encLE 4 n

theorem d4_valid (n : Nat) : D4.valid (d4 n) = true := by simp [D4, d4, encLE]

/-- `Array<D4, u16>` on a 64-bit target. -/
abbrev ArrT : VarLen 64 := Array 64 D4 lenU16
theorem ArrT_lib : LibType ArrT := .array D4_ok lenU16_ok

/-- An initializer for an array of the given values. -/
abbrev arrInit (xs : List Nat) : Init 64 := SizedInit 64 D4 lenU16 (encLE 2 xs.length) (MoveFrom D4 (xs.map d4))
theorem arrInit_lib (xs : List Nat) : LibInit ArrT (arrInit xs) :=
  .sized D4_ok lenU16_ok (encLE_valid lenU16 _) (.moveFrom fun x hx => by
    obtain ⟨n, _, rfl⟩ := List.mem_map.1 hx
    exact d4_valid n)

/-- `u8` read as a length. -/
def u8Len : LenFn 64 := .total fun lens => BitVec.ofNat 64 (decLE (lens.headD []))

/-- Field initializers of a struct
`{ a: D4, #[controls_layout] n: u8, #[varlen] s: Array<D4, u16>, #[varlen_array] xs: [u8; *n as usize], #[varlen] t: Array<D4, u16> }`, whose head is 8 bytes with
`a` at 0 and `n` at 4. -/
abbrev sFis (a n : Nat) (s : List Nat) (xs : List Nat) (t : List Nat) : List (FI 64) :=
  [.normal D4 0 (d4 a), .length u8Ty 4 (encLE 1 n), .varlen ArrT (arrInit s), .array u8Ty u8Len (MoveFrom u8Ty (xs.map (encLE 1))), .varlen ArrT (arrInit t)]

/-- The fields of that struct. -/
abbrev sFs : List (Fld 64) := [.normal D4 0, .length u8Ty 4, .varlen ArrT, .array u8Ty u8Len, .varlen ArrT]

example (a n s xs t) : (sFis a n s xs t).map FI.fld = sFs := rfl

/-- The struct type. -/
abbrev S : VarLen 64 := Struct 64 8 4 sFs

/-- The struct initializer. -/
abbrev sInit (a n : Nat) (s xs t : List Nat) : Init 64 := Struct.init 8 4 (sFis a n s xs t)

theorem sHeader : HeaderOk 8 4 sFs where
  head_pow2 := ⟨2, by decide, rfl⟩
  head_lt := by decide
  normal := by
    intro R off h
    simp at h
    obtain ⟨rfl, rfl⟩ := h
    exact ⟨D4_ok, by decide, by decide, by decide⟩
  length := by
    intro R off h
    simp at h
    obtain ⟨rfl, rfl⟩ := h
    exact ⟨u8Ty_ok (by decide), by decide, by decide, by decide⟩
  array := by
    intro R len h
    simp at h
    obtain ⟨rfl, rfl⟩ := h
    exact u8Ty_ok (by decide)
  disjoint := by
    simp [Fld.range, D4, u8Ty]

theorem S_lib : LibType S := .struct sHeader (by
  intro T h
  simp at h
  subst h
  exact ArrT_lib)

theorem encLE1_valid (n : Nat) : u8Ty.valid (encLE 1 n) = true := by simp [u8Ty, encLE]

theorem sLit (a n : Nat) (s xs t : List Nat) : StructLit 8 4 (sFis a n s xs t) := by
  refine ⟨sHeader, ?_, ?_, ?_, ?_⟩
  · intro R off img h
    simp at h
    obtain ⟨rfl, rfl, rfl⟩ := h
    exact d4_valid a
  · intro R off img h
    simp at h
    obtain ⟨rfl, rfl, rfl⟩ := h
    exact encLE1_valid n
  · intro T I h
    simp only [List.mem_cons, reduceCtorEq, FI.varlen.injEq, List.mem_nil_iff, or_false, false_or] at h
    rcases h with ⟨rfl, rfl⟩ | ⟨rfl, rfl⟩
    · exact arrInit_lib s
    · exact arrInit_lib t
  · intro R len I h
    simp at h
    obtain ⟨rfl, rfl, rfl⟩ := h
    refine .moveFrom fun x hx => ?_
    obtain ⟨n, _, rfl⟩ := List.mem_map.1 hx
    exact encLE1_valid n

theorem sInit_lib (a n : Nat) (s xs t : List Nat) : LibInit S (sInit a n s xs t) := (sLit a n s xs t).lib

/-- The struct initializer needs nothing from memory. -/
theorem sInit_pre (a n : Nat) (s xs t : List Nat) (m : St) : (sInit a n s xs t).pre m := by
  refine ⟨?_, ?_⟩
  · intro f hf
    simp only [List.mem_cons, List.mem_nil_iff, or_false] at hf
    rcases hf with rfl | rfl | rfl | rfl | rfl <;> exact trivial
  · simp [FI.mods, SizedInit]

theorem arrInit_pre (xs : List Nat) (m : St) : (arrInit xs).pre m := trivial

/-- One block of 64 uninitialised bytes. -/
def st1 : St := ⟨[⟨4096, 64, 8, true, fun _ => none⟩], [], 0⟩
def p1 : Ptr := ⟨1, 0⟩

/-- The initializer of the array borrows nothing. -/
theorem arr_suitable : ∃ l, Suitable ArrT (arrInit [1, 2, 3]) st1 p1 l :=
  ⟨.array 4 3 16, trivial, rfl, by decide, by decide, fun h => h⟩

theorem struct_suitable : ∃ l, Suitable S (sInit 7 3 [1, 2] [10, 11, 12] [5]) st1 p1 l := by
  refine ⟨.fields 32 [(8, .array 4 2 12), (20, .len 3), (24, .array 4 1 8)], sInit_pre .., rfl, by decide, by decide, ?_⟩
  rintro ⟨f, hf, h⟩
  simp only [List.mem_cons, List.mem_nil_iff, or_false] at hf
  rcases hf with rfl | rfl | rfl | rfl | rfl <;> exact h

/-- The layout of the demo struct with values `7 3 [1, 2] [10, 11, 12] [5]`. -/
def sLay : Layout 64 := .fields 32 [(8, .array 4 2 12), (20, .len 3), (24, .array 4 1 8)]
/-- The state after constructing it at `p1`. -/
def sSt : St := after ((sInit 7 3 [1, 2] [10, 11, 12] [5]).initTo p1 sLay) st1
/-- Its value. -/
def sVal : List V := [.leaf (d4 7), .leaf (encLE 1 3), .arr [d4 1, d4 2], .arr [encLE 1 10, encLE 1 11, encLE 1 12], .arr [d4 5]]

theorem sSt_valid : Valid S sSt p1 (.node sVal) sLay := by
  obtain ⟨l, h⟩ := struct_suitable
  have hl : l = sLay := by
    have := h.lay (sInit_lib ..).lib.2
    exact (Option.some.inj (this.symm.trans (by rfl)))
  subst hl
  have e := run_unit ((sInit 7 3 [1, 2] [10, 11, 12] [5]).initTo p1 sLay) st1 (by decide +kernel)
  rcases h.run (sInit_lib ..).lib.2 with ⟨v, s2, ev, e2, _, _, hval, _⟩ | ⟨m, s2, ev, e2, _⟩
  · rw [e] at e2
    cases e2
    cases ev
    exact hval
  · rw [e] at e2; cases e2

end Varlen.Demo
