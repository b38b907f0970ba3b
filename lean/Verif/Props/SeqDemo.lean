import Verif.Props.SeqIndex
/-!
# Concrete sequences: the hypotheses of C19–C34, C44 and C48 are met; and where C23 and C24 fail

A sequence of `Array<D4, u16>` with checked indexing: two pushes, `take_elems` (dropping everything), one more push.
-/
namespace Varlen.Demo

abbrev pushD (xs : List Nat) : MQ 64 Unit := Seq.push alloc true ArrT (arrInit xs)

theorem arr_pushArg (xs : List Nat) (s : St) (q : SeqS 64) (hz : ((arrInit xs).lay.map fun l => decide (0 < l.size.toNat)).getD true = true) : PushArg ArrT (arrInit xs) s q where
  lawful := (arrInit_lib xs).lib.2
  pre := trivial
  apart := fun h => h
  nonzero := by
    intro l hl
    rw [hl] at hz
    simpa using hz

/-- After `push([1,2,3])`. -/
def σ1 : St × SeqS 64 := after (pushD [1, 2, 3]) (st0, Seq.new ArrT)
/-- After `push([4])`. -/
def σ2 : St × SeqS 64 := after (pushD [4]) σ1
/-- The iterator that `take_elems` returns, and the state after it. -/
def it3 : IterS 64 := result ⟨⟨0, 0⟩, 0⟩ (Seq.takeElems true ArrT) σ2
def σ3 : St × SeqS 64 := after (Seq.takeElems true ArrT) σ2
/-- After dropping that iterator. -/
def s4 : St := after (OwnedElems.drop ArrT it3) σ3.1
/-- After `push([5,6,7,65535,9])`. -/
def σ5 : St × SeqS 64 := after (pushD [5, 6, 7, 65535, 9]) (s4, σ3.2)

def elem (xs : List Nat) : V := ((arrInit xs).val).getD (.arr [])

theorem hist1U : ∃ m, HistU ArrT true σ1.1 σ1.2 [(0, elem [1, 2, 3])] m false [0] := by
  have e := run_unit (pushD [1, 2, 3]) (st0, Seq.new ArrT) (by decide +kernel)
  exact ⟨_, HistU.push alloc (v := elem [1, 2, 3]) (HistU.new st0) (arr_pushArg _ _ _ (by decide +kernel)) rfl e⟩

theorem off1 : Seq.offset σ1.2 = 4 := by decide +kernel

/-- A history with two elements, at offsets 0 and 4. -/
theorem hist2U : ∃ m, HistU ArrT true σ2.1 σ2.2 [(0, elem [1, 2, 3]), (4, elem [4])] m false [0, 4] := by
  obtain ⟨m, h1⟩ := hist1U
  have e := run_unit (pushD [4]) σ1 (by decide +kernel)
  have h2 := HistU.push alloc (v := elem [4]) h1 (arr_pushArg _ _ _ (by decide +kernel)) rfl e
  rw [off1] at h2
  exact ⟨_, h2⟩

theorem hist2 : ∃ m, Hist ArrT true σ2.1 σ2.2 [(0, elem [1, 2, 3]), (4, elem [4])] m false := by
  obtain ⟨m, h⟩ := hist2U
  exact ⟨m, _, h⟩

/-- After `take_elems`, dropping the elements it returns, and one more push: the only element is at offset 0, but pushes were at 0, 4 and 0. -/
theorem hist5U : ∃ m, HistU ArrT true σ5.1 σ5.2 [(0, elem [5, 6, 7, 65535, 9])] m true [0, 4, 0] := by
  obtain ⟨m, h2⟩ := hist2U
  have e1 := run_eq ⟨⟨0, 0⟩, 0⟩ (Seq.takeElems true ArrT) σ2 (by decide +kernel)
  have e2 := run_unit (OwnedElems.drop ArrT it3) σ3.1 (by decide +kernel)
  have h4 : HistU ArrT true s4 σ3.2 [] m true [0, 4] := HistU.drain 0 (before := []) (after := []) (rest := []) h2 e1 rfl (.refl _) rfl e2 rfl
  have e3 := run_unit (pushD [5, 6, 7, 65535, 9]) (s4, σ3.2) (by decide +kernel)
  have h5 := HistU.push alloc (v := elem [5, 6, 7, 65535, 9]) h4 (arr_pushArg _ _ _ (by decide +kernel)) rfl e3
  have : Seq.offset σ3.2 = 0 := by decide +kernel
  rw [this] at h5
  exact ⟨_, h5⟩

theorem hist5 : ∃ m, Hist ArrT true σ5.1 σ5.2 [(0, elem [5, 6, 7, 65535, 9])] m true := by
  obtain ⟨m, h⟩ := hist5U
  exact ⟨m, _, h⟩

/-- The premises of the C19–C34 theorems are met by a history with two elements. -/
example : ∃ s q h m, Hist ArrT true s q h m false ∧ h.length = 2 ∧ LibType ArrT := by
  obtain ⟨m, h⟩ := hist2
  exact ⟨_, _, _, m, h, rfl, ArrT_lib⟩

/-- And those of `C48_extend`. -/
example : ExtendArg ArrT [arrInit [1, 2, 3], arrInit [4]] st0 (Seq.new ArrT) where
  each := by
    intro I hI
    simp only [List.mem_cons, List.mem_nil_iff, or_false] at hI
    rcases hI with rfl | rfl <;> exact arr_pushArg _ _ _ (by decide +kernel)
  apart := by simp [SizedInit, MoveFrom]

end Varlen.Demo

namespace Varlen
open Demo

/-- A program that, if it returns, has changed nothing. -/
def ReadOnly {α : Type} (x : M α) : Prop := ∀ s a s', x s = .ok a s' → s' = s

theorem ReadOnly.pure {α : Type} (a : α) : ReadOnly (Pure.pure a : M α) := fun s b s' h => by cases h; rfl
theorem ReadOnly.ub {α : Type} (k : UB) : ReadOnly (ubM k : M α) := fun s b s' h => by cases h
theorem ReadOnly.panic {α : Type} (k : PanicMsg) : ReadOnly (panicM k : M α) := fun s b s' h => by cases h
theorem ReadOnly.bind {α β : Type} {x : M α} {f : α → M β} (hx : ReadOnly x) (hf : ∀ a, ReadOnly (f a)) : ReadOnly (x >>= f) := by
  intro s b s' h
  simp only [bind_apply] at h
  cases e : x s with
  | ok a s1 =>
    rw [e, Res.bind_ok] at h
    rw [hf a _ _ _ h, hx _ _ _ e]
  | panic m s1 => rw [e] at h; cases h
  | ub k => rw [e] at h; cases h
theorem ReadOnly.checkAlign (p : Ptr) (a : Nat) : ReadOnly (checkAlign p a) := by
  intro s b s' h
  unfold Varlen.checkAlign at h
  split at h <;> cases h
  rfl
theorem ReadOnly.checkAcc (p : Ptr) (n : Nat) : ReadOnly (checkAcc p n) := by
  intro s b s' h
  unfold Varlen.checkAcc at h
  split at h <;> cases h
  rfl
theorem ReadOnly.readVal (R : RTy) (p : Ptr) : ReadOnly (readVal R p) := by
  refine .bind (.checkAlign _ _) fun _ => .bind ?_ fun img => ?_
  · intro s b s' h
    unfold readBytes at h
    split at h <;> cases h
    rfl
  · split
    · exact .pure _
    · exact .ub _
theorem ReadOnly.isOffsetValid {w : Nat} (T : VarLen w) (q : SeqS w) (o : BitVec w) : ReadOnly (Seq.isOffsetValid T q o) := by
  unfold Seq.isOffsetValid
  split
  · exact .pure _
  · refine .bind (.readVal _ _) fun r => ?_
    split
    · exact .pure _
    · exact .ub _
theorem ReadOnly.fromOffset {w : Nat} (T : VarLen w) (q : SeqS w) (o : BitVec w) : ReadOnly (Seq.fromOffset T q o) := by
  refine .bind (.isOffsetValid _ _ _) fun b => ?_
  split
  · exact .bind (.bind (.checkAlign _ _) fun _ => .checkAcc _ _) fun _ => .pure _
  · exact .panic _

/-- C23 is false after `take_elems`: there is a history after which `is_offset_valid(4)` is true although the only element is at offset 0. (`take_elems` resets
`occupied_offsets` before it passes it to `clear_bitmasks`, so the old bits stay.) -/
theorem C23_stale_offset_accepted : ∃ (s : St) (q : SeqS 64) (v : V) (m : Nat), LibType ArrT ∧ Hist ArrT true s q [(0, v)] m true ∧
    Seq.isOffsetValid ArrT q 4 s = .ok true s := by
  obtain ⟨m, h⟩ := hist5
  refine ⟨_, _, _, m, ArrT_lib, h, ?_⟩
  have hr : result false (Seq.isOffsetValid ArrT σ5.2 4) σ5.1 = true := by decide +kernel
  have e := run_eq false (Seq.isOffsetValid ArrT σ5.2 4) σ5.1 (by decide +kernel)
  rw [hr, ReadOnly.isOffsetValid _ _ _ _ _ _ e] at e
  exact e

/-- C24 is false after `take_elems`: there is a history after which the safe call `from_offset(4)` returns a reference although there is no element at offset 4, and using it
(slicing the array it refers to) reads out of bounds: undefined behaviour from safe code. -/
theorem C24_from_offset_undefined : ∃ (s : St) (q : SeqS 64) (v : V) (m : Nat) (p : Ptr), LibType ArrT ∧ Hist ArrT true s q [(0, v)] m true ∧
    Seq.fromOffset ArrT q 4 s = .ok p s ∧ Array.deref 64 D4 lenU16 p s = .ub .outOfBounds := by
  obtain ⟨m, h⟩ := hist5
  have e := run_eq ⟨0, 0⟩ (Seq.fromOffset ArrT σ5.2 4) σ5.1 (by decide +kernel)
  rw [ReadOnly.fromOffset _ _ _ _ _ _ e] at e
  refine ⟨_, _, _, m, _, ArrT_lib, h, e, ?_⟩
  have hu : ubOf (Array.deref 64 D4 lenU16 (result ⟨0, 0⟩ (Seq.fromOffset ArrT σ5.2 4) σ5.1) σ5.1) = some .outOfBounds := by decide +kernel
  revert hu
  cases Array.deref 64 D4 lenU16 (result ⟨0, 0⟩ (Seq.fromOffset ArrT σ5.2 4) σ5.1) σ5.1 <;> simp [ubOf]

end Varlen
