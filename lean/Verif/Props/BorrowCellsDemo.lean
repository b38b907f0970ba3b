import Verif.Props.BorrowCells
import Verif.Props.BorrowDemo
/-! # C70: examples -/
namespace Varlen.TB.Demo
open Varlen Varlen.Demo

/-- `Cell<D4>` and `Cell<u8>`: the types of the other examples with interior mutability. -/
def cellD4 : RTy := { D4 with cells := fun _ => true, freeze := false }
def cellU8 : RTy := { u8Ty with cells := fun _ => true, freeze := false }

theorem cellD4_ok : cellD4.Ok 64 := ⟨D4_ok.1, D4_ok.2, D4_ok.3, D4_ok.4⟩
theorem cellU8_ok : cellU8.Ok 64 :=
  have h : u8Ty.Ok 64 := u8Ty_ok (by decide)
  ⟨h.1, h.2, h.3, h.4⟩

/-- `Array<Cell<D4>, u16>` with two elements. -/
theorem cellArr_layout : HasLayout (BTy.array true 64 cellD4 lenU16) (.array 4 2 12) := arrB_layout.1

/-- `let b: VBox<Array<Cell<D4>, u16>> = …; b[0].set(…)` is undefined behaviour, whatever is stored where. -/
example : ∃ r S1 r' S2, asRef (BTy.array true 64 cellD4 lenU16) 0 0 (.array 4 2 12) T0 = some (r, S1) ∧ arrayDeref true cellD4 lenU16 r 0 (.array 4 2 12 : Layout 64) S1 = some (r', S2) ∧
    ∀ lo n, 0 < n → access r' true lo n S2 = none := by
  have hC : LibBTy (BTy.array true 64 cellD4 lenU16) := .array cellD4_ok lenU16_ok
  obtain ⟨-, r, S1, h1, h2⟩ := C63_inner T0_reach hC cellArr_layout (T0_write 0 12 (by decide)).canRead
  have hs := Step.asRef hC cellArr_layout (T0_write 0 12 (by decide)).canRead
  rw [h1] at hs
  obtain ⟨r', S2, h3, h4⟩ := C70_array_store_undefined (pin := true) (R := cellD4) (L := lenU16) (t := r) (lo := 0) (T0_reach.step hs) cellD4_ok lenU16_ok cellArr_layout (h2.usable 0 r _ rfl rfl)
  exact ⟨r, S1, r', S2, h1, h3, h4⟩

/-- The same, run. Reading the elements is fine. -/
def useArr (wr : Bool) : B Unit := do
  let r ← asRef (BTy.array true 64 cellD4 lenU16) 0 0 (.array 4 2 12)
  let xs ← arrayDeref true cellD4 lenU16 r 0 (.array 4 2 12 : Layout 64)
  access xs wr 4 4

example : fine (useArr false) T0 = true := by decide +kernel
example : fine (useArr true) T0 = false := by decide +kernel

/-- The demo struct with other types: `R` is that of the first field, `X` that of the array of bytes. -/
def cfs (R X : RTy) : List (BFld 64) := [.normal R 0, .length u8Ty 4, .varlen arrB, .array X u8Len, .varlen arrB]

theorem cfs_lib {R X : RTy} (hR : R.Ok 64) (h1 : R.size = 4) (h2 : R.align = 4) (hX : X.Ok 64) : LibFields 8 (cfs R X) := by
  refine .struct (headAlign := 4) ?_ ?_
  · constructor
    · exact ⟨2, by decide, rfl⟩
    · decide
    · intro R' off h
      simp [cfs, BFld.fld] at h
      obtain ⟨rfl, rfl⟩ := h
      exact ⟨hR, by omega, by rw [h2], by rw [h2]; exact Nat.dvd_refl 4⟩
    · intro R' off h
      simp [cfs, BFld.fld] at h
      obtain ⟨rfl, rfl⟩ := h
      exact ⟨u8Ty_ok (by decide), by decide, by decide, by decide⟩
    · intro R' len h
      simp [cfs, BFld.fld] at h
      obtain ⟨rfl, rfl⟩ := h
      exact hX
    · simp [cfs, BFld.fld, Fld.range, h1, u8Ty]
  · intro C h
    simp [cfs] at h
    subst h
    exact arrB_lib

theorem cfs_layout (b c : Bool) : FieldsLayout 8 (cfs (if b then cellD4 else D4) (if c then cellU8 else u8Ty)) sLay := by
  obtain ⟨vs, ls, size, e1, e2, h3, h4⟩ := sSt_valid.rep
  cases e1; cases e2
  refine ⟨.node sVal, viewAt sSt p1, sVal, _, _, rfl, rfl, ?_, ?_⟩
  · cases b <;> cases c <;> exact h3
  · cases b <;> cases c <;> exact h4

/-- A struct with a `[Cell<u8>]` behind a head without interior mutability: no byte from 8 on can be changed through `refs()`. -/
example : ∃ rs S', refs 8 (cfs D4 cellU8) 0 0 sLay T0 = some (rs, S') ∧ ∀ r ∈ rs, ∀ lo n x, lo ≤ x → x < lo + n → 0 + 8 ≤ x → access r true lo n S' = none :=
  C70_tail_store_undefined T0_reach (cfs_lib D4_ok rfl rfl cellU8_ok) (cfs_layout false true) (T0_write 0 32 (by decide)).canRead (by rw [headIm_iff]; decide)

/-- With a `Cell` in the head, both it and the cells behind the head can be changed. -/
example : ∃ rs S', refs 8 (cfs cellD4 cellU8) 0 0 sLay T0 = some (rs, S') ∧ (∃ r, rs[0]? = some r ∧ CanStore S' r 0 4) ∧ ∃ r, rs[3]? = some r ∧ CanStore S' r 21 1 := by
  have hf := cfs_lib cellD4_ok rfl rfl cellU8_ok
  have hl : FieldsLayout 8 (cfs cellD4 cellU8) sLay := cfs_layout true true
  obtain ⟨rs, S', h1, h2⟩ := C70_refs_store_partial T0_reach hf hl (T0_write 0 32 (by decide))
  obtain ⟨rs', S'', h3, h4⟩ := C63_refs T0_reach hf hl (T0_write 0 32 (by decide)).canRead
  rw [h1] at h3; cases h3
  have hlen : rs.length = 5 := h4.count
  have key : ∀ k, k < 5 → ∃ r, rs[k]? = some r := fun k hk => ⟨_, List.getElem?_eq_getElem (by omega)⟩
  obtain ⟨r0, e0⟩ := key 0 (by decide)
  obtain ⟨r3, e3⟩ := key 3 (by decide)
  refine ⟨rs, S', h1, ⟨r0, e0, h2 0 r0 _ _ e0 rfl rfl 0 4 (by decide) (by decide) ?_⟩, r3, e3, h2 3 r3 _ _ e3 rfl rfl 21 1 (by decide) (by decide) ?_⟩
  · intro x hx1 hx2
    exact ⟨.normal (show x - 0 < 4 by omega) rfl, .inl (by omega)⟩
  · intro x hx1 hx2
    obtain rfl : x = 21 := by omega
    exact ⟨.array (R := cellU8) (k := 1) (i := 0) (by decide) rfl, .inr ⟨cellD4, 0, .inl (List.mem_cons_self ..), rfl⟩⟩

/-- The same, run: stores to the third element of the field of type `[X]` through two references that are both in use. -/
def useCells (R X : RTy) : B Unit := do
  let rs ← refs 8 (cfs R X) 0 0 sLay
  let rs' ← refs 8 (cfs R X) 0 0 sLay
  match rs, rs' with
  | [_, n, _, xs, _], [_, _, _, xs', _] => do
    access xs true 22 1
    access xs' true 22 1
    access xs false 22 1
    access n false 4 1
  | _, _ => confused

example : fine (useCells cellD4 cellU8) T0 = true := by decide +kernel
example : fine (useCells D4 cellU8) T0 = false := by decide +kernel
example : fine (useCells cellD4 u8Ty) T0 = false := by decide +kernel

/-- A tuple never has interior mutability in its head. -/
example (Cs : List (BTy 64)) : ¬ HeadIm (Cs.map .varlen) := by simp [headIm_iff, aggFreeze]

/-- A box of a `FixedLen<Cell<D4>>`. -/
example : ∃ r S', asRef (BTy.fixed true 64 cellD4) 0 0 (.fixed 4) T0 = some (r, S') ∧ CanStore S' r 0 4 := by
  have hl : HasLayout (BTy.fixed true 64 cellD4) (.fixed 4) := ⟨.leaf (d4 7), fun i => (d4 7)[i]?.join, d4 7, rfl, rfl, by decide, by decide⟩
  obtain ⟨r, S', h1, h2⟩ := C70_deref_store T0_reach (.fixedLen cellD4_ok) hl (T0_write 0 4 (by decide))
  exact ⟨r, S', h1, h2 0 4 (Nat.le_refl _) (by decide) fun x _ _ => .fixedLen (show x - 0 < 4 by omega) rfl⟩

/-- The controller at byte 4 is not a cell, and cannot be changed. -/
example : ∃ rs S', refs 8 (cfs cellD4 cellU8) 0 0 sLay T0 = some (rs, S') ∧ ∃ r, rs[1]? = some r ∧ access r true 4 1 S' = none := by
  have hf := cfs_lib cellD4_ok rfl rfl cellU8_ok
  have hl : FieldsLayout 8 (cfs cellD4 cellU8) sLay := cfs_layout true true
  obtain ⟨rs, S', h1, h2⟩ := C70_refs_store_undefined T0_reach hf hl (T0_write 0 32 (by decide)).canRead
  obtain ⟨rs', S'', h3, h4⟩ := C63_refs T0_reach hf hl (T0_write 0 32 (by decide)).canRead
  rw [h1] at h3; cases h3
  have hlen : rs.length = 5 := h4.count
  refine ⟨rs, S', h1, _, List.getElem?_eq_getElem (by omega), h2 1 _ _ _ (List.getElem?_eq_getElem (by omega)) rfl rfl 4 1 4 (by decide) (by decide) (by decide) (by decide) ?_⟩
  intro h
  cases h with
  | length _ hc => cases hc

/-- A box of a `FixedLen<D4>` cannot be changed through a shared reference. -/
example : ∃ r S', asRef (BTy.fixed true 64 D4) 0 0 (.fixed 4) T0 = some (r, S') ∧ access r true 0 4 S' = none := by
  have hl : HasLayout (BTy.fixed true 64 D4) (.fixed 4) := ⟨.leaf (d4 7), fun i => (d4 7)[i]?.join, d4 7, rfl, rfl, by decide, by decide⟩
  obtain ⟨r, S', h1, h2⟩ := C70_deref_store_undefined T0_reach (.fixedLen D4_ok) hl (T0_write 0 4 (by decide)).canRead
  refine ⟨r, S', h1, h2 0 4 0 (by decide) (by decide) (by decide) ?_⟩
  rw [if_pos (by decide)]
  intro h
  have := h.cells
  cases this

end Varlen.TB.Demo
