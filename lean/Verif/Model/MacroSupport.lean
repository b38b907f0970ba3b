import Verif.Model.Traits
/-!
# varlen/src/macro_support.rs

Helpers shared by `Array`, the tuples and the code generated by `define_varlen`.
-/
namespace Varlen
variable {w : Nat}

/-- `cat_array_field_cautious::<R>` (varlen/src/macro_support.rs:14-37): (offset, len, size afterwards). -/
def catArrayFieldCautious (R : RTy) (arrayLen size : BitVec w) : Option (BitVec w × BitVec w × BitVec w) := do
  let elemAlign := R.alignOf w
  let size ← checkedAdd size (elemAlign - 1)
  let offset := maskDown size elemAlign
  let arraySize ← checkedMul (R.sizeOf w) arrayLen
  let size ← checkedAdd offset arraySize
  some (offset, arrayLen, size)

/-- `cat_array_field_fast::<R>` (varlen/src/macro_support.rs:40-53). -/
def catArrayFieldFast (R : RTy) (arrayLen size : BitVec w) : BitVec w × BitVec w × BitVec w :=
  let elemAlign := R.alignOf w
  let size := size + (elemAlign - 1)
  let offset := maskDown size elemAlign
  let arraySize := R.sizeOf w * arrayLen
  (offset, arrayLen, offset + arraySize)

/-- Drop glue of a slice: elements in ascending order. -/
def dropElems (R : RTy) (p : Ptr) : Nat → M Unit
  | 0 => pure ()
  | n + 1 => do
    dropInPlace R p
    dropElems R (p.add R.size) n

/-- `drop_array` (varlen/src/macro_support.rs:56-59). -/
def dropArray (R : RTy) (p : Ptr) (offset len : BitVec w) : M Unit :=
  dropElems R (p.add offset.toNat) len.toNat

/-- A `&[R]` or `&mut [R]`. -/
structure Slice where
  ptr : Ptr
  len : Nat

/-- `ref_array` (varlen/src/macro_support.rs:62-67) and `mut_array` (70-72): `slice::from_raw_parts` requires the range
to be dereferenceable and aligned. (Its requirement that the slice holds initialised values is checked by the reads; the
`isize::MAX` limit on its size follows from the allocation's. That the whole contract is met is C72.) -/
def refArray (R : RTy) (base : Ptr) (offset len : BitVec w) : M Slice := do
  mkRef (base.add offset.toNat) (len.toNat * R.size) R.align
  pure ⟨base.add offset.toNat, len.toNat⟩

/-- `cat_field_cautious` (varlen/src/macro_support.rs:91-114), `align` being `Field::ALIGN`. -/
def catFieldCautious (align : BitVec w) (I : Init w) (offset : BitVec w) :
    M (Option (BitVec w × Layout w × BitVec w)) :=
  match checkedAdd offset (align - 1) with
  | none => pure none
  | some o => do
    let offset := maskDown o align
    match ← I.cautious with
    | none => pure none
    | some layout =>
      match checkedAdd offset layout.size with
      | none => pure none
      | some size => pure (some (offset, layout, size))

/-- `cat_field_fast` (varlen/src/macro_support.rs:117-134). -/
def catFieldFast (T : VarLen w) (parent : Ptr) (offset : BitVec w) : M (BitVec w × Layout w × BitVec w) := do
  let align := T.ALIGN
  let offset := maskDown (offset + (align - 1)) align
  mkRef (parent.add offset.toNat) T.headSize T.headAlign
  let layout ← T.calculateLayout (parent.add offset.toNat)
  pure (offset, layout, offset + layout.size)

/-- `init_field` (varlen/src/macro_support.rs:138-147). -/
def initField (I : Init w) (p : Ptr) (offset : BitVec w) (layout : Layout w) : M Unit :=
  I.initTo (p.add offset.toNat) layout

/-- `vdrop_field` (varlen/src/macro_support.rs:151-154). -/
def vdropField (T : VarLen w) (p : Ptr) (offset : BitVec w) (layout : Layout w) : M Unit := do
  mkRef (p.add offset.toNat) T.headSize T.headAlign
  T.vdrop (p.add offset.toNat) layout

/-- `mut_field` / `ref_field` (varlen/src/macro_support.rs:157-164). -/
def refField (T : VarLen w) (p : Ptr) (offset : BitVec w) : M Ptr := do
  mkRef (p.add offset.toNat) T.headSize T.headAlign
  pure (p.add offset.toNat)

/-- `array_max` (varlen/src/macro_support.rs:168-177); the loop is a left fold starting from `usize::MIN`. -/
def arrayMax (l : List (BitVec w)) : BitVec w :=
  l.foldl (fun r v => if r > v then r else v) 0

end Varlen
