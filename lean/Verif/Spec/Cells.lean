import Verif.Spec.Borrow
/-!
# Specification: which bytes have interior mutability

`RTy.cells` tells which bytes of a Rust type are inside an `UnsafeCell`, `RTy.freeze` whether there are none. Here this is extended to the heads of variable-length types, and to the parts of an object that a field reference is to.
-/
namespace Varlen.TB
open Varlen
variable {w : Nat}

/-- Byte `i` of the head of an object of this type is inside an `UnsafeCell`. Arrays and tuples have no such bytes: their heads are an integer, or nothing. -/
inductive HeadCell : BTy w → Nat → Prop
  | fixedLen {pin : Bool} {R : RTy} {i : Nat} : i < R.size → R.cells i = true → HeadCell (BTy.fixed pin w R) i
  | newtype {pin : Bool} {C : BTy w} {inv : V → Prop} {i : Nat} : HeadCell C i → HeadCell (BTy.newtype pin C inv) i
  | normal {pin : Bool} {headSize headAlign : Nat} {fs : List (BFld w)} {R : RTy} {off i : Nat} : .normal R off ∈ fs → i < R.size → R.cells i = true →
      HeadCell (BTy.struct pin w headSize headAlign fs) (off + i)
  | length {pin : Bool} {headSize headAlign : Nat} {fs : List (BFld w)} {R : RTy} {off i : Nat} : .length R off ∈ fs → i < R.size → R.cells i = true →
      HeadCell (BTy.struct pin w headSize headAlign fs) (off + i)

/-- Some field in the head has interior mutability. -/
def HeadIm (fs : List (BFld w)) : Prop := ∃ R off, (.normal R off ∈ fs ∨ .length R off ∈ fs) ∧ R.freeze = false

/-- The head of this type has interior mutability. -/
inductive TypeIm : BTy w → Prop
  | fixedLen {pin : Bool} {R : RTy} : R.freeze = false → TypeIm (BTy.fixed pin w R)
  | newtype {pin : Bool} {C : BTy w} {inv : V → Prop} : TypeIm C → TypeIm (BTy.newtype pin C inv)
  | struct {pin : Bool} {headSize headAlign : Nat} {fs : List (BFld w)} : HeadIm fs → TypeIm (BTy.struct pin w headSize headAlign fs)

/-- Byte `i` of what the reference to a field is to (for a variable-length field: of its head) is inside an `UnsafeCell`. -/
inductive FieldCell : BFld w → Nat → Prop
  | normal {R : RTy} {off i : Nat} : i < R.size → R.cells i = true → FieldCell (.normal R off) i
  | length {R : RTy} {off i : Nat} : i < R.size → R.cells i = true → FieldCell (.length R off) i
  | varlen {C : BTy w} {i : Nat} : i < C.T.headSize → HeadCell C i → FieldCell (.varlen C) i
  /-- Byte `i` of element `k`. -/
  | array {R : RTy} {len : LenFn w} {k i : Nat} : i < R.size → R.cells i = true → FieldCell (.array R len) (k * R.size + i)

/-- How many of its bytes a reference's type tells about: all, but for a variable-length field those of its head. -/
def BFld.typed : BFld w → Nat → Nat
  | .varlen C, _ => C.T.headSize
  | _, len => len

end Varlen.TB
