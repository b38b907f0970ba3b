import Verif.Model.ByValue
import Verif.Spec.Controls
/-! # Specification: a value of a variable-length type in a local variable -/
namespace Varlen
variable {w : Nat}

/-- The bytes are a value of the Rust struct, which is the head of an object of type `T`: the fields have valid values. -/
def Ty.HeadValid (o : View) : Ty w → Prop
  | .fixedLen P => P.ty.valid (takeV o 0 P.ty.size) = true
  | .array _ L => L.ty.valid (takeV o 0 L.bytes) = true
  | .str L => L.ty.valid (takeV o 0 L.bytes) = true
  | .newtype T => T.HeadValid o
  | .tuple _ => True
  | .struct _ _ fs => ∀ P off, (.normal P off ∈ fs ∨ .length P off ∈ fs) → P.ty.valid (takeV o off P.ty.size) = true

/-- A variable of type `T` is at `p`: as many bytes as `size_of::<T>()`, aligned to `align_of::<T>()`, with a value of the type. Nothing is known of what comes after it. -/
structure Stands (T : Ty w) (s : St) (p : Ptr) : Prop where
  acc : Acc s p T.sem.headSize
  aligned : Aligned s p T.sem.headAlign
  valid : T.HeadValid (viewAt s p)

/-- The type has no tail: there are no variable-length fields in it, only ordinary ones, of types `have_`. -/
inductive NoTail (have_ : Plain → Prop) : Ty w → Prop
  | fixedLen {P : Plain} : have_ P → NoTail have_ (.fixedLen P)
  | newtype {T : Ty w} : NoTail have_ T → NoTail have_ (.newtype T)
  | struct {hs ha : Nat} {fs : List (TyFld w)} : (∀ f ∈ fs, ∃ P off, have_ P ∧ (f = .normal P off ∨ f = .length P off)) → NoTail have_ (.struct hs ha fs)

/-- A `define_varlen` struct, or a newtype of one. -/
def Ty.isStruct : Ty w → Bool
  | .newtype T => T.isStruct
  | .struct _ _ _ => true
  | _ => false

end Varlen
