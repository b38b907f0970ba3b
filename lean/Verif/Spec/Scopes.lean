import Verif.Model.Scopes
import Verif.Spec.MacroSem
/-! # Specification: what the compiler checks about types that are printed in several places -/
namespace Varlen.Macro
variable {w : Nat}

/-- The type that a field behind the head is declared with: of the object, or of the elements. -/
def Field.tailTy (f : Field) : Ty :=
  match f.kind, f.ty with
  | .varlenArray, .array e _ => e
  | _, t => t

/-- The compiler accepts the printed item, as far as the types of fields are concerned. A field of the head is moved from `Init`, borrowed for `Refs` and passed to the length functions, so its type must be the same
everywhere (coercions are left out). The layout of a `#[varlen]` field is computed beside the declaration and stored in `VarLenLayout`, so the types of the layouts must be the same. For the
elements of a `#[varlen_array]` field, nothing relates the two types. -/
structure TypeChecks {E : Type} (T : Types w E) (W : World E) (fs : List Field) : Prop where
  head : ∀ f ∈ fs, f.behindHead = false → ∃ i, T.typ W.beside f.ty = some i ∧ T.typ W.inModule f.ty = some i ∧ (f.kind = .controlsLayout → T.typ W.inLengths f.ty = some i)
  varlen : ∀ f ∈ fs, f.kind = .varlen → ∃ i j, T.typ W.beside f.ty = some i ∧ T.typ W.inModule f.ty = some j ∧ T.layout i = T.layout j
  array : ∀ f ∈ fs, f.kind = .varlenArray → ∃ i j, T.typ W.beside f.tailTy = some i ∧ T.typ W.inModule f.tailTy = some j

/-- The path cannot be taken for something else in the printed module: it is absolute, or it begins with the name of something that is not an item of a function body, and that has no name of the printed module, or
with `self::` and such a name. -/
def Path.Safe {E : Type} (W : World E) (p : Path) : Prop :=
  match p.root with
  | .absolute => True
  | .plain => p.name ∉ printedNames ∧ W.block p.name = none
  | .up 0 => p.name ∉ printedNames
  | .up (_ + 1) => False

end Varlen.Macro
