import Verif.Model.AutoTraits
/-!
# Variable-length types by value

An object behind a `VBox`, an `Owned` or a `Seq` has a head and a tail. But `FixedLen`, `Array`, `Str`, tuples, newtypes and `define_varlen` structs are also ordinary sized Rust structs: a value of such a struct in a local
variable is a head without a tail. The documentation promises that safe code cannot make one unless the type has no tail: "This marker type also plays an important safety role, preventing you from creating a variable-length
object without also creating a valid tail for it, unless you use unsafe code" (varlen/src/marker.rs:35-36, 87-89).
-/
namespace Varlen
variable {w : Nat}

/-- `Builds have t`: safe code outside of the library can come by a value of type `t` by writing struct expressions, where `have` are the ordinary types of which it has values. (Visibility is ignored, except that the fields
of the two marker structs are private to the library and have no safe constructor: varlen/src/marker.rs:37, 50-53, 90, 102-105; nor does any trait give a value of them, `Clone`, `Default`, …: they derive nothing.
So there is no rule for `.struct`.) -/
inductive Builds (have_ : Plain → Prop) : RTm w → Prop
  | plain {P : Plain} : have_ P → Builds have_ (.plain P)
  | obj {T : Ty w} : (∀ t ∈ T.decl, Builds have_ t) → Builds have_ (.obj T)
  | phantomPinned : Builds have_ .phantomPinned
  | phantom {t : RTm w} : Builds have_ (.phantom t)

/-- Drop glue of the fields of a head, in declaration order: markers have none. -/
def glueFields (p : Ptr) : List (TyFld w) → M Unit
  | [] => pure ()
  | .normal P off :: fs => do
    dropInPlace P.ty (p.add off)
    glueFields p fs
  | .length P off :: fs => do
    dropInPlace P.ty (p.add off)
    glueFields p fs
  | _ :: fs => glueFields p fs

/-- What the compiler does with a local variable of a variable-length type when it goes out of scope: `Drop::drop`, where it is implemented, then the fields. It is implemented for `define_varlen` structs
(varlen_macro/src/lib.rs:338-342) and tuples (varlen/src/tuple.rs:236-240), where it calls `invalid_drop_call` (varlen/src/macro_support.rs:179-182), which panics; the fields are dropped during unwinding then. -/
def Ty.glue (p : Ptr) : Ty w → M Unit
  | .fixedLen P => dropInPlace P.ty p
  | .array _ _ => pure ()
  | .str _ => pure ()
  | .newtype T => T.glue p
  | .tuple _ => panicM .invalidDrop
  | .struct _ _ fs => onUnwind (panicM .invalidDrop) (glueFields p fs)

end Varlen
