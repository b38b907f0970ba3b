import Verif.Model.Newtype
import Verif.Model.VBox
/-!
# A newtype with a destructor written by the user

`#[define_varlen]` and the tuples print an `impl Drop` (varlen_macro/src/lib.rs:338-342, varlen/src/tuple.rs:236-240), so a second one by the user is a compile error. `define_varlen_newtype!` prints none
(varlen/src/newtype.rs:160-243), so `impl Drop for Outer` by the user compiles. In Rust, destroying a value runs its `Drop::drop` first and then destroys its fields.
-/
namespace Varlen
variable {w : Nat}

/-- The newtype, printed by `define_varlen_newtype!` (varlen/src/newtype.rs:184-208), of a user who also writes `impl Drop for Outer`, with the observable effects `own v` on the value `v`. The printed code is the same;
`needs_drop::<Outer>()` is now true, and what a destroyed value owes (ghost) are the effects of the user's destructor, and then those of the field. -/
def NewtypeDrop (T : VarLen w) (own : V → List Event) : VarLen w := { Newtype T with headNeedsDrop := true, drops := fun v => own v ++ T.drops v }

end Varlen
