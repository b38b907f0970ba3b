import Verif.Model.AutoTraits
/-!
# Comparing layouts

`PartialEq` for the layouts of fixed-size types and of arrays. Layouts of tuples and of structs have no `PartialEq` (varlen/src/tuple.rs:107-115; varlen_macro/src/lib.rs:273-279); the layout of a
newtype or a string is that of the type in it.
-/
namespace Varlen
variable {w : Nat}

/-- `PartialEq for FixedLenLayout` (varlen/src/lib.rs:699-703): always `true`; and the derived one for `ArrayLayout` (varlen/src/array.rs:117-122): all fields are equal. `none`: the program does not compile. -/
def Layout.eqImpl : Layout w → Layout w → Option Bool
  | .fixed _, .fixed _ => some true
  | .array off n size, .array off' n' size' => some (off == off' && n == n' && size == size')
  | _, _ => none

/-- The types whose layouts can be compared. -/
inductive HasLayoutEq : Ty w → Prop
  | fixedLen {P : Plain} : HasLayoutEq (.fixedLen P)
  | array {P : Plain} {L : LenTy} : HasLayoutEq (.array P L)
  | str {L : LenTy} : HasLayoutEq (.str L)
  | newtype {T : Ty w} : HasLayoutEq T → HasLayoutEq (.newtype T)

end Varlen
