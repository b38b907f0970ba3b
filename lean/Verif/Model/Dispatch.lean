import Verif.Model.Newtype
import Verif.Model.VBox
/-!
# Which method the macros in varlen/src/newtype.rs call

`define_varlen_newtype!` prints `self.0.calculate_layout()` (varlen/src/newtype.rs:195) and `impl_initializer_as_newtype!` prints `self.0.initialize(dst, layout)` (varlen/src/newtype.rs:311). In a method call, methods
that are declared in an `impl` of the type itself come before those of traits. The other calls in the printed code name the trait, or have a receiver of a type parameter, for which only the methods of its bounds come first
(varlen/src/newtype.rs:206, 213, 218, 303).
-/
namespace Varlen
variable {w : Nat}

/-- The `VarLen` impl that `define_varlen_newtype!` prints (varlen/src/newtype.rs:191-208), if the inner type has the method `own` of the name `calculate_layout` itself. -/
def NewtypeD (T : VarLen w) (own : Option (Ptr → M (Layout w))) : VarLen w := { Newtype T with calculateLayout := own.getD T.calculateLayout }

/-- The `Initializer` impl that `impl_initializer_as_newtype!` prints (varlen/src/newtype.rs:299-313), if the inner initializer has the method `own` of the name `initialize` itself. -/
def Newtype.initD (I : Init w) (own : Option (Ptr → Layout w → M Unit)) : Init w := { Newtype.init I with initTo := own.getD I.initTo }

end Varlen
