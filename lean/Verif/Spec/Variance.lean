import Verif.Model.Variance
import Verif.Spec.Threads
/-! # Specification: shortening lifetimes -/
namespace Varlen
variable {w : Nat}

/-- `T` and `U` are the same variable-length type, except that the ordinary types inside it (elements, fields, at any depth) are subtypes. -/
inductive Shrinks (le : Plain → Plain → Prop) : Ty w → Ty w → Prop
  | fixedLen {P Q : Plain} : le P Q → Shrinks le (.fixedLen P) (.fixedLen Q)
  | array {P Q : Plain} {L : LenTy} : le P Q → Shrinks le (.array P L) (.array Q L)
  | str {L : LenTy} : Shrinks le (.str L) (.str L)
  | newtype {T U : Ty w} : Shrinks le T U → Shrinks le (.newtype T) (.newtype U)
  | tuple {Ts Us : List (Ty w)} : Ts.length = Us.length → (∀ (i : Nat) (T U : Ty w), Ts[i]? = some T → Us[i]? = some U → Shrinks le T U) → Shrinks le (.tuple Ts) (.tuple Us)
  | struct {hs ha : Nat} {fs gs : List (TyFld w)} : fs.length = gs.length → (∀ (i : Nat) (f g : TyFld w), fs[i]? = some f → gs[i]? = some g → SameField f g) →
      (∀ (i : Nat) (P Q : Plain) (off : Nat), fs[i]? = some (.normal P off) → gs[i]? = some (.normal Q off) → le P Q) →
      (∀ (i : Nat) (P Q : Plain) (off : Nat), fs[i]? = some (.length P off) → gs[i]? = some (.length Q off) → le P Q) →
      (∀ (i : Nat) (P Q : Plain) (len : LenFn w), fs[i]? = some (.array P len) → gs[i]? = some (.array Q len) → le P Q) →
      (∀ (i : Nat) (T U : Ty w), fs[i]? = some (.varlen T) → gs[i]? = some (.varlen U) → Shrinks le T U) → Shrinks le (.struct hs ha fs) (.struct hs ha gs)

/-- All the values that `v` is made up of are values of their types now: `ok P x` says of a value of an ordinary type whether it is one (that the references in it are alive, say). -/
def AllOk (ok : Plain → Img → Prop) (T : Ty w) (v : V) : Prop := ∀ P x, PartOf T v P x → ok P x

end Varlen
