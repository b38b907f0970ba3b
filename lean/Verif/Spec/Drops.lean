import Verif.Spec.LibType
/-! # Specification: which destructors are owed for a value -/
namespace Varlen
variable {w : Nat}

/-- The effects of running the destructor of a value of a plain Rust type. -/
def RTy.dtor (R : RTy) (img : Img) : List Event := if R.needsDrop then R.dropEv img else []

mutual
/-- `Destroys T v es`: destroying the value `v` of type `T`, running the destructor of each contained plain value exactly once in declaration (or index) order, has the effects `es`. -/
inductive Destroys : VarLen w → V → List Event → Prop
  | fixedLen {R : RTy} {img : Img} : Destroys (FixedLen w R) (.leaf img) (R.dtor img)
  | array {R : RTy} {L : LenTy} {xs : List Img} : Destroys (Array w R L) (.arr xs) (xs.map R.dtor).flatten
  | str {L : LenTy} {xs : List Img} : Destroys (Str w L) (.arr xs) []
  | newtype {T : VarLen w} {v : V} {es : List Event} : Destroys T v es → Destroys (Newtype T) v es
  | tuple {Ts : List (VarLen w)} {vs : List V} {es : List Event} : DestroysFields (Ts.map .varlen) vs es → Destroys (Tuple w Ts) (.node vs) es
  | struct {headSize headAlign : Nat} {fs : List (Fld w)} {vs : List V} {es : List Event} : DestroysFields fs vs es →
      Destroys (Struct w headSize headAlign fs) (.node vs) es
  /-- A user-written type: what its implementation declares. -/
  | user {T : VarLen w} {v : V} : Lawful T → Destroys T v (T.drops v)
/-- The same for the fields of a struct or tuple. -/
inductive DestroysFields : List (Fld w) → List V → List Event → Prop
  | nil : DestroysFields [] [] []
  | normal {R : RTy} {off : Nat} {img : Img} {fs : List (Fld w)} {vs : List V} {es : List Event} : DestroysFields fs vs es →
      DestroysFields (.normal R off :: fs) (.leaf img :: vs) (R.dtor img ++ es)
  | length {R : RTy} {off : Nat} {img : Img} {fs : List (Fld w)} {vs : List V} {es : List Event} : DestroysFields fs vs es →
      DestroysFields (.length R off :: fs) (.leaf img :: vs) (R.dtor img ++ es)
  | varlen {T : VarLen w} {v : V} {es' : List Event} {fs : List (Fld w)} {vs : List V} {es : List Event} : Destroys T v es' → DestroysFields fs vs es →
      DestroysFields (.varlen T :: fs) (v :: vs) (es' ++ es)
  | array {R : RTy} {len : LenFn w} {xs : List Img} {fs : List (Fld w)} {vs : List V} {es : List Event} : DestroysFields fs vs es →
      DestroysFields (.array R len :: fs) (.arr xs :: vs) ((xs.map R.dtor).flatten ++ es)
end

end Varlen
