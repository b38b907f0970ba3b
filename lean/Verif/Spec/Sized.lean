import Verif.Spec.LibType
/-!
# Specification: which types have a size

Types of which all values have size zero (`NoSize`: unit, tuples and structs of such types, arrays of length zero behind an empty head), and types of which all values have a positive size
(`HasSize`). Both are read off the declaration.
-/
namespace Varlen
variable {w : Nat}

/-- The types that can be declared with the library, without user-written `unsafe impl VarLen`. The length types (`u8` to `u64`, `usize`) have at least one byte. -/
inductive Declared : VarLen w → Prop
  | fixedLen {R : RTy} : R.Ok w → Declared (FixedLen w R)
  | array {R : RTy} {L : LenTy} : R.Ok w → L.Ok w → 0 < L.bytes → Declared (Array w R L)
  | str {L : LenTy} : 1 < w → L.Ok w → 0 < L.bytes → Declared (Str w L)
  | newtype {T : VarLen w} {inv : V → Prop} : Declared T → Declared (NewtypeInv T inv)
  | tuple {Ts : List (VarLen w)} : Ts ≠ [] → (∀ T ∈ Ts, Declared T) → Declared (Tuple w Ts)
  | struct {headSize headAlign : Nat} {fs : List (Fld w)} : HeaderOk headSize headAlign fs → (∀ T, Fld.varlen T ∈ fs → Declared T) →
      Declared (Struct w headSize headAlign fs)

/-- The values of the layout-controlling fields if these have size zero. -/
def zeroLens (fs : List (Fld w)) : List Img := fs.filterMap fun f => match f with
  | .length _ _ => some []
  | _ => none

/-- The head has a size, or one of the fields behind it. -/
inductive HasSize : VarLen w → Prop
  | head {T : VarLen w} : LibType T → 0 < T.headSize → HasSize T
  | newtype {T : VarLen w} {inv : V → Prop} : HasSize T → HasSize (NewtypeInv T inv)
  | tuple {Ts : List (VarLen w)} {T : VarLen w} : (∀ T ∈ Ts, LibType T) → T ∈ Ts → HasSize T → HasSize (Tuple w Ts)
  | varlen {headSize headAlign : Nat} {fs : List (Fld w)} {T : VarLen w} : HeaderOk headSize headAlign fs → (∀ T, Fld.varlen T ∈ fs → LibType T) → Fld.varlen T ∈ fs → HasSize T →
      HasSize (Struct w headSize headAlign fs)
  | array {headAlign : Nat} {fs : List (Fld w)} {R : RTy} {len : LenFn w} : HeaderOk 0 headAlign fs → (∀ T, Fld.varlen T ∈ fs → LibType T) → Fld.array R len ∈ fs → 0 < R.size →
      len (zeroLens fs) ≠ 0 → HasSize (Struct w 0 headAlign fs)

/-- Nothing has a size. -/
inductive NoSize : VarLen w → Prop
  | fixedLen {R : RTy} : R.size = 0 → NoSize (FixedLen w R)
  | newtype {T : VarLen w} {inv : V → Prop} : NoSize T → NoSize (NewtypeInv T inv)
  | tuple {Ts : List (VarLen w)} : (∀ T ∈ Ts, NoSize T) → NoSize (Tuple w Ts)
  | struct {headAlign : Nat} {fs : List (Fld w)} : HeaderOk 0 headAlign fs → (∀ T, Fld.varlen T ∈ fs → NoSize T) →
      (∀ R len, Fld.array R len ∈ fs → R.size = 0 ∨ len (zeroLens fs) = 0) → NoSize (Struct w 0 headAlign fs)

end Varlen
