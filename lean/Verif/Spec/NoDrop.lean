import Verif.Spec.LibType
/-! # Specification: library types without anything to drop -/
namespace Varlen
variable {w : Nat}

/-- Library types all of whose leaf types have no drop glue (`needs_drop::<R>()` is false for all of them), e.g. all `Copy` leaves. -/
inductive NoDrop : VarLen w → Prop
  | fixedLen {R : RTy} : R.Ok w → R.needsDrop = false → NoDrop (FixedLen w R)
  | array {R : RTy} {L : LenTy} : R.Ok w → L.Ok w → R.needsDrop = false → NoDrop (Array w R L)
  | str {L : LenTy} : 1 < w → L.Ok w → NoDrop (Str w L)
  | newtype {T : VarLen w} : NoDrop T → NoDrop (Newtype T)
  | tuple {Ts : List (VarLen w)} : Ts ≠ [] → (∀ T ∈ Ts, NoDrop T) → NoDrop (Tuple w Ts)
  | struct {headSize headAlign : Nat} {fs : List (Fld w)} : HeaderOk headSize headAlign fs →
      (∀ R off, Fld.normal R off ∈ fs → R.needsDrop = false) → (∀ R off, Fld.length R off ∈ fs → R.needsDrop = false) →
      (∀ R len, Fld.array R len ∈ fs → R.needsDrop = false) → (∀ T, Fld.varlen T ∈ fs → NoDrop T) → NoDrop (Struct w headSize headAlign fs)

end Varlen
