import Verif.Model.AutoTraits
import Verif.Spec.LibType
/-! # Specification: the bytes of an object that determine its layout -/
namespace Varlen
variable {w : Nat}

/-- The field has a part in the tail. -/
def TyFld.isTail : TyFld w → Bool
  | .varlen _ => true
  | .array _ _ => true
  | _ => false

/-- `Controls T l i`: byte `i` of an object of type `T` with layout `l` belongs to a length: of an array or string, or to a `#[controls_layout]` field; in the object itself or in one nested in it. -/
inductive Controls : Ty w → Layout w → Nat → Prop
  | array {P : Plain} {L : LenTy} {l : Layout w} {i : Nat} : i < L.bytes → Controls (.array P L) l i
  | str {L : LenTy} {l : Layout w} {i : Nat} : i < L.bytes → Controls (.str L) l i
  | newtype {T : Ty w} {l : Layout w} {i : Nat} : Controls T l i → Controls (.newtype T) l i
  | tuple {Ts : List (Ty w)} {size : BitVec w} {ls : List (BitVec w × Layout w)} {k : Nat} {T : Ty w} {off : BitVec w} {l : Layout w} {i : Nat} :
      Ts[k]? = some T → ls[k]? = some (off, l) → Controls T l i → Controls (.tuple Ts) (.fields size ls) (off.toNat + i)
  | length {hs ha : Nat} {fs : List (TyFld w)} {l : Layout w} {P : Plain} {off i : Nat} : .length P off ∈ fs → i < P.ty.size → Controls (.struct hs ha fs) l (off + i)
  | varlen {hs ha : Nat} {fs : List (TyFld w)} {size : BitVec w} {ls : List (BitVec w × Layout w)} {k : Nat} {T : Ty w} {off : BitVec w} {l : Layout w} {i : Nat} :
      (fs.filter TyFld.isTail)[k]? = some (.varlen T) → ls[k]? = some (off, l) → Controls T l i → Controls (.struct hs ha fs) (.fields size ls) (off.toNat + i)

/-- The memory consists of the same blocks in the same places; their contents may differ. -/
def SameBlocks (s s' : St) : Prop := ∀ b B, s.blk b = some B → ∃ d, s'.blk b = some { B with data := d }

/-- The type is well formed, all the way down: what the compiler guarantees. (`LibType` for a type given as syntax.) -/
inductive TyOk : Ty w → Prop
  | fixedLen {P : Plain} : P.ty.Ok w → TyOk (.fixedLen P)
  | array {P : Plain} {L : LenTy} : P.ty.Ok w → L.Ok w → TyOk (.array P L)
  | str {L : LenTy} : 1 < w → L.Ok w → TyOk (.str L)
  | newtype {T : Ty w} : TyOk T → TyOk (.newtype T)
  | tuple {Ts : List (Ty w)} : Ts ≠ [] → (∀ T ∈ Ts, TyOk T) → TyOk (.tuple Ts)
  | struct {hs ha : Nat} {fs : List (TyFld w)} : HeaderOk hs ha (TyFld.sems fs) → (∀ T, .varlen T ∈ fs → TyOk T) → TyOk (.struct hs ha fs)

end Varlen
