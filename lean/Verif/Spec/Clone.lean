import Verif.Spec.LibType
/-!
# Specification: what a clone is

`ClonedBy T C v v'`: `v'` is the value obtained from `v` by applying `Clone::clone` to each leaf and keeping the structure.
-/
namespace Varlen
variable {w : Nat}

/-- `v'` is the clone of `v`. -/
inductive ClonedBy : VarLen w → VClone w → V → V → Prop
  /-- `FixedLen<R>`: the leaf's `clone()`. -/
  | fixedLen {R : RTy} {c : CloneFn} {a b : Img} : c a = some b → ClonedBy (FixedLen w R) (FixedLen.vclone w R c) (.leaf a) (.leaf b)
  /-- `Array<R, L>`: as many elements, each the `clone()` of the original element. -/
  | array {R : RTy} {L : LenTy} {c : CloneFn} {as bs : List Img} : bs.length = as.length →
      (∀ (i : Nat) a b, as[i]? = some a → bs[i]? = some b → c a = some b) → ClonedBy (Array w R L) (Array.vcloneI w R L c) (.arr as) (.arr bs)
  /-- `Str<L>`: the same text. -/
  | str {L : LenTy} {as : List Img} : ClonedBy (Str w L) (Str.vclone w L) (.arr as) (.arr as)
  | newtype {T : VarLen w} {C : VClone w} {v v' : V} : ClonedBy T C v v' → ClonedBy (Newtype T) (Newtype.vclone C) v v'
  /-- Tuples: field by field. -/
  | tuple {ts : List (VarLen w × VClone w)} {vs vs' : List V} : vs.length = ts.length → vs'.length = ts.length →
      (∀ (i : Nat) t v v', ts[i]? = some t → vs[i]? = some v → vs'[i]? = some v' → ClonedBy t.1 t.2 v v') →
      ClonedBy (Tuple w (ts.map (·.1))) (Tuple.vclone ts) (.node vs) (.node vs')
  /-- User-written implementations: what they promise. -/
  | user {T : VarLen w} {C : VClone w} {v v' : V} : VCloneLawful T C → C.cloneV v = some v' → ClonedBy T C v v'

/-- Cloning implementations all of whose leaf types have a `Clone` that returns an equal value (`#[derive(Clone)]` on plain data; all `Copy` types). -/
inductive PlainClone : VarLen w → VClone w → Prop
  | fixedLen {R : RTy} {c : CloneFn} : R.Ok w → (∀ x, R.valid x = true → c x = some x) → PlainClone (FixedLen w R) (FixedLen.vclone w R c)
  | array {R : RTy} {L : LenTy} {c : CloneFn} : R.Ok w → L.Ok w → (∀ x, R.valid x = true → c x = some x) →
      PlainClone (Array w R L) (Array.vcloneI w R L c)
  | str {L : LenTy} : 1 < w → L.Ok w → PlainClone (Str w L) (Str.vclone w L)
  | newtype {T : VarLen w} {C : VClone w} : PlainClone T C → PlainClone (Newtype T) (Newtype.vclone C)
  | tuple {ts : List (VarLen w × VClone w)} : ts ≠ [] → (∀ t ∈ ts, PlainClone t.1 t.2) → PlainClone (Tuple w (ts.map (·.1))) (Tuple.vclone ts)

end Varlen
