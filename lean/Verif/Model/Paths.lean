import Verif.Model.AutoTraits
/-!
# Following references into an object

A user reaches the parts of a variable-length object by a chain of accessor calls: `b.refs().0.refs().name.inner()[3]`. This file runs such chains with the models of the accessors.
-/
namespace Varlen
variable {w : Nat}

/-- An accessor call. -/
inductive Sel
  /-- `.0` of a `FixedLen` -/
  | val
  /-- Dereferencing an array or string to a slice: `[..]`, `mut_slice()`. -/
  | slice
  /-- `inner()`, `inner_mut()` of a newtype -/
  | inner
  /-- `refs()`, `muts()` of a struct or tuple, and then its `i`-th component. -/
  | fld (i : Nat)
  /-- `[i]` of a slice -/
  | elem (i : Nat)

/-- The type of what a reference is to. -/
inductive Kind (w : Nat)
  | obj (T : Ty w)
  | val (P : Plain)
  | slice (P : Plain)

/-- The type of the component of `Refs`/`Muts` for a field, and whether in `Muts` it is mutable (varlen_macro/src/lib.rs:307-319 with 792-1009). -/
def TyFld.kind : TyFld w → Kind w × Bool
  | .normal P _ => (.val P, true)
  | .length P _ => (.val P, false)
  | .varlen T => (.obj T, true)
  | .array P _ => (.slice P, true)

/-- The type of the result of an accessor call, if there is such an accessor, and whether there is a variant for mutable references that gives a mutable reference: `FixedLen` (varlen/src/lib.rs:685),
`Array` (varlen/src/array.rs:162-168, 232-241), `Str` (varlen/src/str.rs:94-103; its bytes are read-only), newtypes (varlen/src/newtype.rs:225-238), tuples (varlen/src/tuple.rs:90-93), structs. -/
def Kind.sel : Kind w → Sel → Option (Kind w × Bool)
  | .obj (.fixedLen P), .val => some (.val P, true)
  | .obj (.array P _), .slice => some (.slice P, true)
  | .obj (.str _), .slice => some (.slice u8Plain, false)
  | .obj (.newtype T), .inner => some (.obj T, true)
  | .obj (.tuple Ts), .fld i => Ts[i]?.map fun T => (.obj T, true)
  | .obj (.struct _ _ fs), .fld i => fs[i]?.map TyFld.kind
  | .slice P, .elem _ => some (.val P, true)
  | _, _ => none

/-- The `i`-th component of `Refs` or `Muts`. From `Muts` (`m`) it has to be a mutable one. -/
def component (m : Bool) (hs : Nat) (fs : List (Fld w)) (i : Nat) (p : Ptr) : M FRef :=
  if m then do
    let rs ← aggMuts hs fs p
    match rs[i]? with
    | some (true, r) => pure r
    | _ => ubM .typeConfusion
  else do
    let rs ← aggRefs hs fs p
    match rs[i]? with
    | some r => pure r
    | none => ubM .typeConfusion

/-- One accessor call on a reference `r` to something of type `k`; with mutable references if `m`. -/
noncomputable def access (m : Bool) : Kind w → Sel → FRef → M FRef
  | .obj (.fixedLen P), .val, .field p => do
    mkRef p P.ty.size P.ty.align
    pure (.val p)
  | .obj (.array P L), .slice, .field p => do
    let sl ← Array.deref w P.ty L p
    pure (.slice sl)
  | .obj (.str L), .slice, .field p => do
    let sl ← Str.deref w L p
    pure (.slice sl)
  | .obj (.newtype T), .inner, .field p => do
    let q ← Newtype.inner T.sem p
    pure (.field q)
  | .obj (.tuple Ts), .fld i, .field p => component m 0 ((Ty.sems Ts).map .varlen) i p
  | .obj (.struct hs _ fs), .fld i, .field p => component m hs (TyFld.sems fs) i p
  | .slice P, .elem i, .slice sl =>
    if i < sl.len then do
      mkRef (sl.ptr.add (i * P.ty.size)) P.ty.size P.ty.align
      pure (.val (sl.ptr.add (i * P.ty.size)))
    else panicM .outOfBounds
  | _, _, _ => ubM .typeConfusion

/-- A chain of accessor calls. -/
noncomputable def follow (m : Bool) : Kind w → List Sel → FRef → M FRef
  | _, [], r => pure r
  | k, c :: π, r =>
    match k.sel c with
    | some (k', _) => do
      let r' ← access m k c r
      follow m k' π r'
    | none => ubM .typeConfusion

/-- `*r = x`: the old value is dropped and the new one stored (language semantics). -/
def assignRef (R : RTy) (r : FRef) (x : Img) : M Unit :=
  match r with
  | .val q => do
    dropInPlace R q
    writeVal R q x
  | _ => ubM .typeConfusion

/-- `*r` of a reference to an ordinary value. -/
def loadRef (R : RTy) (r : FRef) : M Img :=
  match r with
  | .val q => readVal R q
  | _ => ubM .typeConfusion

end Varlen
