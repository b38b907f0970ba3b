import Verif.Model.StackedBorrows
/-!
# Destruction in Stacked Borrows

The references that `vdrop`, and the drop of a box, make and use. Destructors of ordinary types get a mutable reference to the value; what they do beyond that is left out.
-/
namespace Varlen.SB
variable {w : Nat}

/-- Writing (or freeing) `n` bytes at `lo` through `t`. -/
def write (t lo n : Nat) : S Unit := fun σ =>
  match σ.update lo n (writeStack t) with
  | some σ => .ok ((), σ)
  | none => .error .ub

/-- `drop_in_place(p)` for an ordinary type: nothing if it has no destructor, and else a mutable reference to the value. -/
def dropVal (U : Unpins w) (P : Plain) (t lo : Nat) : S Unit :=
  if P.ty.needsDrop = true then do
    let _ ← retag t (.mutable (U.plain P)) lo P.ty.size
    pure ()
  else pure ()

/-- `drop_array` (varlen/src/macro_support.rs:56-59): the elements in order. -/
def dropElems (U : Unpins w) (P : Plain) (t lo : Nat) : Nat → S Unit
  | 0 => pure ()
  | n + 1 => do
    dropVal U P t lo
    dropElems U P t (lo + P.ty.size) n

mutual
/-- `vdrop(self: Pin<&mut Self>, layout)` for an object at offset `lo` with layout `l`: `FixedLen` (varlen/src/lib.rs:732-736), `Array` (varlen/src/array.rs:152-159), `Str` and newtypes (varlen/src/newtype.rs:202-207), tuples
(varlen/src/tuple.rs:174-182), structs (varlen_macro/src/lib.rs:382-388 with 816, 852, 917, 1002). `self` is a new reference made from `t`. -/
def vdropTy (U : Unpins w) : Ty w → (t lo : Nat) → Layout w → S Unit
  | .fixedLen P, t, lo, _ => do
    let a ← retag t (.mutable (U.ty (.fixedLen P))) lo P.ty.size
    dropVal U P a lo
  | .array P L, t, lo, l =>
    match l with
    | .array o n _ => do
      let a ← retag t (.mutable (U.ty (.array P L))) lo L.bytes
      dropElems U P a (lo + o.toNat) n.toNat
    | _ => confused
  | .str L, t, lo, _ => do
    let _ ← retag t (.mutable (U.ty (.str L))) lo L.bytes
    pure ()
  | .newtype T, t, lo, l => do
    let a ← retag t (.mutable (U.ty (.newtype T))) lo T.sem.headSize
    if T.sem.NEEDS_VDROP = true then do
      let i ← retag a (.mutable (U.ty T)) lo T.sem.headSize
      vdropTy U T i lo l
    else pure ()
  | .tuple Ts, t, lo, l =>
    match l with
    | .fields _ ls => do
      let a ← retag t (.mutable (U.ty (.tuple Ts))) lo 0
      if (Ty.tuple Ts).sem.NEEDS_VDROP = true then vdropTys U a lo Ts ls
      else pure ()
    | _ => confused
  | .struct headSize headAlign fs, t, lo, l =>
    match l with
    | .fields _ ls => do
      let a ← retag t (.mutable (U.ty (.struct headSize headAlign fs))) lo headSize
      vdropFlds U a lo fs ls
    | _ => confused
/-- The calls of `vdrop_field` (varlen/src/tuple.rs:179-181; varlen/src/macro_support.rs:151-154). -/
def vdropTys (U : Unpins w) (a lo : Nat) : List (Ty w) → List (BitVec w × Layout w) → S Unit
  | [], _ => pure ()
  | T :: Ts, ls =>
    match ls with
    | (o, l) :: ls => do
      let r ← retag a (.mutable (U.ty T)) (lo + o.toNat) T.sem.headSize
      vdropTy U T r (lo + o.toNat) l
      vdropTys U a lo Ts ls
    | [] => confused
/-- The printed statements of the fields, in declaration order (varlen_macro/src/lib.rs:385-387 with 816, 852, 917, 1002). -/
def vdropFlds (U : Unpins w) (a lo : Nat) : List (TyFld w) → List (BitVec w × Layout w) → S Unit
  | [], _ => pure ()
  | .normal P off :: fs, ls => do
    dropVal U P a (lo + off)
    vdropFlds U a lo fs ls
  | .length P off :: fs, ls => do
    dropVal U P a (lo + off)
    vdropFlds U a lo fs ls
  | .varlen T :: fs, ls =>
    match ls with
    | (o, l) :: ls => do
      let r ← retag a (.mutable (U.ty T)) (lo + o.toNat) T.sem.headSize
      vdropTy U T r (lo + o.toNat) l
      vdropFlds U a lo fs ls
    | [] => confused
  | .array P _ :: fs, ls =>
    match ls with
    | (o, .len n) :: ls => do
      dropElems U P a (lo + o.toNat) n.toNat
      vdropFlds U a lo fs ls
    | _ => confused
end

/-- `Drop for VBox` (varlen/src/vbox.rs:147-156); `t` is the tag of the pointer in the box, `l` the layout that `calculate_layout` returns. `&*self` and `as_mut` are in vbox.rs:158-163, 84-86. -/
def boxDrop (U : Unpins w) (T : Ty w) (t lo : Nat) (l : Layout w) : S Unit := do
  let r ← retag t .shr lo T.sem.headSize
  calcTy T r lo l
  let m ← retag t (.mutable (U.ty T)) lo T.sem.headSize
  vdropTy U T m lo l
  write t lo l.size.toNat

end Varlen.SB
