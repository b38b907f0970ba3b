import Verif.Model.DropPanic
/-!
# Destructors that are programs

In the base model a destructor has an effect in the log only, and in Model/DropPanic.lean it may panic as well. Here destructors are programs: they may read and write memory, allocate, free (as the destructors of
`Box`, `Vec`, `String` do), use this library on other objects, and panic. This file models again the library's functions that run destructors; all functions are those of Model/DropPanic.lean with the same citations,
with the destructor replaced, and so are Rust's rules about panics.
-/
namespace Varlen.UD

variable {w : Nat}

/-- User-supplied: the drop glue of the Rust types with one, given the value that is destroyed. The answer is whether it panicked. -/
abbrev Dtor := RTy → Img → M Bool

/-- `core::ptr::drop_in_place::<R>(p)`. -/
def dropInPlace (d : Dtor) (R : RTy) (p : Ptr) : M Unit := do
  checkAlign p R.align
  if R.needsDrop then
    let img ← readVal R p
    let panicked ← d R img
    writeBytes p (List.replicate R.size none)
    if panicked then panicM .user else pure ()
  else pure ()

/-- Drop glue of a slice after one of its elements has panicked. -/
def dropRest (d : Dtor) (R : RTy) (p : Ptr) : Nat → M Unit
  | 0 => pure ()
  | n + 1 => do
    DP.unwinding (dropInPlace d R p)
    dropRest d R (p.add R.size) n

/-- Drop glue of a slice. -/
def dropElems (d : Dtor) (R : RTy) (p : Ptr) : Nat → M Unit
  | 0 => pure ()
  | n + 1 => do
    DP.onUnwind (dropInPlace d R p) (dropRest d R (p.add R.size) n)
    dropElems d R (p.add R.size) n

/-- `drop_array` (varlen/src/macro_support.rs:56-59). -/
def dropArray (d : Dtor) (R : RTy) (p : Ptr) (offset len : BitVec w) : M Unit :=
  dropElems d R (p.add offset.toNat) len.toNat

/-- A variable-length type, with its `vdrop` for destructors that are programs. -/
structure Ty (w : Nat) where
  base : DP.Ty w
  vdrop : Dtor → Ptr → Layout w → M Unit

/-- `vdrop_field` (varlen/src/macro_support.rs:151-154). -/
def vdropField (d : Dtor) (T : Ty w) (p : Ptr) (offset : BitVec w) (layout : Layout w) : M Unit := do
  mkRef (p.add offset.toNat) T.base.T.headSize T.base.T.headAlign
  T.vdrop d (p.add offset.toNat) layout

/-- `FixedLen<R>` (varlen/src/lib.rs:734-738). -/
def fixedLen (w : Nat) (R : RTy) : Ty w where
  base := DP.fixedLen w R
  vdrop := fun d p _ => dropInPlace d R p

/-- `Array<R, L>` (varlen/src/array.rs:152-159). -/
def array (w : Nat) (R : RTy) (L : LenTy) : Ty w where
  base := DP.array w R L
  vdrop := fun d p l => match l with
    | .array off len _ => dropArray d R p off len
    | _ => ubM .typeConfusion

/-- A newtype (varlen/src/newtype.rs:200-206). -/
def newtypeInv (T : Ty w) (inv : V → Prop) : Ty w where
  base := DP.newtypeInv T.base inv
  vdrop := fun d p l => if T.base.T.NEEDS_VDROP = false then pure () else T.vdrop d p l

/-- A plain newtype. -/
def newtype (T : Ty w) : Ty w := newtypeInv T fun _ => True

/-- `Str<L>` (varlen/src/str.rs): the newtype of `Array<u8, L>` whose contents are UTF-8. -/
def str (w : Nat) (L : LenTy) : Ty w := newtypeInv (array w u8Ty L) strInv

/-- A field of a struct. -/
inductive Fld (w : Nat) where
  | normal (R : RTy) (off : Nat)
  | length (R : RTy) (off : Nat)
  | varlen (T : Ty w)
  | array (R : RTy) (len : LenFn w)

/-- The field in the model of Model/DropPanic.lean. -/
def Fld.fld : Fld w → DP.Fld w
  | .normal R off => .normal R off
  | .length R off => .length R off
  | .varlen T => .varlen T.base
  | .array R len => .array R len

/-- The chain of drops (varlen_macro/src/lib.rs:385-387; varlen/src/tuple.rs:179-181). -/
def vdropFields (d : Dtor) (p : Ptr) : List (Fld w) → List (BitVec w × Layout w) → M Unit
  | [], _ => pure ()
  | .normal R off :: fs, ls => do
    dropInPlace d R (p.add off)
    vdropFields d p fs ls
  | .length R off :: fs, ls => do
    dropInPlace d R (p.add off)
    vdropFields d p fs ls
  | .varlen T :: fs, (o, l) :: ls => do
    vdropField d T p o l
    vdropFields d p fs ls
  | .array R _ :: fs, (o, .len n) :: ls => do
    dropArray d R p o n
    vdropFields d p fs ls
  | _, _ => ubM .typeConfusion

/-- Generated `vdrop` (varlen_macro/src/lib.rs:382-388; varlen/src/tuple.rs:174-182). -/
def aggVdrop (d : Dtor) (fs : List (Fld w)) (p : Ptr) (l : Layout w) : M Unit :=
  match l with
  | .fields _ ls => vdropFields d p fs ls
  | _ => ubM .typeConfusion

/-- A `define_varlen` struct. -/
def struct (w headSize headAlign : Nat) (fs : List (Fld w)) : Ty w where
  base := DP.struct w headSize headAlign (fs.map Fld.fld)
  vdrop := fun d => aggVdrop d fs

/-- A tuple. -/
def tuple (w : Nat) (Ts : List (Ty w)) : Ty w where
  base := DP.tuple w (Ts.map (·.base))
  vdrop := fun d p l => if Ts.any (·.base.T.NEEDS_VDROP) = false then pure () else aggVdrop d (Ts.map .varlen) p l

/-- `Drop for VBox` (varlen/src/vbox.rs:147-156). -/
def VBox.drop (d : Dtor) (T : Ty w) (p : Ptr) : M Unit := do
  let q ← derefBox T.base.T p
  let l ← T.base.T.calculateLayout q
  layoutUnchecked w l.size.toNat T.base.T.ALIGN.toNat
  let q ← derefBox T.base.T p
  T.vdrop d q l
  deallocM p l.size.toNat T.base.T.ALIGN.toNat

/-- `Drop for Owned` (varlen/src/owned.rs:197-205). -/
def Owned.drop (d : Dtor) (T : Ty w) (p : Ptr) : M Unit := do
  let q ← derefBox T.base.T p
  let l ← T.base.T.calculateLayout q
  let q ← derefBox T.base.T p
  T.vdrop d q l

/-- The loop of `Drop for OwnedElems` (varlen/src/seq.rs:1335-1337). -/
def OwnedElems.dropLoop (d : Dtor) (T : Ty w) : Nat → IterS w → M Unit
  | 0, _ => ubM .typeConfusion
  | fuel + 1, it => do
    match ← Iter.next T.base.T it with
    | (none, _) => pure ()
    | (some t, it) => do
      Owned.drop d T t
      OwnedElems.dropLoop d T fuel it

/-- `Drop for OwnedElems` (varlen/src/seq.rs:1332-1340). -/
def OwnedElems.drop (d : Dtor) (T : Ty w) (it : IterS w) : M Unit :=
  if T.base.T.headNeedsDrop || T.base.T.NEEDS_VDROP then OwnedElems.dropLoop d T (it.len.toNat + 1) it else pure ()

/-- A caller's loop `for t in seq.take_elems() { drop(t) }`, as in Model/DropPanic.lean. -/
def OwnedElems.forEach (d : Dtor) (T : Ty w) : Nat → IterS w → M Unit
  | 0, _ => ubM .typeConfusion
  | fuel + 1, it => do
    match ← Iter.next T.base.T it with
    | (none, _) => pure ()
    | (some t, it) => do
      DP.onUnwind (Owned.drop d T t) (OwnedElems.drop d T it)
      OwnedElems.forEach d T fuel it

/-- `Drop for Seq` (varlen/src/seq.rs:1014-1024). -/
def Seq.drop (d : Dtor) (chk : Bool) (T : Ty w) : MQ w Unit := do
  let q ← getQ
  if q.cap = 0 then pure ()
  else do
    let it ← Seq.takeElems chk T.base.T
    liftQ (OwnedElems.drop d T it)
    let q ← getQ
    liftQ (layoutUnchecked w (q.cap * T.base.T.ALIGN).toNat T.base.T.ALIGN.toNat)
    let size ← liftQ (extendedSize chk (q.cap * T.base.T.ALIGN) T.base.T.ALIGN)
    liftQ (deallocM q.ptr size.toNat T.base.T.ALIGN.toNat)

/-! ## `try_set_layout_controllers` -/

/-- Dropping a value that is not in memory of the model (a local variable). -/
def dropLocal (d : Dtor) (R : RTy) (x : Img) : M Unit := do
  if R.needsDrop then
    let panicked ← d R x
    if panicked then panicM .user else pure ()
  else pure ()

/-- Dropping the remaining fields of a `LayoutControllers` value while unwinding. -/
def dropControllersRest (d : Dtor) : List (Varlen.Fld w) → List Img → M Unit
  | .length R _ :: fs, x :: xs => do
    DP.unwinding (dropLocal d R x)
    dropControllersRest d fs xs
  | .length _ _ :: _, [] => pure ()
  | _ :: fs, xs => dropControllersRest d fs xs
  | [], _ => pure ()

/-- Drop glue of `LayoutControllers`. -/
def dropControllers (d : Dtor) : List (Varlen.Fld w) → List Img → M Unit
  | .length R _ :: fs, x :: xs => do
    DP.onUnwind (dropLocal d R x) (dropControllersRest d fs xs)
    dropControllers d fs xs
  | .length _ _ :: _, [] => pure ()
  | _ :: fs, xs => dropControllers d fs xs
  | [], _ => pure ()

/-- `self_mut.len_i = layout_controllers.len_i;` for each controller (varlen_macro/src/lib.rs:475-477), as in Model/DropPanic.lean. -/
def setLengths (d : Dtor) (p : Ptr) : List (Varlen.Fld w) → List Img → M Unit
  | [], _ => pure ()
  | .length R off :: fs, x :: xs => do
    DP.onUnwind (dropInPlace d R (p.add off)) (do
      writeVal R (p.add off) x
      dropControllersRest d fs xs)
    writeVal R (p.add off) x
    setLengths d p fs xs
  | .length _ _ :: _, [] => ubM .typeConfusion
  | _ :: fs, xs => setLengths d p fs xs

/-- `try_set_layout_controllers` (varlen_macro/src/lib.rs:454-483). -/
def trySetLayoutControllers (d : Dtor) (fs : List (Varlen.Fld w)) (p : Ptr) (new : List Img) : M Bool := do
  let before ← readLengths p fs
  if ← DP.onUnwind (sameLens before new fs) (dropControllersRest d fs new) then do
    setLengths d p fs new
    pure true
  else do
    dropControllers d fs new
    pure false

/-- Drop glue of `Option<VBox<T>>` as a type of ordinary fields and elements (`isBox`), the other types having the destructors `d`: it runs `Drop for VBox` (varlen/src/vbox.rs:147-156) if there is a box. `dec` decodes the bytes of
such a value. The values inside have the destructors `d`. -/
def boxDtor (isBox : RTy → Bool) (dec : Img → Option Ptr) (T : Ty w) (d : Dtor) : Dtor := fun R x =>
  if isBox R then
    match dec x with
    | none => pure false
    | some p => fun s =>
      match VBox.drop d T p s with
      | .ok _ s' => .ok false s'
      | .panic .user s' => .ok true s'
      | .panic m s' => .panic m s'
      | .ub k => .ub k
  else d R x

/-- The same for boxes inside boxes, `n` levels deep. -/
def nestDtor (isBox : RTy → Bool) (dec : Img → Option Ptr) (T : Ty w) (d : Dtor) : (n : Nat) → Dtor
  | 0 => d
  | n + 1 => boxDtor isBox dec T (nestDtor isBox dec T d n)

end Varlen.UD
