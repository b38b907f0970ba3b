import Verif.Model.Seq
/-!
# Destructors that panic

In the rest of the model destructors do not panic. This file models again every function of the library that runs destructors, for destructors that may: which ones do is
an arbitrary predicate `boom` of the type and the value. Rust's rules, as far as they matter here:

* a panicking destructor has destroyed its value (the drop glue of the value's own fields still runs);
* the drop glue of a slice (and of a struct) goes on with the remaining elements while unwinding;
* a sequence of statements does not: what the statements after the panicking one would have done is left undone;
* an assignment `*p = x` drops the old value, and stores the new one even if that panics;
* a panic that leaves a destructor run by unwinding aborts the process. Nothing runs after that. (`PanicMsg.abort`. Older versions of Rust abort already when that second panic
  starts; the difference is which destructors run last before the process is gone.)

All functions are those of Model/Traits, MacroSupport, Array, Struct, Newtype, VBox, Seq with the same citations, with `drop_in_place` replaced.
-/
namespace Varlen.DP
variable {w : Nat}

/-- Which destructors panic. -/
abbrev Boom := RTy → Img → Bool

/-- Run `cleanup` when `x` panics; the panic goes on. A panic in `cleanup` aborts. -/
def onUnwind {α : Type} (x : M α) (cleanup : M Unit) : M α := fun s =>
  match x s with
  | .panic .abort s' => .panic .abort s'
  | .panic m s' =>
    match cleanup s' with
    | .ok _ s'' => .panic m s''
    | .panic _ s'' => .panic .abort s''
    | .ub k => .ub k
  | r => r

/-- Code that runs while unwinding: a panic aborts at once. -/
def unwinding {α : Type} (x : M α) : M α := fun s =>
  match x s with
  | .panic _ s' => .panic .abort s'
  | r => r

/-- `core::ptr::drop_in_place::<R>(p)`. -/
def dropInPlace (boom : Boom) (R : RTy) (p : Ptr) : M Unit := do
  checkAlign p R.align
  if R.needsDrop then
    let img ← readVal R p
    emit (R.dropEv img)
    writeBytes p (List.replicate R.size none)
    if boom R img then panicM .user else pure ()
  else pure ()

/-- Drop glue of a slice after one of its elements has panicked. -/
def dropRest (boom : Boom) (R : RTy) (p : Ptr) : Nat → M Unit
  | 0 => pure ()
  | n + 1 => do
    unwinding (dropInPlace boom R p)
    dropRest boom R (p.add R.size) n

/-- Drop glue of a slice. -/
def dropElems (boom : Boom) (R : RTy) (p : Ptr) : Nat → M Unit
  | 0 => pure ()
  | n + 1 => do
    onUnwind (dropInPlace boom R p) (dropRest boom R (p.add R.size) n)
    dropElems boom R (p.add R.size) n

/-- `drop_array` (varlen/src/macro_support.rs:56-59). -/
def dropArray (boom : Boom) (R : RTy) (p : Ptr) (offset len : BitVec w) : M Unit :=
  dropElems boom R (p.add offset.toNat) len.toNat

/-- Plain values whose destructors the drop glue runs as a unit: the elements of a slice, or a single value. -/
abbrev Group := List (RTy × Img)

/-- A variable-length type with its `vdrop` for panicking destructors. Ghost: `plan v` are the destructor calls owed for a value, in order; each member of the list is one call of `drop_in_place`. -/
structure Ty (w : Nat) where
  T : VarLen w
  vdrop : Boom → Ptr → Layout w → M Unit
  plan : V → List Group

/-- `vdrop_field` (varlen/src/macro_support.rs:151-154). -/
def vdropField (boom : Boom) (T : Ty w) (p : Ptr) (offset : BitVec w) (layout : Layout w) : M Unit := do
  mkRef (p.add offset.toNat) T.T.headSize T.T.headAlign
  T.vdrop boom (p.add offset.toNat) layout

/-- `FixedLen<R>` (varlen/src/lib.rs:734-738). -/
def fixedLen (w : Nat) (R : RTy) : Ty w where
  T := FixedLen w R
  vdrop := fun boom p _ => dropInPlace boom R p
  plan := fun v => match v with
    | .leaf img => [[(R, img)]]
    | _ => []

/-- `Array<R, L>` (varlen/src/array.rs:152-159). -/
def array (w : Nat) (R : RTy) (L : LenTy) : Ty w where
  T := Array w R L
  vdrop := fun boom p l => match l with
    | .array off len _ => dropArray boom R p off len
    | _ => ubM .typeConfusion
  plan := fun v => match v with
    | .arr xs => [xs.map fun x => (R, x)]
    | _ => []

/-- A newtype (varlen/src/newtype.rs:200-206). -/
def newtypeInv (T : Ty w) (inv : V → Prop) : Ty w where
  T := NewtypeInv T.T inv
  vdrop := fun boom p l => if T.T.NEEDS_VDROP = false then pure () else T.vdrop boom p l
  plan := T.plan

/-- A plain newtype. -/
def newtype (T : Ty w) : Ty w := newtypeInv T fun _ => True

/-- `Str<L>` (varlen/src/str.rs): the newtype of `Array<u8, L>` whose contents are UTF-8. -/
def str (w : Nat) (L : LenTy) : Ty w := newtypeInv (array w u8Ty L) strInv

/-- A field of a struct. -/
inductive Fld (w : Nat) where
  | normal (R : RTy) (off : Nat)
  | length (R : RTy) (off : Nat)
  | varlen (T : Ty w)
  | array (R : RTy) (len : LenFn w)

/-- The field in the model without panics. -/
def Fld.fld : Fld w → Varlen.Fld w
  | .normal R off => .normal R off
  | .length R off => .length R off
  | .varlen T => .varlen T.T
  | .array R len => .array R len

/-- The chain of drops (varlen_macro/src/lib.rs:385-387; varlen/src/tuple.rs:179-181): statements, so a panic skips the later ones. -/
def vdropFields (boom : Boom) (p : Ptr) : List (Fld w) → List (BitVec w × Layout w) → M Unit
  | [], _ => pure ()
  | .normal R off :: fs, ls => do
    dropInPlace boom R (p.add off)
    vdropFields boom p fs ls
  | .length R off :: fs, ls => do
    dropInPlace boom R (p.add off)
    vdropFields boom p fs ls
  | .varlen T :: fs, (o, l) :: ls => do
    vdropField boom T p o l
    vdropFields boom p fs ls
  | .array R _ :: fs, (o, .len n) :: ls => do
    dropArray boom R p o n
    vdropFields boom p fs ls
  | _, _ => ubM .typeConfusion

/-- Generated `vdrop` (varlen_macro/src/lib.rs:382-388; varlen/src/tuple.rs:174-182). -/
def aggVdrop (boom : Boom) (fs : List (Fld w)) (p : Ptr) (l : Layout w) : M Unit :=
  match l with
  | .fields _ ls => vdropFields boom p fs ls
  | _ => ubM .typeConfusion

/-- Ghost: the destructor calls owed for the fields. -/
def planFields : List (Fld w) → List V → List Group
  | .normal R _ :: fs, .leaf img :: vs => [(R, img)] :: planFields fs vs
  | .length R _ :: fs, .leaf img :: vs => [(R, img)] :: planFields fs vs
  | .varlen T :: fs, v :: vs => T.plan v ++ planFields fs vs
  | .array R _ :: fs, .arr xs :: vs => (xs.map fun x => (R, x)) :: planFields fs vs
  | _, _ => []

/-- Ghost: for a tuple/struct value. -/
def aggPlan (fs : List (Fld w)) : V → List Group
  | .node vs => planFields fs vs
  | _ => []

/-- A `define_varlen` struct. -/
def struct (w headSize headAlign : Nat) (fs : List (Fld w)) : Ty w where
  T := Struct w headSize headAlign (fs.map Fld.fld)
  vdrop := fun boom => aggVdrop boom fs
  plan := aggPlan fs

/-- A tuple. -/
def tuple (w : Nat) (Ts : List (Ty w)) : Ty w where
  T := Tuple w (Ts.map (·.T))
  vdrop := fun boom p l => if Ts.any (·.T.NEEDS_VDROP) = false then pure () else aggVdrop boom (Ts.map .varlen) p l
  plan := aggPlan (Ts.map .varlen)

/-- `Drop for VBox` (varlen/src/vbox.rs:147-156): if `vdrop` panics, the allocation is not freed. -/
def VBox.drop (boom : Boom) (T : Ty w) (p : Ptr) : M Unit := do
  let q ← derefBox T.T p
  let l ← T.T.calculateLayout q
  layoutUnchecked w l.size.toNat T.T.ALIGN.toNat
  let q ← derefBox T.T p
  T.vdrop boom q l
  deallocM p l.size.toNat T.T.ALIGN.toNat

/-- `Drop for Owned` (varlen/src/owned.rs:197-205). -/
def Owned.drop (boom : Boom) (T : Ty w) (p : Ptr) : M Unit := do
  let q ← derefBox T.T p
  let l ← T.T.calculateLayout q
  let q ← derefBox T.T p
  T.vdrop boom q l

/-- The loop of `Drop for OwnedElems` (varlen/src/seq.rs:1335-1337): a panic ends it. -/
def OwnedElems.dropLoop (boom : Boom) (T : Ty w) : Nat → IterS w → M Unit
  | 0, _ => ubM .typeConfusion
  | fuel + 1, it => do
    match ← Iter.next T.T it with
    | (none, _) => pure ()
    | (some t, it) => do
      Owned.drop boom T t
      OwnedElems.dropLoop boom T fuel it

/-- `Drop for OwnedElems` (varlen/src/seq.rs:1332-1340). -/
def OwnedElems.drop (boom : Boom) (T : Ty w) (it : IterS w) : M Unit :=
  if T.T.headNeedsDrop || T.T.NEEDS_VDROP then OwnedElems.dropLoop boom T (it.len.toNat + 1) it else pure ()

/-- A caller's loop `for t in seq.take_elems() { drop(t) }`: if dropping an item panics, the rest of the iterator is dropped while unwinding. Run at most `fuel` iterations, as above. -/
def OwnedElems.forEach (boom : Boom) (T : Ty w) : Nat → IterS w → M Unit
  | 0, _ => ubM .typeConfusion
  | fuel + 1, it => do
    match ← Iter.next T.T it with
    | (none, _) => pure ()
    | (some t, it) => do
      onUnwind (Owned.drop boom T t) (OwnedElems.drop boom T it)
      OwnedElems.forEach boom T fuel it

/-- `Drop for Seq` (varlen/src/seq.rs:1014-1024): if an element's destructor panics, the storage is not freed. -/
def Seq.drop (boom : Boom) (chk : Bool) (T : Ty w) : MQ w Unit := do
  let q ← getQ
  if q.cap = 0 then pure ()
  else do
    let it ← Seq.takeElems chk T.T
    liftQ (OwnedElems.drop boom T it)
    let q ← getQ
    liftQ (layoutUnchecked w (q.cap * T.T.ALIGN).toNat T.T.ALIGN.toNat)
    let size ← liftQ (extendedSize chk (q.cap * T.T.ALIGN) T.T.ALIGN)
    liftQ (deallocM q.ptr size.toNat T.T.ALIGN.toNat)

/-! ## `try_set_layout_controllers` -/

/-- Dropping a value that is not in memory of the model (a local variable). -/
def dropLocal (boom : Boom) (R : RTy) (img : Img) : M Unit := do
  emit (R.drops img)
  if R.needsDrop && boom R img then panicM .user else pure ()

/-- Dropping the remaining fields of a `LayoutControllers` value while unwinding. -/
def dropControllersRest (boom : Boom) : List (Varlen.Fld w) → List Img → M Unit
  | .length R _ :: fs, x :: xs => do
    unwinding (dropLocal boom R x)
    dropControllersRest boom fs xs
  | .length _ _ :: _, [] => pure ()
  | _ :: fs, xs => dropControllersRest boom fs xs
  | [], _ => pure ()

/-- Drop glue of `LayoutControllers`. -/
def dropControllers (boom : Boom) : List (Varlen.Fld w) → List Img → M Unit
  | .length R _ :: fs, x :: xs => do
    onUnwind (dropLocal boom R x) (dropControllersRest boom fs xs)
    dropControllers boom fs xs
  | .length _ _ :: _, [] => pure ()
  | _ :: fs, xs => dropControllers boom fs xs
  | [], _ => pure ()

/-- `self_mut.len_i = layout_controllers.len_i;` for each controller (varlen_macro/src/lib.rs:475-477). If dropping the old value panics the new one is stored, and what is left of
`layout_controllers` is dropped while unwinding. -/
def setLengths (boom : Boom) (p : Ptr) : List (Varlen.Fld w) → List Img → M Unit
  | [], _ => pure ()
  | .length R off :: fs, x :: xs => do
    onUnwind (dropInPlace boom R (p.add off)) (do
      writeVal R (p.add off) x
      dropControllersRest boom fs xs)
    writeVal R (p.add off) x
    setLengths boom p fs xs
  | .length _ _ :: _, [] => ubM .typeConfusion
  | _ :: fs, xs => setLengths boom p fs xs

/-- `try_set_layout_controllers` (varlen_macro/src/lib.rs:454-483). -/
def trySetLayoutControllers (boom : Boom) (fs : List (Varlen.Fld w)) (p : Ptr) (new : List Img) : M Bool := do
  let before ← readLengths p fs
  if ← onUnwind (sameLens before new fs) (dropControllersRest boom fs new) then do
    setLengths boom p fs new
    pure true
  else do
    dropControllers boom fs new
    pure false

end Varlen.DP
