import Verif.Model.AutoTraits
/-!
# Stacked Borrows, and the references that the library makes

The aliasing model Stacked Borrows (Jung, Dang, Kang, Dreyer, POPL 2020; the one that Miri uses by default) for one allocation: each byte has a stack of items, each of which grants a tag a permission. No function
of the repository is modelled in the first part. Left out: protectors, which only make more programs undefined, and `UnsafeCell`. A raw pointer made from a reference has its tag.
-/
namespace Varlen.SB
variable {w : Nat}

inductive Perm
  | unique
  | sharedRW
  | sharedRO
  | disabled
  deriving DecidableEq

structure Item where
  tag : Nat
  perm : Perm
  deriving DecidableEq

/-- The stacks of the bytes, top first; tags from `next` on are new. -/
structure Stacks where
  stack : Nat → List Item
  next : Nat

inductive Err
  /-- undefined behaviour -/
  | ub
  /-- The program would not compile. -/
  | confused
  deriving DecidableEq

/-- Programs that make and use references. -/
def S (α : Type) := Stacks → Except Err (α × Stacks)

instance : Monad S where
  pure a := fun σ => .ok (a, σ)
  bind x f := fun σ => match x σ with
    | .error e => .error e
    | .ok (a, σ) => f a σ

/-- May an item be used for writing? -/
def Perm.writes (p : Perm) : Bool := p == .unique || p == .sharedRW

/-- Reading a byte through tag `t`: the first item for `t` grants it; `unique` items above it are disabled. -/
def readStack (t : Nat) : List Item → Option (List Item)
  | [] => none
  | i :: r =>
    if i.tag = t ∧ i.perm ≠ .disabled then some (i :: r)
    else (readStack t r).map fun r' => (if i.perm = .unique then { i with perm := .disabled } else i) :: r'

/-- Writing a byte: the first item for `t` that is `unique` or `sharedRW` grants it; the items above it are removed, except `sharedRW` items directly above a `sharedRW` item. -/
def writeStack (t : Nat) : List Item → Option (List Item)
  | [] => none
  | i :: r =>
    if i.tag = t ∧ i.perm.writes = true then some (i :: r)
    else (writeStack t r).map fun r' => if i.perm = .sharedRW ∧ r'.length = r.length ∧ (r'.head?.map Item.perm) = some .sharedRW then i :: r' else r'

/-- Adding `new` above the item that grants `t` the right to write, without an access. -/
def insertRaw (t new : Nat) : List Item → Option (List Item)
  | [] => none
  | i :: r =>
    if i.tag = t ∧ i.perm.writes = true then some (⟨new, .sharedRW⟩ :: i :: r)
    else (insertRaw t new r).map (i :: ·)

/-- Change the stacks of the bytes `[lo, lo + n)`; `none` for one of them is undefined behaviour. -/
def Stacks.update (σ : Stacks) (lo n : Nat) (f : List Item → Option (List Item)) : Option Stacks :=
  if (List.range n).all fun i => (f (σ.stack (lo + i))).isSome then
    some { σ with stack := fun x => if lo ≤ x ∧ x < lo + n then (f (σ.stack x)).getD [] else σ.stack x }
  else none

/-- Reading `n` bytes at `lo` through `t`. -/
def read (t lo n : Nat) : S Unit := fun σ =>
  match σ.update lo n (readStack t) with
  | some σ => .ok ((), σ)
  | none => .error .ub

/-- The kinds of references: `&T`; `&mut T` where `T: Unpin`; `&mut T` for other `T`, which is treated like a raw pointer. -/
inductive Kind
  | shr
  | uniq
  | raw

/-- `&mut T`, given whether `T: Unpin`. -/
def Kind.mutable (unpin : Bool) : Kind := if unpin then .uniq else .raw

/-- What making a reference does to a byte of it. -/
def Kind.push (k : Kind) (t new : Nat) (st : List Item) : Option (List Item) :=
  match k with
  | .shr => (readStack t st).map (⟨new, .sharedRO⟩ :: ·)
  | .uniq => (writeStack t st).map (⟨new, .unique⟩ :: ·)
  | .raw => insertRaw t new st

/-- A new reference to the bytes `[lo, lo + n)` made from `t`. The bytes of a reference are those of its type: for a reference to an object of variable length those of the head. -/
def retag (t : Nat) (k : Kind) (lo n : Nat) : S Nat := fun σ =>
  match σ.update lo n (k.push t σ.next) with
  | some σ' => .ok (σ.next, { σ' with next := σ.next + 1 })
  | none => .error .ub

/-! ## The library -/

/-- A layout of another type. -/
def confused {α : Type} : S α := fun _ => .error .confused

/-- `(&self.len1, &self.len2, …)` and what the length expressions read of them (varlen_macro/src/lib.rs:349-353). -/
def lengths (a lo : Nat) : List (TyFld w) → S Unit
  | [] => pure ()
  | .length P off :: fs => do
    let r ← retag a .shr (lo + off) P.ty.size
    read r (lo + off) P.ty.size
    lengths a lo fs
  | _ :: fs => lengths a lo fs

mutual
/-- `calculate_layout(&self)` for an object at offset `lo` with layout `l`, called with the tag `t`: `FixedLen` (varlen/src/lib.rs:721-739), `Array` (varlen/src/array.rs:134-143), newtypes and `Str` (varlen/src/newtype.rs:191-200;
varlen/src/str.rs:85-92), tuples (varlen/src/tuple.rs:163-172), structs (varlen_macro/src/lib.rs:347-365). -/
def calcTy : Ty w → (t lo : Nat) → Layout w → S Unit
  | .fixedLen P, t, lo, _ => do
    let _ ← retag t .shr lo P.ty.size
    pure ()
  | .array _ L, t, lo, _ => do
    let a ← retag t .shr lo L.bytes
    read a lo L.bytes
  | .str L, t, lo, _ => do
    let a ← retag t .shr lo L.bytes
    let i ← retag a .shr lo L.bytes
    let b ← retag i .shr lo L.bytes
    read b lo L.bytes
  | .newtype T, t, lo, l => do
    let a ← retag t .shr lo T.sem.headSize
    let i ← retag a .shr lo T.sem.headSize
    calcTy T i lo l
  | .tuple Ts, t, lo, l =>
    match l with
    | .fields _ ls => do
      let a ← retag t .shr lo 0
      calcTys a lo Ts ls
    | _ => confused
  | .struct headSize _ fs, t, lo, l =>
    match l with
    | .fields _ ls => do
      let a ← retag t .shr lo headSize
      lengths a lo fs
      calcFlds a lo headSize fs ls
    | _ => confused
/-- The chain of `cat_field_fast` (varlen/src/tuple.rs:163-172; varlen/src/macro_support.rs:117-136). -/
def calcTys (a lo : Nat) : List (Ty w) → List (BitVec w × Layout w) → S Unit
  | [], _ => pure ()
  | T :: Ts, ls =>
    match ls with
    | (o, l) :: ls => do
      let parent ← retag a .shr lo 0
      let child ← retag parent .shr (lo + o.toNat) T.sem.headSize
      calcTy T child (lo + o.toNat) l
      calcTys a lo Ts ls
    | [] => confused
/-- The chain of `cat_field_fast` / `cat_array_field_fast` (varlen_macro/src/lib.rs:355-357; varlen/src/macro_support.rs:117-136). -/
def calcFlds (a lo headSize : Nat) : List (TyFld w) → List (BitVec w × Layout w) → S Unit
  | [], _ => pure ()
  | .normal _ _ :: fs, ls => calcFlds a lo headSize fs ls
  | .length _ _ :: fs, ls => calcFlds a lo headSize fs ls
  | .varlen T :: fs, ls =>
    match ls with
    | (o, l) :: ls => do
      let parent ← retag a .shr lo headSize
      let child ← retag parent .shr (lo + o.toNat) T.sem.headSize
      calcTy T child (lo + o.toNat) l
      calcFlds a lo headSize fs ls
    | [] => confused
  | .array _ _ :: fs, ls =>
    match ls with
    | _ :: ls => calcFlds a lo headSize fs ls
    | [] => confused
end

/-- Building `Refs { … }` (varlen_macro/src/lib.rs:443-452 with 811, 847, 912, 997; varlen/src/tuple.rs:132-138; varlen/src/macro_support.rs:62-67, 162-164). -/
def refFields (a lo headSize : Nat) : List (TyFld w) → List (BitVec w × Layout w) → S (List Nat)
  | [], _ => pure []
  | .normal P off :: fs, ls => do
    let r ← retag a .shr (lo + off) P.ty.size
    let rs ← refFields a lo headSize fs ls
    pure (r :: rs)
  | .length P off :: fs, ls => do
    let r ← retag a .shr (lo + off) P.ty.size
    let rs ← refFields a lo headSize fs ls
    pure (r :: rs)
  | .varlen T :: fs, (o, _) :: ls => do
    let base ← retag a .shr lo headSize
    let r ← retag base .shr (lo + o.toNat) T.sem.headSize
    let rs ← refFields a lo headSize fs ls
    pure (r :: rs)
  | .array P _ :: fs, (o, .len n) :: ls => do
    let base ← retag a .shr lo headSize
    let r ← retag base .shr (lo + o.toNat) (n.toNat * P.ty.size)
    let rs ← refFields a lo headSize fs ls
    pure (r :: rs)
  | _, _ => confused

/-- `refs(&self)` (varlen_macro/src/lib.rs:443-452; for tuples, `fs` are the elements and the head is empty, varlen/src/tuple.rs:132-138), for an object at `lo` with layout `l`. -/
def refs (headSize : Nat) (fs : List (TyFld w)) (t lo : Nat) (l : Layout w) : S (List Nat) :=
  match l with
  | .fields _ ls => do
    let a ← retag t .shr lo headSize
    let c ← retag a .shr lo headSize
    lengths c lo fs
    calcFlds c lo headSize fs ls
    refFields a lo headSize fs ls
  | _ => confused

/-- Which types are `Unpin`; this depends on the program, which may have `impl Unpin`. -/
structure Unpins (w : Nat) where
  plain : Plain → Bool
  ty : Ty w → Bool

/-- Building `Muts { … }` (varlen_macro/src/lib.rs:427-441 with 814, 850, 915, 1000; varlen/src/tuple.rs:141-151; varlen/src/macro_support.rs:70-72, 157-159), from `mut_ref` (`m`). -/
def mutFields (U : Unpins w) (m lo : Nat) : List (TyFld w) → List (BitVec w × Layout w) → S (List Nat)
  | [], _ => pure []
  | .normal P off :: fs, ls => do
    let r ← retag m (.mutable (U.plain P)) (lo + off) P.ty.size
    let rs ← mutFields U m lo fs ls
    pure (r :: rs)
  | .length P off :: fs, ls => do
    let r' ← retag m (.mutable (U.plain P)) (lo + off) P.ty.size
    let r ← retag r' .shr (lo + off) P.ty.size
    let rs ← mutFields U m lo fs ls
    pure (r :: rs)
  | .varlen T :: fs, (o, _) :: ls => do
    let r ← retag m (.mutable (U.ty T)) (lo + o.toNat) T.sem.headSize
    let rs ← mutFields U m lo fs ls
    pure (r :: rs)
  | .array P _ :: fs, (o, .len n) :: ls => do
    let r ← retag m (.mutable (U.plain P)) (lo + o.toNat) (n.toNat * P.ty.size)
    let rs ← mutFields U m lo fs ls
    pure (r :: rs)
  | _, _ => confused

/-- `muts(self: Pin<&mut Self>)` (varlen_macro/src/lib.rs:427-441; varlen/src/tuple.rs:141-151): the layout through a shared reborrow, then `get_unchecked_mut`; `unpin`: is the type `Unpin`? -/
def muts (U : Unpins w) (unpin : Bool) (headSize : Nat) (fs : List (TyFld w)) (t lo : Nat) (l : Layout w) : S (List Nat) :=
  match l with
  | .fields _ ls => do
    let a ← retag t (.mutable unpin) lo headSize
    let c ← retag a .shr lo headSize
    lengths c lo fs
    calcFlds c lo headSize fs ls
    let m ← retag a (.mutable unpin) lo headSize
    mutFields U m lo fs ls
  | _ => confused

/-- `Deref for Array` (varlen/src/array.rs:162-168) with `calculate_layout` (134-143), which reads the length. -/
def arrayDeref (P : Plain) (L : LenTy) (t lo : Nat) (l : Layout w) : S Nat :=
  match l with
  | .array o n _ => do
    let a ← retag t .shr lo L.bytes
    let c ← retag a .shr lo L.bytes
    read c lo L.bytes
    let base ← retag a .shr lo L.bytes
    retag base .shr (lo + o.toNat) (n.toNat * P.ty.size)
  | _ => confused

/-- `Array::mut_slice` (varlen/src/array.rs:232-241). -/
def arrayMutSlice (U : Unpins w) (unpin : Bool) (P : Plain) (L : LenTy) (t lo : Nat) (l : Layout w) : S Nat :=
  match l with
  | .array o n _ => do
    let a ← retag t (.mutable unpin) lo L.bytes
    let c ← retag a .shr lo L.bytes
    read c lo L.bytes
    let m ← retag a (.mutable unpin) lo L.bytes
    retag m (.mutable (U.plain P)) (lo + o.toNat) (n.toNat * P.ty.size)
  | _ => confused

end Varlen.SB
