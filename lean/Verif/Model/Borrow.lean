import Verif.Model.TreeBorrows
import Verif.Model.Newtype
/-!
# The references that the library makes

Function by function: which references the code makes, from which other reference, over which bytes, and what it accesses through them. The values read and written are those of the other models and left out
here; the layout that the code computes is an argument. A chain of reborrows of the same bytes of which only the last is used is one reborrow here.
-/
namespace Varlen.TB
open Varlen
variable {w : Nat}

/-- Which bytes are inside an `UnsafeCell` for a reference at `lo` to a type of `n` bytes, of which `cells` tells it; for the bytes outside of `[lo, lo + n)` it is whether the type contains one at all. -/
def imAt (lo n : Nat) (cells : Nat → Bool) (freeze : Bool) (x : Nat) : Bool := if lo ≤ x ∧ x < lo + n then cells (x - lo) else !freeze

/-- For `&R` and `&mut R`. -/
def rustIm (R : RTy) (lo : Nat) : Nat → Bool := imAt lo R.size R.cells R.freeze

/-- For `&[R]` and `&mut [R]`, `n` elements. -/
def sliceIm (R : RTy) (lo n : Nat) : Nat → Bool := imAt lo (n * R.size) (fun i => R.cells (i % R.size)) R.freeze

/-- A variable-length type together with what its methods do to references. -/
structure BTy (w : Nat) where
  T : VarLen w
  /-- The bytes of the head inside an `UnsafeCell`. -/
  cells : Nat → Bool
  /-- The head, as a Rust type, contains no `UnsafeCell`. -/
  freeze : Bool
  /-- `t.calculate_layout()`, where `t` points to offset `lo` of the allocation, for an object with the given layout. -/
  calcB : (t lo : Nat) → Layout w → B Unit
  /-- `vdrop(Pin<&mut _>, layout)` -/
  vdropB : (t lo : Nat) → Layout w → B Unit

/-- For `&C` and `&mut C`, which the compiler takes for references to the head. -/
def BTy.im (C : BTy w) (lo : Nat) : Nat → Bool := imAt lo C.T.headSize C.cells C.freeze

/-- `drop_in_place` of a value of `n` bytes at `lo` through the raw pointer `t`, if its type needs it: the destructor has a `&mut self`, through which it may write anything. -/
def dropIn (needs : Bool) (t lo n : Nat) : B Unit :=
  if needs then do
    let c ← retag t true true noIm lo n lo n
    access c true lo n
    ret c
  else pure ()

/-- `drop_in_place` of a slice. -/
def dropElems (needs : Bool) (t lo n : Nat) : Nat → B Unit
  | 0 => pure ()
  | k + 1 => do
    dropIn needs t lo n
    dropElems needs t (lo + n) n k

/-- A value that no `match` on layouts meets: the program would not compile. -/
def confused {α : Type} : B α := fun _ => none

/-- `FixedLen<R>` (varlen/src/lib.rs:685, 721-739): a struct with one field of type `R`. -/
def BTy.fixed (pin : Bool) (w : Nat) (R : RTy) : BTy w where
  T := FixedLen w R
  cells := R.cells
  freeze := R.freeze
  calcB := fun t lo l => do
    let a ← shrArg t (rustIm R lo) lo R.size lo l.size.toNat
    ret a
  vdropB := fun t lo l => do
    let a ← mutArg pin t lo R.size lo l.size.toNat
    let m ← retag a true false (rustIm R lo) lo R.size lo l.size.toNat
    dropIn R.needsDrop m lo R.size
    kill m
    mutRet pin a

/-- `Array<R, L>` (varlen/src/array.rs:101-104, 131-160; varlen/src/macro_support.rs:56-59): the fields of the struct are the length, an integer, and an `ArrayMarker<R>` (varlen/src/marker.rs:90), which contains no
`UnsafeCell` whatever `R` is. -/
def BTy.array (pin : Bool) (w : Nat) (R : RTy) (L : LenTy) : BTy w where
  T := Array w R L
  cells := noIm
  freeze := true
  calcB := fun t lo l => do
    let a ← shrArg t noIm lo L.bytes lo l.size.toNat
    access a false lo L.bytes
    ret a
  vdropB := fun t lo l =>
    match l with
    | .array o n size => do
      let a ← mutArg pin t lo L.bytes lo size.toNat
      let m ← retag a true false noIm lo L.bytes lo size.toNat
      dropElems R.needsDrop m (lo + o.toNat) R.size n.toNat
      kill m
      mutRet pin a
    | _ => confused

/-- `map_unchecked_mut(|outer| &mut outer.0)` (varlen/src/newtype.rs:206, 232): the closure's argument, and the reference it returns. -/
def mapInner (a : Nat) (im : Nat → Bool) (lo headSize size : Nat) : B Nat := do
  let c ← retag a true true noIm lo headSize lo size
  let i ← retag c true false im lo headSize lo size
  ret c
  pure i

/-- A newtype (varlen/src/newtype.rs:184-208), a struct with one field of the type `C`; `inv` is the ghost invariant of its module. -/
def BTy.newtype (pin : Bool) (C : BTy w) (inv : V → Prop) : BTy w where
  T := NewtypeInv C.T inv
  cells := C.cells
  freeze := C.freeze
  calcB := fun t lo l => do
    let a ← shrArg t (C.im lo) lo C.T.headSize lo l.size.toNat
    let i ← retag a false false (C.im lo) lo C.T.headSize lo l.size.toNat
    C.calcB i lo l
    kill i
    ret a
  vdropB := fun t lo l => do
    let a ← mutArg pin t lo C.T.headSize lo l.size.toNat
    if C.T.NEEDS_VDROP then do
      let i ← mapInner a (C.im lo) lo C.T.headSize l.size.toNat
      C.vdropB i lo l
      kill i
      mutRet pin a
    else mutRet pin a

/-- A field of a struct. -/
inductive BFld (w : Nat)
  | normal (R : RTy) (off : Nat)
  | length (R : RTy) (off : Nat)
  | varlen (C : BTy w)
  | array (R : RTy) (len : LenFn w)

/-- The field of the memory model. -/
def BFld.fld : BFld w → Fld w
  | .normal R off => .normal R off
  | .length R off => .length R off
  | .varlen C => .varlen C.T
  | .array R len => .array R len

/-- The bytes of the head that are inside an `UnsafeCell` (the head struct, varlen_macro/src/lib.rs:329-336, has the fixed-size fields and a marker for each variable-length one; varlen/src/marker.rs:37, 90: a marker contains
no `UnsafeCell`, whatever the type of the field is). -/
def aggCells (fs : List (BFld w)) (i : Nat) : Bool := fs.any fun
  | .normal R off => decide (off ≤ i) && decide (i < off + R.size) && R.cells (i - off)
  | .length R off => decide (off ≤ i) && decide (i < off + R.size) && R.cells (i - off)
  | _ => false

/-- The head contains none. -/
def aggFreeze (fs : List (BFld w)) : Bool := fs.all fun
  | .normal R _ => R.freeze
  | .length R _ => R.freeze
  | _ => true

/-- For references to the struct. -/
def aggIm (headSize : Nat) (fs : List (BFld w)) (lo : Nat) : Nat → Bool := imAt lo headSize (aggCells fs) (aggFreeze fs)

/-- A reference, with the bytes it is for. -/
structure LenRef where
  tag : Nat
  lo : Nat
  len : Nat

/-- `(&self.len1, &self.len2, …)` (varlen_macro/src/lib.rs:349-353, 457-461). -/
def lenRefs (a lo : Nat) : List (BFld w) → B (List LenRef)
  | [] => pure []
  | .length R off :: fs => do
    let r ← retag a false false (rustIm R (lo + off)) (lo + off) R.size (lo + off) R.size
    let rs ← lenRefs a lo fs
    pure (⟨r, lo + off, R.size⟩ :: rs)
  | _ :: fs => lenRefs a lo fs

/-- A length expression reads all of them (it may read fewer). -/
def readAll : List LenRef → B Unit
  | [] => pure ()
  | r :: rs => do
    access r.tag false r.lo r.len
    readAll rs

/-- They are not used any more. -/
def killAll : List LenRef → B Unit
  | [] => pure ()
  | r :: rs => do
    kill r.tag
    killAll rs

/-- The chain of `cat_field_fast` / `cat_array_field_fast` (varlen_macro/src/lib.rs:355-357; varlen/src/tuple.rs:165-167; varlen/src/macro_support.rs:117-136). -/
def calcFields (a : Nat) (im : Nat → Bool) (lo headSize size : Nat) (lens : List LenRef) : List (BFld w) → List (BitVec w × Layout w) → B Unit
  | [], _ => pure ()
  | .normal _ _ :: fs, ls => calcFields a im lo headSize size lens fs ls
  | .length _ _ :: fs, ls => calcFields a im lo headSize size lens fs ls
  | .varlen C :: fs, (o, l) :: ls => do
    let parent ← shrArg a im lo headSize lo size
    let child ← retag parent false false (C.im (lo + o.toNat)) (lo + o.toNat) C.T.headSize (lo + o.toNat) l.size.toNat
    C.calcB child (lo + o.toNat) l
    kill child
    ret parent
    calcFields a im lo headSize size lens fs ls
  | .array _ _ :: fs, _ :: ls => do
    readAll lens
    calcFields a im lo headSize size lens fs ls
  | _, _ => confused

/-- The chain of drops (varlen_macro/src/lib.rs:382-388; varlen/src/tuple.rs:174-182; varlen/src/macro_support.rs:56-59, 151-155). -/
def dropFields (p lo : Nat) : List (BFld w) → List (BitVec w × Layout w) → B Unit
  | [], _ => pure ()
  | .normal R off :: fs, ls => do
    dropIn R.needsDrop p (lo + off) R.size
    dropFields p lo fs ls
  | .length R off :: fs, ls => do
    dropIn R.needsDrop p (lo + off) R.size
    dropFields p lo fs ls
  | .varlen C :: fs, (o, l) :: ls => do
    let child ← retag p true false (C.im (lo + o.toNat)) (lo + o.toNat) C.T.headSize (lo + o.toNat) l.size.toNat
    C.vdropB child (lo + o.toNat) l
    kill child
    dropFields p lo fs ls
  | .array R _ :: fs, (o, .len n) :: ls => do
    dropElems R.needsDrop p (lo + o.toNat) R.size n.toNat
    dropFields p lo fs ls
  | _, _ => confused

/-- Generated `calculate_layout` (varlen_macro/src/lib.rs:347-365; varlen/src/tuple.rs:163-172). -/
def aggCalc (headSize : Nat) (fs : List (BFld w)) (t lo : Nat) (l : Layout w) : B Unit :=
  match l with
  | .fields size ls => do
    let a ← shrArg t (aggIm headSize fs lo) lo headSize lo size.toNat
    let lens ← lenRefs a lo fs
    calcFields a (aggIm headSize fs lo) lo headSize size.toNat lens fs ls
    killAll lens
    ret a
  | _ => confused

/-- Generated `vdrop` (varlen_macro/src/lib.rs:382-388; varlen/src/tuple.rs:174-182). -/
def aggVdrop (pin : Bool) (headSize : Nat) (fs : List (BFld w)) (t lo : Nat) (l : Layout w) : B Unit :=
  match l with
  | .fields size ls => do
    let a ← mutArg pin t lo headSize lo size.toNat
    let m ← retag a true false (aggIm headSize fs lo) lo headSize lo size.toNat
    dropFields m lo fs ls
    kill m
    mutRet pin a
  | _ => confused

/-- A `define_varlen` struct (varlen_macro/src/lib.rs:329-389). -/
def BTy.struct (pin : Bool) (w headSize headAlign : Nat) (fs : List (BFld w)) : BTy w where
  T := Struct w headSize headAlign (fs.map BFld.fld)
  cells := aggCells fs
  freeze := aggFreeze fs
  calcB := aggCalc headSize fs
  vdropB := aggVdrop pin headSize fs

/-- A tuple (varlen/src/tuple.rs:126-183): the struct has markers only. -/
def BTy.tuple (pin : Bool) (w : Nat) (Cs : List (BTy w)) : BTy w where
  T := Tuple w (Cs.map (·.T))
  cells := noIm
  freeze := true
  calcB := aggCalc 0 (Cs.map .varlen)
  vdropB := fun t lo l =>
    if (Cs.map (·.T)).any (·.NEEDS_VDROP) then aggVdrop pin 0 (Cs.map .varlen) t lo l
    else do
      let a ← mutArg pin t lo 0 lo l.size.toNat
      mutRet pin a

/-! ### Access to fields -/

/-- Building `Refs { … }` (varlen_macro/src/lib.rs:443-452 with 811, 847, 912, 997; varlen/src/tuple.rs:132-138; varlen/src/macro_support.rs:62-67, 162-164). -/
def refFields (a : Nat) (im : Nat → Bool) (lo headSize size : Nat) : List (BFld w) → List (BitVec w × Layout w) → B (List Nat)
  | [], _ => pure []
  | .normal R off :: fs, ls => do
    let r ← retag a false false (rustIm R (lo + off)) (lo + off) R.size (lo + off) R.size
    let rs ← refFields a im lo headSize size fs ls
    pure (r :: rs)
  | .length R off :: fs, ls => do
    let r ← retag a false false (rustIm R (lo + off)) (lo + off) R.size (lo + off) R.size
    let rs ← refFields a im lo headSize size fs ls
    pure (r :: rs)
  | .varlen C :: fs, (o, l) :: ls => do
    let base ← shrArg a im lo headSize lo size
    let r ← retag base false false (C.im (lo + o.toNat)) (lo + o.toNat) C.T.headSize (lo + o.toNat) l.size.toNat
    ret base
    let rs ← refFields a im lo headSize size fs ls
    pure (r :: rs)
  | .array R _ :: fs, (o, .len n) :: ls => do
    let base ← shrArg a im lo headSize lo size
    let r ← retag base false false (sliceIm R (lo + o.toNat) n.toNat) (lo + o.toNat) (n.toNat * R.size) (lo + o.toNat) (n.toNat * R.size)
    ret base
    let rs ← refFields a im lo headSize size fs ls
    pure (r :: rs)
  | _, _ => confused

/-- `refs(&self)` (varlen_macro/src/lib.rs:443-452; varlen/src/tuple.rs:132-138). -/
def refs (headSize : Nat) (fs : List (BFld w)) (t lo : Nat) (l : Layout w) : B (List Nat) :=
  match l with
  | .fields size ls => do
    let a ← shrArg t (aggIm headSize fs lo) lo headSize lo size.toNat
    aggCalc headSize fs a lo l
    let rs ← refFields a (aggIm headSize fs lo) lo headSize size.toNat fs ls
    ret a
    pure rs
  | _ => confused

/-- Building `Muts { … }` (varlen_macro/src/lib.rs:427-441 with 814, 850 (a `&mut` that is coerced to `&`), 915, 1000; varlen/src/tuple.rs:141-151; varlen/src/macro_support.rs:70-72, 157-159). `m` is `mut_ref`, and
the raw pointer `mut_ptr` made from it. -/
def mutFields (m lo : Nat) : List (BFld w) → List (BitVec w × Layout w) → B (List Nat)
  | [], _ => pure []
  | .normal R off :: fs, ls => do
    let r ← retag m true false (rustIm R (lo + off)) (lo + off) R.size (lo + off) R.size
    let rs ← mutFields m lo fs ls
    pure (r :: rs)
  | .length R off :: fs, ls => do
    let r' ← retag m true false (rustIm R (lo + off)) (lo + off) R.size (lo + off) R.size
    let r ← retag r' false false (rustIm R (lo + off)) (lo + off) R.size (lo + off) R.size
    kill r'
    let rs ← mutFields m lo fs ls
    pure (r :: rs)
  | .varlen C :: fs, (o, l) :: ls => do
    let r ← retag m true false (C.im (lo + o.toNat)) (lo + o.toNat) C.T.headSize (lo + o.toNat) l.size.toNat
    let rs ← mutFields m lo fs ls
    pure (r :: rs)
  | .array R _ :: fs, (o, .len n) :: ls => do
    let r ← retag m true false (sliceIm R (lo + o.toNat) n.toNat) (lo + o.toNat) (n.toNat * R.size) (lo + o.toNat) (n.toNat * R.size)
    let rs ← mutFields m lo fs ls
    pure (r :: rs)
  | _, _ => confused

/-- `self.calculate_layout()` where `self : Pin<&mut Self>` is `a`: through a shared reborrow. -/
def calcThrough (C : (t lo : Nat) → Layout w → B Unit) (im : Nat → Bool) (headSize a lo : Nat) (l : Layout w) : B Unit := do
  let s ← retag a false false im lo headSize lo l.size.toNat
  C s lo l
  kill s

/-- `muts(self: Pin<&mut Self>)` (varlen_macro/src/lib.rs:427-441; varlen/src/tuple.rs:141-151): the layout is computed through a shared reborrow, then the fields are borrowed. -/
def muts (pin : Bool) (headSize : Nat) (fs : List (BFld w)) (t lo : Nat) (l : Layout w) : B (List Nat) :=
  match l with
  | .fields size ls => do
    let a ← mutArg pin t lo headSize lo size.toNat
    calcThrough (aggCalc headSize fs) (aggIm headSize fs lo) headSize a lo l
    let m ← retag a true false (aggIm headSize fs lo) lo headSize lo size.toNat
    let rs ← mutFields m lo fs ls
    kill m
    mutRet pin a
    pure rs
  | _ => confused

/-- `self_mut.len_i = layout_controllers.len_i;` for each controller (varlen_macro/src/lib.rs:475-477). -/
def setLens (m lo : Nat) : List (BFld w) → B Unit
  | [] => pure ()
  | .length R off :: fs => do
    dropIn R.needsDrop m (lo + off) R.size
    access m true (lo + off) R.size
    setLens m lo fs
  | _ :: fs => setLens m lo fs

/-- `try_set_layout_controllers` (varlen_macro/src/lib.rs:454-483); `valid` is the outcome of the comparison. -/
def trySet (pin valid : Bool) (headSize : Nat) (fs : List (BFld w)) (t lo : Nat) (l : Layout w) : B Unit := do
  let a ← mutArg pin t lo headSize lo l.size.toNat
  let s ← retag a false false (aggIm headSize fs lo) lo headSize lo l.size.toNat
  let lens ← lenRefs s lo fs
  readAll lens
  killAll lens
  kill s
  if valid then do
    let m ← retag a true false (aggIm headSize fs lo) lo headSize lo l.size.toNat
    setLens m lo fs
    kill m
    mutRet pin a
  else mutRet pin a

/-- `Array::deref` (varlen/src/array.rs:162-168): the slice. -/
def arrayDeref (pin : Bool) (R : RTy) (L : LenTy) (t lo : Nat) (l : Layout w) : B Nat :=
  match l with
  | .array o n size => do
    let a ← shrArg t noIm lo L.bytes lo size.toNat
    (BTy.array pin w R L).calcB a lo l
    let base ← shrArg a noIm lo L.bytes lo size.toNat
    let r ← retag base false false (sliceIm R (lo + o.toNat) n.toNat) (lo + o.toNat) (n.toNat * R.size) (lo + o.toNat) (n.toNat * R.size)
    ret base
    ret a
    pure r
  | _ => confused

/-- `Array::mut_slice` (varlen/src/array.rs:232-241). -/
def arrayMutSlice (pin : Bool) (R : RTy) (L : LenTy) (t lo : Nat) (l : Layout w) : B Nat :=
  match l with
  | .array o n size => do
    let a ← mutArg pin t lo L.bytes lo size.toNat
    calcThrough (BTy.array pin w R L).calcB noIm L.bytes a lo l
    let m ← retag a true false noIm lo L.bytes lo size.toNat
    let r ← retag m true false (sliceIm R (lo + o.toNat) n.toNat) (lo + o.toNat) (n.toNat * R.size) (lo + o.toNat) (n.toNat * R.size)
    kill m
    mutRet pin a
    pure r
  | _ => confused

/-- The accessor of a newtype (varlen/src/newtype.rs:223-225). -/
def newtypeRef (C : BTy w) (t lo : Nat) (l : Layout w) : B Nat := do
  let a ← shrArg t (C.im lo) lo C.T.headSize lo l.size.toNat
  let i ← retag a false false (C.im lo) lo C.T.headSize lo l.size.toNat
  ret a
  pure i

/-- The mutable accessor of a newtype (varlen/src/newtype.rs:228-234). -/
def newtypeMut (pin : Bool) (C : BTy w) (t lo : Nat) (l : Layout w) : B Nat := do
  let a ← mutArg pin t lo C.T.headSize lo l.size.toNat
  let i ← mapInner a (C.im lo) lo C.T.headSize l.size.toNat
  mutRet pin a
  pure i

/-! ### Initialization

`initialize(self, dst, layout)` gets a raw pointer. The initializer may read from references `srcs` (those in `CopyFrom`, `CloneFrom`, `VCopier`, in the closures and iterators). -/

/-- `for slot in dst.iter_mut() { slot.write(…) }` (varlen/src/array_init.rs:122-130, 159-163, 178-180, 242-247, 275-280). The sources are read once per element; for `CopyFrom` (209-214), which reads them once, this is more than what happens. -/
def fillSlots (a lo size : Nat) (srcs : List LenRef) : Nat → B Unit
  | 0 => pure ()
  | k + 1 => do
    readAll srcs
    let c ← retag a true true noIm lo size lo size
    access c true lo size
    ret c
    fillSlots a (lo + size) size srcs k

/-- `init_array` (varlen/src/macro_support.rs:74-87). -/
def initArray (R : RTy) (srcs : List LenRef) (t lo n : Nat) : B Unit := do
  let a ← retag t true true noIm lo (n * R.size) lo (n * R.size)
  fillSlots a lo R.size srcs n
  ret a

/-- `initialize` of `FixedLen(x)` and of `FixedLenCloner` (varlen/src/lib.rs:717-719, 764-766). -/
def fixedInit (R : RTy) (srcs : List LenRef) (t lo : Nat) (_ : Layout w) : B Unit := do
  readAll srcs
  access t true lo R.size

/-- `initialize` of `SizedInit` (varlen/src/array.rs:368-379). -/
def sizedInit (R : RTy) (L : LenTy) (srcs : List LenRef) (t lo : Nat) (l : Layout w) : B Unit :=
  match l with
  | .array o n _ => do
    initArray R srcs t (lo + o.toNat) n.toNat
    access t true lo L.bytes
  | _ => confused

/-- `initialize` of `VCopier` (varlen/src/lib.rs:536-544), and of `Owned` (varlen/src/owned.rs:214-222; for types with a head of one byte, see C17). -/
def copyInit (src : LenRef) (t lo : Nat) (l : Layout w) : B Unit := do
  access src.tag false src.lo src.len
  access t true lo l.size.toNat

/-- `initialize` of `VBox` (varlen/src/vbox.rs:179-193): the source is in another allocation. -/
def boxInit (t lo : Nat) (l : Layout w) : B Unit := access t true lo l.size.toNat

/-- The initializer of a field of a struct. -/
inductive BFI (w : Nat)
  | normal (R : RTy) (off : Nat)
  | length (R : RTy) (off : Nat)
  | varlen (C : BTy w) (I : (t lo : Nat) → Layout w → B Unit)
  | array (R : RTy) (len : LenFn w)

/-- The field. -/
def BFI.bfld : BFI w → BFld w
  | .normal R off => .normal R off
  | .length R off => .length R off
  | .varlen C _ => .varlen C
  | .array R len => .array R len

/-- The tail, in the order of the fields (varlen_macro/src/lib.rs:419-421 with 808, 844, 909, 994; varlen/src/tuple.rs:208-217; varlen/src/macro_support.rs:138-147). -/
def initFields (srcs : List LenRef) (t lo : Nat) : List (BFI w) → List (BitVec w × Layout w) → B Unit
  | [], _ => pure ()
  | .normal _ _ :: fs, ls => initFields srcs t lo fs ls
  | .length _ _ :: fs, ls => initFields srcs t lo fs ls
  | .varlen _ I :: fs, (o, l) :: ls => do
    I t (lo + o.toNat) l
    initFields srcs t lo fs ls
  | .array R _ :: fs, (o, .len n) :: ls => do
    initArray R srcs t (lo + o.toNat) n.toNat
    initFields srcs t lo fs ls
  | _, _ => confused

/-- Generated `initialize` (varlen_macro/src/lib.rs:415-424; varlen/src/tuple.rs:202-219): the tail, then the head. -/
def aggInit (headSize : Nat) (srcs : List LenRef) (fs : List (BFI w)) (t lo : Nat) (l : Layout w) : B Unit :=
  match l with
  | .fields _ ls => do
    initFields srcs t lo fs ls
    access t true lo headSize
  | _ => confused

/-! ### Boxes, arenas, sequences

The pointer in a `VBox`, an `Owned` or a `Seq` is raw, with the tag `root` under which the memory was allocated. -/

/-- `Deref for VBox` / `Owned` (varlen/src/vbox.rs:158-164; varlen/src/owned.rs:207-212), `from_offset` (varlen/src/seq.rs:808-815). -/
def asRef (C : BTy w) (root lo : Nat) (l : Layout w) : B Nat := retag root false false (C.im lo) lo C.T.headSize lo l.size.toNat

/-- `VBox::as_mut`, `Owned::as_mut` (varlen/src/vbox.rs:84-86; varlen/src/owned.rs:145-147), `from_offset_mut` (varlen/src/seq.rs:849-859). -/
def asMut (C : BTy w) (root lo : Nat) (l : Layout w) : B Nat := retag root true false (C.im lo) lo C.T.headSize lo l.size.toNat

/-- `Drop for Owned` (varlen/src/owned.rs:197-205). -/
def ownedDrop (C : BTy w) (root lo : Nat) (l : Layout w) : B Unit := do
  calcThrough C.calcB (C.im lo) C.T.headSize root lo l
  let m ← asMut C root lo l
  C.vdropB m lo l
  kill m

/-- Deallocation counts as a write of the whole allocation. -/
def dealloc (root : Nat) : B Unit := fun T => access root true 0 T.size T

/-- `Drop for VBox` (varlen/src/vbox.rs:147-156). -/
def boxDrop (C : BTy w) (root : Nat) (l : Layout w) : B Unit := do
  ownedDrop C root 0 l
  dealloc root

/-- `Iter::next` (varlen/src/seq.rs:1131-1141), when it is at the element at byte `lo`. -/
def iterNext (C : BTy w) (root lo : Nat) (l : Layout w) : B Nat := do
  let t ← asRef C root lo l
  C.calcB t lo l
  pure t

/-- `IterMut::next` (varlen/src/seq.rs:1217-1227). -/
def iterMutNext (C : BTy w) (root lo : Nat) (l : Layout w) : B Nat := do
  let t ← asMut C root lo l
  calcThrough C.calcB (C.im lo) C.T.headSize t lo l
  pure t

/-- All items of an iterator: the elements are at the given offsets and have the given layouts. -/
def iterAll (next : (lo : Nat) → Layout w → B Nat) : List (Nat × Layout w) → B (List Nat)
  | [] => pure []
  | (lo, l) :: es => do
    let r ← next lo l
    let rs ← iterAll next es
    pure (r :: rs)

/-- `OwnedElems::next` (varlen/src/seq.rs:1302-1312): the item, an `Owned`, has a raw pointer. -/
def ownedNext (C : BTy w) (root lo : Nat) (l : Layout w) : B Unit := calcThrough C.calcB (C.im lo) C.T.headSize root lo l

/-- `Drop for OwnedElems` (varlen/src/seq.rs:1332-1340) with the given elements left. -/
def ownedElemsDrop (C : BTy w) (root : Nat) : List (Nat × Layout w) → B Unit
  | [] => pure ()
  | (lo, l) :: es => do
    ownedNext C root lo l
    ownedDrop C root lo l
    ownedElemsDrop C root es

/-- `take_elems` (varlen/src/seq.rs:904-916): `clear_bitmasks` (280-288) writes `n` bytes from `mask` on. -/
def takeElems (root mask n : Nat) : B Unit := do
  let m ← retag root true false noIm mask n mask n
  access m true mask n
  kill m

/-- The part of `Seq::push` after a possible reallocation (varlen/src/seq.rs:688-692, `mark_offset_valid` 270-277): the byte at `bit` of the bitmask is updated, then the element is initialized at `lo`. -/
def seqPush (bit : Nat) (I : (t lo : Nat) → Layout w → B Unit) (root lo : Nat) (l : Layout w) : B Unit := do
  access root false bit 1
  access root true bit 1
  I root lo l

/-- `alloc_storage` (varlen/src/seq.rs:234-242), in the new allocation: the bitmask is cleared. -/
def allocStorage (root mask n : Nat) : B Unit := do
  let m ← retag root true false noIm mask n mask n
  access m true mask n
  kill m

/-- `grow_storage` (varlen/src/seq.rs:244-267), in the allocation given by `realloc`: the bitmask of `oldN` bytes at `old` is moved to `new`, and extended to `newN` bytes. -/
def growStorage (root old oldN new newN : Nat) : B Unit := do
  let o ← retag root false false noIm old oldN old oldN
  let m ← retag root true false noIm new newN new newN
  access o false old oldN
  access m true new oldN
  access m true (new + oldN) (newN - oldN)
  kill m
  kill o

/-- `Drop for Seq` (varlen/src/seq.rs:1014-1024; `take_elems` 904-916). -/
def seqDrop (C : BTy w) (root mask n : Nat) (es : List (Nat × Layout w)) : B Unit := do
  takeElems root mask n
  if C.T.headNeedsDrop || C.T.NEEDS_VDROP then do
    ownedElemsDrop C root es
    dealloc root
  else dealloc root

end Varlen.TB
