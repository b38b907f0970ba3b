import Verif.Model.StackedDrop
/-!
# Sequences and construction in Stacked Borrows

`t` is the tag of the allocation (that of the pointer that `alloc` or `realloc` returned), which begins at offset 0. Arithmetic with pointers keeps their tag. Elements are given by their offsets in bytes and their layouts.
-/
namespace Varlen.SB
variable {w : Nat}

/-! ## Iterators -/

/-- `Iter::next` (varlen/src/seq.rs:1131-1141), when it is at the element at byte `lo`. -/
def iterNext (T : Ty w) (t lo : Nat) (l : Layout w) : S Nat := do
  let r ← retag t .shr lo T.sem.headSize
  calcTy T r lo l
  pure r

/-- `IterMut::next` (varlen/src/seq.rs:1217-1227): the layout through a shared reborrow. -/
def iterMutNext (U : Unpins w) (T : Ty w) (t lo : Nat) (l : Layout w) : S Nat := do
  let r ← retag t (.mutable (U.ty T)) lo T.sem.headSize
  let c ← retag r .shr lo T.sem.headSize
  calcTy T c lo l
  pure r

/-- All items of an iterator. -/
def iterAll (next : (lo : Nat) → Layout w → S Nat) : List (Nat × Layout w) → S (List Nat)
  | [] => pure []
  | (lo, l) :: es => do
    let r ← next lo l
    let rs ← iterAll next es
    pure (r :: rs)

/-- `from_offset_unchecked` (varlen/src/seq.rs:808-815). -/
def fromOffset (T : Ty w) (t lo : Nat) : S Nat := retag t .shr lo T.sem.headSize

/-- `from_offset_unchecked_mut` (varlen/src/seq.rs:849-859). -/
def fromOffsetMut (U : Unpins w) (T : Ty w) (t lo : Nat) : S Nat := retag t (.mutable (U.ty T)) lo T.sem.headSize

/-! ## Destruction -/

/-- `OwnedElems::next` (varlen/src/seq.rs:1302-1312): the item has a raw pointer; `&*t` is in varlen/src/owned.rs:207-212. -/
def ownedNext (T : Ty w) (t lo : Nat) (l : Layout w) : S Unit := do
  let r ← retag t .shr lo T.sem.headSize
  calcTy T r lo l

/-- `Drop for Owned` (varlen/src/owned.rs:197-205 with 145-147, 207-212). -/
def ownedDrop (U : Unpins w) (T : Ty w) (t lo : Nat) (l : Layout w) : S Unit := do
  let r ← retag t .shr lo T.sem.headSize
  calcTy T r lo l
  let m ← retag t (.mutable (U.ty T)) lo T.sem.headSize
  vdropTy U T m lo l

/-- The loop in `Drop for OwnedElems` (varlen/src/seq.rs:1335-1337). -/
def dropLoop (U : Unpins w) (T : Ty w) (t : Nat) : List (Nat × Layout w) → S Unit
  | [] => pure ()
  | (lo, l) :: es => do
    ownedNext T t lo l
    ownedDrop U T t lo l
    dropLoop U T t es

/-- `Drop for OwnedElems` (varlen/src/seq.rs:1332-1340) with the given elements left. -/
def ownedElemsDrop (U : Unpins w) (T : Ty w) (t : Nat) (es : List (Nat × Layout w)) : S Unit :=
  if (T.sem.headNeedsDrop || T.sem.NEEDS_VDROP) = true then dropLoop U T t es else pure ()

/-- `slice::from_raw_parts_mut(…).fill(…)` for bytes. -/
def fill (t lo n : Nat) : S Unit := do
  let m ← retag t .uniq lo n
  let m' ← retag m .uniq lo n
  write m' lo n

/-- `clear_bitmasks` (varlen/src/seq.rs:280-288), when there are no elements: `take_elems` (904-916) has set `occupied_offsets` to 0 before. Without checked indexing (175-181) it does nothing. -/
def clearMasks (checked : Bool) (t mask : Nat) : S Unit := if checked = true then fill t mask 0 else pure ()

/-- `Drop for Seq` (varlen/src/seq.rs:1014-1024), for a sequence with capacity `cap` (in units of `T::ALIGN`) and an allocation of `size` bytes. -/
def seqDrop (U : Unpins w) (T : Ty w) (checked : Bool) (t cap size : Nat) (es : List (Nat × Layout w)) : S Unit :=
  if cap = 0 then pure () else do
    clearMasks checked t (cap * T.sem.ALIGN.toNat)
    ownedElemsDrop U T t es
    write t 0 size

/-! ## Storage -/

/-- `alloc_storage` with checked indexing (varlen/src/seq.rs:234-242), in the new allocation of `cap` units. -/
def allocStorage (t align cap : Nat) : S Unit := fill t (cap * align) ((cap + 7) / 8)

/-- `grow_storage` with checked indexing (varlen/src/seq.rs:244-267), in the allocation given by `realloc`, which grew from `cap` to `cap'` units. -/
def growStorage (t align cap cap' : Nat) : S Unit := do
  let o ← retag t .shr (cap * align) ((cap + 7) / 8)
  let m ← retag t .uniq (cap' * align) ((cap' + 7) / 8)
  let o' ← retag o .shr (cap * align) ((cap + 7) / 8)
  let m' ← retag m .uniq (cap' * align) ((cap' + 7) / 8)
  read o' (cap * align) ((cap + 7) / 8)
  write m' (cap' * align) ((cap + 7) / 8)
  let r ← retag m .uniq (cap' * align + (cap + 7) / 8) ((cap' + 7) / 8 - (cap + 7) / 8)
  write r (cap' * align + (cap + 7) / 8) ((cap' + 7) / 8 - (cap + 7) / 8)

/-- `mark_offset_valid` (varlen/src/seq.rs:270-277); without checked indexing (167-173) it does nothing. -/
def markValid (checked : Bool) (t align cap off : Nat) : S Unit :=
  if checked = true then do
    read t (cap * align + off / 8) 1
    write t (cap * align + off / 8) 1
  else pure ()

/-- `is_offset_valid` (varlen/src/seq.rs:1001-1011), when the offset is within the sequence. -/
def isValid (t align cap off : Nat) : S Unit := read t (cap * align + off / 8) 1

/-- The end of `try_push` (varlen/src/seq.rs:688-692): `off` is the offset of the new element, `init` what the initializer does. -/
def push (checked : Bool) (t align cap off : Nat) (init : S Unit) : S Unit := do
  markValid checked t align cap off
  init

/-! ## Construction

`initialize` gets a raw pointer. What initializers read is elsewhere: in other allocations. -/

/-- `for slot in dst.iter_mut() { slot.write(…) }` (varlen/src/array_init.rs:122-130, 159-163, 178-180, 242-247, 275-280): `a` is the tag of the iterator. -/
def fillSlots (U : Unpins w) (P : Plain) (a lo : Nat) : Nat → S Unit
  | 0 => pure ()
  | n + 1 => do
    let c ← retag a (.mutable (U.plain P)) lo P.ty.size
    write c lo P.ty.size
    fillSlots U P a (lo + P.ty.size) n

/-- `init_array` (varlen/src/macro_support.rs:74-87). `CopyFrom` (varlen/src/array_init.rs:209-214) writes all at once instead, which is no more than this. -/
def initArray (U : Unpins w) (P : Plain) (t lo n : Nat) : S Unit := do
  let a ← retag t (.mutable (U.plain P)) lo (n * P.ty.size)
  let i ← retag a (.mutable (U.plain P)) lo (n * P.ty.size)
  fillSlots U P i lo n

mutual
/-- `Inits U t T lo l m`: `m` is what `initialize(dst, layout)` of some initializer of the library does, for an object of type `T` at offset `lo` with layout `l`. -/
inductive Inits (U : Unpins w) (t : Nat) : Ty w → (lo : Nat) → Layout w → S Unit → Prop
  /-- All bytes are copied or written at once: `FixedLen`, `FixedLenCloner` (varlen/src/lib.rs:717-719, 764-766), `VCopier` (lib.rs:536-544), `VBox` (varlen/src/vbox.rs:179-193), `Owned` (varlen/src/owned.rs:214-222; for types with a
  head of one byte, see C17). -/
  | copy (T : Ty w) (lo : Nat) (l : Layout w) : Inits U t T lo l (write t lo l.size.toNat)
  /-- `SizedInit` (varlen/src/array.rs:368-379). -/
  | array (P : Plain) (L : LenTy) (lo : Nat) (o n size : BitVec w) : Inits U t (.array P L) lo (.array o n size) (do initArray U P t (lo + o.toNat) n.toNat; write t lo L.bytes)
  /-- The initializers of `Str` (varlen/src/str.rs:137-155, 173-175, with newtype.rs:211-220): those of arrays of bytes. -/
  | str (P : Plain) (L : LenTy) (lo : Nat) (o n size : BitVec w) : P.ty.size = 1 → Inits U t (.str L) lo (.array o n size) (do initArray U P t (lo + o.toNat) n.toNat; write t lo L.bytes)
  /-- Initializers of newtypes (varlen/src/newtype.rs:211-220). -/
  | newtype {T : Ty w} {lo : Nat} {l : Layout w} {m : S Unit} : Inits U t T lo l m → Inits U t (.newtype T) lo l m
  /-- Initializers of tuples (varlen/src/tuple.rs:202-219): the elements, then the head. -/
  | tuple {Ts : List (Ty w)} {lo : Nat} {size : BitVec w} {ls : List (BitVec w × Layout w)} {m : S Unit} : InitsFlds U t lo (Ts.map .varlen) ls m → Inits U t (.tuple Ts) lo (.fields size ls) (do m; write t lo 0)
  /-- Generated initializers (varlen_macro/src/lib.rs:415-424): the tail, then the head. -/
  | struct {hs ha : Nat} {fs : List (TyFld w)} {lo : Nat} {size : BitVec w} {ls : List (BitVec w × Layout w)} {m : S Unit} : InitsFlds U t lo fs ls m → Inits U t (.struct hs ha fs) lo (.fields size ls) (do m; write t lo hs)
/-- The tail, in the order of the fields (varlen_macro/src/lib.rs:419-421 with 808, 844, 909, 994; varlen/src/tuple.rs:208-217; varlen/src/macro_support.rs:138-147). -/
inductive InitsFlds (U : Unpins w) (t : Nat) : (lo : Nat) → List (TyFld w) → List (BitVec w × Layout w) → S Unit → Prop
  | nil (lo : Nat) : InitsFlds U t lo [] [] (pure ())
  | normal {P : Plain} {off lo : Nat} {fs : List (TyFld w)} {ls : List (BitVec w × Layout w)} {m : S Unit} : InitsFlds U t lo fs ls m → InitsFlds U t lo (.normal P off :: fs) ls m
  | length {P : Plain} {off lo : Nat} {fs : List (TyFld w)} {ls : List (BitVec w × Layout w)} {m : S Unit} : InitsFlds U t lo fs ls m → InitsFlds U t lo (.length P off :: fs) ls m
  | varlen {T : Ty w} {lo : Nat} {o : BitVec w} {l : Layout w} {fs : List (TyFld w)} {ls : List (BitVec w × Layout w)} {m m' : S Unit} : Inits U t T (lo + o.toNat) l m → InitsFlds U t lo fs ls m' →
      InitsFlds U t lo (.varlen T :: fs) ((o, l) :: ls) (do m; m')
  | array {P : Plain} {len : LenFn w} {lo : Nat} {o n : BitVec w} {fs : List (TyFld w)} {ls : List (BitVec w × Layout w)} {m : S Unit} : InitsFlds U t lo fs ls m →
      InitsFlds U t lo (.array P len :: fs) ((o, .len n) :: ls) (do initArray U P t (lo + o.toNat) n.toNat; m)
end

end Varlen.SB
