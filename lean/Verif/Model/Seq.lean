import Verif.Model.VBox
/-!
# `Seq` (varlen/src/seq.rs)

`chk : Bool` is the indexing strategy: `false` = `UncheckedIndexing`, `true` = `CheckedIndexing`.
-/
namespace Varlen
variable {w : Nat}

/-! ## Indexing strategies -/

/-- `add_bitmask_to_layout` (varlen/src/seq.rs:223-230). -/
def addBitmask (size align : BitVec w) : M (Option (BitVec w × BitVec w)) :=
  if size % align ≠ 0 then panicM .assertFailed
  else match checkedAdd (size / align) 7 with
    | none => pure none
    | some x =>
      let bm := x / 8
      if fromSizeAlign w (size + bm).toNat align.toNat then pure (some (size + bm, bm)) else pure none

/-- `[u8]::fill(0)` on `n` bytes at `p`. -/
def fillZero (p : Ptr) (n : Nat) : M Unit := writeBytes p (List.replicate n (some 0))

/-- `alloc_storage` (varlen/src/seq.rs:156-158, 234-242). -/
def allocStorage (A : Allocator) (chk : Bool) (size align : BitVec w) : M (Option Ptr) :=
  if chk then do
    match ← addBitmask size align with
    | none => pure none
    | some (full, bm) =>
      match ← allocM w A full.toNat align.toNat with
      | none => pure none
      | some p => do
        fillZero (p.add size.toNat) bm.toNat
        pure (some p)
  else allocM w A size.toNat align.toNat

/-- A live `&[u8]` of `n` bytes at `p` and a new `&mut [u8]` of `k` bytes at `q` must not overlap: the rule for references that lets the compiler
assume a `&mut` is unique. -/
def exclusiveRef (p : Ptr) (n : Nat) (q : Ptr) (k : Nat) : M Unit :=
  if n ≠ 0 ∧ k ≠ 0 ∧ p.blk = q.blk ∧ p.off < q.off + k ∧ q.off < p.off + n then ubM .overlap else pure ()

/-- `grow_storage` (varlen/src/seq.rs:159-165, 244-267). The slices `old_bitmask` and `new_bitmask` are alive together. -/
def growStorage (A : Allocator) (chk : Bool) (p : Ptr) (oldSize align newSize : BitVec w) : M (Option Ptr) :=
  if chk then do
    match ← addBitmask oldSize align with
    | none => pure none
    | some (oldFull, oldBm) =>
      if fromSizeAlign w newSize.toNat align.toNat then do
        match ← addBitmask newSize align with
        | none => pure none
        | some (newFull, newBm) =>
          match ← reallocM w A p oldFull.toNat align.toNat newFull.toNat with
          | none => pure none
          | some q => do
            checkAcc (q.add oldSize.toNat) oldBm.toNat
            checkAcc (q.add newSize.toNat) newBm.toNat
            exclusiveRef (q.add oldSize.toNat) oldBm.toNat (q.add newSize.toNat) newBm.toNat
            ptrCopy (q.add oldSize.toNat) (q.add newSize.toNat) 1 oldBm.toNat
            if oldBm.toNat ≤ newBm.toNat then do
              fillZero (q.add (newSize.toNat + oldBm.toNat)) (newBm.toNat - oldBm.toNat)
              pure (some q)
            else panicM .outOfBounds
      else pure none
  else reallocM w A p oldSize.toNat align.toNat newSize.toNat

/-- `mark_offset_valid` (varlen/src/seq.rs:168-174, 270-277). -/
def markOffsetValid (chk : Bool) (align : BitVec w) (p : Ptr) (cap offset : BitVec w) : M Unit :=
  if chk then do
    let a := p.add (cap * align + offset / 8).toNat
    match ← readVal u8Ty a with
    | [some b] => writeBytes a [some (b ||| (1#8 <<< (offset.toNat % 8)))]
    | _ => ubM .invalidValue
  else pure ()

/-- `clear_bitmasks` (varlen/src/seq.rs:176-181, 280-288). -/
def clearBitmasks (chk : Bool) (align : BitVec w) (p : Ptr) (cap occ : BitVec w) : M Unit :=
  if chk then fillZero (p.add (cap * align).toNat) ((occ + 7) / 8).toNat else pure ()

/-- `extended_layout(..).size()` (varlen/src/seq.rs:183-185, 291-295). -/
def extendedSize (chk : Bool) (size align : BitVec w) : M (BitVec w) :=
  if chk then do
    match ← addBitmask size align with
    | none => panicM .layoutOverflow
    | some (full, _) => pure full
  else pure size

/-! ## The sequence -/

/-- `struct Seq` (varlen/src/seq.rs:425-436). -/
structure SeqS (w : Nat) where
  ptr : Ptr
  len : BitVec w
  occ : BitVec w
  cap : BitVec w

/-- Programs over memory and one sequence. -/
abbrev MQ (w : Nat) (α : Type) := MS (St × SeqS w) α

/-- A memory program in the larger state. -/
def liftQ {α : Type} (x : M α) : MQ w α := fun (s, q) =>
  match x s with
  | .ok a s' => .ok a (s', q)
  | .panic m s' => .panic m (s', q)
  | .ub k => .ub k

/-- The fields of `self`. -/
def getQ : MQ w (SeqS w) := fun (s, q) => .ok q (s, q)
/-- Assignment to fields of `self`. -/
def putQ (q' : SeqS w) : MQ w Unit := fun (s, _) => .ok () (s, q')

/-- `round_up_fast` (varlen/src/seq.rs:485-487). -/
def roundUpFast (size align : BitVec w) : BitVec w := maskDown (size + (align - 1)) align

/-- `core::cmp::max`. -/
def maxW (a b : BitVec w) : BitVec w := if a.toNat ≤ b.toNat then b else a

/-- `try_realloc` (varlen/src/seq.rs:490-511); `none` = `Err(OverflowError)`. -/
def tryRealloc (A : Allocator) (chk : Bool) (p : Ptr) (cap minimum align : BitVec w) : M (Option (Ptr × BitVec w)) :=
  match checkedMul cap 2 with
  | none => pure none
  | some cap2 =>
    let sizeOffsets := maxW (maxW minimum ((32 + align - 1) / align)) cap2
    match checkedMul sizeOffsets align with
    | none => pure none
    | some sizeBytes =>
      if fromSizeAlign w (cap * align).toNat align.toNat then
        if fromSizeAlign w sizeBytes.toNat align.toNat then do
          match ← (if cap = 0 then allocStorage A chk sizeBytes align else growStorage A chk p (cap * align) align sizeBytes) with
          | none => pure none
          | some p' => pure (some (p', sizeOffsets))
        else pure none
      else pure none

/-- `must_realloc` (varlen/src/seq.rs:515-523). -/
def mustRealloc (A : Allocator) (chk : Bool) (p : Ptr) (cap minimum align : BitVec w) : M (Ptr × BitVec w) := do
  match ← tryRealloc A chk p cap minimum align with
  | none => panicM .layoutOverflow
  | some r => pure r

/-- `NonNull::<T>::dangling()`: no provenance, address `align_of::<T>()`. -/
def dangling (T : VarLen w) : Ptr := ⟨0, T.headAlign⟩

/-- `Seq::new` (varlen/src/seq.rs:583-591); `new_minimal` (541-543) and `new_indexable` (563-565) call it. -/
def Seq.new (T : VarLen w) : SeqS w := ⟨dangling T, 0, 0, 0⟩

/-- `Seq::try_push` (varlen/src/seq.rs:670-696); `false` = `Err(OverflowError)`. The initializer is taken by value: an early return, and a panic before
`initialize` is called, drop it. -/
def Seq.tryPush (A : Allocator) (chk : Bool) (T : VarLen w) (I : Init w) : MQ w Bool := do
  match ← liftQ (onUnwind I.cautious I.dropI) with
  | none => do
    liftQ I.dropI
    pure false
  | some l =>
    let align := T.ALIGN
    match checkedAdd l.size (align - 1) with
    | none => do
      liftQ I.dropI
      pure false
    | some x =>
      let sizeOffsets := x / align
      let q ← getQ
      match checkedAdd q.occ sizeOffsets with
      | none => do
        liftQ I.dropI
        pure false
      | some occPlus => do
        if occPlus.toNat > q.cap.toNat then do
          let (p, cap) ← liftQ (onUnwind (mustRealloc A chk q.ptr q.cap occPlus T.ALIGN) I.dropI)
          putQ { q with ptr := p, cap := cap }
        else pure ()
        let q ← getQ
        let elemOffset := q.occ
        liftQ (markOffsetValid chk T.ALIGN q.ptr q.cap elemOffset)
        liftQ (I.initTo (q.ptr.add (elemOffset * T.ALIGN).toNat) l)
        let q ← getQ
        putQ { q with occ := occPlus, len := q.len + 1 }
        pure true

/-- `Seq::push` (varlen/src/seq.rs:665-667). -/
def Seq.push (A : Allocator) (chk : Bool) (T : VarLen w) (I : Init w) : MQ w Unit := do
  if ← Seq.tryPush A chk T I then pure () else panicM .layoutOverflow

/-- Dropping initializers one after the other. -/
def dropInits : List (Init w) → M Unit
  | [] => pure ()
  | I :: is => do
    I.dropI
    dropInits is

/-- `Extend::extend` over the items of an iterator (varlen/src/seq.rs:1044-1053); also the pushes of `seq![…]` (69-79). The item list
stands for the iterator's output. If `own`, the iterator holds the items that are still to come (as `vec::IntoIter` does) and drops them when a push
panics; otherwise they are made on demand (as by `map`, or the arguments of `seq![…]`) and do not exist yet. Arbitrary iterators, whose `next` may panic or have effects,
are in Model/SeqIter.lean; this is the special case of a list of items. -/
def Seq.extend (A : Allocator) (chk : Bool) (T : VarLen w) (own : Bool) : List (Init w) → MQ w Unit
  | [] => pure ()
  | I :: is => do
    onUnwind (Seq.push A chk T I) (if own then liftQ (dropInits is) else pure ())
    Seq.extend A chk T own is

/-! ## Iterators -/

/-- `struct Iter`, `IterMut`, `OwnedElems` (varlen/src/seq.rs:1094-1098, 1176-1180, 1291-1296): the same two fields. -/
structure IterS (w : Nat) where
  ptr : Ptr
  len : BitVec w

/-- `Seq::iter` / `iter_mut` (varlen/src/seq.rs:709-715, 731-737). -/
def Seq.iter (q : SeqS w) : IterS w := ⟨q.ptr, q.len⟩

/-- `Iter::next`, `IterMut::next`, `OwnedElems::next` (varlen/src/seq.rs:1131-1141, 1217-1227, 1302-1312): same body, up to the kind of
reference returned. -/
def Iter.next (T : VarLen w) (it : IterS w) : M (Option Ptr × IterS w) :=
  if it.len.toNat > 0 then do
    let t ← derefBox T it.ptr
    let l ← T.calculateLayout t
    pure (some t, ⟨it.ptr.add (roundUpFast l.size T.ALIGN).toNat, it.len - 1⟩)
  else pure (none, it)

/-- `limited_to` (varlen/src/seq.rs:1118-1124, 1207-1210). -/
def Iter.limitedTo (it : IterS w) (n : BitVec w) : IterS w := ⟨it.ptr, if it.len.toNat ≤ n.toNat then it.len else n⟩

/-- `size_hint` (varlen/src/seq.rs:1144-1146, 1230-1232, 1315-1317). -/
def Iter.sizeHint (it : IterS w) : BitVec w × Option (BitVec w) := (it.len, some it.len)
/-- `count` (varlen/src/seq.rs:1149-1151, 1235-1237). -/
def Iter.count (it : IterS w) : BitVec w := it.len
/-- `ExactSizeIterator::len` (varlen/src/seq.rs:1156-1158, 1242-1244, 1327-1329). -/
def Iter.len (it : IterS w) : BitVec w := it.len

/-- A caller's loop: call `next` up to `k` times, stopping at `None`; the items obtained and the iterator afterwards. -/
def Iter.take (T : VarLen w) : Nat → IterS w → M (List Ptr × IterS w)
  | 0, it => pure ([], it)
  | k + 1, it => do
    match ← Iter.next T it with
    | (none, it) => pure ([], it)
    | (some t, it) => do
      let (ts, it) ← Iter.take T k it
      pure (t :: ts, it)

/-- `Seq::take_elems` (varlen/src/seq.rs:904-916). Note the order: `occupied_offsets` is reset before it is passed to
`clear_bitmasks`. -/
def Seq.takeElems (chk : Bool) (T : VarLen w) : MQ w (IterS w) := do
  let q ← getQ
  let r : IterS w := ⟨q.ptr, q.len⟩
  putQ { q with len := 0 }
  let q ← getQ
  putQ { q with occ := 0 }
  let q ← getQ
  liftQ (clearBitmasks chk T.ALIGN q.ptr q.cap q.occ)
  pure r

/-- The loop `while let Some(t) = self.next() { drop(t) }` (varlen/src/seq.rs:1335-1337), run at most `fuel` iterations. It makes at
most `len` iterations; running out of fuel is reported as an error and proved impossible. -/
def OwnedElems.dropLoop (T : VarLen w) : Nat → IterS w → M Unit
  | 0, _ => ubM .typeConfusion
  | fuel + 1, it => do
    match ← Iter.next T it with
    | (none, _) => pure ()
    | (some t, it) => do
      Owned.drop T t
      OwnedElems.dropLoop T fuel it

/-- `Drop for OwnedElems` (varlen/src/seq.rs:1332-1340). -/
def OwnedElems.drop (T : VarLen w) (it : IterS w) : M Unit :=
  if T.headNeedsDrop || T.NEEDS_VDROP then OwnedElems.dropLoop T (it.len.toNat + 1) it else pure ()

/-- `OwnedElems::count` (varlen/src/seq.rs:1320-1322). It takes the iterator by value, so that is dropped when it returns. -/
def OwnedElems.count (T : VarLen w) (it : IterS w) : M (BitVec w) := do
  let n := it.len
  OwnedElems.drop T it
  pure n

/-- `Drop for Seq` (varlen/src/seq.rs:1014-1024) with `layout()` (919-924). -/
def Seq.drop (chk : Bool) (T : VarLen w) : MQ w Unit := do
  let q ← getQ
  if q.cap = 0 then pure ()
  else do
    let it ← Seq.takeElems chk T
    liftQ (OwnedElems.drop T it)
    let q ← getQ
    liftQ (layoutUnchecked w (q.cap * T.ALIGN).toNat T.ALIGN.toNat)
    let size ← liftQ (extendedSize chk (q.cap * T.ALIGN) T.ALIGN)
    liftQ (deallocM q.ptr size.toNat T.ALIGN.toNat)

/-- `FromIterator::from_iter` (varlen/src/seq.rs:1070-1079) and `seq![…]` (69-79): a new sequence, then `extend`. If that panics, the unfinished
sequence, a local variable, is dropped. -/
def Seq.fromIter (A : Allocator) (chk : Bool) (T : VarLen w) (own : Bool) (is : List (Init w)) : MQ w Unit := do
  putQ (Seq.new T)
  onUnwind (Seq.extend A chk T own is) (Seq.drop chk T)

/-! ## Indexing -/

/-- `Seq::len` (varlen/src/seq.rs:607-609). -/
def Seq.len (q : SeqS w) : BitVec w := q.len
/-- `Seq::capacity_in_offsets` (varlen/src/seq.rs:625-627). -/
def Seq.capacityInOffsets (q : SeqS w) : BitVec w := q.cap
/-- `Seq::offset` (varlen/src/seq.rs:647-649). -/
def Seq.offset (q : SeqS w) : BitVec w := q.occ

/-- `Seq::offset_of` (varlen/src/seq.rs:768-777). -/
def Seq.offsetOf (T : VarLen w) (q : SeqS w) (element : Ptr) : M (BitVec w) := fun s =>
  let byteOffset := BitVec.ofNat w (s.addr element) - BitVec.ofNat w (s.addr q.ptr)
  let offset := byteOffset / T.ALIGN
  if offset.toNat ≥ q.occ.toNat then .panic .outOfBounds s else .ok offset s

/-- `Seq::from_offset_unchecked` / `from_offset_unchecked_mut` (varlen/src/seq.rs:808-815, 849-859). -/
def Seq.fromOffsetUnchecked (T : VarLen w) (q : SeqS w) (offset : BitVec w) : M Ptr :=
  derefBox T (q.ptr.add (offset * T.ALIGN).toNat)

/-- `Seq::is_offset_valid` (varlen/src/seq.rs:1001-1011), for `CheckedIndexing`. -/
def Seq.isOffsetValid (T : VarLen w) (q : SeqS w) (offset : BitVec w) : M Bool :=
  if offset.toNat ≥ q.occ.toNat then pure false
  else do
    match ← readVal u8Ty (q.ptr.add (q.cap * T.ALIGN + offset / 8).toNat) with
    | [some b] => pure (b &&& (1#8 <<< (offset.toNat % 8)) != 0)
    | _ => ubM .invalidValue

/-- `Seq::from_offset` / `from_offset_mut` (varlen/src/seq.rs:948-955, 977-984), for `CheckedIndexing`. -/
def Seq.fromOffset (T : VarLen w) (q : SeqS w) (offset : BitVec w) : M Ptr := do
  if ← Seq.isOffsetValid T q offset then Seq.fromOffsetUnchecked T q offset else panicM .invalidOffset

end Varlen
