import Verif.Model.Seq
/-!
# `CheckedIndexing` with the whole contract of `slice::from_raw_parts`

The memory model lets a program make a `&[u8]` to uninitialised bytes as long as it does not read them. The documented contract of `slice::from_raw_parts` and `from_raw_parts_mut` is stricter: the memory must hold
initialised values of the element type when the slice is made. These are the functions of Model/Seq.lean that make slices of bytes, and their callers, with that contract checked.
-/
namespace Varlen.Strict
variable {w : Nat}

/-- `core::slice::from_raw_parts::<u8>(p, n)` and `from_raw_parts_mut` (core): not null, dereferenceable, not larger than `isize::MAX`, and every byte initialised. -/
def byteSlice (w : Nat) (p : Ptr) (n : Nat) : M Unit := fun s =>
  if s.addr p % 2 ^ w = 0 then .ub .nullPtr
  else if Acc s p n then
    if n ≤ isizeMax w then
      if (takeV (viewAt s p) 0 n).all Option.isSome then .ok () s else .ub .invalidValue
    else .ub .badLayout
  else .ub .outOfBounds

/-- `alloc_storage` (varlen/src/seq.rs:156-158, 234-242): the slice is made in lines 238-239. -/
def allocStorage (A : Allocator) (chk : Bool) (size align : BitVec w) : M (Option Ptr) :=
  if chk then do
    match ← addBitmask size align with
    | none => pure none
    | some (full, bm) =>
      match ← allocM w A full.toNat align.toNat with
      | none => pure none
      | some p => do
        byteSlice w (p.add size.toNat) bm.toNat
        fillZero (p.add size.toNat) bm.toNat
        pure (some p)
  else allocM w A size.toNat align.toNat

/-- `grow_storage` (varlen/src/seq.rs:159-165, 244-267): the slices are made in lines 255-258. -/
def growStorage (A : Allocator) (chk : Bool) (p : Ptr) (oldSize align newSize : BitVec w) : M (Option Ptr) :=
  if chk then do
    match ← addBitmask oldSize align with
    | none => pure none
    | some (oldFull, oldBm) =>
      if fromSizeAlign w newSize.toNat align.toNat then do
        match ← addBitmask newSize align with
        | none => pure none
        | some (newFull, newBm) =>
          match ← reallocM w A p oldFull.toNat align.toNat newFull.toNat with
          | none => pure none
          | some q => do
            byteSlice w (q.add oldSize.toNat) oldBm.toNat
            byteSlice w (q.add newSize.toNat) newBm.toNat
            exclusiveRef (q.add oldSize.toNat) oldBm.toNat (q.add newSize.toNat) newBm.toNat
            ptrCopy (q.add oldSize.toNat) (q.add newSize.toNat) 1 oldBm.toNat
            if oldBm.toNat ≤ newBm.toNat then do
              fillZero (q.add (newSize.toNat + oldBm.toNat)) (newBm.toNat - oldBm.toNat)
              pure (some q)
            else panicM .outOfBounds
      else pure none
  else reallocM w A p oldSize.toNat align.toNat newSize.toNat

/-- `clear_bitmasks` (varlen/src/seq.rs:176-181, 280-288). -/
def clearBitmasks (chk : Bool) (align : BitVec w) (p : Ptr) (cap occ : BitVec w) : M Unit :=
  if chk then do
    byteSlice w (p.add (cap * align).toNat) ((occ + 7) / 8).toNat
    fillZero (p.add (cap * align).toNat) ((occ + 7) / 8).toNat
  else pure ()

/-- `try_realloc` (varlen/src/seq.rs:490-511). -/
def tryRealloc (A : Allocator) (chk : Bool) (p : Ptr) (cap minimum align : BitVec w) : M (Option (Ptr × BitVec w)) :=
  match checkedMul cap 2 with
  | none => pure none
  | some cap2 =>
    let sizeOffsets := maxW (maxW minimum ((32 + align - 1) / align)) cap2
    match checkedMul sizeOffsets align with
    | none => pure none
    | some sizeBytes =>
      if fromSizeAlign w (cap * align).toNat align.toNat then
        if fromSizeAlign w sizeBytes.toNat align.toNat then do
          match ← (if cap = 0 then allocStorage A chk sizeBytes align else growStorage A chk p (cap * align) align sizeBytes) with
          | none => pure none
          | some p' => pure (some (p', sizeOffsets))
        else pure none
      else pure none

/-- `must_realloc` (varlen/src/seq.rs:515-523). -/
def mustRealloc (A : Allocator) (chk : Bool) (p : Ptr) (cap minimum align : BitVec w) : M (Ptr × BitVec w) := do
  match ← tryRealloc A chk p cap minimum align with
  | none => panicM .layoutOverflow
  | some r => pure r

/-- `Seq::try_push` (varlen/src/seq.rs:670-696). -/
def tryPush (A : Allocator) (chk : Bool) (T : VarLen w) (I : Init w) : MQ w Bool := do
  match ← liftQ (onUnwind I.cautious I.dropI) with
  | none => do
    liftQ I.dropI
    pure false
  | some l =>
    let align := T.ALIGN
    match checkedAdd l.size (align - 1) with
    | none => do
      liftQ I.dropI
      pure false
    | some x =>
      let sizeOffsets := x / align
      let q ← getQ
      match checkedAdd q.occ sizeOffsets with
      | none => do
        liftQ I.dropI
        pure false
      | some occPlus => do
        if occPlus.toNat > q.cap.toNat then do
          let (p, cap) ← liftQ (onUnwind (mustRealloc A chk q.ptr q.cap occPlus T.ALIGN) I.dropI)
          putQ { q with ptr := p, cap := cap }
        else pure ()
        let q ← getQ
        let elemOffset := q.occ
        liftQ (markOffsetValid chk T.ALIGN q.ptr q.cap elemOffset)
        liftQ (I.initTo (q.ptr.add (elemOffset * T.ALIGN).toNat) l)
        let q ← getQ
        putQ { q with occ := occPlus, len := q.len + 1 }
        pure true

/-- `Seq::push` (varlen/src/seq.rs:665-667). -/
def push (A : Allocator) (chk : Bool) (T : VarLen w) (I : Init w) : MQ w Unit := do
  if ← tryPush A chk T I then pure () else panicM .layoutOverflow

/-- `Seq::take_elems` (varlen/src/seq.rs:904-916). -/
def takeElems (chk : Bool) (T : VarLen w) : MQ w (IterS w) := do
  let q ← getQ
  let r : IterS w := ⟨q.ptr, q.len⟩
  putQ { q with len := 0 }
  let q ← getQ
  putQ { q with occ := 0 }
  let q ← getQ
  liftQ (clearBitmasks chk T.ALIGN q.ptr q.cap q.occ)
  pure r

end Varlen.Strict
