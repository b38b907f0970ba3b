import Verif.Model.Seq
/-!
# Builds with overflow checks and debug assertions

`Model.Seq` models a release build, in which `+`, `-`, `*` wrap. Here are the same functions as they are in a debug build: plain arithmetic panics
on overflow, and `debug_assert!` is checked. Only functions of varlen/src/seq.rs use plain arithmetic on quantities that depend on the input, or
`debug_assert!`; varlen/src/macro_support.rs has `align - 1` only, and varlen/src/vbox.rs one `debug_assert_eq!` (in `VBox.new`; `VBox.newRelease` here is
without it). Functions not repeated here are the same in both builds.
-/
namespace Varlen
variable {w : Nat}

/-- `VBox::new` (varlen/src/vbox.rs:54-69) without the `debug_assert_eq!` of line 66. -/
def VBox.newRelease (A : Allocator) (T : VarLen w) (I : Init w) : M Ptr := do
  match ← onUnwind I.cautious I.dropI with
  | none => onUnwind (panicM .layoutOverflow) I.dropI
  | some l =>
    if fromSizeAlign w l.size.toNat T.ALIGN.toNat then do
      match ← allocM w A l.size.toNat T.ALIGN.toNat with
      | none => ubM .nullPtr
      | some p => do
        I.initTo p l
        pure p
    else onUnwind (panicM .layoutOverflow) I.dropI

namespace Dbg

/-- `a + b` with overflow checks. -/
def addP (a b : BitVec w) : M (BitVec w) := if a.toNat + b.toNat < 2 ^ w then pure (a + b) else panicM .overflow
/-- `a * b` with overflow checks. -/
def mulP (a b : BitVec w) : M (BitVec w) := if a.toNat * b.toNat < 2 ^ w then pure (a * b) else panicM .overflow
/-- `a - b` with overflow checks. -/
def subP (a b : BitVec w) : M (BitVec w) := if b.toNat ≤ a.toNat then pure (a - b) else panicM .overflow
/-- `debug_assert!(c)`. -/
def debugAssert (c : Prop) [Decidable c] : M Unit := if c then pure () else panicM .assertFailed

/-- `add_bitmask_to_layout` (varlen/src/seq.rs:223-230). -/
def addBitmask (size align : BitVec w) : M (Option (BitVec w × BitVec w)) :=
  if size % align ≠ 0 then panicM .assertFailed
  else match checkedAdd (size / align) 7 with
    | none => pure none
    | some x => do
      let bm := x / 8
      let full ← addP size bm
      if fromSizeAlign w full.toNat align.toNat then pure (some (full, bm)) else pure none

/-- `alloc_storage` (varlen/src/seq.rs:156-158, 234-242). -/
def allocStorage (A : Allocator) (chk : Bool) (size align : BitVec w) : M (Option Ptr) :=
  if chk then do
    match ← addBitmask size align with
    | none => pure none
    | some (full, bm) =>
      match ← allocM w A full.toNat align.toNat with
      | none => pure none
      | some p => do
        fillZero (p.add size.toNat) bm.toNat
        pure (some p)
  else allocM w A size.toNat align.toNat

/-- `grow_storage` (varlen/src/seq.rs:159-165, 244-267). -/
def growStorage (A : Allocator) (chk : Bool) (p : Ptr) (oldSize align newSize : BitVec w) : M (Option Ptr) :=
  if chk then do
    debugAssert (newSize.toNat ≥ oldSize.toNat)
    match ← addBitmask oldSize align with
    | none => pure none
    | some (oldFull, oldBm) =>
      if fromSizeAlign w newSize.toNat align.toNat then do
        match ← addBitmask newSize align with
        | none => pure none
        | some (newFull, newBm) =>
          match ← reallocM w A p oldFull.toNat align.toNat newFull.toNat with
          | none => pure none
          | some q => do
            checkAcc (q.add oldSize.toNat) oldBm.toNat
            checkAcc (q.add newSize.toNat) newBm.toNat
            exclusiveRef (q.add oldSize.toNat) oldBm.toNat (q.add newSize.toNat) newBm.toNat
            debugAssert (newBm.toNat ≥ oldBm.toNat)
            ptrCopy (q.add oldSize.toNat) (q.add newSize.toNat) 1 oldBm.toNat
            if oldBm.toNat ≤ newBm.toNat then do
              fillZero (q.add (newSize.toNat + oldBm.toNat)) (newBm.toNat - oldBm.toNat)
              pure (some q)
            else panicM .outOfBounds
      else pure none
  else reallocM w A p oldSize.toNat align.toNat newSize.toNat

/-- `mark_offset_valid` (varlen/src/seq.rs:168-174, 270-277). -/
def markOffsetValid (chk : Bool) (align : BitVec w) (p : Ptr) (cap offset : BitVec w) : M Unit :=
  if chk then do
    let base ← mulP cap align
    let i ← addP base (offset / 8)
    let a := p.add i.toNat
    match ← readVal u8Ty a with
    | [some b] => writeBytes a [some (b ||| (1#8 <<< (offset.toNat % 8)))]
    | _ => ubM .invalidValue
  else pure ()

/-- `clear_bitmasks` (varlen/src/seq.rs:176-181, 280-288). -/
def clearBitmasks (chk : Bool) (align : BitVec w) (p : Ptr) (cap occ : BitVec w) : M Unit :=
  if chk then do
    let n ← addP occ 7
    let base ← mulP cap align
    fillZero (p.add base.toNat) (n / 8).toNat
  else pure ()

/-- `extended_layout(..).size()` (varlen/src/seq.rs:183-185, 291-295). -/
def extendedSize (chk : Bool) (size align : BitVec w) : M (BitVec w) :=
  if chk then do
    match ← addBitmask size align with
    | none => panicM .layoutOverflow
    | some (full, _) => pure full
  else pure size

/-- `round_up_fast` (varlen/src/seq.rs:485-487). -/
def roundUpFast (size align : BitVec w) : M (BitVec w) := do
  let a ← subP align 1
  pure (maskDown (size + a) align)

/-- `try_realloc` (varlen/src/seq.rs:490-511). -/
def tryRealloc (A : Allocator) (chk : Bool) (p : Ptr) (cap minimum align : BitVec w) : M (Option (Ptr × BitVec w)) := do
  let x ← addP 32 align
  let y ← subP x 1
  match checkedMul cap 2 with
  | none => pure none
  | some cap2 =>
    let sizeOffsets := maxW (maxW minimum (y / align)) cap2
    match checkedMul sizeOffsets align with
    | none => pure none
    | some sizeBytes => do
      let oldBytes ← mulP cap align
      if fromSizeAlign w oldBytes.toNat align.toNat then
        if fromSizeAlign w sizeBytes.toNat align.toNat then do
          match ← (if cap = 0 then allocStorage A chk sizeBytes align else growStorage A chk p oldBytes align sizeBytes) with
          | none => pure none
          | some p' => pure (some (p', sizeOffsets))
        else pure none
      else pure none

/-- `must_realloc` (varlen/src/seq.rs:515-523). -/
def mustRealloc (A : Allocator) (chk : Bool) (p : Ptr) (cap minimum align : BitVec w) : M (Ptr × BitVec w) := do
  match ← tryRealloc A chk p cap minimum align with
  | none => panicM .layoutOverflow
  | some r => pure r

/-- `Seq::try_push` (varlen/src/seq.rs:670-696) with `add_offsets_fast` (475-477). The initializer is dropped when a panic happens before it is used. -/
def tryPush (A : Allocator) (chk : Bool) (T : VarLen w) (I : Init w) : MQ w Bool := do
  match ← liftQ (onUnwind I.cautious I.dropI) with
  | none => do
    liftQ I.dropI
    pure false
  | some l =>
    let align := T.ALIGN
    let a ← liftQ (onUnwind (subP align 1) I.dropI)
    match checkedAdd l.size a with
    | none => do
      liftQ I.dropI
      pure false
    | some x =>
      let sizeOffsets := x / align
      let q ← getQ
      match checkedAdd q.occ sizeOffsets with
      | none => do
        liftQ I.dropI
        pure false
      | some occPlus => do
        if occPlus.toNat > q.cap.toNat then do
          let (p, cap) ← liftQ (onUnwind (mustRealloc A chk q.ptr q.cap occPlus T.ALIGN) I.dropI)
          putQ { q with ptr := p, cap := cap }
        else pure ()
        let q ← getQ
        let elemOffset := q.occ
        liftQ (onUnwind (markOffsetValid chk T.ALIGN q.ptr q.cap elemOffset) I.dropI)
        let bytes ← liftQ (onUnwind (mulP elemOffset T.ALIGN) I.dropI)
        liftQ (I.initTo (q.ptr.add bytes.toNat) l)
        let q ← getQ
        putQ { q with occ := occPlus }
        let q ← getQ
        let len ← liftQ (addP q.len 1)
        putQ { q with len := len }
        pure true

/-- `Seq::push` (varlen/src/seq.rs:665-667). -/
def push (A : Allocator) (chk : Bool) (T : VarLen w) (I : Init w) : MQ w Unit := do
  if ← tryPush A chk T I then pure () else panicM .layoutOverflow

/-- `Extend::extend` (varlen/src/seq.rs:1044-1053). -/
def extend (A : Allocator) (chk : Bool) (T : VarLen w) (own : Bool) : List (Init w) → MQ w Unit
  | [] => pure ()
  | I :: is => do
    onUnwind (push A chk T I) (if own then liftQ (dropInits is) else pure ())
    extend A chk T own is

/-- `Iter::next`, `IterMut::next`, `OwnedElems::next` (varlen/src/seq.rs:1131-1141, 1217-1227, 1302-1312). -/
def next (T : VarLen w) (it : IterS w) : M (Option Ptr × IterS w) :=
  if it.len.toNat > 0 then do
    let t ← derefBox T it.ptr
    let l ← T.calculateLayout t
    let d ← roundUpFast l.size T.ALIGN
    let len ← subP it.len 1
    pure (some t, ⟨it.ptr.add d.toNat, len⟩)
  else pure (none, it)

/-- A caller's loop over `next`, as `Iter.take`. -/
def take (T : VarLen w) : Nat → IterS w → M (List Ptr × IterS w)
  | 0, it => pure ([], it)
  | k + 1, it => do
    match ← next T it with
    | (none, it) => pure ([], it)
    | (some t, it) => do
      let (ts, it) ← take T k it
      pure (t :: ts, it)

/-- `Seq::take_elems` (varlen/src/seq.rs:904-916). -/
def takeElems (chk : Bool) (T : VarLen w) : MQ w (IterS w) := do
  let q ← getQ
  let r : IterS w := ⟨q.ptr, q.len⟩
  putQ { q with len := 0 }
  let q ← getQ
  putQ { q with occ := 0 }
  let q ← getQ
  liftQ (clearBitmasks chk T.ALIGN q.ptr q.cap q.occ)
  pure r

/-- The loop of `Drop for OwnedElems` (varlen/src/seq.rs:1335-1337). -/
def dropLoop (T : VarLen w) : Nat → IterS w → M Unit
  | 0, _ => ubM .typeConfusion
  | fuel + 1, it => do
    match ← next T it with
    | (none, _) => pure ()
    | (some t, it) => do
      Owned.drop T t
      dropLoop T fuel it

/-- `Drop for OwnedElems` (varlen/src/seq.rs:1332-1340). -/
def dropElems (T : VarLen w) (it : IterS w) : M Unit :=
  if T.headNeedsDrop || T.NEEDS_VDROP then dropLoop T (it.len.toNat + 1) it else pure ()

/-- `Drop for Seq` (varlen/src/seq.rs:1014-1024) with `layout()` (919-924). -/
def drop (chk : Bool) (T : VarLen w) : MQ w Unit := do
  let q ← getQ
  if q.cap = 0 then pure ()
  else do
    let it ← takeElems chk T
    liftQ (dropElems T it)
    let q ← getQ
    let bytes ← liftQ (mulP q.cap T.ALIGN)
    liftQ (layoutUnchecked w bytes.toNat T.ALIGN.toNat)
    let size ← liftQ (extendedSize chk bytes T.ALIGN)
    liftQ (deallocM q.ptr size.toNat T.ALIGN.toNat)

/-- `FromIterator::from_iter` (varlen/src/seq.rs:1070-1079). -/
def fromIter (A : Allocator) (chk : Bool) (T : VarLen w) (own : Bool) (is : List (Init w)) : MQ w Unit := do
  putQ (Seq.new T)
  onUnwind (extend A chk T own is) (drop chk T)

/-- `Seq::offset_of` (varlen/src/seq.rs:768-777). -/
def offsetOf (T : VarLen w) (q : SeqS w) (element : Ptr) : M (BitVec w) := fun s =>
  let byteOffset := BitVec.ofNat w (s.addr element) - BitVec.ofNat w (s.addr q.ptr)
  if byteOffset % T.ALIGN = 0 then
    let offset := byteOffset / T.ALIGN
    if offset.toNat ≥ q.occ.toNat then .panic .outOfBounds s else .ok offset s
  else .panic .assertFailed s

/-- `Seq::from_offset_unchecked` / `from_offset_unchecked_mut` (varlen/src/seq.rs:808-815, 849-859). -/
def fromOffsetUnchecked (T : VarLen w) (q : SeqS w) (offset : BitVec w) : M Ptr := do
  debugAssert (offset.toNat < q.occ.toNat)
  let bytes ← mulP offset T.ALIGN
  derefBox T (q.ptr.add bytes.toNat)

/-- `Seq::is_offset_valid` (varlen/src/seq.rs:1001-1011). -/
def isOffsetValid (T : VarLen w) (q : SeqS w) (offset : BitVec w) : M Bool :=
  if offset.toNat ≥ q.occ.toNat then pure false
  else do
    let base ← mulP q.cap T.ALIGN
    let i ← addP base (offset / 8)
    match ← readVal u8Ty (q.ptr.add i.toNat) with
    | [some b] => pure (b &&& (1#8 <<< (offset.toNat % 8)) != 0)
    | _ => ubM .invalidValue

/-- `Seq::from_offset` / `from_offset_mut` (varlen/src/seq.rs:948-955, 977-984). -/
def fromOffset (T : VarLen w) (q : SeqS w) (offset : BitVec w) : M Ptr := do
  if ← isOffsetValid T q offset then fromOffsetUnchecked T q offset else panicM .invalidOffset

end Dbg
end Varlen
