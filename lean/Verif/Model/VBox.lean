import Verif.Model.Newtype
/-!
# `VBox` (varlen/src/vbox.rs) and `Owned` (varlen/src/owned.rs)

Both are a single pointer.
-/
namespace Varlen
variable {w : Nat}

/-- `VBox::deref` / `VBox::as_mut` (varlen/src/vbox.rs:84-86, 158-164), `Owned::deref` / `as_mut` (varlen/src/owned.rs:146-148, 207-212):
making a reference to the head. -/
def derefBox (T : VarLen w) (p : Ptr) : M Ptr := do
  mkRef p T.headSize T.headAlign
  pure p

/-- `VBox::new` (varlen/src/vbox.rs:54-69). The result of `alloc` is not checked for null before
`NonNull::new_unchecked`, which is undefined behaviour on null. When it panics before `initialize`, unwinding drops the initializer; when `initialize` panics,
the allocation leaks. The last two steps are the `debug_assert_eq!`, which a release build leaves out. -/
def VBox.new (A : Allocator) (T : VarLen w) (I : Init w) : M Ptr := do
  match ← onUnwind I.cautious I.dropI with
  | none => onUnwind (panicM .layoutOverflow) I.dropI
  | some l =>
    if fromSizeAlign w l.size.toNat T.ALIGN.toNat then do
      match ← allocM w A l.size.toNat T.ALIGN.toNat with
      | none => ubM .nullPtr
      | some p => do
        I.initTo p l
        let q ← derefBox T p
        let l' ← T.calculateLayout q
        if l'.size = l.size then pure p else panicM .assertFailed
    else onUnwind (panicM .layoutOverflow) I.dropI

/-- `VBox::into_raw` (varlen/src/vbox.rs:112-116): takes the pointer, forgets the box. -/
def VBox.intoRaw (p : Ptr) : M Ptr := pure p

/-- `VBox::from_raw` (varlen/src/vbox.rs:142-144). -/
def VBox.fromRaw (p : Ptr) : M Ptr := pure p

/-- `Drop for VBox` (varlen/src/vbox.rs:147-156). -/
def VBox.drop (T : VarLen w) (p : Ptr) : M Unit := do
  let q ← derefBox T p
  let l ← T.calculateLayout q
  layoutUnchecked w l.size.toNat T.ALIGN.toNat
  let q ← derefBox T p
  T.vdrop q l
  deallocM p l.size.toNat T.ALIGN.toNat

/-- What a `VBox` holding value `v` owns: a valid object at the start of a live allocation of exactly its size and alignment,
which are legal for a `Layout` (`VBox::new` checks that). -/
structure BoxHas (T : VarLen w) (s : St) (p : Ptr) (v : V) (l : Layout w) : Prop where
  valid : Valid T s p v l
  owns : ownsAlloc s p l.size.toNat T.ALIGN.toNat
  fits : fromSizeAlign w l.size.toNat T.ALIGN.toNat = true

/-- `Initializer for VBox` (varlen/src/vbox.rs:179-199). `v`, `l` (ghost) are the value in the box and its layout. -/
def VBox.init (T : VarLen w) (p : Ptr) (v : V) (l : Layout w) : Init w where
  cautious := do
    let q ← derefBox T p
    let l ← T.calculateLayout q
    pure (some l)
  initTo := fun dst l => do
    layoutUnchecked w l.size.toNat T.ALIGN.toNat
    copyNonoverlapping p dst 1 l.size.toNat
    deallocM p l.size.toNat T.ALIGN.toNat
  dropI := VBox.drop T p
  pre := fun s => BoxHas T s p v l
  fp := fun b => b = p.blk
  mods := fun b => b = p.blk
  owns := fun b => b = p.blk
  lay := some l
  val := some v
  owes := T.drops v
  left := []
  lost := []

/-- `Clone for VBox` (varlen/src/vbox.rs:237-241): `VBox::new(self.vclone())`. -/
def VBox.clone (A : Allocator) (T : VarLen w) (C : VClone w) (p : Ptr) (v : V) : M Ptr := do
  let q ← derefBox T p
  let I ← C.vclone q v
  VBox.new A T I

/-! ## `Owned` -/

/-- `bumpalo::Bump::alloc_layout`: like a global allocation except that it panics when out of memory and accepts size 0.
(Simplification: each arena allocation is a block of its own; nothing here frees it. Model/Arena.lean has chunks that many objects share, and C85 shows that this makes no difference.) -/
def bumpAlloc (w : Nat) (A : Allocator) (size align : Nat) : M Ptr := fun s =>
  if fromSizeAlign w size align = false then .ub .badLayout
  else match pick w A s size align with
  | none => .panic .oom s
  | some base => .ok ⟨s.next, 0⟩ (s.push ⟨base, size, align, true, fun _ => none⟩)

/-- `Owned::new_in` (varlen/src/owned.rs:184-194). When it panics before `initialize`, unwinding drops the initializer. -/
def Owned.newIn (A : Allocator) (T : VarLen w) (I : Init w) : M Ptr := do
  match ← onUnwind I.cautious I.dropI with
  | none => onUnwind (panicM .unwrapNone) I.dropI
  | some l =>
    if fromSizeAlign w l.size.toNat T.ALIGN.toNat then do
      let p ← onUnwind (bumpAlloc w A l.size.toNat T.ALIGN.toNat) I.dropI
      I.initTo p l
      pure p
    else onUnwind (panicM .unwrapNone) I.dropI

/-- `Owned::from_raw` (varlen/src/owned.rs:96-98). -/
def Owned.fromRaw (p : Ptr) : M Ptr := pure p

/-- `Owned::into_raw` (varlen/src/owned.rs:123-127). -/
def Owned.intoRaw (p : Ptr) : M Ptr := pure p

/-- `Drop for Owned` (varlen/src/owned.rs:197-205). -/
def Owned.drop (T : VarLen w) (p : Ptr) : M Unit := do
  let q ← derefBox T p
  let l ← T.calculateLayout q
  let q ← derefBox T p
  T.vdrop q l

/-- `Owned::leak` (varlen/src/owned.rs:164-167): the pattern `let Owned(mut ptr, _) = self` copies the pointer out (the
fields are `Copy`), so `self` is still dropped when the function returns. -/
def Owned.leak (T : VarLen w) (p : Ptr) : M Ptr := do
  let q ← derefBox T p
  Owned.drop T p
  pure q

/-- `Initializer for Owned` (varlen/src/owned.rs:214-228). The copy is done at type `T`, i.e. `layout.size()` is a count of
`T`s: it copies `layout.size() * size_of::<T>()` bytes. -/
def Owned.init (T : VarLen w) (p : Ptr) (v : V) (l : Layout w) : Init w where
  cautious := do
    let q ← derefBox T p
    let l ← T.calculateLayout q
    pure (some l)
  initTo := fun dst l => copyNonoverlapping p dst T.headAlign (l.size.toNat * T.headSize)
  dropI := Owned.drop T p
  pre := fun s => Valid T s p v l ∧ s.blk p.blk ≠ none
  fp := fun b => b = p.blk
  mods := fun b => b = p.blk
  owns := fun _ => False
  lay := some l
  val := some v
  owes := T.drops v
  left := []
  lost := []

end Varlen
