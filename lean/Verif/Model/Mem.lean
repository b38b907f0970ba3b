import Verif.Model.Word
/-!
# Memory, allocator and the program monad

This file models no function of the repository: it is the environment (trusted base) in which the
unsafe code of the repository is interpreted. It follows the reference semantics used by Miri:
byte-wise memory with uninitialised bytes, provenance-carrying pointers, and explicit undefined
behaviour. Aliasing rules (Stacked Borrows) are not modelled.
-/
namespace Varlen

/-- A memory byte; `none` is an uninitialised byte. -/
abbrev MByte := Option (BitVec 8)
/-- A byte image. -/
abbrev Img := List MByte
/-- A view of memory from some address onwards. -/
abbrev View := Nat → MByte
/-- An observable effect of a destructor. -/
abbrev Event := Nat

/-- An allocation. Freed allocations stay, with `live = false`. -/
structure Block where
  base : Nat
  size : Nat
  align : Nat
  live : Bool
  data : View

/-- A pointer: allocation id and byte offset inside it. Id `0` is "no allocation": the pointer
is then just the address `off` (e.g. `NonNull::dangling()`). -/
structure Ptr where
  blk : Nat
  off : Nat
deriving DecidableEq, Repr

/-- Pointer arithmetic `(p as *mut u8).wrapping_add(n)`. An out-of-range result is not an error until it is
used for an access. -/
def Ptr.add (p : Ptr) (n : Nat) : Ptr := ⟨p.blk, p.off + n⟩

/-- Program state: memory, the log of destructor effects, and an instrumentation counter of
bytes moved by `realloc`. -/
structure St where
  blocks : List Block
  log : List Event
  copied : Nat

/-- The allocation with id `b`. -/
def St.blk (s : St) : Nat → Option Block
  | 0 => none
  | b + 1 => s.blocks[b]?

def St.setBlk (s : St) (b : Nat) (B : Block) : St :=
  { s with blocks := s.blocks.set (b - 1) B }

/-- The numeric address of a pointer. -/
def St.addr (s : St) (p : Ptr) : Nat :=
  match s.blk p.blk with
  | some B => B.base + p.off
  | none => p.off

/-- `n` bytes at `p` may be accessed: zero-sized accesses always may; others need a live
allocation and to be in bounds. -/
def Acc (s : St) (p : Ptr) (n : Nat) : Prop :=
  n = 0 ∨ ∃ B, s.blk p.blk = some B ∧ B.live = true ∧ p.off + n ≤ B.size

instance (s : St) (p : Ptr) (n : Nat) : Decidable (Acc s p n) := by
  unfold Acc
  match h : s.blk p.blk with
  | none => exact decidable_of_iff (n = 0) (by simp)
  | some B => exact decidable_of_iff (n = 0 ∨ (B.live = true ∧ p.off + n ≤ B.size)) (by simp)

/-- The address of `p` is a multiple of `a`. -/
def Aligned (s : St) (p : Ptr) (a : Nat) : Prop := s.addr p % a = 0

instance (s : St) (p : Ptr) (a : Nat) : Decidable (Aligned s p a) :=
  inferInstanceAs (Decidable (_ = _))

/-- Panics of the modelled code. -/
inductive PanicMsg
  | layoutOverflow   -- varlen/src/seq.rs:453-457 "Overflowing layout"
  | outOfBounds      -- varlen/src/seq.rs:459-463 "Out-of-bounds access"
  | invalidOffset    -- varlen/src/seq.rs:465-469 "Invalid Seq offset"
  | unwrapNone       -- `Option::unwrap` on `None`
  | lengthMismatch   -- slice length assertions of varlen/src/array_init.rs
  | iterEnded        -- varlen/src/array_init.rs FromIterPrefix
  | assertFailed     -- `assert!`, `debug_assert!`
  | overflow         -- arithmetic overflow, in builds with overflow checks
  | invalidDrop      -- varlen/src/macro_support.rs:180
  | oom              -- out of memory in `bumpalo::Bump::alloc_layout`
  | user             -- a panic in user-supplied code (closure, Clone::clone, iterator)
  | abort            -- not a panic: a panic while unwinding aborts the process (Model/DropPanic.lean only)
deriving DecidableEq, Repr

/-- Kinds of undefined behaviour the model detects. -/
inductive UB
  | outOfBounds | misaligned | invalidValue | allocZero | badLayout | badDealloc | overlap | nullPtr
  | typeConfusion   -- a layout of another type is passed (excluded by Rust's type checker)
deriving DecidableEq, Repr

/-- Outcome of running a program. A panic carries the state it leaves behind. -/
inductive Res (σ α : Type)
  | ok (a : α) (s : σ)
  | panic (m : PanicMsg) (s : σ)
  | ub (k : UB)

/-- Programs over state `σ`. -/
def MS (σ α : Type) := σ → Res σ α

/-- Sequencing of outcomes. -/
def Res.bind {σ α β : Type} (r : Res σ α) (f : α → MS σ β) : Res σ β :=
  match r with
  | .ok a s => f a s
  | .panic m s => .panic m s
  | .ub k => .ub k

instance {σ : Type} : Monad (MS σ) where
  pure a := fun s => .ok a s
  bind x f := fun s => (x s).bind f

/-- Programs over plain memory. -/
abbrev M (α : Type) := MS St α

def getS {σ : Type} : MS σ σ := fun s => .ok s s
def setS {σ : Type} (s' : σ) : MS σ Unit := fun _ => .ok () s'
def panicM {σ α : Type} (m : PanicMsg) : MS σ α := fun s => .panic m s
def ubM {σ α : Type} (k : UB) : MS σ α := fun _ => .ub k

/-- Unwinding: if `x` panics, the destructors `cleanup` of the values that are still alive run, and the panic goes on. (A panic in
`cleanup` would abort the process; the destructors of the model do not panic.) -/
def onUnwind {σ α : Type} (x : MS σ α) (cleanup : MS σ Unit) : MS σ α := fun s =>
  match x s with
  | .panic m s' => (cleanup s').bind fun _ s'' => .panic m s''
  | r => r

/-- `n` bytes of view `o` from offset `off`. -/
def takeV (o : View) (off n : Nat) : Img := (List.range n).map fun i => o (off + i)

/-- View `o` with `img` stored at `off`. -/
def overwrite (o : View) (off : Nat) (img : Img) : View := fun i =>
  if off ≤ i ∧ i < off + img.length then img.getD (i - off) none else o i

/-- View from a later address. -/
def shift (d : Nat) (o : View) : View := fun i => o (d + i)

/-- The memory seen through `p`. -/
def viewAt (s : St) (p : Ptr) : View := fun i =>
  match s.blk p.blk with
  | some B => B.data (p.off + i)
  | none => none

/-- Raw write of an image, no checks. -/
def St.write (s : St) (p : Ptr) (img : Img) : St :=
  match s.blk p.blk with
  | some B => s.setBlk p.blk { B with data := overwrite B.data p.off img }
  | none => s

/-- Read `n` bytes. -/
def readBytes (p : Ptr) (n : Nat) : M Img := fun s =>
  if Acc s p n then .ok (takeV (viewAt s p) 0 n) s else .ub .outOfBounds

/-- Write an image. -/
def writeBytes (p : Ptr) (img : Img) : M Unit := fun s =>
  if Acc s p img.length then .ok () (s.write p img) else .ub .outOfBounds

/-- The alignment requirement of a typed access. -/
def checkAlign (p : Ptr) (a : Nat) : M Unit := fun s =>
  if Aligned s p a then .ok () s else .ub .misaligned

/-- The bounds requirement of an access. -/
def checkAcc (p : Ptr) (n : Nat) : M Unit := fun s =>
  if Acc s p n then .ok () s else .ub .outOfBounds

/-- Creating a reference to a value of `size` bytes: must be aligned and dereferenceable. -/
def mkRef (p : Ptr) (size align : Nat) : M Unit := do
  checkAlign p align
  checkAcc p size

/-- `ptr::copy_nonoverlapping` of `n` bytes in total, at a type of alignment `align`. -/
def copyNonoverlapping (src dst : Ptr) (align n : Nat) : M Unit := do
  checkAlign src align
  checkAlign dst align
  let img ← readBytes src n
  if n ≠ 0 ∧ src.blk = dst.blk ∧ src.off < dst.off + n ∧ dst.off < src.off + n then ubM .overlap
  else writeBytes dst img

/-- `ptr::copy` (memmove) of `n` bytes in total, at a type of alignment `align`. -/
def ptrCopy (src dst : Ptr) (align n : Nat) : M Unit := do
  checkAlign src align
  checkAlign dst align
  let img ← readBytes src n
  writeBytes dst img

/-- The global allocator, as an oracle: the address it would return for a request in a state (`none` = null).
Answers that violate the allocator contract are treated as null. -/
abbrev Allocator := St → (size align : Nat) → Option Nat

/-- What `GlobalAlloc` guarantees about a returned address: aligned, non-null, the allocation
fits the address space (its end is representable too) and is disjoint from live ones. -/
def legalBase (w : Nat) (s : St) (base size align : Nat) : Prop :=
  0 < base ∧ base % align = 0 ∧ base + size < 2 ^ w ∧
  ∀ B ∈ s.blocks, B.live = true → base + size ≤ B.base ∨ B.base + B.size ≤ base

instance (w : Nat) (s : St) (base size align : Nat) : Decidable (legalBase w s base size align) := by
  unfold legalBase; exact inferInstance

/-- The allocator's (legal) answer. -/
def pick (w : Nat) (A : Allocator) (s : St) (size align : Nat) : Option Nat :=
  match A s size align with
  | none => none
  | some base => if legalBase w s base size align then some base else none

/-- A fresh live block. -/
def St.push (s : St) (B : Block) : St := { s with blocks := s.blocks ++ [B] }

/-- Id that the next allocation gets. -/
def St.next (s : St) : Nat := s.blocks.length + 1

/-- `alloc::Layout::from_size_align(size, align)` (core): `Ok` iff `size`, rounded up to `align`, does not exceed `isize::MAX`.
(`align` is a power of two here.) -/
def fromSizeAlign (w size align : Nat) : Bool := decide (size + (align - 1) ≤ isizeMax w)

/-- `alloc::Layout::from_size_align_unchecked(size, align)`: the caller promises what `from_size_align` checks. -/
def layoutUnchecked (w size align : Nat) : M Unit := fun s => if fromSizeAlign w size align then .ok () s else .ub .badLayout

/-- `alloc::alloc(Layout { size, align })`: undefined for size 0 and for sizes no `Layout` may have; may return null. -/
def allocM (w : Nat) (A : Allocator) (size align : Nat) : M (Option Ptr) := fun s =>
  if size = 0 then .ub .allocZero
  else if fromSizeAlign w size align = false then .ub .badLayout
  else match pick w A s size align with
    | none => .ok none s
    | some base => .ok (some ⟨s.next, 0⟩) (s.push ⟨base, size, align, true, fun _ => none⟩)

/-- `p` is what `dealloc`/`realloc` require: the start of a live allocation of this layout. -/
def ownsAlloc (s : St) (p : Ptr) (size align : Nat) : Prop :=
  p.off = 0 ∧ ∃ B, s.blk p.blk = some B ∧ B.live = true ∧ B.size = size ∧ B.align = align

instance (s : St) (p : Ptr) (size align : Nat) : Decidable (ownsAlloc s p size align) := by
  unfold ownsAlloc
  match h : s.blk p.blk with
  | none => exact isFalse (by simp)
  | some B => exact decidable_of_iff (p.off = 0 ∧ B.live = true ∧ B.size = size ∧ B.align = align) (by simp)

/-- Mark a block as freed. -/
def St.free (s : St) (b : Nat) : St :=
  match s.blk b with
  | some B => s.setBlk b { B with live := false }
  | none => s

/-- `alloc::dealloc`. -/
def deallocM (p : Ptr) (size align : Nat) : M Unit := fun s =>
  if ownsAlloc s p size align then .ok () (s.free p.blk) else .ub .badDealloc

/-- `alloc::realloc(ptr, old_layout, new_size)`: on success the contents are moved to a new
allocation (possibly at the same address) and the old pointer is dead; on failure (null) nothing changes. The new size must be legal for a `Layout` of the
same alignment. -/
def reallocM (w : Nat) (A : Allocator) (p : Ptr) (oldSize align newSize : Nat) : M (Option Ptr) := fun s =>
  if newSize = 0 then .ub .allocZero
  else if fromSizeAlign w newSize align = false then .ub .badLayout
  else if ownsAlloc s p oldSize align then
    let s1 := s.free p.blk
    match pick w A s1 newSize align with
    | none => .ok none s
    | some base =>
      let v := viewAt s p
      .ok (some ⟨s1.next, 0⟩)
        { s1.push ⟨base, newSize, align, true, fun i => if i < min oldSize newSize then v i else none⟩
          with copied := s.copied + oldSize }
  else .ub .badDealloc

end Varlen
