import Verif.Model.Array
/-!
# Specification: contracts of the standard library's unsafe functions
-/
namespace Varlen
variable {w : Nat}

/-- What Rust guarantees about allocations. -/
structure AllocsOk (w : Nat) (s : St) : Prop where
  /-- None is at address 0; its end is representable in `usize`, and it is not larger than `isize::MAX`. -/
  range : ∀ (b : Nat) (B : Block), s.blk b = some B → B.live = true → 0 < B.base ∧ B.base + B.size < 2 ^ w ∧ B.size ≤ isizeMax w
  /-- No two overlap. -/
  apart : ∀ (b b' : Nat) (B B' : Block), b ≠ b' → s.blk b = some B → s.blk b' = some B' → B.live = true → B'.live = true → B.base + B.size ≤ B'.base ∨ B'.base + B'.size ≤ B.base

/-- What `NonNull::new_unchecked` requires: the address, computed in `usize`, is not 0. -/
def NotNull (w : Nat) (s : St) (p : Ptr) : Prop := s.addr p % 2 ^ w ≠ 0

/-- What `slice::from_raw_parts` and `from_raw_parts_mut` require of `n` elements of type `R` at `p`: not null and aligned, in bounds of one allocation, each of them a valid value, and not more than `isize::MAX` bytes. -/
structure SliceContract (w : Nat) (R : RTy) (s : St) (p : Ptr) (n : Nat) : Prop where
  notNull : NotNull w s p
  aligned : Aligned s p R.align
  inBounds : Acc s p (n * R.size)
  initialised : ∀ i, i < n → R.valid (takeV (viewAt s p) (i * R.size) R.size) = true
  size : n * R.size ≤ isizeMax w

end Varlen
