/-!
# Machine words

`usize` is `BitVec w`, for an arbitrary pointer width `w` (16, 32 and 64 are the ones Rust supports).
-/
namespace Varlen

/-- Rust `usize::checked_add` (used e.g. in varlen/src/macro_support.rs:23-26, varlen/src/seq.rs:673-677). -/
def checkedAdd {w : Nat} (a b : BitVec w) : Option (BitVec w) :=
  if a.toNat + b.toNat < 2 ^ w then some (a + b) else none

/-- Rust `usize::checked_mul` (used e.g. in varlen/src/macro_support.rs:28-31, varlen/src/seq.rs:497-499). -/
def checkedMul {w : Nat} (a b : BitVec w) : Option (BitVec w) :=
  if a.toNat * b.toNat < 2 ^ w then some (a * b) else none

/-- The alignment mask `x & 0usize.wrapping_sub(align)`
(varlen/src/macro_support.rs:27, 50, 104, 126; varlen/src/seq.rs:486). -/
def maskDown {w : Nat} (x align : BitVec w) : BitVec w := x &&& (0 - align)

/-- `a` is a power of two that fits the word: what Rust guarantees for `align_of`, and what
the documentation of `VarLen::ALIGN` requires (varlen/src/lib.rs:322-324, 364-368). -/
def IsPow2 {w : Nat} (a : BitVec w) : Prop := ∃ k, k < w ∧ a.toNat = 2 ^ k

/-- Specification: the least multiple of `a` that is `≥ n` (see `roundUpN_least`). -/
def roundUpN (n a : Nat) : Nat := (n + (a - 1)) / a * a

/-- `isize::MAX` for pointer width `w`. -/
def isizeMax (w : Nat) : Nat := 2 ^ (w - 1) - 1

end Varlen
