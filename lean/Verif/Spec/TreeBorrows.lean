import Verif.Model.TreeBorrows
/-!
# Specification: what the borrow checker allows

A reference may be read if no live `&mut` derived from it overlaps, and written if it is a `&mut` and no live reference derived from it overlaps. Inside an `UnsafeCell`, a shared reference may be written too. The bytes of a reference to a variable-length object are those of the
whole object, since the type of a borrowed object tells the borrow checker nothing about its size.
-/
namespace Varlen.TB

/-- The bytes `[lo, lo + n)` are among those of the reference. -/
def Tag.Covers (N : Tag) (lo n : Nat) : Prop := N.lo ≤ lo ∧ lo + n ≤ N.lo + N.len

/-- The byte `x` is among those of the reference. -/
def Tag.Has (N : Tag) (x : Nat) : Prop := N.lo ≤ x ∧ x < N.lo + N.len

/-- None of the bytes `[lo, lo + n)` is among those of the reference. -/
def Tag.Apart (N : Tag) (lo n : Nat) : Prop := ∀ x, N.Has x → ¬ (lo ≤ x ∧ x < lo + n)

/-- What tag `i` is. -/
def Tree.tag (S : Tree) (i : Nat) : Option Tag := (S.nodes[i]?).map Node.toTag

/-- Neither the reference nor one it is derived from promises that the byte `x` does not change: each of them is a `&mut`, or `x` is inside an `UnsafeCell`. -/
def Tree.Mutable (S : Tree) (N : Tag) (x : Nat) : Prop := ∀ (j : Nat) (K : Tag), j ∈ N.path → S.tag j = some K → K.uniq = true ∨ K.im x = true

/-- Reading `[lo, lo + n)` through `t`, and a shared reborrow of it, are allowed. -/
structure CanRead (S : Tree) (t lo n : Nat) : Prop where
  live : ∃ N, S.tag t = some N ∧ N.live = true ∧ N.Covers lo n
  /-- No `&mut` derived from `t` is in use, … -/
  excl : ∀ i M, S.tag i = some M → M.live = true → M.uniq = true → t ∈ M.path → i ≠ t → M.Apart lo n
  /-- … nor a `&Cell` that is derived from such a `&mut`. -/
  cells : ∀ (i : Nat) (M : Tag) (x k : Nat) (K : Tag), S.tag i = some M → M.live = true → M.uniq = false → M.Has x → lo ≤ x ∧ x < lo + n → S.Mutable M x → t ∈ M.path →
    k ∈ M.path → S.tag k = some K → K.uniq = true → t ∈ K.path → k = t

/-- Writing `[lo, lo + n)` through `t`, and a mutable reborrow of it, are allowed. -/
structure CanWrite (S : Tree) (t lo n : Nat) : Prop where
  live : ∃ N, S.tag t = some N ∧ N.live = true ∧ N.uniq = true ∧ N.Covers lo n
  excl : ∀ i M, S.tag i = some M → M.live = true → t ∈ M.path → i ≠ t → M.Apart lo n

/-- Writing `[lo, lo + n)` through the shared reference `t`, as `Cell::set` does, is allowed: no reference in use promises that one of these bytes does not change. -/
structure CanStore (S : Tree) (t lo n : Nat) : Prop where
  live : ∃ N, S.tag t = some N ∧ N.live = true ∧ N.uniq = false ∧ N.Covers lo n
  excl : ∀ (i : Nat) (M : Tag) (x : Nat), S.tag i = some M → M.live = true → M.Has x → lo ≤ x ∧ x < lo + n → S.Mutable M x

end Varlen.TB
