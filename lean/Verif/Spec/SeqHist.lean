import Verif.Model.Seq
/-!
# Specification: histories of operations on one sequence

`Hist T chk s q h moved taken` says: starting from a new sequence, some finite history of operations (each run with the model of the
Rust code, with any allocator behaviour at each step, interleaved with arbitrary other activity of the program) has led to memory `s`
and sequence `q`, where

* `h` is what a plain list would hold: for each value pushed since the last `take_elems`, the value that `offset()` returned just
  before the push, and the value (updated by in-place modifications);
* `moved` is the number of bytes moved by the allocator's `realloc` on behalf of this sequence;
* `taken` tells whether `take_elems` was ever called.

`HistU` additionally lists the offsets at which pushes ever started to write (since the sequence was created, also before `take_elems`).
-/
namespace Varlen
variable {w : Nat}

/-- What Rust's type system and the `unsafe` contract guarantee about the argument of `push`: a lawful, usable initializer that does not
borrow from the sequence being pushed to. The element must have non-zero size. -/
structure PushArg (T : VarLen w) (I : Init w) (s : St) (q : SeqS w) : Prop where
  lawful : InitLawful T I
  pre : I.pre s
  apart : ¬ I.fp q.ptr.blk
  nonzero : ∀ l, I.lay = some l → 0 < l.size.toNat

/-- The caller drops the owned values at these pointers one after the other. -/
def dropEach (T : VarLen w) : List Ptr → M Unit
  | [] => pure ()
  | p :: ps => do
    Owned.drop T p
    dropEach T ps

/-- Histories. The last index `U` lists the offsets at which a push ever began to write its element: the values of `offset()` before those pushes. -/
inductive HistU (T : VarLen w) (chk : Bool) : St → SeqS w → List (BitVec w × V) → Nat → Bool → List (BitVec w) → Prop
  /-- `Seq::new` -/
  | new (s : St) : HistU T chk s (Seq.new T) [] 0 false []
  /-- A push that returns. -/
  | push {s q h m t U} (A : Allocator) {I : Init w} {v s' q'} : HistU T chk s q h m t U → PushArg T I s q → I.val = some v →
      Seq.push A chk T I (s, q) = .ok () (s', q') → HistU T chk s' q' (h ++ [(Seq.offset q, v)]) (m + (s'.copied - s.copied)) t (U ++ [Seq.offset q])
  /-- A push that panics having changed the sequence's storage: the initializer panics after the slot was reserved; the panic being caught later. -/
  | pushPanic {s q h m t U} (A : Allocator) {I : Init w} {msg s' q'} : HistU T chk s q h m t U → PushArg T I s q →
      Seq.push A chk T I (s, q) = .panic msg (s', q') → ¬ (q' = q ∧ s'.blk q.ptr.blk = s.blk q.ptr.blk) → HistU T chk s' q' h (m + (s'.copied - s.copied)) t (U ++ [Seq.offset q])
  /-- A push that panics without having changed anything in the sequence (e.g. size overflow or out of memory), the panic being caught later. -/
  | pushRefused {s q h m t U} (A : Allocator) {I : Init w} {msg s'} : HistU T chk s q h m t U → PushArg T I s q →
      Seq.push A chk T I (s, q) = .panic msg (s', q) → s'.blk q.ptr.blk = s.blk q.ptr.blk → HistU T chk s' q h (m + (s'.copied - s.copied)) t U
  /-- `take_elems`, then `k` calls of `next`; some of the items obtained are dropped, in any order, before or after the iterator itself is
  dropped; `rest` are leaked. -/
  | drain {s q h m t U} {it it' : IterS w} {s1 s2 s3 s4 s5 q1} (k : Nat) {ps before after rest : List Ptr} : HistU T chk s q h m t U →
      Seq.takeElems chk T (s, q) = .ok it (s1, q1) → Iter.take T k it s1 = .ok (ps, it') s2 →
      (before ++ after ++ rest).Perm ps →
      dropEach T before s2 = .ok () s3 → OwnedElems.drop T it' s3 = .ok () s4 → dropEach T after s4 = .ok () s5 →
      HistU T chk s5 q1 [] m true U
  /-- `take_elems` whose iterator is leaked (`mem::forget`). -/
  | forget {s q h m t U} {it : IterS w} {s1 q1} : HistU T chk s q h m t U → Seq.takeElems chk T (s, q) = .ok it (s1, q1) →
      HistU T chk s1 q1 [] m true U
  /-- Between `take_elems` and the next use of the sequence, the values taken may be modified or dropped (also later than the iterator, and interleaved with other activity of the
  program): only the element area of the storage changes, not the bitmask behind it. -/
  | lent {s s' q m U} {n : Nat} : HistU T chk s q [] m true U → Touch s s' q.ptr n (fun _ => False) → n ≤ q.cap.toNat * T.ALIGN.toNat → HistU T chk s' q [] m true U
  /-- An element (found by its offset) is modified in place: only its own bytes change and it keeps its layout. -/
  | modify {s s' q h1 h2 m t U} {o : BitVec w} {v v' : V} {p : Ptr} {l : Layout w} : HistU T chk s q (h1 ++ (o, v) :: h2) m t U →
      Seq.fromOffsetUnchecked T q o s = .ok p s → T.calculateLayout p s = .ok l s →
      Touch s s' p l.size.toNat (fun _ => False) → T.Rep v' l (viewAt s' p) → HistU T chk s' q (h1 ++ (o, v') :: h2) m t U
  /-- The rest of the program does anything that leaves the memory owned by the sequence alone. -/
  | other {s s' q h m t U} : HistU T chk s q h m t U → Same s s' (fun b => b = q.ptr.blk) → HistU T chk s' q h m t U

/-- Histories, without that list. -/
def Hist (T : VarLen w) (chk : Bool) (s : St) (q : SeqS w) (h : List (BitVec w × V)) (moved : Nat) (taken : Bool) : Prop :=
  ∃ U, HistU T chk s q h moved taken U

/-- A reference `p` to a current element of value `v`. -/
def RefTo (T : VarLen w) (s : St) (p : Ptr) (v : V) : Prop := ∃ l, Valid T s p v l

end Varlen
