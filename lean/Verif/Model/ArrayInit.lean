import Verif.Model.MacroSupport
/-!
# varlen/src/array_init.rs

The destination `dst: &mut [MaybeUninit<R>]` is a slice (pointer and length).
-/
namespace Varlen

/-- The elements stored in a view: `n` images of `sz` bytes from offset `off`. -/
def elemsV (o : View) (off sz n : Nat) : List Img := (List.range n).map fun i => takeV o (off + i * sz) sz

/-- The trait `ArrayInitializer<R>` (varlen/src/array_init.rs:83-97): its method, the drop glue of the implementing type, and ghost fields. -/
structure ArrInit where
  /-- `initialize(self, dst)`; it drops what `self` holds and has not been moved into the slice. -/
  run : Slice → M Unit
  /-- Dropping the initializer without having used it. -/
  dropI : M Unit
  /-- Ghost: usable in this state. -/
  pre : St → Prop
  /-- Ghost: the blocks it reads. -/
  fp : Nat → Prop
  /-- Ghost: the elements it writes into a slice of this length; `none` if it panics. -/
  vals : Nat → Option (List Img)
  /-- Ghost: the destructor effects of dropping it. -/
  owes : List Event
  /-- Ghost: the destructor effects of `initialize` on a slice of this length, when it returns … -/
  left : Nat → List Event
  /-- … and when it panics. -/
  lost : Nat → List Event

/-- The safety contract of `ArrayInitializer` (varlen/src/array_init.rs:60-97): when `initialize` returns, every slot
is initialised. -/
structure ArrInitLawful (R : RTy) (I : ArrInit) : Prop where
  fp_exists : ∀ s b, I.pre s → I.fp b → s.blk b ≠ none
  stable : ∀ s s', I.pre s → Same s s' I.fp → I.pre s'
  vals_ok : ∀ n xs, I.vals n = some xs → xs.length = n ∧ ∀ x ∈ xs, R.valid x = true
  drop_ok : ∀ s, I.pre s → ∃ s', I.dropI s = .ok () s' ∧ Touch s s' ⟨0, 0⟩ 0 (fun _ => False) ∧
      s'.log = s.log ++ I.owes ∧ s'.copied = s.copied
  run_ok : ∀ s p n xs, I.pre s → I.vals n = some xs →
    Acc s p (n * R.size) → Aligned s p R.align → ¬ I.fp p.blk →
    ∃ s', I.run ⟨p, n⟩ s = .ok () s' ∧ Touch s s' p (n * R.size) (fun _ => False) ∧
      elemsV (viewAt s' p) 0 R.size n = xs ∧ s'.log = s.log ++ I.left n ∧ s'.copied = s.copied
  run_panic : ∀ s p n, I.pre s → I.vals n = none →
    Acc s p (n * R.size) → Aligned s p R.align → ¬ I.fp p.blk →
    ∃ m s', I.run ⟨p, n⟩ s = .panic m s' ∧ Touch s s' p (n * R.size) (fun _ => False) ∧
      s'.log = s.log ++ I.lost n ∧ s'.copied = s.copied

/-! ## `FillSequentially` (varlen/src/array_init.rs:156-164) -/

/-- A `FnMut(usize) -> R` closure with captured state `τ`: `call` maps the state and the index to the value (`none` is a panic) and the
state afterwards; `drops` are the destructor effects of dropping the closure in a state. (What the closure's own body drops while it runs
is not modelled.) -/
structure Closure (τ : Type) where
  call : τ → Nat → Option Img × τ
  drops : τ → List Event := fun _ => []

/-- The loop `for (i, slot) in dst.iter_mut().enumerate() { slot.write(self.0(i)) }`, after which `self`, i.e. the closure, is dropped; a
panic drops it too. The elements already written are not dropped by a panic: a slot is a `MaybeUninit`. -/
def fillLoop {τ : Type} (R : RTy) (f : Closure τ) : τ → Ptr → Nat → Nat → M Unit
  | t, _, _, 0 => emit (f.drops t)
  | t, p, i, n + 1 =>
    match f.call t i with
    | (none, t') => onUnwind (panicM .user) (emit (f.drops t'))
    | (some img, t') => do
      writeVal R p img
      fillLoop R f t' (p.add R.size) (i + 1) n

/-- Specification: the values a closure returns when called with `i, i+1, …, i+n-1` in this order. -/
def callSeq {τ : Type} (f : Closure τ) : τ → Nat → Nat → Option (List Img)
  | _, _, 0 => some []
  | t, i, n + 1 =>
    match f.call t i with
    | (none, _) => none
    | (some img, t') => (callSeq f t' (i + 1) n).map (img :: ·)

/-- Specification: the state of the closure after these calls, or after the first one that panics. -/
def callState {τ : Type} (f : Closure τ) : τ → Nat → Nat → τ
  | t, _, 0 => t
  | t, i, n + 1 =>
    match f.call t i with
    | (none, t') => t'
    | (some _, t') => callState f t' (i + 1) n

def FillSequentially {τ : Type} (R : RTy) (f : Closure τ) (t : τ) : ArrInit where
  run := fun dst => fillLoop R f t dst.ptr 0 dst.len
  dropI := emit (f.drops t)
  pre := fun _ => True
  fp := fun _ => False
  vals := fun n => callSeq f t 0 n
  owes := f.drops t
  left := fun n => f.drops (callState f t 0 n)
  lost := fun n => f.drops (callState f t 0 n)

/-- `FillWithDefault` (varlen/src/array_init.rs:175-181): `FillSequentially(|_| Default::default())`; `dflt` is the default
value (`none` if `default()` panics). -/
def FillWithDefault (R : RTy) (dflt : Option Img) : ArrInit :=
  FillSequentially R { call := fun (_ : Unit) _ => (dflt, ()) } ()

/-! ## `FromIterPrefix` (varlen/src/array_init.rs:119-131) -/

/-- What `Iterator::next` may do: yield a value, end, or panic. -/
inductive Next
  | yield (img : Img)
  | done
  | panic

/-- An iterator with state `τ`: the outcome of `next` and the state afterwards; the destructor effects of dropping the iterator. -/
structure IterFn (τ : Type) where
  next : τ → Next × τ
  drops : τ → List Event := fun _ => []

/-- The loop of `FromIterPrefix::initialize`, after which `self`, i.e. the rest of the iterator, is dropped; a panic drops it too. -/
def iterLoop {τ : Type} (R : RTy) (it : IterFn τ) : τ → Ptr → Nat → M Unit
  | t, _, 0 => emit (it.drops t)
  | t, p, n + 1 =>
    match it.next t with
    | (.panic, t') => onUnwind (panicM .user) (emit (it.drops t'))
    | (.done, t') => onUnwind (panicM .iterEnded) (emit (it.drops t'))
    | (.yield img, t') => do
      writeVal R p img
      iterLoop R it t' (p.add R.size) n

/-- Specification: the first `n` items of an iterator, if there are that many. -/
def iterTake {τ : Type} (it : IterFn τ) : τ → Nat → Option (List Img)
  | _, 0 => some []
  | t, n + 1 =>
    match it.next t with
    | (.yield img, t') => (iterTake it t' n).map (img :: ·)
    | _ => none

/-- Specification: the state of the iterator after `n` items, or after the first call of `next` that gives none. -/
def iterState {τ : Type} (it : IterFn τ) : τ → Nat → τ
  | t, 0 => t
  | t, n + 1 =>
    match it.next t with
    | (.yield _, t') => iterState it t' n
    | (_, t') => t'

def FromIterPrefix {τ : Type} (R : RTy) (it : IterFn τ) (t : τ) : ArrInit where
  run := fun dst => iterLoop R it t dst.ptr dst.len
  dropI := emit (it.drops t)
  pre := fun _ => True
  fp := fun _ => False
  vals := fun n => iterTake it t n
  owes := it.drops t
  left := fun n => it.drops (iterState it t n)
  lost := fun n => it.drops (iterState it t n)

/-- A slice of memory holds the values `xs` of type `R`. -/
structure SliceHas (R : RTy) (s : St) (src : Ptr) (xs : List Img) : Prop where
  acc : Acc s src (xs.length * R.size)
  aligned : Aligned s src R.align
  elems : elemsV (viewAt s src) 0 R.size xs.length = xs
  valid : ∀ x ∈ xs, R.valid x = true
  blk : s.blk src.blk ≠ none

/-! ## `CopyFrom` (varlen/src/array_init.rs:206-215) -/

/-- `CopyFrom(&src[..])`; `xs` are the source's values. `copy_from_slice` panics on a length mismatch, else is a
`memcpy`. -/
def CopyFrom (R : RTy) (src : Ptr) (xs : List Img) : ArrInit where
  run := fun dst =>
    if dst.len ≠ xs.length then panicM .lengthMismatch
    else copyNonoverlapping src dst.ptr R.align (xs.length * R.size)
  dropI := pure ()
  pre := fun s => SliceHas R s src xs
  fp := fun b => b = src.blk
  vals := fun n => if n = xs.length then some xs else none
  owes := []
  left := fun _ => []
  lost := fun _ => []

/-! ## `CloneFrom` (varlen/src/array_init.rs:239-248) -/

/-- The loop of `CloneFrom::initialize`. -/
def cloneLoop (R : RTy) (c : CloneFn) : Ptr → Ptr → Nat → M Unit
  | _, _, 0 => pure ()
  | src, dst, n + 1 => do
    let a ← readVal R src
    let b ← runClone c a
    writeVal R dst b
    cloneLoop R c (src.add R.size) (dst.add R.size) n

/-- Specification: the clones of a list of values; `none` if one of the clones panics. -/
def cloneAll (c : CloneFn) : List Img → Option (List Img)
  | [] => some []
  | x :: xs => (c x).bind fun y => (cloneAll c xs).map (y :: ·)

def CloneFrom (R : RTy) (c : CloneFn) (src : Ptr) (xs : List Img) : ArrInit where
  run := fun dst =>
    if xs.length ≠ dst.len then panicM .lengthMismatch
    else cloneLoop R c src dst.ptr xs.length
  dropI := pure ()
  pre := fun s => SliceHas R s src xs
  fp := fun b => b = src.blk
  vals := fun n => if n = xs.length then cloneAll c xs else none
  owes := []
  left := fun _ => []
  lost := fun _ => []

/-! ## `MoveFrom` (varlen/src/array_init.rs:272-281) -/

/-- The loop of `MoveFrom::initialize`. -/
def moveLoop (R : RTy) : Ptr → List Img → M Unit
  | _, [] => pure ()
  | dst, x :: xs => do
    writeVal R dst x
    moveLoop R (dst.add R.size) xs

/-- `MoveFrom([x0, …])`. When the assertion fails, unwinding drops the array. -/
def MoveFrom (R : RTy) (xs : List Img) : ArrInit where
  run := fun dst =>
    if dst.len ≠ xs.length then onUnwind (panicM .lengthMismatch) (emit (xs.flatMap R.drops))
    else moveLoop R dst.ptr xs
  dropI := emit (xs.flatMap R.drops)
  pre := fun _ => True
  fp := fun _ => False
  vals := fun n => if n = xs.length then some xs else none
  owes := xs.flatMap R.drops
  left := fun _ => []
  lost := fun _ => xs.flatMap R.drops

end Varlen
