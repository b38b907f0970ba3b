import Verif.Model.Seq
/-!
# `Extend` and `FromIterator` for `Seq`, over arbitrary iterators (varlen/src/seq.rs:1044-1079)

`Model/Seq.lean` has a first version, `Seq.extend`, in which the iterator is given by the list of its items. Here the iterator is any program.
-/
namespace Varlen
variable {w : Nat}

/-- The outcome of a call of `Iterator::next` on an iterator over initializers. A panic is an outcome too, not an exception: the iterator then still has to be dropped. -/
inductive ItemStep (w : Nat)
  | item (I : Init w)
  | done
  | panic (m : PanicMsg)

/-- User-supplied: an `Iterator<Item = Init>` with `Init: Initializer<T>`. `next` takes the iterator's own state, may use memory in any way, and gives the outcome and the new
state; `drop` is the destructor of the iterator. -/
structure ItemIter (w : Nat) (τ : Type) where
  next : τ → M (ItemStep w × τ)
  drop : τ → M Unit

/-- `Extend::extend` (varlen/src/seq.rs:1044-1053): the loop `for init in iter { self.push(init); }`, cut off after `n` calls of `next`. The `for` loop owns the iterator
and drops it at the end, and when `next` or `push` panics. The result is the iterator, if the loop is still running. (`IntoIterator::into_iter` is taken to have been run already.) -/
def Seq.extendIter {τ : Type} (A : Allocator) (chk : Bool) (T : VarLen w) (it : ItemIter w τ) : Nat → τ → MQ w (Option τ)
  | 0, t => pure (some t)
  | n + 1, t => do
    match ← liftQ (it.next t) with
    | (.done, t') => do
      liftQ (it.drop t')
      pure none
    | (.panic m, t') => do
      liftQ (it.drop t')
      panicM m
    | (.item I, t') => do
      onUnwind (Seq.push A chk T I) (liftQ (it.drop t'))
      Seq.extendIter A chk T it n t'

/-- `FromIterator::from_iter` (varlen/src/seq.rs:1070-1079): `Seq::new`, then `extend`. If that panics, the iterator (an argument of `extend`) is dropped first and then the unfinished
sequence, a local variable. -/
def Seq.fromIterator {τ : Type} (A : Allocator) (chk : Bool) (T : VarLen w) (it : ItemIter w τ) (n : Nat) (t : τ) : MQ w (Option τ) := do
  putQ (Seq.new T)
  onUnwind (Seq.extendIter A chk T it n t) (Seq.drop chk T)

/-- `vec.into_iter()` if `own`, else `iter.map(f)` with the items made on demand, or the arguments of `seq![…]`: the iterator over a given list of items. -/
def ItemIter.ofList (w : Nat) (own : Bool) : ItemIter w (List (Init w)) where
  next := fun is => match is with
    | [] => pure (.done, [])
    | I :: is => pure (.item I, is)
  drop := fun is => if own then dropInits is else pure ()

/-- `std::iter::from_fn(f)` or `….map(f)` for a closure `f` with state `τ`; `f` may panic (as `ItemStep.panic`). `drops t` are the effects of dropping what the closure holds. -/
def ItemIter.ofFn (w : Nat) {τ : Type} (f : τ → ItemStep w × τ) (drops : τ → List Event) : ItemIter w τ where
  next := fun t => pure (f t)
  drop := fun t => emit (drops t)

/-- `seq.iter().map(f)` (varlen/src/seq.rs:1131-1141): a borrowing iterator over another sequence, each reference given to `f`. Ghost: the values and layouts of the elements to come. -/
def ItemIter.mapRefs (T : VarLen w) (f : Ptr → V → Layout w → M (Init w)) : ItemIter w (IterS w × List (V × Layout w)) where
  next := fun t => do
    match ← Iter.next T t.1, t.2 with
    | (none, it), _ => pure (.done, it, [])
    | (some p, it), (v, l) :: g => do
      let I ← f p v l
      pure (.item I, it, g)
    | (some _, _), [] => ubM .typeConfusion
  drop := fun _ => pure ()

end Varlen
