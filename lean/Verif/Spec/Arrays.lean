import Verif.Model.Array
/-!
# Specification: what closures and iterators produce

Independent of the loops of varlen/src/array_init.rs.
-/
namespace Varlen

/-- `Calls f t i xs t'`: calling the closure `f` (an `FnMut`, with state) with arguments `i, i+1, …` in this order, starting in state `t`, returns
the values `xs` and leaves it in state `t'`. -/
inductive Calls {τ : Type} (f : Closure τ) : τ → Nat → List Img → τ → Prop
  | nil {t : τ} {i : Nat} : Calls f t i [] t
  | cons {t t' t'' : τ} {i : Nat} {x : Img} {xs : List Img} : f.call t i = (some x, t') → Calls f t' (i + 1) xs t'' → Calls f t i (x :: xs) t''

/-- `Yields it t xs t'`: the iterator in state `t` yields the items `xs` in this order and is then in state `t'`. -/
inductive Yields {τ : Type} (it : IterFn τ) : τ → List Img → τ → Prop
  | nil {t : τ} : Yields it t [] t
  | cons {t t' t'' : τ} {x : Img} {xs : List Img} : it.next t = (.yield x, t') → Yields it t' xs t'' → Yields it t (x :: xs) t''

/-- The slice of `n` slots at `p` may be written: the caller's obligations of `ArrayInitializer::initialize`. -/
structure Writable (R : RTy) (s : St) (p : Ptr) (n : Nat) : Prop where
  acc : Acc s p (n * R.size)
  aligned : Aligned s p R.align

/-- Outcome "filled": `run` returns; the slots hold exactly `xs`; nothing else in memory changed, and the only destructors that ran are those
with effects `ev` (of what the initializer did not move into the slots, e.g. the rest of an iterator). -/
def Filled (R : RTy) (r : Res St Unit) (s : St) (p : Ptr) (xs : List Img) (ev : List Event) : Prop :=
  ∃ s', r = .ok () s' ∧ elemsV (viewAt s' p) 0 R.size xs.length = xs ∧ Touch s s' p (xs.length * R.size) (fun _ => False) ∧ s'.log = s.log ++ ev

/-- Outcome "panicked with `m` after filling the first slots with `ys`": nothing but these slots changed, and the only destructors that ran are those
with effects `ev`. -/
def PanickedAfter (R : RTy) (m : PanicMsg) (r : Res St Unit) (s : St) (p : Ptr) (ys : List Img) (ev : List Event) : Prop :=
  ∃ s', r = .panic m s' ∧ elemsV (viewAt s' p) 0 R.size ys.length = ys ∧ Touch s s' p (ys.length * R.size) (fun _ => False) ∧ s'.log = s.log ++ ev

end Varlen
