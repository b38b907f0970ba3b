import Verif.Model.SeqIter
import Verif.Spec.SeqHist
import Verif.Spec.Moves
/-!
# Specification: iterators over initializers, for `extend` and `collect`
-/
namespace Varlen
variable {w : Nat}

/-- What safe Rust guarantees about an iterator over initializers of `T`. `ok t s`: in memory `s` the iterator `t` is usable; `fp t`: the memory it borrows or owns; `own t`: the part of it
that the iterator may change.
-/
structure ItemIterLawful {τ : Type} (T : VarLen w) (it : ItemIter w τ) (ok : τ → St → Prop) (fp own : τ → Nat → Prop) : Prop where
  own_fp : ∀ t b, own t b → fp t b
  exist : ∀ t s b, ok t s → fp t b → s.blk b ≠ none
  /-- Whether it is usable depends on that memory only. -/
  stable : ∀ t s s', ok t s → Same s s' (fp t) → ok t s'
  /-- `next` has defined behaviour. It may change the iterator's own memory and allocate, and run destructors. The memory of the iterator afterwards is part of what it was before, or
  new. An item is a lawful and usable initializer of non-zero size; its memory was the iterator's or is new, and what it owns is no longer the iterator's. -/
  next : ∀ t s, ok t s → ∃ o t' s' ev, it.next t s = .ok (o, t') s' ∧ s'.log = s.log ++ ev ∧ ok t' s' ∧ (∀ b B, s.blk b = some B → ¬ own t b → s'.blk b = some B) ∧
    (∀ b, s.blk b ≠ none → s'.blk b ≠ none) ∧
    (∀ b, fp t' b → fp t b ∨ s.blk b = none) ∧ (∀ b, own t' b → own t b ∨ s.blk b = none) ∧
    ∀ I, o = .item I → InitLawful T I ∧ I.pre s' ∧ (∀ l, I.lay = some l → 0 < l.size.toNat) ∧ (∀ b, I.fp b → fp t b ∨ s.blk b = none) ∧ (∀ b, I.mods b → own t b ∨ s.blk b = none) ∧
      ∀ b, I.mods b → ¬ fp t' b
  /-- Dropping it has defined behaviour and changes its own memory only. -/
  drop : ∀ t s, ok t s → ∃ s' ev, it.drop t s = .ok () s' ∧ s'.log = s.log ++ ev ∧ ∀ b B, s.blk b = some B → ¬ own t b → s'.blk b = some B

/-- A call of `next`, in some memory in which the iterator is usable, gives the outcome `o`; `ev` are the destructor effects during the call. -/
def Answers {τ : Type} (it : ItemIter w τ) (ok : τ → St → Prop) (t : τ) (s : St) (o : ItemStep w) (ev : List Event) (t' : τ) (s' : St) : Prop :=
  ok t s ∧ it.next t s = .ok (o, t') s' ∧ s'.log = s.log ++ ev

/-- `Yielded it ok t xs t'`: successive calls of `next`, starting with the iterator in state `t` and with anything happening to other memory between the calls, return the items in `xs`, one
each and in this order, and leave the iterator in state `t'`. The destructor effects during each call are listed with the item. -/
inductive Yielded {τ : Type} (it : ItemIter w τ) (ok : τ → St → Prop) : τ → List (List Event × Init w) → τ → Prop
  | nil {t : τ} : Yielded it ok t [] t
  | cons {t t' t'' : τ} {s s' : St} {ev : List Event} {I : Init w} {xs : List (List Event × Init w)} : Answers it ok t s (.item I) ev t' s' →
      Yielded it ok t' xs t'' → Yielded it ok t ((ev, I) :: xs) t''

/-- A drop of the iterator that leads to memory `s'`. -/
def DropsIter {τ : Type} (it : ItemIter w τ) (t : τ) (s : St) (ev : List Event) (s' : St) : Prop :=
  it.drop t s = .ok () s' ∧ s'.log = s.log ++ ev

/-- How an `extend` over an iterator, observed up to the `n`-th call of `next`, ends in memory `s'` and with sequence `q'` after `xs` items have been pushed, the iterator then being in
state `t`. `tail` are the destructor effects after the last of these pushes. -/
inductive LoopEnds {τ : Type} (it : ItemIter w τ) (ok : τ → St → Prop) (n : Nat) (xs : List (List Event × Init w)) (t : τ) (s' : St) (q' : SeqS w) : List Event → Res (St × SeqS w) (Option τ) → Prop
  /-- It is still running. -/
  | running : xs.length = n → LoopEnds it ok n xs t s' q' [] (.ok (some t) (s', q'))
  /-- `next` returned `None`: the iterator was dropped and `extend` returns. -/
  | finished {t2 : τ} {s1 s2 : St} {ev ev' : List Event} : xs.length < n → Answers it ok t s1 .done ev t2 s2 → DropsIter it t2 s2 ev' s' →
      LoopEnds it ok n xs t s' q' (ev ++ ev') (.ok none (s', q'))
  /-- `next` panicked: the iterator was dropped and the panic goes on. -/
  | nextPanics {t2 : τ} {s1 s2 : St} {ev ev' : List Event} {m : PanicMsg} : xs.length < n → Answers it ok t s1 (.panic m) ev t2 s2 → DropsIter it t2 s2 ev' s' →
      LoopEnds it ok n xs t s' q' (ev ++ ev') (.panic m (s', q'))
  /-- Pushing the next item panicked: that item was dropped (or, if its own `initialize` panicked, what that left behind), then the iterator, and the panic goes on. -/
  | pushPanics {t2 : τ} {s1 s2 s3 : St} {ev ev1 ev' : List Event} {I : Init w} {m : PanicMsg} : xs.length < n → Answers it ok t s1 (.item I) ev t2 s2 →
      (ev1 = I.owes ∨ I.val = none ∧ ev1 = I.lost) → DropsIter it t2 s3 ev' s' → (∀ b, I.owns b → ∃ B, s'.blk b = some B ∧ B.live = false) →
      LoopEnds it ok n xs t s' q' (ev ++ ev1 ++ ev') (.panic m (s', q'))

/-- Accounts of an iterator: `owes t` are the effects of the destructors of the values it holds. In each call of `next` values are handed over in the item, destroyed, or kept;
`new ev I` are those newly made in the call that returned `I`. If `next` panics, nothing is destroyed twice. The item itself accounts for what it holds and makes. -/
structure IterAccounts {τ : Type} (T : VarLen w) (it : ItemIter w τ) (ok : τ → St → Prop) (owes : τ → List Event) (new : List Event → Init w → List Event)
    (made : Init w → List Event) : Prop where
  item : ∀ t s I ev t' s', Answers it ok t s (.item I) ev t' s' → Accounts T I I.owes (made I) ∧ (ev ++ I.owes ++ owes t').Perm (owes t ++ new ev I)
  done : ∀ t s ev t' s', Answers it ok t s .done ev t' s' → (ev ++ owes t').Perm (owes t)
  panic : ∀ t s m ev t' s', Answers it ok t s (.panic m) ev t' s' → AtMost (ev ++ owes t') (owes t)
  drop : ∀ t s ev s', DropsIter it t s ev s' → ev.Perm (owes t)

end Varlen
