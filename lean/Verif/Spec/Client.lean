import Verif.Spec.SeqHist
import Verif.Spec.Moves
/-!
# Specification: programs that use the library

A world is the memory of a program together with the objects of the library it holds at the moment: any number of boxes, values in an arena, sequences, and sequences being drained, of any types.
`Step` enumerates what such a program can do next; each operation is run with the model of the Rust code, with any behaviour of the allocator. `Reach` are the worlds that programs get to. What the
rules require of the program is what Rust's type system guarantees for safe code: objects are used, moved and dropped only while the program holds them; a reference is not kept while its referent is
modified or moved; unsafe trait implementations satisfy their contracts.

Beside the memory, a world records what the program would expect of an ideal implementation: the value of each object, and the effects of the destructors of all values that have come into existence.
-/
namespace Varlen
variable {w : Nat}

/-- An object of the library held by the program. -/
inductive Handle (w : Nat)
  /-- A `VBox<T>` whose value is `v`. -/
  | box (T : VarLen w) (p : Ptr) (v : V)
  /-- An `Owned<T>` in an arena. -/
  | owned (T : VarLen w) (p : Ptr) (v : V)
  /-- A `Seq<T>` (with bitmask if `chk`) that holds the values `h`, each with the `offset()` at which it was pushed; `taken` tells whether `take_elems` was ever called. -/
  | seq (chk : Bool) (T : VarLen w) (q : SeqS w) (h : List (BitVec w × V)) (taken : Bool)
  /-- A `Seq<T>` borrowed by a call of `take_elems`: the items obtained from the iterator so far and not yet dropped, and, if it still exists, the iterator with the values it has not yet yielded. -/
  | drain (chk : Bool) (T : VarLen w) (q : SeqS w) (items : List (Ptr × V)) (it : Option (IterS w × List V))

/-- The allocation that holds the object; `0` for a sequence without storage. -/
def Handle.blk : Handle w → Nat
  | .box _ p _ => p.blk
  | .owned _ p _ => p.blk
  | .seq _ _ q _ _ => q.ptr.blk
  | .drain _ _ q _ _ => q.ptr.blk

/-- The destructor effects owed for the values in the object. -/
def Handle.drops : Handle w → List Event
  | .box T _ v => T.drops v
  | .owned T _ v => T.drops v
  | .seq _ T _ h _ => h.flatMap fun e => T.drops e.2
  | .drain _ T _ items it => items.flatMap (fun i => T.drops i.2) ++ (it.elim [] fun x => x.2.flatMap T.drops)

def Handle.isBox : Handle w → Prop
  | .box .. => True
  | _ => False
def Handle.isOwned : Handle w → Prop
  | .owned .. => True
  | _ => False

/-- `k` calls of `next` yield references to these values, in order. -/
def IterShows (T : VarLen w) (s : St) (it : IterS w) (vs : List V) : Prop :=
  ∃ ps it', Iter.take T vs.length it s = .ok (ps, it') s ∧ Iter.next T it' s = .ok (none, it') s ∧ ps.length = vs.length ∧
    ∀ (i : Nat) (p : Ptr) (v : V), ps[i]? = some p → vs[i]? = some v → RefTo T s p v

/-- The object is as it should be: its memory is there, and shows the values recorded. -/
def Handle.Intact (s : St) : Handle w → Prop
  | .box T p v => ∃ l, BoxHas T s p v l
  | .owned T p v => RefTo T s p v
  | .seq chk T q h taken => (Seq.len q).toNat = h.length ∧ IterShows T s (Seq.iter q) (h.map (·.2)) ∧
      (∀ o v, (o, v) ∈ h → ∃ p, Seq.fromOffsetUnchecked T q o s = .ok p s ∧ RefTo T s p v) ∧
      (chk = true → ∀ o v, (o, v) ∈ h → ∃ p, Seq.fromOffset T q o s = .ok p s ∧ RefTo T s p v) ∧
      (chk = true → taken = false → ∀ o, (∀ v, (o, v) ∉ h) → Seq.fromOffset T q o s = .panic .invalidOffset s)
  | .drain _ T q items it => (Seq.len q).toNat = 0 ∧ (∀ i ∈ items, RefTo T s i.1 i.2) ∧ ∀ it0 vs, it = some (it0, vs) → IterShows T s it0 vs

/-- A program at some moment. -/
structure World (w : Nat) where
  st : St
  /-- The objects of the library it holds. -/
  objs : List (Handle w)
  /-- The effects of the destructors of all values handed to the library, or made on its behalf, so far. -/
  made : List Event
  /-- Values may have been lost without running their destructors: the program forgot an object, or code of the program panicked while a value was being built. -/
  lost : Bool
  /-- Allocations may have been lost: the program forgot an object, or code of the program panicked inside `VBox::new` (C53). -/
  leak : Bool
  /-- The allocations that are not objects of the library: those of the rest of the program, and those of arenas whose `Owned` is gone. -/
  ext : Nat → Prop

/-- A program that has not used the library yet. -/
def World.start (w : Nat) (s : St) : World w := ⟨s, [], s.log, false, false, fun b => s.blk b ≠ none⟩

/-- An initializer built by the program: usable now; it takes over the objects `moved`; apart from those it holds values with the destructor effects `own`; and it makes values with the effects `mk`
if it runs to its end. -/
structure Arg (W : World w) (T : VarLen w) (I : Init w) (moved : List (Handle w)) (own mk : List Event) : Prop where
  lib : LibInit T I
  usable : I.pre W.st
  holds : ∃ held, Accounts T I held mk ∧ held.Perm (moved.flatMap Handle.drops ++ own)
  kinds : ∀ h ∈ moved, h.isBox ∨ h.isOwned
  /-- What it changes or frees is the memory of the objects moved into it (or memory of the program's own), … -/
  mods : ∀ b, I.mods b → W.ext b ∨ ∃ h ∈ moved, h.blk = b
  /-- … and it owns the allocations of the boxes. -/
  boxes : ∀ h ∈ moved, h.isBox → I.owns h.blk

/-- An in-place modification of the value `v` at `p` into `v'`, through a mutable reference: only the bytes of the value change and it keeps its layout. Values dropped in doing so (`ev`) were part of
it or put there (`fresh`). -/
structure Edit (T : VarLen w) (s s' : St) (p : Ptr) (v v' : V) (ev fresh : List Event) : Prop where
  touch : ∃ l, T.calculateLayout p s = .ok l s ∧ Touch s s' p l.size.toNat (fun _ => False) ∧ T.Rep v' l (viewAt s' p)
  log : s'.log = s.log ++ ev
  values : (ev ++ T.drops v').Perm (T.drops v ++ fresh)

/-- What happens next: the program goes on in another world (perhaps after catching a panic), or its behaviour is undefined. -/
inductive Outcome (w : Nat)
  | next (W : World w)
  | ub (k : UB)

/-- The outcome of an operation. -/
def after {α : Type} (r : Res St α) (ok : α → St → World w) (panic : St → World w) : Outcome w :=
  match r with
  | .ok a s => .next (ok a s)
  | .panic _ s => .next (panic s)
  | .ub k => .ub k

/-- The outcome of an operation on a sequence. -/
def afterQ {α : Type} (r : Res (St × SeqS w) α) (ok : α → St → SeqS w → World w) (panic : St → SeqS w → World w) : Outcome w :=
  match r with
  | .ok a (s, q) => .next (ok a s q)
  | .panic _ (s, q) => .next (panic s q)
  | .ub k => .ub k

/-- The allocations that objects moved away leave to the arena. -/
def arena (moved : List (Handle w)) (b : Nat) : Prop := ∃ h ∈ moved, h.isOwned ∧ h.blk = b

/-- The value an initializer builds. -/
def Init.value (I : Init w) : V := I.val.getD (.leaf [])

/-- The world after an initializer that took over objects has done its work: `objs` are the objects now. -/
def World.used (W : World w) (s : St) (objs : List (Handle w)) (made : List Event) (moved : List (Handle w)) : World w :=
  { W with st := s, objs := objs, made := W.made ++ made, ext := fun b => W.ext b ∨ arena moved b }

/-- The world after a panic while an initializer was used. If its own code panics (`val = none`), values may be lost. Otherwise it was refused and has been dropped. -/
def World.unwound (W : World w) (s : St) (objs : List (Handle w)) (I : Init w) (own mk : List Event) (moved : List (Handle w)) : World w :=
  { W.used s objs (own ++ if I.val.isNone then mk else []) moved with lost := W.lost || I.val.isNone }

/-- Operations that only look at an object. -/
inductive Look : Handle w → {α : Type} → M α → Prop
  /-- Dereferencing a box, and `calculate_layout`. -/
  | box {T : VarLen w} {p : Ptr} {v : V} : Look (.box T p v) (do let q ← derefBox T p; T.calculateLayout q)
  | owned {T : VarLen w} {p : Ptr} {v : V} : Look (.owned T p v) (do let q ← derefBox T p; T.calculateLayout q)
  /-- Iterating; the references obtained are dereferenced. -/
  | iter {chk : Bool} {T : VarLen w} {q : SeqS w} {h : List (BitVec w × V)} {t : Bool} (k : Nat) : Look (.seq chk T q h t) (Iter.take T k (Seq.iter q))
  /-- `offset_of` on any pointer. -/
  | offsetOf {chk : Bool} {T : VarLen w} {q : SeqS w} {h : List (BitVec w × V)} {t : Bool} (p : Ptr) : Look (.seq chk T q h t) (Seq.offsetOf T q p)
  /-- `is_offset_valid` on any offset. -/
  | isOffsetValid {T : VarLen w} {q : SeqS w} {h : List (BitVec w × V)} {t : Bool} (o : BitVec w) : Look (.seq true T q h t) (Seq.isOffsetValid T q o)
  /-- `from_offset` on any offset, if `take_elems` was never called (otherwise it is not sound, see C24). -/
  | fromOffset {T : VarLen w} {q : SeqS w} {h : List (BitVec w × V)} (o : BitVec w) : Look (.seq true T q h false) (Seq.fromOffset T q o)
  /-- `from_offset_unchecked`, on the offset of an element. -/
  | fromOffsetUnchecked {chk : Bool} {T : VarLen w} {q : SeqS w} {h : List (BitVec w × V)} {t : Bool} {o : BitVec w} {v : V} : (o, v) ∈ h →
      Look (.seq chk T q h t) (Seq.fromOffsetUnchecked T q o)
  /-- Dereferencing an item taken from a sequence. -/
  | item {chk : Bool} {T : VarLen w} {q : SeqS w} {items : List (Ptr × V)} {it : Option (IterS w × List V)} {p : Ptr} {v : V} : (p, v) ∈ items →
      Look (.drain chk T q items it) (do let q ← derefBox T p; T.calculateLayout q)

/-- One step of a program. In each rule, `rest` are the objects not involved. -/
inductive Step (W : World w) : Outcome w → Prop
  /-- `VBox::new(init)` -/
  | newBox (A : Allocator) {T : VarLen w} {I : Init w} {moved rest : List (Handle w)} {own mk : List Event} : W.objs.Perm (moved ++ rest) → Arg W T I moved own mk →
      Step W (after (VBox.new A T I W.st) (fun p s => W.used s (.box T p I.value :: rest) (own ++ mk) moved)
        (fun s => { W.unwound s rest I own mk moved with leak := W.leak || I.val.isNone }))
  /-- `Owned::new_in(init, arena)`. What has been allocated stays in the arena. -/
  | newOwned (A : Allocator) {T : VarLen w} {I : Init w} {moved rest : List (Handle w)} {own mk : List Event} : W.objs.Perm (moved ++ rest) → Arg W T I moved own mk →
      Step W (after (Owned.newIn A T I W.st) (fun p s => W.used s (.owned T p I.value :: rest) (own ++ mk) moved)
        (fun s => { W.unwound s rest I own mk moved with ext := fun b => W.ext b ∨ arena moved b ∨ (W.st.blk b = none ∧ s.blk b ≠ none) }))
  /-- An initializer is dropped without being used. -/
  | discard {T : VarLen w} {I : Init w} {moved rest : List (Handle w)} {own mk : List Event} : W.objs.Perm (moved ++ rest) → Arg W T I moved own mk →
      Step W (after (I.dropI W.st) (fun _ s => W.used s rest own moved) (fun s => { W with st := s }))
  /-- `Seq::new` -/
  | newSeq (chk : Bool) {T : VarLen w} : LibType T → Step W (.next { W with objs := .seq chk T (Seq.new T) [] false :: W.objs })
  /-- `push(init)`: the initializer does not borrow from the sequence; the element has non-zero size (see C47). -/
  | push (A : Allocator) {chk : Bool} {T : VarLen w} {q : SeqS w} {h : List (BitVec w × V)} {t : Bool} {I : Init w} {moved rest : List (Handle w)} {own mk : List Event} :
      W.objs.Perm (.seq chk T q h t :: moved ++ rest) → Arg W T I moved own mk → ¬ I.fp q.ptr.blk → (∀ l, I.lay = some l → 0 < l.size.toNat) →
      Step W (afterQ (Seq.push A chk T I (W.st, q)) (fun _ s q' => W.used s (.seq chk T q' (h ++ [(Seq.offset q, I.value)]) t :: rest) (own ++ mk) moved)
        (fun s q' => W.unwound s (.seq chk T q' h t :: rest) I own mk moved))
  /-- `try_push(init)` -/
  | tryPush (A : Allocator) {chk : Bool} {T : VarLen w} {q : SeqS w} {h : List (BitVec w × V)} {t : Bool} {I : Init w} {moved rest : List (Handle w)} {own mk : List Event} :
      W.objs.Perm (.seq chk T q h t :: moved ++ rest) → Arg W T I moved own mk → ¬ I.fp q.ptr.blk → (∀ l, I.lay = some l → 0 < l.size.toNat) →
      Step W (afterQ (Seq.tryPush A chk T I (W.st, q))
        (fun b s q' => if b then W.used s (.seq chk T q' (h ++ [(Seq.offset q, I.value)]) t :: rest) (own ++ mk) moved else W.unwound s (.seq chk T q' h t :: rest) I own mk moved)
        (fun s q' => W.unwound s (.seq chk T q' h t :: rest) I own mk moved))
  /-- Dropping a box, an owned value, a sequence. -/
  | dropBox {T : VarLen w} {p : Ptr} {v : V} {rest : List (Handle w)} : W.objs.Perm (.box T p v :: rest) →
      Step W (after (VBox.drop T p W.st) (fun _ s => { W with st := s, objs := rest }) (fun s => { W with st := s }))
  | dropOwned {T : VarLen w} {p : Ptr} {v : V} {rest : List (Handle w)} : W.objs.Perm (.owned T p v :: rest) →
      Step W (after (Owned.drop T p W.st) (fun _ s => { W with st := s, objs := rest, ext := fun b => W.ext b ∨ b = p.blk }) (fun s => { W with st := s }))
  | dropSeq {chk : Bool} {T : VarLen w} {q : SeqS w} {h : List (BitVec w × V)} {t : Bool} {rest : List (Handle w)} : W.objs.Perm (.seq chk T q h t :: rest) →
      Step W (afterQ (Seq.drop chk T (W.st, q)) (fun _ s _ => { W with st := s, objs := rest }) (fun s _ => { W with st := s }))
  /-- `mem::forget`. -/
  | forget {h : Handle w} {rest : List (Handle w)} : W.objs.Perm (h :: rest) → Step W (.next { W with objs := rest, lost := true, leak := true })
  /-- Modification through a mutable reference: of a box, an owned value, an element of a sequence, an item taken from a sequence. -/
  | editBox {T : VarLen w} {p : Ptr} {v v' : V} {s : St} {ev fresh : List Event} {rest : List (Handle w)} : W.objs.Perm (.box T p v :: rest) → Edit T W.st s p v v' ev fresh →
      Step W (.next { W with st := s, objs := .box T p v' :: rest, made := W.made ++ fresh })
  | editOwned {T : VarLen w} {p : Ptr} {v v' : V} {s : St} {ev fresh : List Event} {rest : List (Handle w)} : W.objs.Perm (.owned T p v :: rest) → Edit T W.st s p v v' ev fresh →
      Step W (.next { W with st := s, objs := .owned T p v' :: rest, made := W.made ++ fresh })
  | editElem {chk : Bool} {T : VarLen w} {q : SeqS w} {h1 h2 : List (BitVec w × V)} {t : Bool} {o : BitVec w} {p : Ptr} {v v' : V} {s : St} {ev fresh : List Event} {rest : List (Handle w)} :
      W.objs.Perm (.seq chk T q (h1 ++ (o, v) :: h2) t :: rest) → Seq.fromOffsetUnchecked T q o W.st = .ok p W.st → Edit T W.st s p v v' ev fresh →
      Step W (.next { W with st := s, objs := .seq chk T q (h1 ++ (o, v') :: h2) t :: rest, made := W.made ++ fresh })
  | editItem {chk : Bool} {T : VarLen w} {q : SeqS w} {items items' : List (Ptr × V)} {it : Option (IterS w × List V)} {p : Ptr} {v v' : V} {s : St} {ev fresh : List Event}
      {rest : List (Handle w)} : W.objs.Perm (.drain chk T q items it :: rest) → items.Perm ((p, v) :: items') → Edit T W.st s p v v' ev fresh →
      Step W (.next { W with st := s, objs := .drain chk T q ((p, v') :: items') it :: rest, made := W.made ++ fresh })
  /-- `take_elems` -/
  | takeElems {chk : Bool} {T : VarLen w} {q : SeqS w} {h : List (BitVec w × V)} {t : Bool} {rest : List (Handle w)} : W.objs.Perm (.seq chk T q h t :: rest) →
      Step W (afterQ (Seq.takeElems chk T (W.st, q)) (fun it s q' => { W with st := s, objs := .drain chk T q' [] (some (it, h.map (·.2))) :: rest }) (fun s _ => { W with st := s }))
  /-- `next` on its iterator -/
  | nextItem {chk : Bool} {T : VarLen w} {q : SeqS w} {items : List (Ptr × V)} {it : IterS w} {vs : List V} {rest : List (Handle w)} : W.objs.Perm (.drain chk T q items (some (it, vs)) :: rest) →
      Step W (after (Iter.next T it W.st) (fun r s => match r with
        | (none, it') => { W with st := s, objs := .drain chk T q items (some (it', vs)) :: rest }
        | (some p, it') => { W with st := s, objs := .drain chk T q ((p, vs.headD (.leaf [])) :: items) (some (it', vs.tail)) :: rest }) (fun s => { W with st := s }))
  /-- Dropping, or forgetting, an item. -/
  | dropItem {chk : Bool} {T : VarLen w} {q : SeqS w} {items items' : List (Ptr × V)} {it : Option (IterS w × List V)} {p : Ptr} {v : V} {rest : List (Handle w)} :
      W.objs.Perm (.drain chk T q items it :: rest) → items.Perm ((p, v) :: items') →
      Step W (after (Owned.drop T p W.st) (fun _ s => { W with st := s, objs := .drain chk T q items' it :: rest }) (fun s => { W with st := s }))
  | forgetItem {chk : Bool} {T : VarLen w} {q : SeqS w} {items items' : List (Ptr × V)} {it : Option (IterS w × List V)} {p : Ptr} {v : V} {rest : List (Handle w)} :
      W.objs.Perm (.drain chk T q items it :: rest) → items.Perm ((p, v) :: items') →
      Step W (.next { W with objs := .drain chk T q items' it :: rest, lost := true })
  /-- Dropping, or forgetting, the iterator. -/
  | dropIter {chk : Bool} {T : VarLen w} {q : SeqS w} {items : List (Ptr × V)} {it : IterS w} {vs : List V} {rest : List (Handle w)} : W.objs.Perm (.drain chk T q items (some (it, vs)) :: rest) →
      Step W (after (OwnedElems.drop T it W.st) (fun _ s => { W with st := s, objs := .drain chk T q items none :: rest }) (fun s => { W with st := s }))
  | forgetIter {chk : Bool} {T : VarLen w} {q : SeqS w} {items : List (Ptr × V)} {it : IterS w} {vs : List V} {rest : List (Handle w)} : W.objs.Perm (.drain chk T q items (some (it, vs)) :: rest) →
      Step W (.next { W with objs := .drain chk T q items none :: rest, lost := true })
  /-- The borrow ends: the iterator and all items are gone. -/
  | endDrain {chk : Bool} {T : VarLen w} {q : SeqS w} {rest : List (Handle w)} : W.objs.Perm (.drain chk T q [] none :: rest) →
      Step W (.next { W with objs := .seq chk T q [] true :: rest })
  /-- Looking at an object. -/
  | look {h : Handle w} {α : Type} {x : M α} : h ∈ W.objs → Look h x → Step W (after (x W.st) (fun _ s => { W with st := s }) (fun s => { W with st := s }))
  /-- The rest of the program does anything that leaves the memory it does not own alone; destructors of its own values may run (`ev`). -/
  | other {s : St} {ev : List Event} : (∀ b, W.st.blk b ≠ none → s.blk b ≠ none) → (∀ b, W.st.blk b ≠ none → ¬ W.ext b → s.blk b = W.st.blk b) → s.log = W.st.log ++ ev →
      Step W (.next { W with st := s, made := W.made ++ ev, ext := fun b => W.ext b ∨ (W.st.blk b = none ∧ s.blk b ≠ none) })

/-- The worlds that programs get to. -/
inductive Reach : World w → Prop
  | start (s : St) : Reach (World.start w s)
  | step {W W' : World w} : Reach W → Step W (.next W') → Reach W'

end Varlen
