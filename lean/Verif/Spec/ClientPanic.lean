import Verif.Spec.Client
import Verif.Spec.DropPanic
/-!
# Specification: programs whose values have panicking destructors

The worlds are those of Spec/Client.lean. A program may do all that it can do there, and it drops objects whose values have destructors of which an arbitrary set (`boom`) panics. When one does, the panic
propagates out of the drop; the program may catch it and go on, or drop more objects while unwinding. If a second one panics during the unwinding inside one drop, the process is gone.
Only the destructors that run when an object of the library is dropped panic here; those of values in initializers (refused or used up) do not.
-/
namespace Varlen
variable {w : Nat}

/-- What happens next. -/
inductive POutcome (w : Nat)
  | next (W : World w)
  /-- The process has been aborted. -/
  | aborted
  | ub (k : UB)

/-- The outcome of an operation in which no destructor panics. -/
def Outcome.calm : Outcome w → POutcome w
  | .next W => .next W
  | .ub k => .ub k

/-- The outcome of dropping something. -/
def afterDrop (r : Res St Unit) (ok panic : St → World w) : POutcome w :=
  match r with
  | .ok _ s => .next (ok s)
  | .panic .abort _ => .aborted
  | .panic _ s => .next (panic s)
  | .ub k => .ub k

/-- What is left of the outcome of dropping a sequence: the sequence is gone. -/
def dropped (r : Res (St × SeqS w) Unit) : Res St Unit :=
  match r with
  | .ok a (s, _) => .ok a s
  | .panic m (s, _) => .panic m s
  | .ub k => .ub k

/-- One step of such a program. After a panic the object dropped is gone for the program; what was not destroyed, and the memory of a box or sequence, is lost. -/
inductive PStep (boom : DP.Boom) (W : World w) : POutcome w → Prop
  /-- Any operation in which no destructor panics. -/
  | calm {o : Outcome w} : Step W o → PStep boom W o.calm
  /-- Dropping a box, an owned value, a sequence. -/
  | dropBox {T : DP.Ty w} {p : Ptr} {v : V} {rest : List (Handle w)} : DP.LibT T → W.objs.Perm (.box T.T p v :: rest) →
      PStep boom W (afterDrop (DP.VBox.drop boom T p W.st) (fun s => { W with st := s, objs := rest }) (fun s => { W with st := s, objs := rest, lost := true, leak := true }))
  | dropOwned {T : DP.Ty w} {p : Ptr} {v : V} {rest : List (Handle w)} : DP.LibT T → W.objs.Perm (.owned T.T p v :: rest) →
      PStep boom W (afterDrop (DP.Owned.drop boom T p W.st) (fun s => { W with st := s, objs := rest, ext := fun b => W.ext b ∨ b = p.blk })
        (fun s => { W with st := s, objs := rest, ext := fun b => W.ext b ∨ b = p.blk, lost := true }))
  | dropSeq {chk : Bool} {T : DP.Ty w} {q : SeqS w} {h : List (BitVec w × V)} {t : Bool} {rest : List (Handle w)} : DP.LibT T → W.objs.Perm (.seq chk T.T q h t :: rest) →
      PStep boom W (afterDrop (dropped (DP.Seq.drop boom chk T (W.st, q))) (fun s => { W with st := s, objs := rest }) (fun s => { W with st := s, objs := rest, lost := true, leak := true }))
  /-- Dropping an item taken from a sequence, or the iterator of `take_elems`. -/
  | dropItem {chk : Bool} {T : DP.Ty w} {q : SeqS w} {items items' : List (Ptr × V)} {it : Option (IterS w × List V)} {p : Ptr} {v : V} {rest : List (Handle w)} : DP.LibT T →
      W.objs.Perm (.drain chk T.T q items it :: rest) → items.Perm ((p, v) :: items') →
      PStep boom W (afterDrop (DP.Owned.drop boom T p W.st) (fun s => { W with st := s, objs := .drain chk T.T q items' it :: rest })
        (fun s => { W with st := s, objs := .drain chk T.T q items' it :: rest, lost := true }))
  | dropIter {chk : Bool} {T : DP.Ty w} {q : SeqS w} {items : List (Ptr × V)} {it : IterS w} {vs : List V} {rest : List (Handle w)} : DP.LibT T →
      W.objs.Perm (.drain chk T.T q items (some (it, vs)) :: rest) →
      PStep boom W (afterDrop (DP.OwnedElems.drop boom T it W.st) (fun s => { W with st := s, objs := .drain chk T.T q items none :: rest })
        (fun s => { W with st := s, objs := .drain chk T.T q items none :: rest, lost := true }))

/-- The values in an object, with their type. -/
def Handle.vals : Handle w → List (VarLen w × V)
  | .box T _ v => [(T, v)]
  | .owned T _ v => [(T, v)]
  | .seq _ T _ h _ => h.map fun e => (T, e.2)
  | .drain _ T _ items it => items.map (fun i => (T, i.2)) ++ it.elim [] fun x => x.2.map fun v => (T, v)

/-- The worlds that such programs get to. -/
inductive PReach (boom : DP.Boom) : World w → Prop
  | start (s : St) : PReach boom (World.start w s)
  | step {W W' : World w} : PReach boom W → PStep boom W (.next W') → PReach boom W'

end Varlen
