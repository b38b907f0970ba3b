import Verif.Spec.SeqHist
/-!
# Specification: how many allocations are made

Every successful call of `alloc`, `realloc` or of the bump arena adds one block to the memory (Model/Mem.lean, Model/VBox.lean) and nothing else does; freed blocks stay, marked dead. So the number of blocks counts
the allocations made so far.
-/
namespace Varlen
variable {w : Nat}

/-- The number of allocations made so far. -/
def St.made (s : St) : Nat := s.blocks.length

/-- `Growths T chk s q n`: some history (`Hist`) of the sequence leads to memory `s` and sequence `q`, during which the operations on the sequence have made `n` allocations. -/
inductive Growths (T : VarLen w) (chk : Bool) : St → SeqS w → Nat → Prop
  /-- `Seq::new` -/
  | new (s : St) : Growths T chk s (Seq.new T) 0
  /-- A push, returning … -/
  | push {s q n h m t} (A : Allocator) {I : Init w} {s' q'} : Growths T chk s q n → Hist T chk s q h m t → PushArg T I s q →
      Seq.push A chk T I (s, q) = .ok () (s', q') → Growths T chk s' q' (n + (s'.made - s.made))
  /-- … or panicking. -/
  | pushPanic {s q n h m t} (A : Allocator) {I : Init w} {msg s' q'} : Growths T chk s q n → Hist T chk s q h m t → PushArg T I s q →
      Seq.push A chk T I (s, q) = .panic msg (s', q') → Growths T chk s' q' (n + (s'.made - s.made))
  /-- `take_elems` -/
  | takeElems {s q n h m t} {it : IterS w} {s' q'} : Growths T chk s q n → Hist T chk s q h m t → Seq.takeElems chk T (s, q) = .ok it (s', q') →
      Growths T chk s' q' (n + (s'.made - s.made))
  /-- Anything else: the program uses or drops the items taken, modifies elements, or does unrelated things. -/
  | other {s s' q n h m t} : Growths T chk s q n → Hist T chk s' q h m t → Growths T chk s' q n

end Varlen
