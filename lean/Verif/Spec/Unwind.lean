import Verif.Model.Traits
/-! # What becomes of an initializer that is not used -/
namespace Varlen
variable {w : Nat}

/-- From `s` to `s'` nothing happened except that the initializer was dropped: the destructors of the values it holds ran (`owes`), the blocks it
owns were freed, and only blocks in `mods` changed. -/
structure Dropped (I : Init w) (s s' : St) : Prop where
  frame : ∀ b, ¬ I.mods b → s'.blk b = s.blk b
  freed : ∀ b, I.owns b → ∃ B, s'.blk b = some B ∧ B.live = false
  size : s'.blocks.length = s.blocks.length
  log : s'.log = s.log ++ I.owes
  copied : s'.copied = s.copied

end Varlen
