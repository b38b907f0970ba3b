import Verif.Spec.Arrays
import Verif.Model.NewArray
/-! # Specification: calls that leave memory as it was -/
namespace Varlen

/-- Memory after a call is as before it: what existed is unchanged, and nothing else is alive (no storage of the call survives it). -/
structure Restored (s s' : St) : Prop where
  same : ∀ b B, s.blk b = some B → s'.blk b = some B
  nothing_new : ∀ b B, s'.blk b = some B → B.live = true → s.blk b = some B

/-- The call returns the array `xs`; the only destructors that ran are those with effects `ev`. -/
def ReturnsArray (r : Res St (List Img)) (s : St) (xs : List Img) (ev : List Event) : Prop :=
  ∃ s', r = .ok xs s' ∧ Restored s s' ∧ s'.log = s.log ++ ev

/-- The call panics with `m`; the only destructors that ran are those with effects `ev`. -/
def PanicsWith (m : PanicMsg) (r : Res St (List Img)) (s : St) (ev : List Event) : Prop :=
  ∃ s', r = .panic m s' ∧ Restored s s' ∧ s'.log = s.log ++ ev

end Varlen
