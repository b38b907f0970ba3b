import Verif.Spec.SeqHist
/-! # Specification: what the caller of `extend` / `collect` / `seq![…]` must provide -/
namespace Varlen
variable {w : Nat}

/-- Every item is a suitable argument for `push` (`PushArg`), and items do not borrow from what is owned by others (guaranteed by ownership in Rust). -/
structure ExtendArg (T : VarLen w) (is : List (Init w)) (s : St) (q : SeqS w) : Prop where
  each : ∀ I ∈ is, PushArg T I s q
  apart : is.Pairwise fun I J => ∀ b, I.mods b → ¬ J.fp b

end Varlen
