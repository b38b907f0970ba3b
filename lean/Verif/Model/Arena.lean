import Verif.Model.VBox
/-!
# `Owned::new_in` in an arena whose chunks hold many objects

`Model/VBox.lean` gives each arena allocation a block of its own. Here a chunk of the arena is one block, and the arena (`bumpalo::Bump`, not code of the repository) hands out ranges of it.
-/
namespace Varlen.Arena
variable {w : Nat}

/-- `bumpalo::Bump::alloc_layout`: `r` is the arena's answer, a place in one of its chunks, or `none` when it is out of memory, which panics. The memory handed out has no
defined contents. (Which answers are possible is `Vacant` in Spec/Arena.lean.) -/
def bumpAt (w : Nat) (r : Option Ptr) (size align : Nat) : M Ptr := fun s =>
  if fromSizeAlign w size align = false then .ub .badLayout
  else match r with
  | none => .panic .oom s
  | some p => .ok p (s.write p (List.replicate size none))

/-- `Owned::new_in` (varlen/src/owned.rs:184-194). When it panics before `initialize`, unwinding drops the initializer. -/
def newIn (r : Option Ptr) (T : VarLen w) (I : Init w) : M Ptr := do
  match ← onUnwind I.cautious I.dropI with
  | none => onUnwind (panicM .unwrapNone) I.dropI
  | some l =>
    if fromSizeAlign w l.size.toNat T.ALIGN.toNat then do
      let p ← onUnwind (bumpAt w r l.size.toNat T.ALIGN.toNat) I.dropI
      I.initTo p l
      pure p
    else onUnwind (panicM .unwrapNone) I.dropI

end Varlen.Arena
