import Verif.Model.Traits
/-!
# Specification: the promise made with `Pin<&mut T>`

`Pin::new_unchecked`'s contract (`core::pin`): from the moment a pinned reference to an object has been made, until the object's destructor has run, the object stays at its address,
and its memory is not freed or used for anything else. The library makes pinned references to objects in boxes, in arenas and in sequences (`VBox::as_mut`, varlen/src/vbox.rs:84-86;
`Owned::as_mut`, owned.rs:145-147; `IterMut::next`, seq.rs:1217-1227; `from_offset_mut`, seq.rs:977-984).
-/
namespace Varlen
variable {w : Nat}

/-- Between `s`, when a pinned reference to the object `v` at `p`, of layout `l`, was handed out, and `s'`, the promise was kept: `v` is still there, or every destructor that it owes has run since. -/
def PinKept (T : VarLen w) (s s' : St) (p : Ptr) (v : V) (l : Layout w) : Prop :=
  Valid T s' p v l ∨ ∃ ev, s'.log = s.log ++ ev ∧ ∀ a, (T.drops v).count a ≤ ev.count a

end Varlen
