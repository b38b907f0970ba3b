import Verif.Model.UserDrop
/-!
# Values that own containers of this library

A field or element of a variable-length object may have a type like `Option<VBox<T>>` or `Option<Seq<T>>`, and `T` may again have such fields. (`Owned` is left out: its memory belongs to an arena.)
-/
namespace Varlen.UD
variable {w : Nat}

/-- A box or a sequence. -/
inductive Ctr (w : Nat)
  /-- `VBox<T>` (varlen/src/vbox.rs:35) -/
  | box (T : Ty w) (p : Ptr)
  /-- `Seq<T, Idx>` (varlen/src/seq.rs:425-436) -/
  | seq (T : Ty w) (chk : Bool) (q : SeqS w)

/-- `Drop for VBox` (varlen/src/vbox.rs:147-156), `Drop for Seq` (varlen/src/seq.rs:1014-1024); the fields of the sequence itself are gone afterwards. -/
def Ctr.drop (d : Dtor) : Ctr w → M Unit
  | .box T p => VBox.drop d T p
  | .seq T chk q => fun s =>
    match Seq.drop d chk T (s, q) with
    | .ok _ (s', _) => .ok () s'
    | .panic m (s', _) => .panic m s'
    | .ub k => .ub k

/-- Which ordinary types are `Option` of a container, and how the bytes of such a type are decoded. -/
abbrev Kind (w : Nat) := RTy → Option (Img → Option (Ctr w))

/-- Drop glue of ordinary types, some of which are `Option` of a container; the others, and what is in the containers, have the destructors `d`. -/
def ctrDtor (kind : Kind w) (d : Dtor) : Dtor := fun R x =>
  match kind R with
  | none => d R x
  | some dec =>
    match dec x with
    | none => pure false
    | some c => fun s =>
      match c.drop d s with
      | .ok _ s' => .ok false s'
      | .panic .user s' => .ok true s'
      | .panic m s' => .panic m s'
      | .ub k => .ub k

/-- The same for containers inside containers, `n` levels deep. -/
def ctrsDtor (kind : Kind w) (d : Dtor) : (n : Nat) → Dtor
  | 0 => d
  | n + 1 => ctrDtor kind (ctrsDtor kind d n)

end Varlen.UD
