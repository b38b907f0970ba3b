import Verif.Model.UserDrop
import Verif.Spec.DropPanic
import Verif.Spec.UserCode
/-!
# Specification: destructors that are programs

What a value owns outside of its own bytes (the buffer of a `Vec`, say) is described by an `Owner`: the condition of the program's memory, given the list of the values that are still to be destroyed.
-/
namespace Varlen.UD
open Eff (World Ran Wrote)
open DP (Group Fate)
variable {w : Nat}

/-- What the program maintains about its memory while the values `xs` are to be destroyed: what they own is intact, and each owns something of its own. -/
structure Owner where
  owing : (xs : List (RTy × Img)) → World
  /-- The order does not matter. -/
  perm : ∀ {xs ys s prot}, xs.Perm ys → (owing xs).ok s prot → (owing ys).ok s prot
  /-- Values without a destructor own nothing. -/
  skip : ∀ {R x xs s prot}, R.needsDrop = false → (owing ((R, x) :: xs)).ok s prot → (owing xs).ok s prot

/-- What destructors may do: `E R x es f`: for the value `x` of type `R` it may have the effects `es`, and return, panic or abort the process (`f`). -/
abbrev Effects := RTy → Img → List Event → Fate → Prop

/-- No destructor aborts the process of its own accord (two panics may still do that). -/
def NeverAborts (E : Effects) : Prop := ∀ R x es, R.needsDrop = true → ¬ E R x es .aborted

/-- The result of a destructor. (`Dtor` returns whether it panicked.) -/
def dtorRes : Fate → St → Res St Bool
  | .done, s => .ok false s
  | .panicked, s => .ok true s
  | .aborted, s => .panic .abort s

/-- The contract of destructors: each leaves alone the protected memory and what the other values own, and keeps the program's memory in order. -/
def DtorOk (W : Owner) (d : Dtor) (E : Effects) : Prop :=
  ∀ R x rest s prot, R.needsDrop = true → R.valid x = true → (W.owing ((R, x) :: rest)).ok s prot →
    ∃ f s' es, d R x s = dtorRes f s' ∧ Ran (W.owing rest) prot s s' es ∧ E R x es f

section
variable (E : Effects)

/-- Rust's rule for `drop_in_place` on a slice (or a single value): each element is destroyed, in order, also after one has panicked (`unw`); the second panic aborts, and a destructor may abort. Effects, how it ends, and the values that are not
destroyed. (Compare `DP.group`.) -/
inductive GroupEnds : (unw : Bool) → Group → List Event → Fate → List (RTy × Img) → Prop
  | done : GroupEnds false [] [] .done []
  | panicked : GroupEnds true [] [] .panicked []
  | plain {unw : Bool} {R : RTy} {x : Img} {g : Group} {es : List Event} {f : Fate} {lost : List (RTy × Img)} : R.needsDrop = false → GroupEnds unw g es f lost → GroupEnds unw ((R, x) :: g) es f lost
  | calm {unw : Bool} {R : RTy} {x : Img} {g : Group} {es es' : List Event} {f : Fate} {lost : List (RTy × Img)} : R.needsDrop = true → E R x es .done → GroupEnds unw g es' f lost →
      GroupEnds unw ((R, x) :: g) (es ++ es') f lost
  | first {R : RTy} {x : Img} {g : Group} {es es' : List Event} {f : Fate} {lost : List (RTy × Img)} : R.needsDrop = true → E R x es .panicked → GroupEnds true g es' f lost →
      GroupEnds false ((R, x) :: g) (es ++ es') f lost
  | second {R : RTy} {x : Img} {g : Group} {es : List Event} : R.needsDrop = true → E R x es .panicked → GroupEnds true ((R, x) :: g) es .aborted g
  | dead {unw : Bool} {R : RTy} {x : Img} {g : Group} {es : List Event} : R.needsDrop = true → E R x es .aborted → GroupEnds unw ((R, x) :: g) es .aborted g

/-- The rule for a sequence of such calls: a panic (or abort) in one of them skips the later ones. (Compare `DP.run`.) -/
inductive RunEnds : List Group → List Event → Fate → List (RTy × Img) → Prop
  | nil : RunEnds [] [] .done []
  | cons {g : Group} {gs : List Group} {es es' : List Event} {f : Fate} {lost : List (RTy × Img)} : GroupEnds E false g es .done [] → RunEnds gs es' f lost → RunEnds (g :: gs) (es ++ es') f lost
  | stop {g : Group} {gs : List Group} {es : List Event} {f : Fate} {lost : List (RTy × Img)} : GroupEnds E false g es f lost → f ≠ .done → RunEnds (g :: gs) es f (lost ++ gs.flatten)

/-- The rule for a caller's loop that destroys values one at a time while an iterator still owns the others. (Compare `DP.each`.) -/
inductive EachEnds : List (List Group) → List Event → Fate → List (RTy × Img) → Prop
  | nil : EachEnds [] [] .done []
  | cons {v : List Group} {vs : List (List Group)} {es es' : List Event} {f : Fate} {lost : List (RTy × Img)} : RunEnds E v es .done [] → EachEnds vs es' f lost → EachEnds (v :: vs) (es ++ es') f lost
  | unwound {v : List Group} {vs : List (List Group)} {es es' : List Event} {lost : List (RTy × Img)} : RunEnds E v es .panicked lost → RunEnds E vs.flatten es' .done [] →
      EachEnds (v :: vs) (es ++ es') .panicked lost
  | twice {v : List Group} {vs : List (List Group)} {es es' : List Event} {f : Fate} {lost lost' : List (RTy × Img)} : RunEnds E v es .panicked lost → RunEnds E vs.flatten es' f lost' → f ≠ .done →
      EachEnds (v :: vs) (es ++ es') .aborted (lost ++ lost')
  | aborted {v : List Group} {vs : List (List Group)} {es : List Event} {lost : List (RTy × Img)} : RunEnds E v es .aborted lost → EachEnds (v :: vs) es .aborted (lost ++ vs.flatten.flatten)

/-- The rule for the assignments `old_i = new_i`, one statement each, for variables of the given types: an assignment destroys the old value and stores the new one, also if the destructor panics; then the later
assignments are skipped and their new values are destroyed while unwinding. Effects, fate, what the variables hold afterwards, and the values that are gone without having been destroyed. (Compare `DP.assign`.) -/
inductive AssignEnds : List RTy → (old new : List Img) → List Event → Fate → (now : List Img) → List (RTy × Img) → Prop
  | nil : AssignEnds [] [] [] [] .done [] []
  | plain {R : RTy} {x y : Img} {Rs : List RTy} {old new now : List Img} {es : List Event} {f : Fate} {lost : List (RTy × Img)} : R.needsDrop = false → AssignEnds Rs old new es f now lost →
      AssignEnds (R :: Rs) (x :: old) (y :: new) es f (y :: now) lost
  | calm {R : RTy} {x y : Img} {Rs : List RTy} {old new now : List Img} {es es' : List Event} {f : Fate} {lost : List (RTy × Img)} : R.needsDrop = true → E R x es .done → AssignEnds Rs old new es' f now lost →
      AssignEnds (R :: Rs) (x :: old) (y :: new) (es ++ es') f (y :: now) lost
  | boom {R : RTy} {x y : Img} {Rs : List RTy} {old new : List Img} {es es' : List Event} {f : Fate} {lost : List (RTy × Img)} : R.needsDrop = true → E R x es .panicked → GroupEnds E true (Rs.zip new) es' f lost →
      AssignEnds (R :: Rs) (x :: old) (y :: new) (es ++ es') f (y :: old) lost
end

/-- The types of the library, as `DP.LibT`. -/
inductive LibT {w : Nat} : Ty w → Prop
  | fixedLen {R : RTy} : R.Ok w → LibT (fixedLen w R)
  | array {R : RTy} {L : LenTy} : R.Ok w → L.Ok w → LibT (array w R L)
  | str {L : LenTy} : 1 < w → L.Ok w → LibT (str w L)
  | newtype {T : Ty w} : LibT T → LibT (newtype T)
  | tuple {Ts : List (Ty w)} : Ts ≠ [] → (∀ T ∈ Ts, LibT T) → LibT (tuple w Ts)
  | struct {headSize headAlign : Nat} {fs : List (Fld w)} : HeaderOk headSize headAlign ((fs.map Fld.fld).map DP.Fld.fld) → (∀ T, Fld.varlen T ∈ fs → LibT T) →
      LibT (struct w headSize headAlign fs)

/-! ## Values that own boxes -/

section
variable (isBox : RTy → Bool) (dec : Img → Option Ptr) (T : Ty w) (val : Ptr → V)

/-- `Holds xs ps ys`: among the values `xs` are the boxes `ps` (of values given by `val`); `ys` are the values in these boxes, and the other values in `xs`. -/
inductive Holds : List (RTy × Img) → List Ptr → List (RTy × Img) → Prop
  | nil : Holds [] [] []
  | empty {R : RTy} {x : Img} {xs ys : List (RTy × Img)} {ps : List Ptr} : isBox R = true → dec x = none → Holds xs ps ys → Holds ((R, x) :: xs) ps ys
  | box {R : RTy} {x : Img} {p : Ptr} {gs : List Group} {xs ys : List (RTy × Img)} {ps : List Ptr} : isBox R = true → dec x = some p → DP.Plan T.base (val p) gs → Holds xs ps ys →
      Holds ((R, x) :: xs) (p :: ps) (gs.flatten ++ ys)
  | plain {R : RTy} {x : Img} {xs ys : List (RTy × Img)} {ps : List Ptr} : isBox R = false → Holds xs ps ys → Holds ((R, x) :: xs) ps ((R, x) :: ys)

/-- The condition of memory when the values `xs` own boxes, and what is in the boxes is subject to `W`: the boxes are intact, and apart from each other. `all` are the blocks of the boxes there ever were: those that are
still allocated belong to one of the boxes. -/
def BoxesOk (W : Owner) (all : List Nat) (xs : List (RTy × Img)) (s : St) (prot : Nat → Prop) : Prop :=
  ∃ ps ys, Holds isBox dec T val xs ps ys ∧ (∀ p ∈ ps, (∃ l, BoxHas T.base.T s p (val p) l) ∧ p.blk ∈ all) ∧ (ps.map (·.blk)).Nodup ∧
    (∀ b ∈ all, ¬ prot b ∧ ∃ B, s.blk b = some B ∧ (B.live = true → ∃ p ∈ ps, p.blk = b)) ∧ (W.owing ys).ok s (fun b => prot b ∨ b ∈ all)

/-- The effects of destroying a value that may be a box: those of destroying what is in the box. -/
def BoxEffects (E : Effects) (R : RTy) (x : Img) (es : List Event) (f : Fate) : Prop :=
  if isBox R = true then
    f = .done ∧ match dec x with
      | none => es = []
      | some p => ∃ gs, DP.Plan T.base (val p) gs ∧ RunEnds E gs es .done []
  else E R x es f

/-- Boxes inside boxes: `n` levels. -/
def NestEffects (E : Effects) : (n : Nat) → Effects
  | 0 => E
  | n + 1 => BoxEffects isBox dec T val (NestEffects E n)
end

end Varlen.UD
