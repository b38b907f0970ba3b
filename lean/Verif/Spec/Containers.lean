import Verif.Model.Containers
import Verif.Spec.UserDrop
import Verif.Spec.SeqHist
/-!
# Specification: values that own containers
-/
namespace Varlen.UD
open Eff (World Ran Wrote)
open DP (Group Fate)
variable {w : Nat}

/-- The type of what is in a container. -/
def Ctr.ty : Ctr w → Ty w
  | .box T _ => T
  | .seq T _ _ => T

/-- The memory of a container; an empty sequence that has never allocated has none. -/
def Ctr.blocks : Ctr w → List Nat
  | .box _ p => [p.blk]
  | .seq _ _ q => if Seq.capacityInOffsets q = 0 then [] else [q.ptr.blk]

/-- A container with these values in it: a box made with `VBox::new`, or a sequence after any history of operations. -/
def Ctr.Has (s : St) (vs : List V) : Ctr w → Prop
  | .box T p => ∃ v l, vs = [v] ∧ BoxHas T.base.T s p v l
  | .seq T chk q => ∃ h m t, Hist T.base.T chk s q h m t ∧ vs = h.map (·.2)

/-- What the types of containers have in common: they have destructors, and `T` is a type of the library. -/
structure KindOk (kind : Kind w) : Prop where
  width : 8 ≤ w
  drop : ∀ {R : RTy} {dec : Img → Option (Ctr w)}, kind R = some dec → R.needsDrop = true
  lib : ∀ {R : RTy} {dec : Img → Option (Ctr w)} {x : Img} {c : Ctr w}, kind R = some dec → dec x = some c → LibT c.ty

section
variable (kind : Kind w) (val : Ctr w → List V)

/-- `Owns xs cs ys`: the values `xs` own the containers `cs`, with the values given by `val` in them; `ys` are the ordinary values in these containers, and the other values in `xs`. -/
inductive Owns : List (RTy × Img) → List (Ctr w) → List (RTy × Img) → Prop
  | nil : Owns [] [] []
  | empty {R : RTy} {dec : Img → Option (Ctr w)} {x : Img} {xs ys : List (RTy × Img)} {cs : List (Ctr w)} : kind R = some dec → dec x = none → Owns xs cs ys → Owns ((R, x) :: xs) cs ys
  | ctr {R : RTy} {dec : Img → Option (Ctr w)} {x : Img} {c : Ctr w} {gss : List (List Group)} {xs ys : List (RTy × Img)} {cs : List (Ctr w)} : kind R = some dec → dec x = some c →
      DP.Plans c.ty.base (val c) gss → Owns xs cs ys → Owns ((R, x) :: xs) (c :: cs) (gss.flatten.flatten ++ ys)
  | plain {R : RTy} {x : Img} {xs ys : List (RTy × Img)} {cs : List (Ctr w)} : kind R = none → Owns xs cs ys → Owns ((R, x) :: xs) cs ((R, x) :: ys)

/-- The condition of memory when the values `xs` own containers, and what is in the containers is subject to `W`: the containers are intact, and apart from each other. `all` are the blocks of the containers there ever were;
`strict` says that there are no leaks: those that are still allocated belong to one of the containers. -/
def CtrsOk (strict : Bool) (W : Owner) (all : List Nat) (xs : List (RTy × Img)) (s : St) (prot : Nat → Prop) : Prop :=
  ∃ cs ys, Owns kind val xs cs ys ∧ (∀ c ∈ cs, c.Has s (val c) ∧ ∀ b ∈ c.blocks, b ∈ all) ∧ (cs.flatMap (·.blocks)).Nodup ∧
    (∀ b ∈ all, ¬ prot b ∧ ∃ B, s.blk b = some B ∧ (strict = true → B.live = true → b ∈ cs.flatMap (·.blocks))) ∧ (W.owing ys).ok s (fun b => prot b ∨ b ∈ all)

/-- What destroying a value may do that may be a container: it carries out the plans of the values in the container. -/
def CtrEffects (E : Effects) : Effects := fun R x es f =>
  match kind R with
  | none => E R x es f
  | some dec =>
    match dec x with
    | none => es = [] ∧ f = .done
    | some c => ∃ gss lost, DP.Plans c.ty.base (val c) gss ∧ RunEnds E gss.flatten es f lost

/-- Containers inside containers: `n` levels. -/
def CtrsEffects (E : Effects) : (n : Nat) → Effects
  | 0 => E
  | n + 1 => CtrEffects kind val (CtrsEffects E n)
end

/-- No destructor panics or aborts. -/
def Calm (E : Effects) : Prop := ∀ R x es f, R.needsDrop = true → E R x es f → f = .done

/-- Values may be leaked: memory is in order also if some value need not be destroyed. -/
def Owner.MayLeak (W : Owner) : Prop := ∀ x xs s prot, (W.owing (x :: xs)).ok s prot → (W.owing xs).ok s prot

end Varlen.UD
