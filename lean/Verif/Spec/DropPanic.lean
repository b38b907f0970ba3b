import Verif.Model.DropPanic
import Verif.Spec.LibType
import Verif.Spec.Drops
/-! # Specification: what happens when destructors panic -/
namespace Varlen.DP
variable {w : Nat}

/-- How a piece of code that runs destructors ends. -/
inductive Fate
  | done       -- it returns
  | panicked   -- one destructor panicked, and the panic propagates
  | aborted    -- a second destructor panicked during unwinding; the process is gone
deriving DecidableEq, Repr

/-- The outcome of a program with this fate, and final state `s`. -/
def Fate.res : Fate → St → Res St Unit
  | .done, s => .ok () s
  | .panicked, s => .panic .user s
  | .aborted, s => .panic .abort s

/-- Rust's rule for one call of `drop_in_place` on a slice (or a single value): every element is destroyed, in order, also after one of them has panicked; the second panic aborts.
`unw`: one of them has panicked already. -/
def group (boom : Boom) (unw : Bool) : Group → List Event × Fate
  | [] => ([], if unw then .panicked else .done)
  | (R, x) :: g =>
    if R.needsDrop = true then
      if boom R x = true then
        if unw = true then (R.dropEv x, .aborted)
        else (R.dropEv x ++ (group boom true g).1, (group boom true g).2)
      else (R.dropEv x ++ (group boom unw g).1, (group boom unw g).2)
    else group boom unw g

/-- The rule for a sequence of such calls: a panic (or abort) in one of them skips the later ones. -/
def run (boom : Boom) : List Group → List Event × Fate
  | [] => ([], .done)
  | g :: gs =>
    match group boom false g with
    | (es, .done) => (es ++ (run boom gs).1, (run boom gs).2)
    | (es, f) => (es, f)

/-- The rule for a caller's loop that destroys values one at a time while an iterator still owns the others: a panic ends the loop, and the values that the iterator still owns are
destroyed while unwinding; another panic then aborts. -/
def each (boom : Boom) : List (List Group) → List Event × Fate
  | [] => ([], .done)
  | v :: vs =>
    match run boom v with
    | (es, .done) => (es ++ (each boom vs).1, (each boom vs).2)
    | (es, .panicked) => (es ++ (run boom vs.flatten).1, match (run boom vs.flatten).2 with
      | .done => .panicked
      | _ => .aborted)
    | (es, .aborted) => (es, .aborted)

/-- The rule for the assignments `old_i = new_i`, one statement each, for variables of the given types: effects, fate, and what the variables hold afterwards. An assignment destroys the old value
and stores the new one, also if the destructor panics; then the later assignments are skipped and their new values are destroyed while unwinding. -/
def assign (boom : Boom) : List RTy → List Img → List Img → List Event × Fate × List Img
  | R :: Rs, x :: old, y :: new =>
    if R.needsDrop = true ∧ boom R x = true then (R.dropEv x ++ (group boom true (Rs.zip new)).1, (group boom true (Rs.zip new)).2, y :: old)
    else (R.dtor x ++ (assign boom Rs old new).1, (assign boom Rs old new).2.1, y :: (assign boom Rs old new).2.2)
  | _, _, _ => ([], .done, [])

mutual
/-- `Plan T v gs`: destroying a value `v` of type `T` makes the `drop_in_place` calls `gs`: one for each header field, one for all the elements of an array, in declaration order. -/
inductive Plan : Ty w → V → List Group → Prop
  | fixedLen {R : RTy} {img : Img} : Plan (fixedLen w R) (.leaf img) [[(R, img)]]
  | array {R : RTy} {L : LenTy} {xs : List Img} : Plan (array w R L) (.arr xs) [xs.map fun x => (R, x)]
  | str {L : LenTy} {xs : List Img} : Plan (str w L) (.arr xs) [xs.map fun x => (u8Ty, x)]
  | newtype {T : Ty w} {v : V} {gs : List Group} : Plan T v gs → Plan (newtype T) v gs
  | tuple {Ts : List (Ty w)} {vs : List V} {gs : List Group} : PlanFields (Ts.map .varlen) vs gs → Plan (tuple w Ts) (.node vs) gs
  | struct {headSize headAlign : Nat} {fs : List (Fld w)} {vs : List V} {gs : List Group} : PlanFields fs vs gs →
      Plan (struct w headSize headAlign fs) (.node vs) gs
/-- The same for fields. -/
inductive PlanFields : List (Fld w) → List V → List Group → Prop
  | nil : PlanFields [] [] []
  | normal {R : RTy} {off : Nat} {img : Img} {fs : List (Fld w)} {vs : List V} {gs : List Group} : PlanFields fs vs gs →
      PlanFields (.normal R off :: fs) (.leaf img :: vs) ([(R, img)] :: gs)
  | length {R : RTy} {off : Nat} {img : Img} {fs : List (Fld w)} {vs : List V} {gs : List Group} : PlanFields fs vs gs →
      PlanFields (.length R off :: fs) (.leaf img :: vs) ([(R, img)] :: gs)
  | varlen {T : Ty w} {v : V} {gs' : List Group} {fs : List (Fld w)} {vs : List V} {gs : List Group} : Plan T v gs' → PlanFields fs vs gs →
      PlanFields (.varlen T :: fs) (v :: vs) (gs' ++ gs)
  | array {R : RTy} {len : LenFn w} {xs : List Img} {fs : List (Fld w)} {vs : List V} {gs : List Group} : PlanFields fs vs gs →
      PlanFields (.array R len :: fs) (.arr xs :: vs) ((xs.map fun x => (R, x)) :: gs)
end

/-- The calls for the values of a sequence. -/
inductive Plans (T : Ty w) : List V → List (List Group) → Prop
  | nil : Plans T [] []
  | cons {v : V} {gs : List Group} {vs : List V} {gss : List (List Group)} : Plan T v gs → Plans T vs gss → Plans T (v :: vs) (gs :: gss)

/-- The types of the library, as `Varlen.LibType`. -/
inductive LibT {w : Nat} : Ty w → Prop
  | fixedLen {R : RTy} : R.Ok w → LibT (fixedLen w R)
  | array {R : RTy} {L : LenTy} : R.Ok w → L.Ok w → LibT (array w R L)
  | str {L : LenTy} : 1 < w → L.Ok w → LibT (str w L)
  | newtype {T : Ty w} : LibT T → LibT (newtype T)
  | tuple {Ts : List (Ty w)} : Ts ≠ [] → (∀ T ∈ Ts, LibT T) → LibT (tuple w Ts)
  | struct {headSize headAlign : Nat} {fs : List (Fld w)} : HeaderOk headSize headAlign (fs.map Fld.fld) → (∀ T, Fld.varlen T ∈ fs → LibT T) →
      LibT (struct w headSize headAlign fs)

end Varlen.DP
