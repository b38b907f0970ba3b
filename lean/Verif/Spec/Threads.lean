import Verif.Model.AutoTraits
import Verif.Model.Seq
/-! # Specification: sharing and moving objects between threads -/
namespace Varlen
variable {w : Nat}

/-- The ordinary types of which a value of the variable-length type is made up, head and tail, at any depth. -/
inductive Mentions : Ty w → Plain → Prop
  | fixedLen {P : Plain} : Mentions (.fixedLen P) P
  | arrayElem {P : Plain} {L : LenTy} : Mentions (.array P L) P
  | arrayLen {P : Plain} {L : LenTy} : Mentions (.array P L) L.plain
  | strByte {L : LenTy} : Mentions (.str L) u8Plain
  | strLen {L : LenTy} : Mentions (.str L) L.plain
  | newtype {T : Ty w} {P : Plain} : Mentions T P → Mentions (.newtype T) P
  | tuple {Ts : List (Ty w)} {T : Ty w} {P : Plain} : T ∈ Ts → Mentions T P → Mentions (.tuple Ts) P
  | normal {hs ha off : Nat} {fs : List (TyFld w)} {P : Plain} : .normal P off ∈ fs → Mentions (.struct hs ha fs) P
  | length {hs ha off : Nat} {fs : List (TyFld w)} {P : Plain} : .length P off ∈ fs → Mentions (.struct hs ha fs) P
  | varlen {hs ha : Nat} {fs : List (TyFld w)} {T : Ty w} {P : Plain} : .varlen T ∈ fs → Mentions T P → Mentions (.struct hs ha fs) P
  | array {hs ha : Nat} {fs : List (TyFld w)} {P : Plain} {len : LenFn w} : .array P len ∈ fs → Mentions (.struct hs ha fs) P

/-- `PartOf T v P img`: the value `v` of type `T` contains the value `img` of the ordinary type `P`. -/
inductive PartOf : Ty w → V → Plain → Img → Prop
  | fixedLen {P : Plain} {img : Img} : PartOf (.fixedLen P) (.leaf img) P img
  | array {P : Plain} {L : LenTy} {xs : List Img} {x : Img} : x ∈ xs → PartOf (.array P L) (.arr xs) P x
  | str {L : LenTy} {xs : List Img} {x : Img} : x ∈ xs → PartOf (.str L) (.arr xs) u8Plain x
  | newtype {T : Ty w} {v : V} {P : Plain} {x : Img} : PartOf T v P x → PartOf (.newtype T) v P x
  | tuple {Ts : List (Ty w)} {vs : List V} {i : Nat} {T : Ty w} {v : V} {P : Plain} {x : Img} : Ts[i]? = some T → vs[i]? = some v → PartOf T v P x → PartOf (.tuple Ts) (.node vs) P x
  | normal {hs ha off : Nat} {fs : List (TyFld w)} {vs : List V} {i : Nat} {P : Plain} {x : Img} : fs[i]? = some (.normal P off) → vs[i]? = some (.leaf x) →
      PartOf (.struct hs ha fs) (.node vs) P x
  | length {hs ha off : Nat} {fs : List (TyFld w)} {vs : List V} {i : Nat} {P : Plain} {x : Img} : fs[i]? = some (.length P off) → vs[i]? = some (.leaf x) →
      PartOf (.struct hs ha fs) (.node vs) P x
  | varlen {hs ha : Nat} {fs : List (TyFld w)} {vs : List V} {i : Nat} {T : Ty w} {v : V} {P : Plain} {x : Img} : fs[i]? = some (.varlen T) → vs[i]? = some v → PartOf T v P x →
      PartOf (.struct hs ha fs) (.node vs) P x
  | arrayField {hs ha : Nat} {fs : List (TyFld w)} {vs : List V} {i : Nat} {P : Plain} {len : LenFn w} {xs : List Img} {x : Img} : fs[i]? = some (.array P len) → vs[i]? = some (.arr xs) → x ∈ xs →
      PartOf (.struct hs ha fs) (.node vs) P x

/-- The operation writes no memory, allocates and frees nothing and runs no destructor, whatever the memory contains. -/
def NoEffect {α : Type} (x : M α) : Prop := ∀ s, (∀ a s', x s = .ok a s' → s' = s) ∧ (∀ m s', x s = .panic m s' → s' = s)

/-- The operations of the library that work on a shared reference. -/
inductive SharedOp : {α : Type} → M α → Prop
  /-- `calculate_layout`, `size`, of an object of any type. -/
  | layout (T : Ty w) (p : Ptr) : SharedOp (T.sem.calculateLayout p)
  /-- Dereferencing a box, an owned object. -/
  | deref (T : Ty w) (p : Ptr) : SharedOp (derefBox T.sem p)
  /-- `refs()` of a struct, of a tuple. -/
  | structRefs (hs : Nat) (fs : List (TyFld w)) (p : Ptr) : SharedOp (aggRefs hs (TyFld.sems fs) p)
  | tupleRefs (Ts : List (Ty w)) (p : Ptr) : SharedOp (aggRefs 0 ((Ty.sems Ts).map .varlen) p)
  /-- Dereferencing an array, a string; `len_short`; `inner()` of a newtype. -/
  | arrayDeref (P : Plain) (L : LenTy) (p : Ptr) : SharedOp (Array.deref w P.ty L p)
  | strDeref (L : LenTy) (p : Ptr) : SharedOp (Str.deref w L p)
  | lenShort (L : LenTy) (p : Ptr) : SharedOp (Array.lenShort L p)
  | inner (T : Ty w) (p : Ptr) : SharedOp (Newtype.inner T.sem p)
  /-- Any number of `next` calls on an iterator of a sequence. -/
  | iterate (T : Ty w) (k : Nat) (it : IterS w) : SharedOp (Iter.take T.sem k it)
  | offsetOf (T : Ty w) (q : SeqS w) (p : Ptr) : SharedOp (Seq.offsetOf T.sem q p)
  | isOffsetValid (T : Ty w) (q : SeqS w) (o : BitVec w) : SharedOp (Seq.isOffsetValid T.sem q o)
  | fromOffset (T : Ty w) (q : SeqS w) (o : BitVec w) : SharedOp (Seq.fromOffset T.sem q o)
  | fromOffsetUnchecked (T : Ty w) (q : SeqS w) (o : BitVec w) : SharedOp (Seq.fromOffsetUnchecked T.sem q o)
  /-- The caller reads a value, an element through a reference obtained. -/
  | read (P : Plain) (p : Ptr) : SharedOp (readVal P.ty p)
  | readElem (P : Plain) (sl : Slice) (i : Nat) : SharedOp (sl.get P.ty i)
  /-- One thing after the other. -/
  | seq {α β : Type} {x : M α} {f : α → M β} : SharedOp x → (∀ a, SharedOp (f a)) → SharedOp (do let a ← x; f a)
  | done {α : Type} (a : α) : SharedOp (pure a)

/-- The memory after running operations of several threads in some order. `none`: one of them was undefined. -/
def runAll {α : Type} : List (M α) → St → Option St
  | [], s => some s
  | x :: xs, s => match x s with
    | .ok _ s' => runAll xs s'
    | .panic _ s' => runAll xs s'
    | .ub _ => none

/-- `Interleaving ts xs`: `xs` are all operations of the threads `ts` in an order that a scheduler may choose, keeping the order of each thread. -/
inductive Interleaving {α : Type} : List (List α) → List α → Prop
  | nil {ts : List (List α)} : (∀ t ∈ ts, t = []) → Interleaving ts []
  | step {ts₁ ts₂ : List (List α)} {t : List α} {x : α} {xs : List α} : Interleaving (ts₁ ++ t :: ts₂) xs → Interleaving (ts₁ ++ (x :: t) :: ts₂) (x :: xs)

end Varlen
