import Verif.Model.StackedSeq
import Verif.Spec.Controls
import Verif.Spec.SeqHist
/-! # Specification for references in Stacked Borrows -/
namespace Varlen.SB
variable {w : Nat}

/-- Tags in use are not new. -/
def Stacks.Ok (σ : Stacks) : Prop := ∀ (x : Nat) (i : Item), i ∈ σ.stack x → i.tag < σ.next

/-- `t` may be used to read the bytes `[lo, lo + n)`. -/
def CanRead (σ : Stacks) (t lo n : Nat) : Prop := ∀ x, lo ≤ x → x < lo + n → ∃ i ∈ σ.stack x, i.tag = t ∧ i.perm ≠ .disabled

/-- `t` may be used to write the bytes `[lo, lo + n)`. -/
def CanWrite (σ : Stacks) (t lo n : Nat) : Prop := ∀ x, lo ≤ x → x < lo + n → ∃ i ∈ σ.stack x, i.tag = t ∧ (i.perm = .unique ∨ i.perm = .sharedRW)

/-- No `#[varlen]` field, of this type or of the fields of such fields, has bytes in its head. -/
inductive Headless : Ty w → Prop
  | fixedLen (P : Plain) : Headless (.fixedLen P)
  | array (P : Plain) (L : LenTy) : Headless (.array P L)
  | str (L : LenTy) : Headless (.str L)
  | newtype {T : Ty w} : Headless T → Headless (.newtype T)
  | tuple {Ts : List (Ty w)} : (∀ T ∈ Ts, T.sem.headSize = 0) → (∀ T ∈ Ts, Headless T) → Headless (.tuple Ts)
  | struct {hs ha : Nat} {fs : List (TyFld w)} : (∀ T, .varlen T ∈ fs → T.sem.headSize = 0) → (∀ T, .varlen T ∈ fs → Headless T) → Headless (.struct hs ha fs)

/-- The sizes of the array fields. -/
def arraySizes : List (TyFld w) → List (BitVec w × Layout w) → List Nat
  | .normal _ _ :: fs, ls => arraySizes fs ls
  | .length _ _ :: fs, ls => arraySizes fs ls
  | .varlen _ :: fs, _ :: ls => arraySizes fs ls
  | .array P _ :: fs, (_, .len n) :: ls => n.toNat * P.ty.size :: arraySizes fs ls
  | _, _ => []

/-- The program makes and uses references only to the bytes `[lo, lo + n)`: the stacks of all others are as before, so what may be done through references to them is, too. -/
def Only {α : Type} (lo n : Nat) (m : S α) : Prop := ∀ (σ σ' : Stacks) (r : α), m σ = .ok (r, σ') → ∀ x, x < lo ∨ lo + n ≤ x → σ'.stack x = σ.stack x

/-- The program runs without undefined behaviour. -/
def Fine {α : Type} (m : S α) (σ : Stacks) : Prop := ∃ r, m σ = .ok r

/-- The program has undefined behaviour. -/
def Undefined {α : Type} (m : S α) (σ : Stacks) : Prop := m σ = .error .ub

/-- The fields behind the head, with their layouts. -/
def tails (fs : List (TyFld w)) (ls : List (BitVec w × Layout w)) : List (TyFld w × Layout w) := (fs.filter TyFld.isTail).zip (ls.map (·.2))

/-- Destroying an object with this layout concerns its head only: where there is anything to destroy, no `#[varlen]` field has bytes in its head, and no array has elements with a destructor and of non-zero size. (Tuples and
newtypes without anything to destroy do nothing; structs look at their fields nevertheless.) -/
inductive Idle : Ty w → Layout w → Prop
  | fixedLen (P : Plain) (l : Layout w) : Idle (.fixedLen P) l
  | array {P : Plain} {L : LenTy} {o n size : BitVec w} : (P.ty.needsDrop = true → n.toNat * P.ty.size = 0) → Idle (.array P L) (.array o n size)
  | str (L : LenTy) (l : Layout w) : Idle (.str L) l
  | newtype {T : Ty w} {l : Layout w} : (T.sem.NEEDS_VDROP = true → Idle T l) → Idle (.newtype T) l
  | tuple {Ts : List (Ty w)} {size : BitVec w} {ls : List (BitVec w × Layout w)} : ((∃ T ∈ Ts, T.sem.NEEDS_VDROP = true) → ∀ T l, (TyFld.varlen T, l) ∈ tails (Ts.map .varlen) ls → T.sem.headSize = 0) →
      ((∃ T ∈ Ts, T.sem.NEEDS_VDROP = true) → ∀ T l, (TyFld.varlen T, l) ∈ tails (Ts.map .varlen) ls → Idle T l) → Idle (.tuple Ts) (.fields size ls)
  | struct {hs ha : Nat} {fs : List (TyFld w)} {size : BitVec w} {ls : List (BitVec w × Layout w)} : (∀ T l, (TyFld.varlen T, l) ∈ tails fs ls → T.sem.headSize = 0) →
      (∀ T l, (TyFld.varlen T, l) ∈ tails fs ls → Idle T l) → (∀ P len n, (TyFld.array P len, Layout.len n) ∈ tails fs ls → P.ty.needsDrop = true → n.toNat * P.ty.size = 0) →
      Idle (.struct hs ha fs) (.fields size ls)

/-- `t` is the tag of the allocation `[lo, lo + n)`: that of the pointer that `alloc` returned. -/
def Allocated (σ : Stacks) (t lo n : Nat) : Prop := ∀ x, lo ≤ x → x < lo + n → (σ.stack x).getLast? = some ⟨t, .unique⟩

/-- The elements of a sequence with the given layouts, between the bytes `cur` and `fin`: one after the other. -/
def Elems (T : Ty w) : List (Nat × Layout w) → (cur fin : Nat) → Prop
  | [], cur, fin => cur ≤ fin
  | (lo, l) :: es, cur, fin => cur ≤ lo ∧ (∃ v o, T.sem.Rep v l o) ∧ Elems T es (lo + l.size.toNat) fin


/-- Where the values of a sequence lie: for each value `v` that was pushed at offset `o` (in units of `ALIGN`), its offset in bytes, and its layout. -/
def Places (T : Ty w) (s : St) (q : SeqS w) (h : List (BitVec w × V)) (es : List (Nat × Layout w)) : Prop :=
  es.length = h.length ∧ ∀ (i : Nat) (o : BitVec w) (v : V) (e : Nat × Layout w), h[i]? = some (o, v) → es[i]? = some e →
    e.1 = o.toNat * T.sem.ALIGN.toNat ∧ Valid T.sem s (q.ptr.add e.1) v e.2

/-- The size of an allocation for `cap` units of `align` bytes. -/
def seqBytes (checked : Bool) (align cap : Nat) : Nat := cap * align + if checked = true then (cap + 7) / 8 else 0

end Varlen.SB
