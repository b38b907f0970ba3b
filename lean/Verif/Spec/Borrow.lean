import Verif.Spec.TreeBorrows
import Verif.Spec.LibType
import Verif.Model.Borrow
/-!
# Specification: programs that use the library's references

`LibBTy` lists the variable-length types. `Returns` says which references a library call gives to its caller. `Step` lists what a program in safe Rust can do with the references into an allocation (its own accesses and
reborrows, and calls to the library), each under the condition that the borrow checker would check.
-/
namespace Varlen.TB
open Varlen
variable {w : Nat}

/-- The variable-length types. Whether `Pin<&mut _>` arguments are reborrowed (`pin`) may differ from type to type. -/
inductive LibBTy : BTy w → Prop
  | fixedLen {pin : Bool} {R : RTy} : R.Ok w → LibBTy (BTy.fixed pin w R)
  | array {pin : Bool} {R : RTy} {L : LenTy} : R.Ok w → L.Ok w → LibBTy (BTy.array pin w R L)
  | newtype {pin : Bool} {C : BTy w} {inv : V → Prop} : LibBTy C → LibBTy (BTy.newtype pin C inv)
  | tuple {pin : Bool} {Cs : List (BTy w)} : Cs ≠ [] → (∀ C ∈ Cs, LibBTy C) → LibBTy (BTy.tuple pin w Cs)
  | struct {pin : Bool} {headSize headAlign : Nat} {fs : List (BFld w)} : HeaderOk headSize headAlign (fs.map BFld.fld) → (∀ C, BFld.varlen C ∈ fs → LibBTy C) →
      LibBTy (BTy.struct pin w headSize headAlign fs)

/-- The fields of a struct or tuple type. -/
inductive LibFields : Nat → List (BFld w) → Prop
  | tuple {Cs : List (BTy w)} : Cs ≠ [] → (∀ C ∈ Cs, LibBTy C) → LibFields 0 (Cs.map .varlen)
  | struct {headSize headAlign : Nat} {fs : List (BFld w)} : HeaderOk headSize headAlign (fs.map BFld.fld) → (∀ C, BFld.varlen C ∈ fs → LibBTy C) → LibFields headSize fs

/-- There are objects of this type with this layout. -/
def HasLayout (C : BTy w) (l : Layout w) : Prop := ∃ v o, C.T.Rep v l o

/-- There are structs or tuples with these fields and this layout. -/
def FieldsLayout (headSize : Nat) (fs : List (BFld w)) (l : Layout w) : Prop := ∃ v o, aggRep headSize (fs.map BFld.fld) v l o

/-- The bytes of a reference, and whether it is mutable. `im`: at which bytes a shared reference does not promise that they do not change. -/
structure Ext where
  uniq : Bool
  lo : Nat
  len : Nat
  im : Nat → Bool

/-- The same reference, derived from a shared one that promises it for all bytes but those in `own`. -/
def Ext.within (own : Nat → Bool) (e : Ext) : Ext := { e with im := fun x => own x && e.im x }

/-- The fields of an object at `lo`: the references that `refs()` (`m = false`) and `muts()` (`m = true`) are to give. Fields with `#[controls_layout]` are shared in both. -/
def fieldExts (m : Bool) (lo : Nat) : List (BFld w) → List (BitVec w × Layout w) → List Ext
  | .normal R off :: fs, ls => ⟨m, lo + off, R.size, rustIm R (lo + off)⟩ :: fieldExts m lo fs ls
  | .length R off :: fs, ls => ⟨false, lo + off, R.size, rustIm R (lo + off)⟩ :: fieldExts m lo fs ls
  | .varlen C :: fs, (o, l) :: ls => ⟨m, lo + o.toNat, l.size.toNat, C.im (lo + o.toNat)⟩ :: fieldExts m lo fs ls
  | .array R _ :: fs, (o, .len n) :: ls => ⟨m, lo + o.toNat, n.toNat * R.size, sliceIm R (lo + o.toNat) n.toNat⟩ :: fieldExts m lo fs ls
  | _, _ => []

/-- The list of fields of a layout. -/
def layoutFields : Layout w → List (BitVec w × Layout w)
  | .fields _ ls => ls
  | _ => []

/-- A call that turned `S` into `S'` gave its caller the references `rs`, derived from `t`. -/
structure Returns (S S' : Tree) (t : Nat) (rs : List Nat) (es : List Ext) : Prop where
  /-- One for each entry of `es`. -/
  count : rs.length = es.length
  /-- It is a new, live reference for these bytes, derived from `t`, … -/
  ref : ∀ (k r : Nat) (e : Ext), rs[k]? = some r → es[k]? = some e → S.nodes.length ≤ r ∧
    ∃ A, S'.tag r = some A ∧ A.live = true ∧ A.uniq = e.uniq ∧ A.lo = e.lo ∧ A.len = e.len ∧ t ∈ A.path ∧
      /- shared references: the bytes that may change are those of `e.im`, if they may change for `t` -/
      ∀ (P : Tag) (x : Nat), S.tag t = some P → (S'.Mutable A x ↔ (e.uniq = true ∨ e.im x = true) ∧ S.Mutable P x)
  /-- … and all of them can be used: the mutable ones for writing, the others for reading. -/
  usable : ∀ (k r : Nat) (e : Ext), rs[k]? = some r → es[k]? = some e → if e.uniq then CanWrite S' r e.lo e.len else CanRead S' r e.lo e.len
  /-- Nothing has changed about the caller's other references, … -/
  old : ∀ i, i < S.nodes.length → S'.tag i = S.tag i
  /-- … and there are no other live references. -/
  new : ∀ (i : Nat) (M : Tag), S.nodes.length ≤ i → S'.tag i = some M → M.live = true → i ∈ rs

/-- The initializers of a type that read from references among `srcs`. -/
inductive LibBInit (srcs : List LenRef) : BTy w → ((t lo : Nat) → Layout w → B Unit) → Prop
  | fixedLen {pin : Bool} {R : RTy} : R.Ok w → LibBInit srcs (BTy.fixed pin w R) (fixedInit R srcs)
  | array {pin : Bool} {R : RTy} {L : LenTy} : R.Ok w → L.Ok w → LibBInit srcs (BTy.array pin w R L) (sizedInit R L srcs)
  | newtype {pin : Bool} {C : BTy w} {inv : V → Prop} {I : (t lo : Nat) → Layout w → B Unit} : LibBInit srcs C I → LibBInit srcs (BTy.newtype pin C inv) I
  | copy {C : BTy w} {src : LenRef} : LibBTy C → src ∈ srcs → LibBInit srcs C (copyInit src)
  | box {C : BTy w} : LibBTy C → LibBInit srcs C boxInit
  | tuple {pin : Bool} {fs : List (BTy w × ((t lo : Nat) → Layout w → B Unit))} : fs ≠ [] → (∀ f ∈ fs, LibBInit srcs f.1 f.2) →
      LibBInit srcs (BTy.tuple pin w (fs.map (·.1))) (aggInit 0 srcs (fs.map fun f => .varlen f.1 f.2))
  | struct {pin : Bool} {headSize headAlign : Nat} {fs : List (BFI w)} : HeaderOk headSize headAlign ((fs.map BFI.bfld).map BFld.fld) → (∀ C I, BFI.varlen C I ∈ fs → LibBInit srcs C I) →
      LibBInit srcs (BTy.struct pin w headSize headAlign (fs.map BFI.bfld)) (aggInit headSize srcs fs)

/-- The sources can be read, and none of their bytes is in `[lo, lo + n)`. -/
def Sources (S : Tree) (srcs : List LenRef) (lo n : Nat) : Prop := ∀ s ∈ srcs, CanRead S s.tag s.lo s.len ∧ (s.lo + s.len ≤ lo ∨ lo + n ≤ s.lo ∨ s.len = 0 ∨ n = 0)

/-- What a program can do next with the references into an allocation; `none` is undefined behaviour. -/
inductive Step (w : Nat) : Tree → Option Tree → Prop
  /-- Reading and writing. -/
  | read {S : Tree} {t lo n : Nat} : CanRead S t lo n → Step w S ((access t false lo n S).map (·.2))
  | write {S : Tree} {t lo n : Nat} : CanWrite S t lo n → Step w S ((access t true lo n S).map (·.2))
  /-- Writing to the inside of an `UnsafeCell` through a shared reference. -/
  | store {S : Tree} {t lo n : Nat} : CanStore S t lo n → Step w S ((access t true lo n S).map (·.2))
  /-- `&*t` and `&mut *t`, of a part of the bytes, also as the argument of a function (`prot`). The size `n` of the type may be less than the size `elen` of the object. -/
  | shared {S : Tree} {prot : Bool} {im : Nat → Bool} {t lo n elo elen : Nat} : CanRead S t elo elen → elo ≤ lo → lo + n ≤ elo + elen → Step w S ((retag t false prot im lo n elo elen S).map (·.2))
  | mutable {S : Tree} {prot : Bool} {im : Nat → Bool} {t lo n elo elen : Nat} : CanWrite S t elo elen → elo ≤ lo → lo + n ≤ elo + elen → Step w S ((retag t true prot im lo n elo elen S).map (·.2))
  /-- The last use of a reference is over; a function returns. -/
  | done {S : Tree} {t : Nat} {N : Tag} : S.tag t = some N → N.prot = false → Step w S ((kill t S).map (·.2))
  | returned {S : Tree} {t : Nat} {N : Tag} : S.tag t = some N → N.prot = true → Step w S ((ret t S).map (·.2))
  /-- `t.calculate_layout()`. -/
  | layout {S : Tree} {C : BTy w} {t lo : Nat} {l : Layout w} : LibBTy C → HasLayout C l → CanRead S t lo l.size.toNat → Step w S ((C.calcB t lo l S).map (·.2))
  /-- `t.refs()`, `t.muts()`, `t.try_set_layout_controllers(…)`. -/
  | refs {S : Tree} {hs : Nat} {fs : List (BFld w)} {t lo : Nat} {l : Layout w} : LibFields hs fs → FieldsLayout hs fs l → CanRead S t lo l.size.toNat →
      Step w S ((refs hs fs t lo l S).map (·.2))
  | muts {S : Tree} {pin : Bool} {hs : Nat} {fs : List (BFld w)} {t lo : Nat} {l : Layout w} : LibFields hs fs → FieldsLayout hs fs l → CanWrite S t lo l.size.toNat →
      Step w S ((muts pin hs fs t lo l S).map (·.2))
  | trySet {S : Tree} {pin valid : Bool} {hs : Nat} {fs : List (BFld w)} {t lo : Nat} {l : Layout w} : LibFields hs fs → FieldsLayout hs fs l → CanWrite S t lo l.size.toNat →
      Step w S ((trySet pin valid hs fs t lo l S).map (·.2))
  /-- `&t[..]`, `t.mut_slice()`. -/
  | deref {S : Tree} {pin : Bool} {R : RTy} {L : LenTy} {t lo : Nat} {l : Layout w} : R.Ok w → L.Ok w → HasLayout (BTy.array pin w R L) l → CanRead S t lo l.size.toNat →
      Step w S ((arrayDeref pin R L t lo l S).map (·.2))
  | mutSlice {S : Tree} {pin : Bool} {R : RTy} {L : LenTy} {t lo : Nat} {l : Layout w} : R.Ok w → L.Ok w → HasLayout (BTy.array pin w R L) l → CanWrite S t lo l.size.toNat →
      Step w S ((arrayMutSlice pin R L t lo l S).map (·.2))
  /-- The accessors of a newtype. -/
  | inner {S : Tree} {C : BTy w} {t lo : Nat} {l : Layout w} : LibBTy C → HasLayout C l → CanRead S t lo l.size.toNat → Step w S ((newtypeRef C t lo l S).map (·.2))
  | innerMut {S : Tree} {pin : Bool} {C : BTy w} {t lo : Nat} {l : Layout w} : LibBTy C → HasLayout C l → CanWrite S t lo l.size.toNat →
      Step w S ((newtypeMut pin C t lo l S).map (·.2))
  /-- Borrowing from a box, an owned object or a sequence, and their iterators. -/
  | asRef {S : Tree} {C : BTy w} {t lo : Nat} {l : Layout w} : LibBTy C → HasLayout C l → CanRead S t lo l.size.toNat → Step w S ((asRef C t lo l S).map (·.2))
  | asMut {S : Tree} {C : BTy w} {t lo : Nat} {l : Layout w} : LibBTy C → HasLayout C l → CanWrite S t lo l.size.toNat → Step w S ((asMut C t lo l S).map (·.2))
  | iterNext {S : Tree} {C : BTy w} {t lo : Nat} {l : Layout w} : LibBTy C → HasLayout C l → CanRead S t lo l.size.toNat → Step w S ((iterNext C t lo l S).map (·.2))
  | iterMutNext {S : Tree} {C : BTy w} {t lo : Nat} {l : Layout w} : LibBTy C → HasLayout C l → CanWrite S t lo l.size.toNat → Step w S ((iterMutNext C t lo l S).map (·.2))
  | ownedNext {S : Tree} {C : BTy w} {t lo : Nat} {l : Layout w} : LibBTy C → HasLayout C l → CanRead S t lo l.size.toNat → Step w S ((ownedNext C t lo l S).map (·.2))
  /-- Dropping an `Owned`. -/
  | ownedDrop {S : Tree} {C : BTy w} {t lo : Nat} {l : Layout w} : LibBTy C → HasLayout C l → CanWrite S t lo l.size.toNat → Step w S ((ownedDrop C t lo l S).map (·.2))
  /-- Initializing an object (by `VBox::new`, `Owned::new_in`) and appending one to a sequence (`bit` is the position of its byte in the bitmask). -/
  | init {S : Tree} {C : BTy w} {I : (t lo : Nat) → Layout w → B Unit} {srcs : List LenRef} {t lo : Nat} {l : Layout w} : LibBInit srcs C I → HasLayout C l → Sources S srcs lo l.size.toNat →
      CanWrite S t lo l.size.toNat → Step w S ((I t lo l S).map (·.2))
  | seqPush {S : Tree} {C : BTy w} {I : (t lo : Nat) → Layout w → B Unit} {srcs : List LenRef} {t bit lo : Nat} {l : Layout w} : LibBInit srcs C I → HasLayout C l → Sources S srcs lo l.size.toNat →
      CanWrite S t lo l.size.toNat → CanWrite S t bit 1 → Step w S ((seqPush bit I t lo l S).map (·.2))
  /-- Getting storage for a sequence, and clearing it. -/
  | allocStorage {S : Tree} {t mask n : Nat} : CanWrite S t mask n → Step w S ((allocStorage t mask n S).map (·.2))
  | growStorage {S : Tree} {t old oldN new newN : Nat} : CanRead S t old oldN → CanWrite S t new newN → oldN ≤ newN → old + oldN ≤ new → Step w S ((growStorage t old oldN new newN S).map (·.2))
  | takeElems {S : Tree} {t mask n : Nat} : CanWrite S t mask n → Step w S ((takeElems t mask n S).map (·.2))

/-- The trees a program can get to. -/
inductive Reach (w : Nat) : Tree → Prop
  | new (n : Nat) : Reach w (Tree.new n)
  | step {S S' : Tree} : Reach w S → Step w S (some S') → Reach w S'

/-- The elements of a sequence: objects one after the other, within the first `fin` bytes. -/
def Elems (C : BTy w) : List (Nat × Layout w) → Nat → Nat → Prop
  | [], cur, fin => cur ≤ fin
  | (lo, l) :: es, cur, fin => cur ≤ lo ∧ HasLayout C l ∧ Elems C es (lo + l.size.toNat) fin

/-- The last thing a program does with the allocation: dropping a box or a sequence, whose pointer has tag 0. -/
inductive End (w : Nat) : Tree → Option Tree → Prop
  | boxDrop {S : Tree} {C : BTy w} {l : Layout w} : LibBTy C → HasLayout C l → l.size.toNat ≤ S.size → CanWrite S 0 0 S.size → End w S ((boxDrop C 0 l S).map (·.2))
  | seqDrop {S : Tree} {C : BTy w} {mask n : Nat} {es : List (Nat × Layout w)} : LibBTy C → Elems C es 0 mask → mask + n ≤ S.size → CanWrite S 0 0 S.size →
      End w S ((seqDrop C 0 mask n es S).map (·.2))

end Varlen.TB
