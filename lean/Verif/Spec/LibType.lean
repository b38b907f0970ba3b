import Verif.Proofs.VBox
/-!
# Specification: the types and initializers a user of the library can build

`LibType`, `LibArrInit`, `LibInit` and `LibClone` enumerate the constructors the library offers, with arbitrary nesting. The side conditions
are what the Rust compiler guarantees (`RTy.Ok`, `LenTy.Ok`, `HeaderOk`), that values supplied by the user are values of their type, and, for
user-written `unsafe impl`s, the contract of the trait.
-/
namespace Varlen
variable {w : Nat}

/-- What the compiler guarantees about the `#[repr(C)]`-like head struct that `define_varlen` generates: header fields are inside it, aligned, and do not overlap.
Also that element types of array fields are Rust types. -/
structure HeaderOk (headSize headAlign : Nat) (fs : List (Fld w)) : Prop where
  head_pow2 : ∃ k, k < w ∧ headAlign = 2 ^ k
  head_lt : headSize < 2 ^ w
  normal : ∀ R off, Fld.normal R off ∈ fs → R.Ok w ∧ off + R.size ≤ headSize ∧ off % R.align = 0 ∧ R.align ∣ headAlign
  length : ∀ R off, Fld.length R off ∈ fs → R.Ok w ∧ off + R.size ≤ headSize ∧ off % R.align = 0 ∧ R.align ∣ headAlign
  array : ∀ R len, Fld.array R len ∈ fs → R.Ok w
  disjoint : fs.Pairwise fun a b =>
    a.range.2 = 0 ∨ b.range.2 = 0 ∨ a.range.1 + a.range.2 ≤ b.range.1 ∨ b.range.1 + b.range.2 ≤ a.range.1

/-- The variable-length types: the library's own (any nesting), and user-written implementations that satisfy the contract of `VarLen`. -/
inductive LibType : VarLen w → Prop
  | fixedLen {R : RTy} : R.Ok w → LibType (FixedLen w R)
  | array {R : RTy} {L : LenTy} : R.Ok w → L.Ok w → LibType (Array w R L)
  | str {L : LenTy} : 1 < w → L.Ok w → LibType (Str w L)
  | newtype {T : VarLen w} : LibType T → LibType (Newtype T)
  | tuple {Ts : List (VarLen w)} : Ts ≠ [] → (∀ T ∈ Ts, LibType T) → LibType (Tuple w Ts)
  | struct {headSize headAlign : Nat} {fs : List (Fld w)} : HeaderOk headSize headAlign fs → (∀ T, Fld.varlen T ∈ fs → LibType T) →
      LibType (Struct w headSize headAlign fs)
  | user {T : VarLen w} : Lawful T → LibType T

/-- The array initializers, and user-written ones that satisfy the contract of `ArrayInitializer`. -/
inductive LibArrInit (R : RTy) : ArrInit → Prop
  | fillSequentially {τ : Type} {f : Closure τ} {t : τ} : (∀ t i img t', f.call t i = (some img, t') → R.valid img = true) →
      LibArrInit R (FillSequentially R f t)
  | fillWithDefault {d : Option Img} : (∀ x, d = some x → R.valid x = true) → LibArrInit R (FillWithDefault R d)
  | fromIterPrefix {τ : Type} {it : IterFn τ} {t : τ} : (∀ t img t', it.next t = (.yield img, t') → R.valid img = true) →
      LibArrInit R (FromIterPrefix R it t)
  | copyFrom {src : Ptr} {xs : List Img} : (∀ x ∈ xs, R.valid x = true) → LibArrInit R (CopyFrom R src xs)
  | cloneFrom {c : CloneFn} {src : Ptr} {xs : List Img} : c.Ok R → (∀ x ∈ xs, R.valid x = true) → LibArrInit R (CloneFrom R c src xs)
  | moveFrom {xs : List Img} : (∀ x ∈ xs, R.valid x = true) → LibArrInit R (MoveFrom R xs)
  | user {I : ArrInit} : ArrInitLawful R I → LibArrInit R I

/-- The implementations of `VClone`. -/
inductive LibClone : VarLen w → VClone w → Prop
  | fixedLen {R : RTy} {c : CloneFn} : R.Ok w → c.Ok R → LibClone (FixedLen w R) (FixedLen.vclone w R c)
  | array {R : RTy} {L : LenTy} {c : CloneFn} : R.Ok w → L.Ok w → c.Ok R → LibClone (Array w R L) (Array.vcloneI w R L c)
  | str {L : LenTy} : 1 < w → L.Ok w → LibClone (Str w L) (Str.vclone w L)
  | newtype {T : VarLen w} {C : VClone w} : LibClone T C → LibClone (Newtype T) (Newtype.vclone C)
  | tuple {ts : List (VarLen w × VClone w)} : ts ≠ [] → (∀ t ∈ ts, LibClone t.1 t.2) → LibClone (Tuple w (ts.map (·.1))) (Tuple.vclone ts)
  | user {T : VarLen w} {C : VClone w} : LibType T → VCloneLawful T C → LibClone T C

/-- The initializers: literal values, sized arrays, `Array::copy` and friends, `Str::copy`, struct and tuple `Init`s, newtype `Init`s, clones, copies,
boxes, owned values (where that code is right, see C17), and user-written ones that satisfy the contract of `Initializer`. -/
inductive LibInit : VarLen w → Init w → Prop
  | fixedLen {R : RTy} {img : Img} : R.Ok w → R.valid img = true → LibInit (FixedLen w R) (FixedLen.init w R img)
  | sized {R : RTy} {L : LenTy} {len : Img} {I : ArrInit} : R.Ok w → L.Ok w → L.ty.valid len = true → LibArrInit R I →
      LibInit (Array w R L) (SizedInit w R L len I)
  | tryCopy {R : RTy} {L : LenTy} {src : Ptr} {xs : List Img} {I : Init w} : R.Ok w → L.Ok w → (∀ x ∈ xs, R.valid x = true) →
      Array.tryCopy w R L src xs = some I → LibInit (Array w R L) I
  | tryClone {R : RTy} {L : LenTy} {c : CloneFn} {src : Ptr} {xs : List Img} {I : Init w} : R.Ok w → L.Ok w → c.Ok R → (∀ x ∈ xs, R.valid x = true) →
      Array.tryCloneFromSlice w R L c src xs = some I → LibInit (Array w R L) I
  | str {L : LenTy} {src : Ptr} {t : String} {I : Init w} : 1 < w → L.Ok w → t.utf8ByteSize < 2 ^ w → Str.tryCopy w L src t = some I → LibInit (Str w L) I
  | newtype {T : VarLen w} {I : Init w} : LibInit T I → LibInit (Newtype T) (Newtype.init I)
  | tuple {fis : List (VarLen w × Init w)} : fis ≠ [] → (∀ f ∈ fis, LibInit f.1 f.2) → LibInit (Tuple w (fis.map (·.1))) (Tuple.init fis)
  | struct {headSize headAlign : Nat} {fis : List (FI w)} : HeaderOk headSize headAlign (fis.map FI.fld) →
      (∀ R off img, FI.normal R off img ∈ fis → R.valid img = true) → (∀ R off img, FI.length R off img ∈ fis → R.valid img = true) →
      (∀ T I, FI.varlen T I ∈ fis → LibInit T I) → (∀ R len I, FI.array R len I ∈ fis → LibArrInit R I) →
      LibInit (Struct w headSize headAlign (fis.map FI.fld)) (Struct.init headSize headAlign fis)
  | vclone {T : VarLen w} {C : VClone w} {s : St} {p : Ptr} {v : V} {l : Layout w} {I : Init w} : LibClone T C → Valid T s p v l → s.blk p.blk ≠ none →
      C.vclone p v s = .ok I s → LibInit T I
  | vcopy {T : VarLen w} {src : Ptr} {v : V} {l : Layout w} : LibType T → LibInit T (VCopier T src v l)
  | vbox {T : VarLen w} {p : Ptr} {v : V} {l : Layout w} : LibType T → LibInit T (VBox.init T p v l)
  | owned {T : VarLen w} {p : Ptr} {v : V} {l : Layout w} : LibType T → T.headSize = 1 → LibInit T (Owned.init T p v l)
  | user {T : VarLen w} {I : Init w} : LibType T → InitLawful T I → LibInit T I

/-- A `StructName::Init { … }` literal: what `LibInit.struct` requires. -/
structure StructLit (headSize headAlign : Nat) (fis : List (FI w)) : Prop where
  header : HeaderOk headSize headAlign (fis.map FI.fld)
  normal : ∀ R off img, FI.normal R off img ∈ fis → R.valid img = true
  length : ∀ R off img, FI.length R off img ∈ fis → R.valid img = true
  varlen : ∀ T I, FI.varlen T I ∈ fis → LibInit T I
  array : ∀ R len I, FI.array R len I ∈ fis → LibArrInit R I

/-- The caller's obligations for `Initializer::initialize(dst, layout)` (varlen/src/lib.rs:640-659): storage of `layout.size()` bytes aligned to
`ALIGN`, not overlapping what the initializer borrows or owns (guaranteed by exclusive access to the destination). -/
structure Suitable (T : VarLen w) (I : Init w) (s : St) (p : Ptr) (l : Layout w) : Prop where
  pre : I.pre s
  layout : I.cautious s = .ok (some l) s
  acc : Acc s p l.size.toNat
  aligned : Aligned s p T.ALIGN.toNat
  apart : ¬ I.fp p.blk

end Varlen
