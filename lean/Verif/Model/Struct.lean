import Verif.Model.Array
/-!
# Tuples (varlen/src/tuple.rs) and `define_varlen` structs (code generated by varlen_macro/src/lib.rs)

Both consist of a fixed-size head followed by tail fields in declaration order. The list functions below are the
expansion of the macros' repetitions `#( … )*` / `$( … )*` over the fields.
-/
namespace Varlen
variable {w : Nat}

/-- A length expression: a function of the values of the layout-controlling fields (varlen_macro/src/lib.rs:288-298: printed as a `const fn` over references to all of
them). `defd` tells for which values it returns; for others it panics (a division by zero, or in a build with overflow checks an overflow) and `val` is meaningless. -/
structure LenFn (w : Nat) where
  val : List Img → BitVec w
  defd : List Img → Bool

instance : CoeFun (LenFn w) (fun _ => List Img → BitVec w) := ⟨LenFn.val⟩

/-- A length expression that never panics. -/
@[reducible] def LenFn.total (f : List Img → BitVec w) : LenFn w := ⟨f, fun _ => true⟩

/-- Evaluating a length expression. -/
def LenFn.eval (len : LenFn w) (lens : List Img) : M (BitVec w) := if len.defd lens then pure (len lens) else panicM .user

/-- A field of a `define_varlen` struct, by its kind (varlen_macro/src/lib.rs:1011-1018). Header fields have a
(compiler-chosen) byte offset in the head; the length of an array field is a function of the layout-controlling fields'
values (varlen_macro/src/lib.rs:288-298: `const fn` over references to all of them). -/
inductive Fld (w : Nat) where
  | normal (R : RTy) (off : Nat)
  | length (R : RTy) (off : Nat)
  | varlen (T : VarLen w)
  | array (R : RTy) (len : LenFn w)

/-- The values of the `#[controls_layout]` fields, in order, as read from a view of the object. -/
def lengthsOf (fs : List (Fld w)) (o : View) : List Img :=
  fs.filterMap fun f => match f with
    | .length R off => some (takeV o off R.size)
    | _ => none

/-- Reading `(&self.len1, &self.len2, …)` (varlen_macro/src/lib.rs:349-353). -/
def readLengths (p : Ptr) : List (Fld w) → M (List Img)
  | [] => pure []
  | .length R off :: fs => do
    let x ← readVal R (p.add off)
    let xs ← readLengths p fs
    pure (x :: xs)
  | _ :: fs => readLengths p fs

/-- The chain `let (ident, layout_ident, size) = cat_field_fast;` over all tail fields
(varlen_macro/src/lib.rs:355-357; varlen/src/tuple.rs:165-167). -/
def catFieldsFast (p : Ptr) (lens : List Img) : List (Fld w) → BitVec w → M (List (BitVec w × Layout w) × BitVec w)
  | [], cur => pure ([], cur)
  | .normal _ _ :: fs, cur => catFieldsFast p lens fs cur
  | .length _ _ :: fs, cur => catFieldsFast p lens fs cur
  | .varlen T :: fs, cur => do
    let (o, l, cur) ← catFieldFast T p cur
    let (ls, size) ← catFieldsFast p lens fs cur
    pure ((o, l) :: ls, size)
  | .array R len :: fs, cur => do
    let m ← len.eval lens
    let (o, n, cur) := catArrayFieldFast R m cur
    let (ls, size) ← catFieldsFast p lens fs cur
    pure ((o, .len n) :: ls, size)

/-- The chain of drops (varlen_macro/src/lib.rs:385-387 with 816-818, 852-854, 917-919, 1002-1004;
varlen/src/tuple.rs:179-181). -/
def vdropFields (p : Ptr) : List (Fld w) → List (BitVec w × Layout w) → M Unit
  | [], _ => pure ()
  | .normal R off :: fs, ls => do
    dropInPlace R (p.add off)
    vdropFields p fs ls
  | .length R off :: fs, ls => do
    dropInPlace R (p.add off)
    vdropFields p fs ls
  | .varlen T :: fs, (o, l) :: ls => do
    vdropField T p o l
    vdropFields p fs ls
  | .array R _ :: fs, (o, .len n) :: ls => do
    dropArray R p o n
    vdropFields p fs ls
  | _, _ => ubM .typeConfusion

/-- Does a field need dropping (varlen_macro/src/lib.rs:819-821, 855-857, 920-922, 1005-1007; varlen/src/tuple.rs:159-161). -/
def Fld.needsVdrop : Fld w → Bool
  | .normal R _ => R.needsDrop
  | .length R _ => R.needsDrop
  | .varlen T => T.NEEDS_VDROP
  | .array R _ => R.needsDrop

/-- Alignments of the tail fields (varlen_macro/src/lib.rs:889-893, 974-978; varlen/src/tuple.rs:156-158). -/
def tailAligns : List (Fld w) → List (BitVec w)
  | [] => []
  | .varlen T :: fs => T.ALIGN :: tailAligns fs
  | .array R _ :: fs => R.alignOf w :: tailAligns fs
  | _ :: fs => tailAligns fs

/-- Ghost: header fields hold the given values. -/
def RepHdr : List (Fld w) → List V → View → Prop
  | [], [], _ => True
  | .normal R off :: fs, .leaf img :: vs, o =>
    (takeV o off R.size = img ∧ R.valid img = true) ∧ RepHdr fs vs o
  | .length R off :: fs, .leaf img :: vs, o =>
    (takeV o off R.size = img ∧ R.valid img = true) ∧ RepHdr fs vs o
  | .varlen _ :: fs, _ :: vs, o => RepHdr fs vs o
  | .array _ _ :: fs, _ :: vs, o => RepHdr fs vs o
  | _, _, _ => False

/-- Ghost: the tail fields from position `cur` to `fin` hold the given values; each starts at the least suitably aligned offset
not before the end of the previous one. -/
def RepTails (lens : List Img) : List (Fld w) → List V → List (BitVec w × Layout w) → Nat → Nat → View → Prop
  | [], [], [], cur, fin, _ => cur = fin
  | .normal _ _ :: fs, _ :: vs, ls, cur, fin, o => RepTails lens fs vs ls cur fin o
  | .length _ _ :: fs, _ :: vs, ls, cur, fin, o => RepTails lens fs vs ls cur fin o
  | .varlen T :: fs, v :: vs, (off, l) :: ls, cur, fin, o =>
    (off.toNat = roundUpN cur T.ALIGN.toNat ∧ T.Rep v l (shift off.toNat o)) ∧
    RepTails lens fs vs ls (off.toNat + l.size.toNat) fin o
  | .array R len :: fs, .arr xs :: vs, (off, .len n) :: ls, cur, fin, o =>
    (off.toNat = roundUpN cur R.align ∧ n = len lens ∧ elemsV o off.toNat R.size n.toNat = xs ∧
      (∀ x ∈ xs, R.valid x = true) ∧ len.defd lens = true) ∧
    RepTails lens fs vs ls (off.toNat + n.toNat * R.size) fin o
  | _, _, _, _, _, _ => False

/-- Ghost: representation of a tuple/struct value. -/
def aggRep (headSize : Nat) (fs : List (Fld w)) (v : V) (l : Layout w) (o : View) : Prop :=
  ∃ vs ls size, v = .node vs ∧ l = .fields size ls ∧ RepHdr fs vs o ∧
    RepTails (lengthsOf fs o) fs vs ls headSize size.toNat o

/-- Ghost: destructor effects of the fields, in declaration order. -/
def fieldDrops : List (Fld w) → List V → List Event
  | .normal R _ :: fs, .leaf img :: vs => R.drops img ++ fieldDrops fs vs
  | .length R _ :: fs, .leaf img :: vs => R.drops img ++ fieldDrops fs vs
  | .varlen T :: fs, v :: vs => T.drops v ++ fieldDrops fs vs
  | .array R _ :: fs, .arr xs :: vs => xs.flatMap R.drops ++ fieldDrops fs vs
  | _, _ => []

/-- Ghost: effects for a tuple/struct value. -/
def aggDrops (fs : List (Fld w)) : V → List Event
  | .node vs => fieldDrops fs vs
  | _ => []

/-- Generated `calculate_layout` (varlen_macro/src/lib.rs:347-365; varlen/src/tuple.rs:163-172). -/
def aggCalc (headSize : Nat) (fs : List (Fld w)) (p : Ptr) : M (Layout w) := do
  let lens ← readLengths p fs
  let (ls, size) ← catFieldsFast p lens fs (BitVec.ofNat w headSize)
  pure (.fields size ls)

/-- Generated `vdrop` (varlen_macro/src/lib.rs:382-388; varlen/src/tuple.rs:174-182). -/
def aggVdrop (fs : List (Fld w)) (p : Ptr) (l : Layout w) : M Unit :=
  match l with
  | .fields _ ls => vdropFields p fs ls
  | _ => ubM .typeConfusion

/-- A `define_varlen` struct with the given head size/alignment and fields (varlen_macro/src/lib.rs:329-389). -/
def Struct (w headSize headAlign : Nat) (fs : List (Fld w)) : VarLen w where
  headSize := headSize
  headAlign := headAlign
  ALIGN := arrayMax (BitVec.ofNat w headAlign :: tailAligns fs)
  NEEDS_VDROP := fs.any Fld.needsVdrop
  headNeedsDrop := true
  calculateLayout := aggCalc headSize fs
  vdrop := aggVdrop fs
  Rep := aggRep headSize fs
  drops := aggDrops fs

/-- A tuple `TupN<T1, …, Tn>` (varlen/src/tuple.rs:128-183): zero-sized head of alignment 1; `vdrop` returns early when
`NEEDS_VDROP` is false. -/
def Tuple (w : Nat) (Ts : List (VarLen w)) : VarLen w where
  headSize := 0
  headAlign := 1
  ALIGN := arrayMax (Ts.map (·.ALIGN))
  NEEDS_VDROP := Ts.any (·.NEEDS_VDROP)
  headNeedsDrop := true
  calculateLayout := aggCalc 0 (Ts.map .varlen)
  vdrop := fun p l => if Ts.any (·.NEEDS_VDROP) = false then pure () else aggVdrop (Ts.map .varlen) p l
  Rep := aggRep 0 (Ts.map .varlen)
  drops := aggDrops (Ts.map .varlen)

/-! ## Initializers -/

/-- A field together with its initializer in the generated `Init` struct (varlen_macro/src/lib.rs:300-305): a value for header
fields, an `Initializer` for `#[varlen]` fields, an `ArrayInitializer` for `#[varlen_array]` fields. -/
inductive FI (w : Nat) where
  | normal (R : RTy) (off : Nat) (img : Img)
  | length (R : RTy) (off : Nat) (img : Img)
  | varlen (T : VarLen w) (I : Init w)
  | array (R : RTy) (len : LenFn w) (I : ArrInit)

/-- The field of a field initializer. -/
def FI.fld : FI w → Fld w
  | .normal R off _ => .normal R off
  | .length R off _ => .length R off
  | .varlen T _ => .varlen T
  | .array R len _ => .array R len

/-- `(&self.len1, …)` of the `Init` struct (varlen_macro/src/lib.rs:397-401). -/
def initLengths (fis : List (FI w)) : List Img :=
  fis.filterMap fun f => match f with
    | .length _ _ img => some img
    | _ => none

/-- The chain of `cat_field_cautious` (varlen_macro/src/lib.rs:403-405; varlen/src/tuple.rs:191-195). -/
def catFieldsCautious (lens : List Img) : List (FI w) → BitVec w → M (Option (List (BitVec w × Layout w) × BitVec w))
  | [], cur => pure (some ([], cur))
  | .normal _ _ _ :: fs, cur => catFieldsCautious lens fs cur
  | .length _ _ _ :: fs, cur => catFieldsCautious lens fs cur
  | .varlen T I :: fs, cur => do
    match ← catFieldCautious T.ALIGN I cur with
    | none => pure none
    | some (o, l, cur) =>
      match ← catFieldsCautious lens fs cur with
      | none => pure none
      | some (ls, size) => pure (some ((o, l) :: ls, size))
  | .array R len _ :: fs, cur => do
    match catArrayFieldCautious R (← len.eval lens) cur with
    | none => pure none
    | some (o, n, cur) =>
      match ← catFieldsCautious lens fs cur with
      | none => pure none
      | some (ls, size) => pure (some ((o, .len n) :: ls, size))

/-- Generated `calculate_layout_cautious` (varlen_macro/src/lib.rs:396-413; varlen/src/tuple.rs:186-200). -/
def aggCautious (headSize : Nat) (fis : List (FI w)) : M (Option (Layout w)) := do
  match ← catFieldsCautious (initLengths fis) fis (BitVec.ofNat w headSize) with
  | none => pure none
  | some (ls, size) => pure (some (.fields size ls))

/-- Dropping a field of the generated `Init` struct. -/
def FI.dropI : FI w → M Unit
  | .normal R _ img => emit (R.drops img)
  | .length R _ img => emit (R.drops img)
  | .varlen _ I => I.dropI
  | .array _ _ I => I.dropI

/-- Dropping fields one after the other. -/
def dropFIs : List (FI w) → M Unit
  | [] => pure ()
  | f :: fs => do
    f.dropI
    dropFIs fs

/-- Dropping the header values `done` that have been moved out of `self` (last moved first). -/
def doneDrops (done : List (RTy × Img)) : List Event := done.flatMap fun d => d.1.drops d.2

/-- Unwinding out of `initialize` while the literal is evaluated. The header values already moved into temporaries are dropped, the last one
first; then what is left of `self`. A struct's `self` drops its remaining fields `rest` in declaration order (varlen_macro/src/lib.rs:415-424); a
tuple's has been taken apart into local variables, dropped in reverse order (varlen/src/tuple.rs:207). The fields already constructed in the destination are
not dropped: their markers have no drop glue (varlen/src/marker.rs). -/
def unwindInit (tup : Bool) (done : List (RTy × Img)) (rest : List (FI w)) : M Unit := do
  emit (doneDrops done)
  dropFIs (if tup then rest.reverse else rest)

/-- Initialising the tail fields in declaration order, while evaluating the struct literal
(varlen_macro/src/lib.rs:419-423 with 908-910, 993-995; varlen/src/tuple.rs:208-217). `done` are the header values moved so far, last first. -/
def initTails (tup : Bool) (p : Ptr) : List (RTy × Img) → List (FI w) → List (BitVec w × Layout w) → M Unit
  | _, [], _ => pure ()
  | done, .normal R _ img :: fs, ls => initTails tup p ((R, img) :: done) fs ls
  | done, .length R _ img :: fs, ls => initTails tup p ((R, img) :: done) fs ls
  | done, .varlen _ I :: fs, (o, l) :: ls => do
    onUnwind (initField I p o l) (unwindInit tup done fs)
    initTails tup p done fs ls
  | done, .array R _ I :: fs, (o, .len n) :: ls => do
    onUnwind (initArray R I p o n) (unwindInit tup done fs)
    initTails tup p done fs ls
  | _, _, _ => ubM .typeConfusion

/-- The byte image of the head: field values at their offsets, padding uninitialised. -/
def hdrView : List (FI w) → View
  | [] => fun _ => none
  | .normal _ off img :: fs => overwrite (hdrView fs) off img
  | .length _ off img :: fs => overwrite (hdrView fs) off img
  | _ :: fs => hdrView fs

/-- Generated `initialize` (varlen_macro/src/lib.rs:415-424; varlen/src/tuple.rs:202-219): the tail fields are initialised while
the head literal is evaluated, then the head is written. -/
def aggInit (tup : Bool) (headSize headAlign : Nat) (fis : List (FI w)) (p : Ptr) (l : Layout w) : M Unit :=
  match l with
  | .fields _ ls => do
    initTails tup p [] fis ls
    checkAlign p headAlign
    writeBytes p (takeV (hdrView fis) 0 headSize)
  | _ => ubM .typeConfusion

/-- Ghost: usable in this state. -/
def FI.pre : FI w → St → Prop
  | .varlen _ I, s => I.pre s
  | .array _ _ I, s => I.pre s
  | _, _ => True

/-- Ghost: footprint. -/
def FI.fp : FI w → Nat → Prop
  | .varlen _ I, b => I.fp b
  | .array _ _ I, b => I.fp b
  | _, _ => False

/-- Ghost: blocks changed by a drop. -/
def FI.mods : FI w → Nat → Prop
  | .varlen _ I, b => I.mods b
  | _, _ => False

/-- Ghost: owned sources. -/
def FI.owns : FI w → Nat → Prop
  | .varlen _ I, b => I.owns b
  | _, _ => False

/-- Ghost: layouts the checked computation gives, using the reported layouts of the field initializers. -/
def layFields (lens : List Img) : List (FI w) → BitVec w → Option (List (BitVec w × Layout w) × BitVec w)
  | [], cur => some ([], cur)
  | .normal _ _ _ :: fs, cur => layFields lens fs cur
  | .length _ _ _ :: fs, cur => layFields lens fs cur
  | .varlen T I :: fs, cur =>
    match checkedAdd cur (T.ALIGN - 1) with
    | none => none
    | some o =>
      match I.lay with
      | none => none
      | some l =>
        match checkedAdd (maskDown o T.ALIGN) l.size with
        | none => none
        | some cur =>
          match layFields lens fs cur with
          | none => none
          | some (ls, size) => some ((maskDown o T.ALIGN, l) :: ls, size)
  | .array R len _ :: fs, cur =>
    if len.defd lens then
      match catArrayFieldCautious R (len lens) cur with
      | none => none
      | some (o, n, cur) =>
        match layFields lens fs cur with
        | none => none
        | some (ls, size) => some ((o, .len n) :: ls, size)
    else none

/-- Ghost: whether the checked computation panics, i.e. gets to a field whose initializer or whose length expression does. -/
def badFields (lens : List Img) : List (FI w) → BitVec w → Bool
  | [], _ => false
  | .normal _ _ _ :: fs, cur => badFields lens fs cur
  | .length _ _ _ :: fs, cur => badFields lens fs cur
  | .varlen T I :: fs, cur =>
    match checkedAdd cur (T.ALIGN - 1) with
    | none => false
    | some o =>
      if I.bad then true else
      match I.lay with
      | none => false
      | some l =>
        match checkedAdd (maskDown o T.ALIGN) l.size with
        | none => false
        | some cur => badFields lens fs cur
  | .array R len _ :: fs, cur =>
    if len.defd lens then
      match catArrayFieldCautious R (len lens) cur with
      | none => false
      | some (_, _, cur) => badFields lens fs cur
    else true

/-- Ghost: the values of the fields; `none` if one of the initializers panics. -/
def valFields (lens : List Img) : List (FI w) → Option (List V)
  | [] => some []
  | .normal _ _ img :: fs => (valFields lens fs).map (.leaf img :: ·)
  | .length _ _ img :: fs => (valFields lens fs).map (.leaf img :: ·)
  | .varlen _ I :: fs => I.val.bind fun v => (valFields lens fs).map (v :: ·)
  | .array _ len I :: fs => (I.vals (len lens).toNat).bind fun xs => (valFields lens fs).map (.arr xs :: ·)

/-- Ghost: effects of dropping a field of the `Init` struct. -/
def FI.owes : FI w → List Event
  | .normal R _ img => R.drops img
  | .length R _ img => R.drops img
  | .varlen _ I => I.owes
  | .array _ _ I => I.owes

/-- Ghost: destructor effects when all fields are initialised. -/
def leftFields (lens : List Img) : List (FI w) → List Event
  | [] => []
  | .normal _ _ _ :: fs => leftFields lens fs
  | .length _ _ _ :: fs => leftFields lens fs
  | .varlen _ I :: fs => I.left ++ leftFields lens fs
  | .array _ len I :: fs => I.left (len lens).toNat ++ leftFields lens fs

/-- Ghost: destructor effects when one of them panics. -/
def lostFields (tup : Bool) (lens : List Img) : List (RTy × Img) → List (FI w) → List Event
  | _, [] => []
  | done, .normal R _ img :: fs => lostFields tup lens ((R, img) :: done) fs
  | done, .length R _ img :: fs => lostFields tup lens ((R, img) :: done) fs
  | done, .varlen _ I :: fs =>
    match I.val with
    | some _ => I.left ++ lostFields tup lens done fs
    | none => I.lost ++ doneDrops done ++ (if tup then fs.reverse else fs).flatMap FI.owes
  | done, .array _ len I :: fs =>
    match I.vals (len lens).toNat with
    | some _ => I.left (len lens).toNat ++ lostFields tup lens done fs
    | none => I.lost (len lens).toNat ++ doneDrops done ++ (if tup then fs.reverse else fs).flatMap FI.owes

/-- The generated initializer of a struct (varlen_macro/src/lib.rs:391-425), and of a tuple
(varlen/src/tuple.rs:185-220) with `tup = true`, `headSize = 0`, `headAlign = 1`. Its drop glue drops the fields in order. Ghost precondition: the
field initializers are usable and no one's footprint contains something that dropping another one changes. -/
def aggInitializer (tup : Bool) (headSize headAlign : Nat) (fis : List (FI w)) : Init w where
  cautious := aggCautious headSize fis
  initTo := aggInit tup headSize headAlign fis
  dropI := dropFIs fis
  pre := fun s => (∀ f ∈ fis, f.pre s) ∧ fis.Pairwise fun a b => ∀ x, (a.mods x → ¬ b.fp x) ∧ (b.mods x → ¬ a.fp x)
  fp := fun b => ∃ f ∈ fis, f.fp b
  mods := fun b => ∃ f ∈ fis, f.mods b
  owns := fun b => ∃ f ∈ fis, f.owns b
  lay := (layFields (initLengths fis) fis (BitVec.ofNat w headSize)).map fun (ls, size) => .fields size ls
  bad := badFields (initLengths fis) fis (BitVec.ofNat w headSize)
  val := (valFields (initLengths fis) fis).map .node
  owes := fis.flatMap FI.owes
  left := leftFields (initLengths fis) fis
  lost := lostFields tup (initLengths fis) [] fis

/-- `StructName::Init { … }`. -/
def Struct.init (headSize headAlign : Nat) (fis : List (FI w)) : Init w := aggInitializer false headSize headAlign fis

/-- `tupN::Init(…)`. -/
def Tuple.init (fis : List (VarLen w × Init w)) : Init w := aggInitializer true 0 1 (fis.map fun (T, I) => .varlen T I)

/-! ## Access -/

/-- A component of the generated `Refs` / `Muts` (varlen_macro/src/lib.rs:307-319): reference to a header field, to a varlen
field, or a slice. -/
inductive FRef where
  | val (p : Ptr)
  | field (p : Ptr)
  | slice (s : Slice)

/-- Building `Refs { … }` / `Muts { … }` from the layout (varlen_macro/src/lib.rs:429-452 with 810-815, 846-851, 911-916, 996-1001;
varlen/src/tuple.rs:132-151). The two differ only in the mutability of the references. -/
def refFields (p : Ptr) : List (Fld w) → List (BitVec w × Layout w) → M (List FRef)
  | [], _ => pure []
  | .normal R off :: fs, ls => do
    mkRef (p.add off) R.size R.align
    let r ← refFields p fs ls
    pure (.val (p.add off) :: r)
  | .length R off :: fs, ls => do
    mkRef (p.add off) R.size R.align
    let r ← refFields p fs ls
    pure (.val (p.add off) :: r)
  | .varlen T :: fs, (o, _) :: ls => do
    let q ← refField T p o
    let r ← refFields p fs ls
    pure (.field q :: r)
  | .array R _ :: fs, (o, .len n) :: ls => do
    let sl ← refArray R p o n
    let r ← refFields p fs ls
    pure (.slice sl :: r)
  | _, _ => ubM .typeConfusion

/-- `refs()` / `muts()` (varlen_macro/src/lib.rs:427-452; varlen/src/tuple.rs:132-151). -/
def aggRefs (headSize : Nat) (fs : List (Fld w)) (p : Ptr) : M (List FRef) := do
  match ← aggCalc headSize fs p with
  | .fields _ ls => refFields p fs ls
  | _ => ubM .typeConfusion

/-- Whether the component of `Muts` for a field is a mutable reference (varlen_macro/src/lib.rs:804-806 `&'a mut`, 840-842 `&'a` for
`#[controls_layout]`, 905-907 `Pin<&'a mut>`, 990-992 `&'a mut [_]`; varlen/src/tuple.rs:90-92 `Pin<&'a mut>`). -/
def Fld.mutable : Fld w → Bool
  | .length _ _ => false
  | _ => true

/-- `muts()` (varlen_macro/src/lib.rs:427-441; varlen/src/tuple.rs:132-141): the references, each with its mutability. -/
def aggMuts (headSize : Nat) (fs : List (Fld w)) (p : Ptr) : M (List (Bool × FRef)) := do
  let rs ← aggRefs headSize fs p
  pure ((fs.map Fld.mutable).zip rs)

/-- The lengths of all array fields, as computed from given controller values. -/
def arrayLens (fs : List (Fld w)) (lens : List Img) : List (BitVec w) :=
  fs.filterMap fun f => match f with
    | .array _ len => some (len lens)
    | _ => none

/-- `self_mut.len_i = layout_controllers.len_i;` for each controller (varlen_macro/src/lib.rs:475-477): an assignment drops the
old value. -/
def setLengths (p : Ptr) : List (Fld w) → List Img → M Unit
  | [], _ => pure ()
  | .length R off :: fs, x :: xs => do
    dropInPlace R (p.add off)
    writeVal R (p.add off) x
    setLengths p fs xs
  | .length _ _ :: _, [] => ubM .typeConfusion
  | _ :: fs, xs => setLengths p fs xs

/-- The effects of dropping the moved-in `LayoutControllers` value: its fields in declaration order. -/
def controllerDrops : List (Fld w) → List Img → List Event
  | .length R _ :: fs, x :: xs => R.drops x ++ controllerDrops fs xs
  | .length _ _ :: _, [] => []
  | _ :: fs, xs => controllerDrops fs xs
  | [], _ => []

/-- `valid = true & (len_1(before) == len_1(after)) & …` (varlen_macro/src/lib.rs:467-473). The operator `&` evaluates all of its operands. -/
def sameLens (before after : List Img) : List (Fld w) → M Bool
  | [] => pure true
  | .array _ len :: fs => do
    let a ← len.eval before
    let b ← len.eval after
    let r ← sameLens before after fs
    pure (a == b && r)
  | _ :: fs => sameLens before after fs

/-- `try_set_layout_controllers` (varlen_macro/src/lib.rs:454-483). `true` = `Ok(())`, `false` = `Err(LayoutMismatch)`, in which
case the by-value argument is dropped on return; so it is if a length expression panics. -/
def trySetLayoutControllers (fs : List (Fld w)) (p : Ptr) (new : List Img) : M Bool := do
  let before ← readLengths p fs
  if ← onUnwind (sameLens before new fs) (emit (controllerDrops fs new)) then do
    setLengths p fs new
    pure true
  else do
    emit (controllerDrops fs new)
    pure false

/-! ## Cloning (varlen/src/lib.rs:441-477) -/

/-- The trait `VClone`: `vclone` (its second argument, the value, is ghost), and the ghost value of a clone. -/
structure VClone (w : Nat) where
  vclone : Ptr → V → M (Init w)
  cloneV : V → Option V

/-- The initializer only borrows: it holds no value with a destructor. -/
def Init.Borrows (I : Init w) : Prop := I.owes = [] ∧ I.left = [] ∧ I.lost = []

/-- What `vclone` must give: an initializer for a clone, borrowing the original. -/
structure VCloneLawful (T : VarLen w) (C : VClone w) : Prop where
  ok : ∀ s p v l, Valid T s p v l → s.blk p.blk ≠ none →
    ∃ I, C.vclone p v s = .ok I s ∧ InitLawful T I ∧ I.pre s ∧ I.lay = some l ∧ (∀ b, ¬ I.mods b) ∧
      (∀ b, I.fp b → b = p.blk) ∧ I.val = C.cloneV v ∧ I.Borrows

/-- `FixedLen::vclone` (varlen/src/lib.rs:752-757). -/
def FixedLen.vclone (w : Nat) (R : RTy) (c : CloneFn) : VClone w where
  vclone := fun p v => match v with
    | .leaf img => pure (FixedLen.cloner w R c p img)
    | _ => ubM .typeConfusion
  cloneV := fun v => match v with
    | .leaf img => (c img).map .leaf
    | _ => none

/-- `Array::vclone` as a `VClone` instance (varlen/src/array.rs:314-319). -/
def Array.vcloneI (w : Nat) (R : RTy) (L : LenTy) (c : CloneFn) : VClone w where
  vclone := fun p v => match v with
    | .arr xs => Array.vclone w R L c p xs
    | _ => ubM .typeConfusion
  cloneV := fun v => match v with
    | .arr xs => (cloneAll c xs).map .arr
    | _ => none

/-- The cloners of the fields of a tuple, from the references `refs()` returned (varlen/src/tuple.rs:224-230). -/
def cloneFields : List (VarLen w × VClone w) → List FRef → List V → M (List (VarLen w × Init w))
  | [], [], [] => pure []
  | (T, C) :: ts, .field q :: rs, v :: vs => do
    let I ← C.vclone q v
    let r ← cloneFields ts rs vs
    pure ((T, I) :: r)
  | _, _, _ => ubM .typeConfusion

/-- The clones of a list of field values. -/
def cloneVs : List (VarLen w × VClone w) → List V → Option (List V)
  | [], [] => some []
  | (_, C) :: ts, v :: vs => (C.cloneV v).bind fun v' => (cloneVs ts vs).map (v' :: ·)
  | _, _ => none

/-- Tuple `vclone` (varlen/src/tuple.rs:222-232); `Cloner` forwards to `Init` (varlen/src/newtype.rs:296-315). -/
def Tuple.vclone (ts : List (VarLen w × VClone w)) : VClone w where
  vclone := fun p v => match v with
    | .node vs => do
      let rs ← aggRefs (w := w) 0 (ts.map fun t => .varlen t.1) p
      let is ← cloneFields ts rs vs
      pure (Tuple.init is)
    | _ => ubM .typeConfusion
  cloneV := fun v => match v with
    | .node vs => (cloneVs ts vs).map .node
    | _ => none

end Varlen
