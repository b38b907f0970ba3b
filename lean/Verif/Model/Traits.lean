import Verif.Model.Mem
/-!
# Rust leaf types, and the traits `VarLen`, `Layout`, `Initializer`

varlen/src/lib.rs:331-423 (`VarLen`), 548-551 (`Layout`), 619-659 (`Initializer`).
Each trait is a record of its code plus ghost specification fields; `Lawful`, `InitLawful` state the contracts
written in the traits' `# Safety` sections.
-/
namespace Varlen

/-- A Rust (sized) type as seen by the library: size, alignment, which byte images are values,
`needs_drop`, and the observable effects of dropping a value. `cells`: which of its bytes are inside an `UnsafeCell`; `freeze`: it contains no
`UnsafeCell` (not even one of size zero). These two matter only for the aliasing rules (Model/Borrow.lean). -/
structure RTy where
  size : Nat
  align : Nat
  valid : Img → Bool
  needsDrop : Bool
  dropEv : Img → List Event
  cells : Nat → Bool := fun _ => false
  freeze : Bool := true

/-- What the compiler guarantees about every type (on a target of pointer width `w`). -/
structure RTy.Ok (w : Nat) (R : RTy) : Prop where
  align_pow2 : ∃ k, k < w ∧ R.align = 2 ^ k
  dvd : R.align ∣ R.size
  size_lt : R.size < 2 ^ w
  valid_len : ∀ img, R.valid img = true → img.length = R.size

/-- `core::mem::size_of::<R>()` -/
def RTy.sizeOf (w : Nat) (R : RTy) : BitVec w := BitVec.ofNat w R.size
/-- `core::mem::align_of::<R>()` -/
def RTy.alignOf (w : Nat) (R : RTy) : BitVec w := BitVec.ofNat w R.align

/-- The effects of dropping a value (specification). -/
def RTy.drops (R : RTy) (img : Img) : List Event := if R.needsDrop then R.dropEv img else []

/-- A typed read `*p`: aligned, in bounds, and a valid value. -/
def readVal (R : RTy) (p : Ptr) : M Img := do
  checkAlign p R.align
  let img ← readBytes p R.size
  if R.valid img then pure img else ubM .invalidValue

/-- A typed write `ptr::write(p, v)`. -/
def writeVal (R : RTy) (p : Ptr) (img : Img) : M Unit := do
  checkAlign p R.align
  writeBytes p img

/-- Emit destructor effects. -/
def emit (es : List Event) : M Unit := fun s => .ok () { s with log := s.log ++ es }

/-- `core::ptr::drop_in_place::<R>(p)`. Nothing happens if the type has no drop glue. Otherwise the value must be valid; its
destructor's effects are logged and its bytes become uninitialised, so that using or dropping it again is an error. -/
def dropInPlace (R : RTy) (p : Ptr) : M Unit := do
  checkAlign p R.align
  if R.needsDrop then
    let img ← readVal R p
    emit (R.dropEv img)
    writeBytes p (List.replicate R.size none)
  else pure ()

/-- Values of variable-length types: a leaf value, an array of leaf values, or a tuple/struct. -/
inductive V where
  | leaf (img : Img)
  | arr (elems : List Img)
  | node (fields : List V)

/-- Values of the associated `Layout` types:
`fixed` = `FixedLenLayout` (varlen/src/lib.rs:697-710), `array` = `ArrayLayout` (varlen/src/array.rs:118-129),
`fields` = the layout structs generated for tuples (varlen/src/tuple.rs:107-121) and by `define_varlen`
(varlen_macro/src/lib.rs:273-286): the total size and, per tail field, its offset and its own layout; for array fields the
latter is the array length (`len`). -/
inductive Layout (w : Nat) where
  | fixed (size : BitVec w)
  | array (off len size : BitVec w)
  | len (n : BitVec w)
  | fields (size : BitVec w) (fs : List (BitVec w × Layout w))

/-- `Layout::size` (varlen/src/lib.rs:548-551, 706-710; varlen/src/array.rs:124-129). -/
def Layout.size {w : Nat} : Layout w → BitVec w
  | .fixed s => s
  | .array _ _ s => s
  | .len _ => 0
  | .fields s _ => s

/-- The trait `VarLen` (varlen/src/lib.rs:331-423). -/
structure VarLen (w : Nat) where
  /-- `size_of::<Self>()` -/
  headSize : Nat
  /-- `align_of::<Self>()` -/
  headAlign : Nat
  ALIGN : BitVec w
  NEEDS_VDROP : Bool
  /-- `needs_drop::<Self>()` -/
  headNeedsDrop : Bool
  calculateLayout : Ptr → M (Layout w)
  vdrop : Ptr → Layout w → M Unit
  /-- Ghost: "the bytes of the view represent value `v` with layout `l`". -/
  Rep : V → Layout w → View → Prop
  /-- Ghost: the destructor effects owed for a value. -/
  drops : V → List Event

/-- The object at `p` is valid: it lies in accessible memory, is aligned to `ALIGN` and
represents `v` with layout `l`. -/
structure Valid {w : Nat} (T : VarLen w) (s : St) (p : Ptr) (v : V) (l : Layout w) : Prop where
  acc : Acc s p l.size.toNat
  aligned : Aligned s p T.ALIGN.toNat
  rep : T.Rep v l (viewAt s p)

/-- `s'` differs from `s` at most in the bytes `[p, p+n)` and in the blocks in `own`. No block
appears or disappears; other blocks keep address, size, alignment and liveness. -/
structure Touch (s s' : St) (p : Ptr) (n : Nat) (own : Nat → Prop) : Prop where
  len : s'.blocks.length = s.blocks.length
  blk : ∀ b, ¬ own b → ∀ B, s.blk b = some B → ∃ d, s'.blk b = some { B with data := d } ∧
    ∀ i, ¬ (b = p.blk ∧ p.off ≤ i ∧ i < p.off + n) → d i = B.data i

/-- The two states agree on the blocks in `on`. -/
def Same (s s' : St) (on : Nat → Prop) : Prop := ∀ b, on b → s'.blk b = s.blk b

/-- The safety contract of `VarLen` (varlen/src/lib.rs:331-423, `# Safety` sections). -/
structure Lawful {w : Nat} (T : VarLen w) : Prop where
  /-- `ALIGN` is a power of 2 … -/
  align_pow2 : IsPow2 T.ALIGN
  /-- … and at least (hence a multiple of) `align_of::<Self>()`. -/
  head_align : T.headAlign ∣ T.ALIGN.toNat
  /-- The value is determined by the `size()` bytes of the object … -/
  rep_ext : ∀ v l o o', T.Rep v l o → (∀ i, i < l.size.toNat → o i = o' i) → T.Rep v l o'
  /-- … uniquely. -/
  rep_unique : ∀ v l o v' l', T.Rep v l o → T.Rep v' l' o → v = v' ∧ l = l'
  /-- The fixed-size head is part of the object. -/
  head_le : ∀ v l o, T.Rep v l o → T.headSize ≤ l.size.toNat
  /-- `calculate_layout` on a valid object succeeds, gives its layout and has no effect. -/
  calc_ok : ∀ s p v l, Valid T s p v l → T.calculateLayout p s = .ok l s
  /-- `vdrop` on a valid object succeeds, writes only inside the object, and has
  exactly the destructor effects owed. -/
  vdrop_ok : ∀ s p v l, Valid T s p v l →
    ∃ s', T.vdrop p l s = .ok () s' ∧ Touch s s' p l.size.toNat (fun _ => False) ∧
      s'.log = s.log ++ T.drops v ∧ s'.copied = s.copied
  /-- If `NEEDS_VDROP` is false, skipping `vdrop` is unobservable. -/
  no_vdrop : T.NEEDS_VDROP = false → ∀ v l o, T.Rep v l o → T.drops v = []

/-- The trait `Initializer` (varlen/src/lib.rs:619-659): its two methods as programs, the drop glue of the implementing type, and ghost
fields. `initialize` takes `self` by value, so what it does not move into the object is dropped by it, at the end or by unwinding. -/
structure Init (w : Nat) where
  /-- `calculate_layout_cautious` -/
  cautious : M (Option (Layout w))
  /-- `initialize` -/
  initTo : Ptr → Layout w → M Unit
  /-- Dropping the initializer without having used it. -/
  dropI : M Unit
  /-- Ghost: states in which the initializer is usable (its borrowed or owned sources are intact). -/
  pre : St → Prop
  /-- Ghost: the blocks it reads or owns. -/
  fp : Nat → Prop
  /-- Ghost: the blocks whose contents change when it is dropped. -/
  mods : Nat → Prop
  /-- Ghost: the blocks it owns; they are freed when the value has been moved out of them, and when it is dropped. -/
  owns : Nat → Prop
  /-- Ghost: the layout it reports. -/
  lay : Option (Layout w)
  /-- Ghost: `calculate_layout_cautious` panics (a length expression does, or user-written code). -/
  bad : Bool := false
  /-- Ghost: the value it constructs; `none` if `initialize` panics. -/
  val : Option V
  /-- Ghost: the destructor effects of dropping it. -/
  owes : List Event
  /-- Ghost: the destructor effects of `initialize` when it returns (of what was not moved into the object). -/
  left : List Event
  /-- Ghost: the destructor effects of `initialize` when it panics. -/
  lost : List Event

/-- The safety contract of `Initializer` (varlen/src/lib.rs:609-659). -/
structure InitLawful {w : Nat} (T : VarLen w) (I : Init w) : Prop where
  owns_mods : ∀ b, I.owns b → I.mods b
  mods_fp : ∀ b, I.mods b → I.fp b
  fp_exists : ∀ s b, I.pre s → I.fp b → s.blk b ≠ none
  /-- Usability depends only on the blocks of the footprint. -/
  stable : ∀ s s', I.pre s → Same s s' I.fp → I.pre s'
  /-- `calculate_layout_cautious` has no effect. It returns the layout, or `None`, … -/
  calc_ok : ∀ s, I.pre s → I.bad = false → I.cautious s = .ok I.lay s
  /-- … or panics, and reports no layout then. -/
  calc_panic : ∀ s, I.pre s → I.bad = true → I.cautious s = .panic .user s
  bad_lay : I.bad = true → I.lay = none
  /-- Dropping the initializer runs the destructors of what it holds and frees what it owns. -/
  drop_ok : ∀ s, I.pre s → ∃ s', I.dropI s = .ok () s' ∧ Touch s s' ⟨0, 0⟩ 0 I.mods ∧
      (∀ b, I.owns b → ∃ B, s'.blk b = some B ∧ B.live = false) ∧ s'.log = s.log ++ I.owes ∧ s'.copied = s.copied
  /-- `initialize` on suitable storage constructs the value with the reported layout
  and writes nothing else (except that owned sources are released). -/
  init_ok : ∀ s p l v, I.pre s → I.lay = some l → I.val = some v →
    Acc s p l.size.toNat → Aligned s p T.ALIGN.toNat → ¬ I.fp p.blk →
    ∃ s', I.initTo p l s = .ok () s' ∧ Touch s s' p l.size.toNat I.owns ∧
      (∀ b, I.owns b → ∃ B, s'.blk b = some B ∧ B.live = false) ∧
      T.Rep v l (viewAt s' p) ∧ s'.log = s.log ++ I.left ∧ s'.copied = s.copied
  /-- or panics, having written nothing outside the destination and the sources it owned, which it released. -/
  init_panic : ∀ s p l, I.pre s → I.lay = some l → I.val = none →
    Acc s p l.size.toNat → Aligned s p T.ALIGN.toNat → ¬ I.fp p.blk →
    ∃ m s', I.initTo p l s = .panic m s' ∧ Touch s s' p l.size.toNat I.mods ∧
      (∀ b, I.owns b → ∃ B, s'.blk b = some B ∧ B.live = false) ∧
      s'.log = s.log ++ I.lost ∧ s'.copied = s.copied

/-! ## `FixedLen` (varlen/src/lib.rs:685-770) -/

/-- `FixedLen<R>` (varlen/src/lib.rs:685-738). -/
def FixedLen (w : Nat) (R : RTy) : VarLen w where
  headSize := R.size
  headAlign := R.align
  ALIGN := R.alignOf w
  NEEDS_VDROP := true
  headNeedsDrop := R.needsDrop
  calculateLayout := fun _ => pure (.fixed (R.sizeOf w))
  vdrop := fun p _ => dropInPlace R p
  Rep := fun v l o => ∃ img, v = .leaf img ∧ l = .fixed (R.sizeOf w) ∧
    takeV o 0 R.size = img ∧ R.valid img = true
  drops := fun v => match v with
    | .leaf img => R.drops img
    | _ => []

/-- `FixedLen<R>` as its own initializer (varlen/src/lib.rs:712-720). -/
def FixedLen.init (w : Nat) (R : RTy) (img : Img) : Init w where
  cautious := pure (some (.fixed (R.sizeOf w)))
  initTo := fun p _ => writeVal R p img
  dropI := emit (R.drops img)
  pre := fun _ => True
  fp := fun _ => False
  mods := fun _ => False
  owns := fun _ => False
  lay := some (.fixed (R.sizeOf w))
  val := some (.leaf img)
  owes := R.drops img
  left := []
  lost := []

/-- `T::clone` for a leaf type, as a function from the value to its clone; `none` if it panics. -/
abbrev CloneFn := Img → Option Img

/-- `T: Clone` returns values of `T`. -/
def CloneFn.Ok (R : RTy) (c : CloneFn) : Prop := ∀ a b, R.valid a = true → c a = some b → R.valid b = true

/-- Run a leaf clone. -/
def runClone (c : CloneFn) (img : Img) : M Img :=
  match c img with
  | some r => pure r
  | none => panicM .user

/-- `FixedLenCloner` (varlen/src/lib.rs:750-767): clones the `R` at `src`, whose value is `img`. -/
def FixedLen.cloner (w : Nat) (R : RTy) (c : CloneFn) (src : Ptr) (img : Img) : Init w where
  cautious := pure (some (.fixed (R.sizeOf w)))
  initTo := fun p _ => do
    let a ← readVal R src
    let b ← runClone c a
    writeVal R p b
  dropI := pure ()
  pre := fun s => Valid (FixedLen w R) s src (.leaf img) (.fixed (R.sizeOf w)) ∧ s.blk src.blk ≠ none
  fp := fun b => b = src.blk
  mods := fun _ => False
  owns := fun _ => False
  lay := some (.fixed (R.sizeOf w))
  val := (c img).map .leaf
  owes := []
  left := []
  lost := []

/-- `VCopier` (varlen/src/lib.rs:526-545): a bytewise copy of the object at `src`, which has value `v` and layout `l`. -/
def VCopier {w : Nat} (T : VarLen w) (src : Ptr) (v : V) (l : Layout w) : Init w where
  cautious := do
    let l ← T.calculateLayout src
    pure (some l)
  initTo := fun dst l => copyNonoverlapping src dst 1 l.size.toNat
  dropI := pure ()
  pre := fun s => Valid T s src v l ∧ s.blk src.blk ≠ none
  fp := fun b => b = src.blk
  mods := fun _ => False
  owns := fun _ => False
  lay := some l
  val := some v
  owes := []
  left := []
  lost := []

end Varlen
