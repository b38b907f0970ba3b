import Verif.Model.ArrayInit
/-! # varlen/src/array.rs -/
namespace Varlen
variable {w : Nat}

/-- Little-endian encoding of `n` in `k` bytes. (Endianness is a model choice; nothing in the library depends on it.) -/
def encLE : Nat → Nat → Img
  | 0, _ => []
  | k + 1, n => some (BitVec.ofNat 8 n) :: encLE k (n / 256)

/-- Little-endian decoding. -/
def decLE : Img → Nat
  | [] => 0
  | b :: bs => (b.getD 0).toNat + 256 * decLE bs

/-- An array length type, `trait ArrayLen` (varlen/src/array.rs:392-414, impls 416-448): `usize`, `u8`, `u16`, `u32` or `u64`, given by its size and
alignment on the target. -/
structure LenTy where
  bytes : Nat
  align : Nat
  isUsize : Bool

/-- Guarantees of the compiler about integer types. -/
structure LenTy.Ok (w : Nat) (L : LenTy) : Prop where
  align_pow2 : ∃ k, k < w ∧ L.align = 2 ^ k
  dvd : L.align ∣ L.bytes
  size_lt : L.bytes < 2 ^ w
  usize : L.isUsize = true → 8 * L.bytes = w

/-- The integer type as a leaf type. -/
def LenTy.ty (L : LenTy) : RTy where
  size := L.bytes
  align := L.align
  valid := fun img => img.length == L.bytes && img.all (·.isSome)
  needsDrop := false
  dropEv := fun _ => []

/-- `ArrayLen::as_usize` (varlen/src/array.rs:418-420, 433-435): the identity for `usize`, else the cast `self as usize`, which
truncates if the type is wider than `usize`. -/
def LenTy.asUsize (w : Nat) (_L : LenTy) (img : Img) : BitVec w := BitVec.ofNat w (decLE img)

/-- `ArrayLen::from_usize` (varlen/src/array.rs:423-425, 438-440): `Some(x)` for `usize`, else `try_from(x).ok()`. -/
def LenTy.fromUsize (L : LenTy) (x : BitVec w) : Option Img :=
  if L.isUsize then some (encLE L.bytes x.toNat)
  else if x.toNat < 2 ^ (8 * L.bytes) then some (encLE L.bytes x.toNat) else none

/-- `Array::calculate_layout` (varlen/src/array.rs:134-144). `size_of::<Self>()` is the size of the length (the marker is zero-sized,
varlen/src/marker.rs). -/
def Array.calculateLayout (R : RTy) (L : LenTy) (p : Ptr) : M (Layout w) := do
  let len ← readVal L.ty p
  let (o, n, sz) := catArrayFieldFast R (L.asUsize w len) (L.ty.sizeOf w)
  pure (.array o n sz)

/-- `Array<R, L>` (varlen/src/array.rs:101-160). -/
def Array (w : Nat) (R : RTy) (L : LenTy) : VarLen w where
  headSize := L.bytes
  headAlign := L.align
  ALIGN := arrayMax [L.ty.alignOf w, R.alignOf w]
  NEEDS_VDROP := R.needsDrop
  headNeedsDrop := false
  calculateLayout := Array.calculateLayout R L
  vdrop := fun p l =>
    match l with
    | .array o n _ => dropArray R p o n
    | _ => ubM .typeConfusion
  Rep := fun v l o => ∃ (off n size : BitVec w) (xs : List Img),
    v = .arr xs ∧ l = .array off n size ∧
    L.ty.valid (takeV o 0 L.bytes) = true ∧ n = L.asUsize w (takeV o 0 L.bytes) ∧
    off.toNat = roundUpN L.bytes R.align ∧ size.toNat = off.toNat + n.toNat * R.size ∧
    elemsV o off.toNat R.size n.toNat = xs ∧ ∀ x ∈ xs, R.valid x = true
  drops := fun v => match v with
    | .arr xs => xs.flatMap R.drops
    | _ => []

/-- The layout `SizedInit::calculate_layout_cautious` reports (varlen/src/array.rs:354-363). -/
def SizedInit.cautious (w : Nat) (R : RTy) (L : LenTy) (len : Img) : Option (Layout w) :=
  (catArrayFieldCautious R (L.asUsize w len) (L.ty.sizeOf w)).map fun (o, n, sz) => .array o n sz

/-- `init_array` (varlen/src/macro_support.rs:74-86). -/
def initArray (R : RTy) (I : ArrInit) (base : Ptr) (offset len : BitVec w) : M Unit := do
  let arr ← refArray R base offset len
  I.run arr

/-- `SizedInit(len, init)` (varlen/src/array.rs:351-380). -/
def SizedInit (w : Nat) (R : RTy) (L : LenTy) (len : Img) (I : ArrInit) : Init w where
  cautious := pure (SizedInit.cautious w R L len)
  initTo := fun dst l =>
    match l with
    | .array o n _ => do
      initArray R I dst o n
      writeVal L.ty dst len
    | _ => ubM .typeConfusion
  dropI := I.dropI
  pre := I.pre
  fp := I.fp
  mods := fun _ => False
  owns := fun _ => False
  lay := SizedInit.cautious w R L len
  val := (I.vals (L.asUsize w len).toNat).map .arr
  owes := I.owes
  left := I.left (L.asUsize w len).toNat
  lost := I.lost (L.asUsize w len).toNat

/-- `Array::try_copy` (varlen/src/array.rs:261-267); `xs` are the values of the slice at `src`. The length of a slice
is a `usize`. -/
def Array.tryCopy (w : Nat) (R : RTy) (L : LenTy) (src : Ptr) (xs : List Img) : Option (Init w) := do
  let len ← L.fromUsize (BitVec.ofNat w xs.length)
  some (SizedInit w R L len (CopyFrom R src xs))

/-- `Array::try_clone_from_slice` (varlen/src/array.rs:286-294). -/
def Array.tryCloneFromSlice (w : Nat) (R : RTy) (L : LenTy) (c : CloneFn) (src : Ptr) (xs : List Img) : Option (Init w) := do
  let len ← L.fromUsize (BitVec.ofNat w xs.length)
  some (SizedInit w R L len (CloneFrom R c src xs))

/-- The length type `usize`. -/
def LenTy.usize (w align : Nat) : LenTy := ⟨w / 8, align, true⟩

/-- `Array::copy` (varlen/src/array.rs:181-186): `try_copy(src).unwrap()` at length type `usize`. -/
def Array.copy (w : Nat) (R : RTy) (usizeAlign : Nat) (src : Ptr) (xs : List Img) : M (Init w) :=
  match Array.tryCopy w R (.usize w usizeAlign) src xs with
  | some i => pure i
  | none => panicM .unwrapNone

/-- `Array::clone_from_slice` (varlen/src/array.rs:197-202). -/
def Array.cloneFromSlice (w : Nat) (R : RTy) (usizeAlign : Nat) (c : CloneFn) (src : Ptr) (xs : List Img) : M (Init w) :=
  match Array.tryCloneFromSlice w R (.usize w usizeAlign) c src xs with
  | some i => pure i
  | none => panicM .unwrapNone

/-- `Array::deref` (varlen/src/array.rs:162-168) and `Array::mut_slice` (232-241), which have the same body. -/
def Array.deref (w : Nat) (R : RTy) (L : LenTy) (p : Ptr) : M Slice := do
  let l ← Array.calculateLayout (w := w) R L p
  match l with
  | .array o n _ => refArray R p o n
  | _ => ubM .typeConfusion

/-- `Array::len_short` (varlen/src/array.rs:217-219). -/
def Array.lenShort (L : LenTy) (p : Ptr) : M Img := readVal L.ty p

/-- `Array::vclone` / `ArrayCloner` (varlen/src/array.rs:309-319): `SizedInit(self.len_short(), CloneFrom(&self[..]))`. -/
def Array.vclone (w : Nat) (R : RTy) (L : LenTy) (c : CloneFn) (p : Ptr) (xs : List Img) : M (Init w) := do
  let len ← Array.lenShort L p
  let sl ← Array.deref w R L p
  pure (SizedInit w R L len (CloneFrom R c sl.ptr xs))

/-- Safe slice indexing `s[i]`. -/
def Slice.get (R : RTy) (sl : Slice) (i : Nat) : M Img :=
  if i < sl.len then readVal R (sl.ptr.add (i * R.size)) else panicM .outOfBounds

/-- Safe slice assignment `s[i] = x` (language semantics, not code of the repository): the old element is dropped, then the new one is written. -/
def Slice.set (R : RTy) (sl : Slice) (i : Nat) (x : Img) : M Unit :=
  if i < sl.len then do
    dropInPlace R (sl.ptr.add (i * R.size))
    writeVal R (sl.ptr.add (i * R.size)) x
  else panicM .outOfBounds

/-- Reading all elements of a slice in order. -/
def readElems (R : RTy) : Ptr → Nat → M (List Img)
  | _, 0 => pure []
  | p, n + 1 => do
    let x ← readVal R p
    let xs ← readElems R (p.add R.size) n
    pure (x :: xs)

/-- Reading a whole slice. -/
def Slice.read (R : RTy) (sl : Slice) : M (List Img) := readElems R sl.ptr sl.len

end Varlen
