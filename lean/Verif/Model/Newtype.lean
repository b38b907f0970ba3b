import Verif.Model.Struct
/-!
# `define_varlen_newtype!`, `impl_initializer_as_newtype!` (varlen/src/newtype.rs) and `Str` (varlen/src/str.rs)
-/
namespace Varlen
variable {w : Nat}

/-- The `VarLen` impl generated for `#[repr(transparent)] struct Outer(Inner)` (varlen/src/newtype.rs:184-209). Head size and alignment are
those of the inner type because of `repr(transparent)`. `inv` (ghost) is what the module defining the newtype additionally guarantees about
the value by keeping the field and the initializer private; for a plain newtype it is trivial. -/
def NewtypeInv (T : VarLen w) (inv : V → Prop) : VarLen w where
  headSize := T.headSize
  headAlign := T.headAlign
  ALIGN := T.ALIGN
  NEEDS_VDROP := T.NEEDS_VDROP
  headNeedsDrop := T.headNeedsDrop
  calculateLayout := T.calculateLayout
  vdrop := fun p l => if T.NEEDS_VDROP = false then pure () else T.vdrop p l
  Rep := fun v l o => T.Rep v l o ∧ inv v
  drops := T.drops

/-- A plain newtype. -/
def Newtype (T : VarLen w) : VarLen w := NewtypeInv T fun _ => True

/-- The generated initializer wrapper `Init<InnerInit>(InnerInit)` (varlen/src/newtype.rs:211-221), and the forwarding impl of
`impl_initializer_as_newtype!` (varlen/src/newtype.rs:296-315), which has the same body. -/
def Newtype.init (I : Init w) : Init w where
  cautious := I.cautious
  initTo := fun p l => I.initTo p l
  dropI := I.dropI
  pre := I.pre
  fp := I.fp
  mods := I.mods
  owns := I.owns
  lay := I.lay
  bad := I.bad
  val := I.val
  owes := I.owes
  left := I.left
  lost := I.lost

/-- `inner()` / `inner_mut()` (varlen/src/newtype.rs:225-238): `&self.0`, the same address. -/
def Newtype.inner (T : VarLen w) (p : Ptr) : M Ptr := do
  mkRef p T.headSize T.headAlign
  pure p

/-- Newtype cloner: the pattern `Cloner(Init(self.0.vclone()))` (varlen/src/str.rs:177-182). -/
def Newtype.vclone (C : VClone w) : VClone w where
  vclone := fun p v => do
    let I ← C.vclone p v
    pure (Newtype.init (Newtype.init I))
  cloneV := C.cloneV

/-! ## `Str` -/

/-- `u8`. -/
def u8Ty : RTy where
  size := 1
  align := 1
  valid := fun img => img.length == 1 && img.all (·.isSome)
  needsDrop := false
  dropEv := fun _ => []

/-- `s.as_bytes()` as element images. -/
def strBytes (s : String) : List Img := s.toByteArray.data.toList.map fun b => [some b.toBitVec]

/-- The bytes are the UTF-8 encoding of a string. -/
def IsUtf8 (xs : List Img) : Prop := ∃ s : String, strBytes s = xs

/-- Ghost invariant of `Str`: its bytes are UTF-8. -/
def strInv : V → Prop
  | .arr xs => IsUtf8 xs
  | _ => False

/-- `Str<Len>` (varlen/src/str.rs:85-92): newtype of `Array<u8, Len>`; field and `StrInit` are private. -/
def Str (w : Nat) (L : LenTy) : VarLen w := NewtypeInv (Array w u8Ty L) strInv

/-- The precondition of `core::str::from_utf8_unchecked`: the bytes are UTF-8. Otherwise it is (library) undefined behaviour. -/
noncomputable def fromUtf8Unchecked (sl : Slice) : M Slice := do
  let xs ← sl.read u8Ty
  haveI := Classical.propDecidable (IsUtf8 xs)
  if IsUtf8 xs then pure sl else ubM .invalidValue

/-- `Str::deref` (varlen/src/str.rs:94-103) and `Str::mut_slice` (117-123). -/
noncomputable def Str.deref (w : Nat) (L : LenTy) (p : Ptr) : M Slice := do
  let q ← Newtype.inner (Array w u8Ty L) p
  let sl ← Array.deref w u8Ty L q
  fromUtf8Unchecked sl

/-- `Str::try_copy` (varlen/src/str.rs:152-154). `src` is the address of the `&str`, `s` its value. -/
def Str.tryCopy (w : Nat) (L : LenTy) (src : Ptr) (s : String) : Option (Init w) := do
  let i ← Array.tryCopy w u8Ty L src (strBytes s)
  some (Newtype.init i)

/-- `Str::copy` (varlen/src/str.rs:137-139), at length type `usize`. -/
def Str.copy (w : Nat) (usizeAlign : Nat) (src : Ptr) (s : String) : M (Init w) :=
  match Str.tryCopy w (.usize w usizeAlign) src s with
  | some i => pure i
  | none => panicM .unwrapNone

/-- `Str::vclone` (varlen/src/str.rs:177-182); `u8::clone` is the identity. -/
def Str.vclone (w : Nat) (L : LenTy) : VClone w := Newtype.vclone (Array.vcloneI w u8Ty L some)

/-- `s.make_ascii_uppercase()`-like use of `mut_slice`: storing a string of the same byte length through `&mut str`. Safe code can
only store strings through it, and cannot change the length. -/
noncomputable def Str.assign (w : Nat) (L : LenTy) (p : Ptr) (s : String) : M Unit := do
  let sl ← Str.deref w L p
  if sl.len = (strBytes s).length then moveLoop u8Ty sl.ptr (strBytes s) else panicM .user

end Varlen
