import Verif.Model.Newtype
/-!
# Which types are `Unpin`, and `mem::swap`

`Pin<&mut T>` gives out a plain `&mut T` in safe code exactly if `T: Unpin` (`Pin::get_mut`, `DerefMut for Pin`). `Unpin` is an auto trait: a struct implements it if all its fields do, unless there is an explicit
`impl Unpin`, which safe code may write for its own types. So what matters is the list of the fields that the Rust struct of each variable-length type declares.
-/
namespace Varlen
variable {w : Nat}

/-- A field of the Rust struct (the head) of a variable-length type: a value, or a marker, `FieldMarker<T>` or `ArrayMarker<T>` (varlen/src/marker.rs:37, 90), which contains a `PhantomPinned`. -/
inductive HeadField where
  | plain (R : RTy)
  | marker

/-- The declared type of a field of a `define_varlen` struct (varlen_macro/src/lib.rs:329-336 with `decl_ty` in 792-1009: the type itself for plain and `#[controls_layout]` fields, `FieldMarker<T>` for `#[varlen]`,
`ArrayMarker<T>` for `#[varlen_array]` ones). -/
def Fld.declTy : Fld w → HeadField
  | .normal R _ => .plain R
  | .length R _ => .plain R
  | .varlen _ => .marker
  | .array _ _ => .marker

/-- The fields of the Rust struct. -/
inductive Head : VarLen w → List HeadField → Prop
  /-- `pub struct FixedLen<T>(pub T)` (varlen/src/lib.rs:685-695). -/
  | fixedLen (R : RTy) : Head (FixedLen w R) [.plain R]
  /-- `pub struct Array<T, Len> { len: Len, _array: ArrayMarker<T> }` (varlen/src/array.rs:101-104). -/
  | array (R : RTy) (L : LenTy) : Head (Array w R L) [.plain L.ty, .marker]
  /-- `$tyvis struct $outer(…, $inner)` (varlen/src/newtype.rs:184-186); also `Str` (varlen/src/str.rs:85-92). A field of a struct type counts as that type's fields. -/
  | newtype (T : VarLen w) (inv : V → Prop) (hs : List HeadField) : Head T hs → Head (NewtypeInv T inv) hs
  /-- `pub struct TupN<A, …>(pub FieldMarker<A>, …)` (varlen/src/tuple.rs:126). -/
  | tuple (Ts : List (VarLen w)) : Head (Tuple w Ts) (Ts.map fun _ => .marker)
  /-- The struct generated by `define_varlen` (varlen_macro/src/lib.rs:329-336). -/
  | struct (headSize headAlign : Nat) (fs : List (Fld w)) : Head (Struct w headSize headAlign fs) (fs.map Fld.declTy)

/-- The fields that are `Unpin`, given the ordinary types that are. -/
def HeadField.unpin (up : RTy → Prop) : HeadField → Prop
  | .plain R => up R
  | .marker => False

/-- `T: Unpin`: all fields are, or the program has an `impl Unpin for T {}`. -/
def IsUnpin (up : RTy → Prop) (impls : VarLen w → Prop) (T : VarLen w) : Prop :=
  impls T ∨ ∃ hs, Head T hs ∧ ∀ f ∈ hs, f.unpin up

/-- `core::mem::swap::<T>(&mut *p, &mut *q)`: exchanges the `size_of::<T>()` bytes at `p` and `q`. The two references must not overlap. -/
def memSwap (T : VarLen w) (p q : Ptr) : M Unit := do
  mkRef p T.headSize T.headAlign
  mkRef q T.headSize T.headAlign
  let a ← readBytes p T.headSize
  let b ← readBytes q T.headSize
  if T.headSize ≠ 0 ∧ p.blk = q.blk ∧ p.off < q.off + T.headSize ∧ q.off < p.off + T.headSize then ubM .overlap
  else do
    writeBytes p b
    writeBytes q a

end Varlen
