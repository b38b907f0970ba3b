import Verif.Model.Newtype
/-!
# `Send` and `Sync`

The library has no `impl Send` or `impl Sync` (there is none in varlen/src or varlen_macro/src), so the compiler decides from the fields of each struct which of its types can be moved to (`Send`) or shared with (`Sync`)
another thread. Here are the field lists, and the compiler's rules. Types are syntax here: two types with the same bytes (`u8` and `Cell<u8>`) may differ in these traits.
-/
namespace Varlen
variable {w : Nat}

/-- An ordinary Rust type: its name, and what the memory model needs to know of it. -/
structure Plain where
  name : String
  ty : RTy

/-- The type of an array's length, `usize`, `u8`, …, as an ordinary type. -/
def LenTy.plain (L : LenTy) : Plain := ⟨if L.isUsize then "usize" else "u" ++ toString (8 * L.bytes), L.ty⟩

/-- `u8`. -/
def u8Plain : Plain := ⟨"u8", u8Ty⟩

mutual
/-- The variable-length types of the library as syntax. -/
inductive Ty (w : Nat)
  /-- `FixedLen<P>` -/
  | fixedLen (P : Plain)
  /-- `Array<P, L>` -/
  | array (P : Plain) (L : LenTy)
  /-- `Str<L>` -/
  | str (L : LenTy)
  /-- A type made with `define_varlen_newtype!` -/
  | newtype (T : Ty w)
  /-- `TupN<…>` -/
  | tuple (Ts : List (Ty w))
  /-- A type made with `define_varlen`. -/
  | struct (headSize headAlign : Nat) (fs : List (TyFld w))
/-- The fields of such a struct, as the user declares them. -/
inductive TyFld (w : Nat)
  | normal (P : Plain) (off : Nat)
  | length (P : Plain) (off : Nat)
  | varlen (T : Ty w)
  | array (P : Plain) (len : LenFn w)
end

mutual
/-- The type in the memory model. -/
def Ty.sem : Ty w → VarLen w
  | .fixedLen P => FixedLen w P.ty
  | .array P L => Array w P.ty L
  | .str L => Str w L
  | .newtype T => Newtype T.sem
  | .tuple Ts => Tuple w (Ty.sems Ts)
  | .struct hs ha fs => Struct w hs ha (TyFld.sems fs)
def Ty.sems : List (Ty w) → List (VarLen w)
  | [] => []
  | T :: Ts => T.sem :: Ty.sems Ts
def TyFld.sem : TyFld w → Fld w
  | .normal P off => .normal P.ty off
  | .length P off => .length P.ty off
  | .varlen T => .varlen T.sem
  | .array P len => .array P.ty len
def TyFld.sems : List (TyFld w) → List (Fld w)
  | [] => []
  | f :: fs => f.sem :: TyFld.sems fs
end

/-- The Rust types that occur as fields of the library's structs. -/
inductive RTm (w : Nat)
  | plain (P : Plain)
  /-- A variable-length type. -/
  | obj (T : Ty w)
  /-- `PhantomPinned` -/
  | phantomPinned
  /-- `PhantomData<t>` -/
  | phantom (t : RTm w)
  /-- `[t]` -/
  | slice (t : RTm w)
  /-- `NonNull<t>` -/
  | nonNull (t : RTm w)
  /-- `&t` -/
  | ref (t : RTm w)
  /-- `&mut t`, `Pin<&mut t>` -/
  | mutRef (t : RTm w)
  /-- A struct with these fields. -/
  | struct (fs : List (RTm w))

/-- `pub struct FieldMarker<T>(PhantomPinned, PhantomData<T>)` (varlen/src/marker.rs:37). -/
def fieldMarker (T : Ty w) : RTm w := .struct [.phantomPinned, .phantom (.obj T)]
/-- `pub struct ArrayMarker<T>(PhantomPinned, PhantomData<[T]>)` (varlen/src/marker.rs:90). -/
def arrayMarker (P : Plain) : RTm w := .struct [.phantomPinned, .phantom (.slice (.plain P))]

/-- The declared type of a field of a `define_varlen` struct (varlen_macro/src/lib.rs:329-336 with `decl_ty` in 792-1009). -/
def TyFld.decl : TyFld w → RTm w
  | .normal P _ => .plain P
  | .length P _ => .plain P
  | .varlen T => fieldMarker T
  | .array P _ => arrayMarker P

/-- The fields of the Rust struct of a variable-length type: `FixedLen` (varlen/src/lib.rs:685-695), `Array` (varlen/src/array.rs:101-104), `Str` (varlen/src/str.rs:85-92), newtypes (varlen/src/newtype.rs:184-186), tuples
(varlen/src/tuple.rs:126), `define_varlen` structs (varlen_macro/src/lib.rs:329-336). -/
def Ty.decl : Ty w → List (RTm w)
  | .fixedLen P => [.plain P]
  | .array P L => [.plain L.plain, arrayMarker P]
  | .str L => [.obj (.array u8Plain L)]
  | .newtype T => [.obj T]
  | .tuple Ts => Ts.map fieldMarker
  | .struct _ _ fs => fs.map TyFld.decl

inductive AutoTrait
  | send
  | sync

/-- The compiler's rules: `Is has tr t` means `t: tr`, where `has` tells which ordinary types are `Send` and `Sync`. A struct has the trait if all its fields do; so has `PhantomData<t>` if `t` does, and a slice; `&t` is
`Send`, and `Sync`, if `t: Sync`; `&mut t` is what `t` is; `NonNull<t>` is neither. -/
inductive Is (has : AutoTrait → Plain → Prop) : AutoTrait → RTm w → Prop
  | plain {tr : AutoTrait} {P : Plain} : has tr P → Is has tr (.plain P)
  | obj {tr : AutoTrait} {T : Ty w} : (∀ t ∈ T.decl, Is has tr t) → Is has tr (.obj T)
  | phantomPinned {tr : AutoTrait} : Is has tr .phantomPinned
  | phantom {tr : AutoTrait} {t : RTm w} : Is has tr t → Is has tr (.phantom t)
  | slice {tr : AutoTrait} {t : RTm w} : Is has tr t → Is has tr (.slice t)
  | ref {tr : AutoTrait} {t : RTm w} : Is has .sync t → Is has tr (.ref t)
  | mutRef {tr : AutoTrait} {t : RTm w} : Is has tr t → Is has tr (.mutRef t)
  | struct {tr : AutoTrait} {fs : List (RTm w)} : (∀ t ∈ fs, Is has tr t) → Is has tr (.struct fs)

/-- `usize`. -/
def usizeTy (w : Nat) : RTm w := .plain (LenTy.usize w (w / 8)).plain

/-- `pub struct VBox<T: VarLen>(NonNull<T>)` (varlen/src/vbox.rs:35). -/
def VBox.decl (T : Ty w) : RTm w := .struct [.nonNull (.obj T)]
/-- `pub struct Owned<'storage, T: VarLen>(NonNull<T>, PhantomData<&'storage [u8]>)` (varlen/src/owned.rs:69). -/
def Owned.decl (T : Ty w) : RTm w := .struct [.nonNull (.obj T), .phantom (.ref (.slice (.plain u8Plain)))]
/-- `pub struct Seq<T: VarLen, Idx: Indexing = UncheckedIndexing>` (varlen/src/seq.rs:425-436); `Idx` is a unit struct (varlen/src/seq.rs:152, 220). -/
def Seq.decl (T : Ty w) : RTm w := .struct [.nonNull (.obj T), usizeTy w, usizeTy w, usizeTy w, .struct []]
/-- `pub struct Iter<'a, T>` (varlen/src/seq.rs:1094-1098). -/
def Iter.decl (T : Ty w) : RTm w := .struct [.nonNull (.obj T), usizeTy w, .phantom (.ref (.slice (.obj T)))]
/-- `pub struct IterMut<'a, T>` (varlen/src/seq.rs:1176-1180). -/
def IterMut.decl (T : Ty w) : RTm w := .struct [.nonNull (.obj T), usizeTy w, .phantom (.mutRef (.slice (.obj T)))]
/-- `pub struct OwnedElems<'a, T: VarLen>` (varlen/src/seq.rs:1291-1296). -/
def OwnedElems.decl (T : Ty w) : RTm w := .struct [.nonNull (.obj T), usizeTy w, .phantom (.ref (.slice (.plain u8Plain)))]

/-- A field of the generated `Refs` (varlen_macro/src/lib.rs:314-319 with `ref_ty` in 792-1009): `&P`, `&T`, `&[P]`; for tuples `&T` (varlen/src/tuple.rs:91-93). -/
def TyFld.refDecl : TyFld w → RTm w
  | .normal P _ => .ref (.plain P)
  | .length P _ => .ref (.plain P)
  | .varlen T => .ref (.obj T)
  | .array P _ => .ref (.slice (.plain P))
/-- A field of the generated `Muts` (varlen_macro/src/lib.rs:307-312 with `mut_ty` in 792-1009): `&mut P`, but `&P` for `#[controls_layout]` fields, `Pin<&mut T>`, `&mut [P]`. -/
def TyFld.mutDecl : TyFld w → RTm w
  | .normal P _ => .mutRef (.plain P)
  | .length P _ => .ref (.plain P)
  | .varlen T => .mutRef (.obj T)
  | .array P _ => .mutRef (.slice (.plain P))

end Varlen
