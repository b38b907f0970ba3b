import Verif.Model.MacroSem
/-!
# Where `#[define_varlen]` prints the types of the fields

The macro copies the type of a field to several places (varlen_macro/src/lib.rs:268-511): next to the declaration (the struct, the `impl`s), into the module `#mod_name`, which begins
with `use super::*` (`VarLenLayout`, `Init`, `Muts`, `Refs`, `LayoutControllers`), and into its submodule `lengths`, which begins with `use super::*` too. A path can mean different things
in these places. `refs()` and `muts()` are printed next to the declaration, but the types of the references to the fields behind the head are inferred from `Refs` and `Muts`, so from the
module.

Structs without type parameters; macros and the value namespace are left out.
-/
namespace Varlen.Macro
variable {w : Nat}

/-- How a path begins. -/
inductive Root
  /-- A name: `x`. -/
  | plain
  /-- `self::x` is `up 0`, `super::x` is `up 1`, `super::super::x` is `up 2`, and so on. -/
  | up (k : Nat)
  /-- `crate::x` or `::x`, with `x` the rest of the path. -/
  | absolute
  deriving DecidableEq

/-- A path to a type: how it begins and its first name. (What follows is looked up in the item that the name stands for, in the same way everywhere.) -/
structure Path where
  root : Root
  name : Ident
  deriving DecidableEq

/-- The types and modules that are declared in the printed module (varlen_macro/src/lib.rs:273, 288, 300, 307, 314, 321). -/
def printedNames : List Ident := ["VarLenLayout", "lengths", "Init", "Muts", "Refs", "LayoutControllers"]

/-- What names stand for around the declaration; `E` are the things that names can stand for. -/
structure World (E : Type) where
  /-- Items of the function bodies around the declaration, if it is in a function body. -/
  block : Ident → Option E
  /-- Names in the module of the declaration (`0`), its parent (`1`), and so on: items and imports. -/
  items : Nat → Ident → Option E
  /-- The prelude, the primitive types, and the crates. -/
  prelude : Ident → Option E
  /-- Paths from the root. -/
  root : Ident → Option E
  /-- The printed items. -/
  printed : Ident → Option E

/-- A path beside the declaration: in the struct and the `impl`s (varlen_macro/src/lib.rs:329-511). -/
def World.beside {E : Type} (W : World E) : Path → Option E
  | ⟨.plain, x⟩ => (W.block x).or ((W.items 0 x).or (W.prelude x))
  | ⟨.up k, x⟩ => W.items k x
  | ⟨.absolute, x⟩ => W.root x

/-- The names of the printed module: its own items come before those that `use super::*` imports (varlen_macro/src/lib.rs:270-271). `super` is the module around it also if the
declaration is in a function body: it skips the items of the body. -/
def World.moduleItem {E : Type} (W : World E) (x : Ident) : Option E := if x ∈ printedNames then W.printed x else W.items 0 x

/-- A path in the printed module (varlen_macro/src/lib.rs:270-327, except 288-298). -/
def World.inModule {E : Type} (W : World E) : Path → Option E
  | ⟨.plain, x⟩ => (W.moduleItem x).or (W.prelude x)
  | ⟨.up 0, x⟩ => W.moduleItem x
  | ⟨.up (k + 1), x⟩ => W.items k x
  | ⟨.absolute, x⟩ => W.root x

/-- A path in its submodule `lengths` (varlen_macro/src/lib.rs:288-298): the parameter types of the length functions. It declares functions only. -/
def World.inLengths {E : Type} (W : World E) : Path → Option E
  | ⟨.plain, x⟩ => (W.moduleItem x).or (W.prelude x)
  | ⟨.up 0, x⟩ => W.moduleItem x
  | ⟨.up 1, x⟩ => W.moduleItem x
  | ⟨.up (k + 2), x⟩ => W.items k x
  | ⟨.absolute, x⟩ => W.root x

/-- Type expressions: which type one is, given what its paths stand for. -/
structure Types (w : Nat) (E : Type) where
  /-- Types of the language. -/
  Id : Type
  /-- The paths in a type expression. -/
  paths : Ty → List Path
  /-- The type that an expression stands for; `none` if it is not a type. -/
  typ : (Path → Option E) → Ty → Option Id
  /-- It depends on what the paths stand for, and on nothing else. -/
  typ_congr : ∀ r r' t, (∀ p ∈ paths t, r p = r' p) → typ r t = typ r' t
  /-- As a type of fixed size. -/
  rty : Id → RTy
  /-- As a variable-length type. -/
  vty : Id → VarLen w
  /-- Its associated type `<T as VarLen>::Layout`. -/
  layout : Id → Id

/-- What a declaration means if its types are read in a given place; `base` says all that does not depend on it (and something arbitrary for expressions that are not types). -/
def Types.read {E : Type} (T : Types w E) (base : Meaning w) (r : Path → Option E) : Meaning w :=
  { base with
    rty := fun t => match T.typ r t with
      | some i => T.rty i
      | none => base.rty t
    vty := fun t => match T.typ r t with
      | some i => T.vty i
      | none => base.vty t }

/-- `evalRef`, with the types of `Refs` and `Muts` read in the module (`ιm`). `&self.#x` has the type of the field in the struct; `ref_field`, `mut_field`, `ref_array` and `mut_array` have a
type parameter that is inferred from the type of the entry (varlen_macro/src/lib.rs:911-916, 996-1001; varlen/src/macro_support.rs:62-75, 157-166). -/
def evalRefIn (ι ιm : Meaning w) (o : Output) (p : Ptr) (layout : Layout w) (ty : GenTy) : RefExpr → M FRef
  | .self x => evalRef ι o p layout ty (.self x)
  | e => evalRef ιm o p layout ty e

/-- A literal of type `Refs` or `Muts`, declared in varlen_macro/src/lib.rs:307-319, that is printed beside the declaration. -/
def evalRefsIn (ι ιm : Meaning w) (o : Output) (p : Ptr) (layout : Layout w) (decl : List GenField) : List (Ident × RefExpr) → M (List (Ident × GenTy × FRef))
  | [] => pure []
  | (x, e) :: es =>
    match decl.find? fun g => g.ident == x with
    | none => ubM .typeConfusion
    | some g => do
      let r ← evalRefIn ι ιm o p layout g.ty e
      let rs ← evalRefsIn ι ιm o p layout decl es
      pure ((x, g.ty, r) :: rs)

/-- Printed `refs()` (varlen_macro/src/lib.rs:443-452). -/
def genRefsIn (ι ιm : Meaning w) (o : Output) (p : Ptr) : M (List (Ident × GenTy × FRef)) := do
  let layout ← genCalc ι o p
  evalRefsIn ι ιm o p layout o.refs o.refLit

/-- Printed `muts()` (varlen_macro/src/lib.rs:429-441). -/
def genMutsIn (ι ιm : Meaning w) (o : Output) (p : Ptr) : M (List (Ident × GenTy × FRef)) := do
  let layout ← genCalc ι o p
  evalRefsIn ι ιm o p layout o.muts o.mutLit

end Varlen.Macro
