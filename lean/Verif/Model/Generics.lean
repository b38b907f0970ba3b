import Verif.Model.Macro
/-!
# `#[define_varlen]` on structs with generic parameters (varlen_macro/src/lib.rs)

Model/Macro.lean treats types as opaque tokens. Here they are parsed, as far as matters for generic parameters: which names a type mentions and where. The model is the choice of the
parameters that each printed item declares (`parse_generics`, `GenericRefs`), and the list of printed items with their parameters and the syntax written inside them.
-/
namespace Varlen.Macro

mutual
/-- Parsed types, lifetimes and expressions inside types (`syn::Type`, `syn::Lifetime`, `syn::Expr`). -/
inductive Syn
  /-- A path without `<Self>` part: does it start with `::`, and its segments. Also a const parameter used as a generic argument, which parses as a type. -/
  | path (colon : Bool) (segs : Segs)
  /-- `<self as Trait>::Name`: the `Self` type and the path. -/
  | qpath (self : Syn) (segs : Segs)
  /-- A trait in a bound or in `dyn Trait`. -/
  | bound (segs : Segs)
  /-- Any other type, by its parts: tuples, slices, pointers, function types, references (the lifetime and the type), arrays (the element type and the length). -/
  | node (parts : Syns)
  | lifetime (l : Ident)
  /-- An expression: the variables and constants it names, and the types written in it. -/
  | expr (names : List Ident) (parts : Syns)
/-- Lists of syntax trees. -/
inductive Syns
  | nil
  | cons (s : Syn) (rest : Syns)
/-- The segments of a path, with their generic arguments. -/
inductive Segs
  | nil
  | cons (ident : Ident) (args : Syns) (rest : Segs)
end

/-- Names of generic parameters. Lifetimes live in a namespace of their own. -/
inductive PName
  | lifetime (l : Ident)
  | ident (i : Ident)
  deriving DecidableEq, Repr

/-- `GenericRefs` (varlen_macro/src/lib.rs:643-648); the hash sets are lists. -/
structure GenericRefs where
  idents : List Ident
  lifetimes : List Ident

/-- `GenericRefs::new` (varlen_macro/src/lib.rs:651-656). -/
def GenericRefs.new : GenericRefs := ⟨[], []⟩

/-- `path.get_ident()` of syn: the single segment without arguments. -/
def getIdent : Bool → Segs → Option Ident
  | false, .cons i .nil .nil => some i
  | _, _ => none

mutual
/-- The visitor (varlen_macro/src/lib.rs:663-680). Overridden: `visit_type_path` (664-675) and `visit_lifetime` (677-679); elsewhere syn's default, which visits the parts. Names in
expressions are not types, so they do not go through `visit_type_path`. -/
def GenericRefs.visit (r : GenericRefs) : Syn → GenericRefs
  | .path colon segs =>
    match getIdent colon segs with
    | some i => { r with idents := i :: r.idents }
    | none => r.visitPath segs
  | .qpath self segs => (r.visit self).visitPath segs
  | .bound segs => r.visitPath segs
  | .node parts => r.visitAll parts
  | .lifetime l => { r with lifetimes := l :: r.lifetimes }
  | .expr _ parts => r.visitAll parts
/-- syn's default for lists. -/
def GenericRefs.visitAll (r : GenericRefs) : Syns → GenericRefs
  | .nil => r
  | .cons s rest => (r.visit s).visitAll rest
/-- syn's `visit_path`: the arguments of the segments. -/
def GenericRefs.visitPath (r : GenericRefs) : Segs → GenericRefs
  | .nil => r
  | .cons _ args rest => (r.visitAll args).visitPath rest
end

/-- `syn::GenericParam`: kind, name, bounds (for a const parameter: its type), default. -/
inductive ParamKind
  | lifetime | type | const
  deriving DecidableEq, Repr

structure Param where
  kind : ParamKind
  name : Ident
  bounds : Syns
  default : Option Syn

/-- The name of the parameter, with its namespace. -/
def Param.pname (p : Param) : PName := if p.kind = .lifetime then .lifetime p.name else .ident p.name

/-- `syn::Generics`. -/
structure Generics where
  params : List Param
  whereClause : Syns

/-- Does the filter keep the parameter (varlen_macro/src/lib.rs:1079-1083, 1091-1095, 1104-1108)? -/
def keepParam (filter : Option GenericRefs) (p : Param) : Bool :=
  match filter with
  | none => true
  | some r => if p.kind = .lifetime then r.lifetimes.contains p.name else r.idents.contains p.name

/-- The parameter as printed after `impl`: without its default (varlen_macro/src/lib.rs:1084-1087, 1096-1100, 1109-1112). -/
def Param.forImpl (p : Param) : Param := if p.kind = .lifetime then p else { p with default := none }

/-- `parse_generics` (varlen_macro/src/lib.rs:1070-1119): parameters for a struct definition, parameters for an `impl`, arguments, where clause. -/
def parseGenerics (g : Generics) (filter : Option GenericRefs) : List Param × List Param × List PName × Syns :=
  go g.params ([], [], [])
where
  /-- The loop (1075-1117) with its three accumulators. -/
  go : List Param → List Param × List Param × List PName → List Param × List Param × List PName × Syns
  | [], (defs, impls, apply) => (defs, impls, apply, g.whereClause)
  | p :: ps, (defs, impls, apply) =>
    if keepParam filter p then go ps (defs ++ [p], impls ++ [p.forImpl], apply ++ [p.pname]) else go ps (defs, impls, apply)

/-- The parsed item with its generic parameters, and what syn parses the tokens of its types and expressions into. -/
structure GItem where
  item : Item
  generics : Generics
  ty : Tok → Syn
  expr : Tok → Syn

/-- A list of syntax trees. -/
def Syns.ofList : List Syn → Syns
  | [] => .nil
  | s :: ss => .cons s (.ofList ss)

/-- A single name as a type. -/
def Syn.name (i : Ident) : Syn := .path false (.cons i .nil .nil)

/-- The parsed form of a type of the declaration. -/
def Ty.syn (d : GItem) : Ty → Syn
  | .array elem len => .node (.ofList [elem.syn d, d.expr len])
  | .other t => d.ty t

/-- The parsed form of a printed type: as in the comments on `GenTy`. Absolute paths like `::varlen::marker::FieldMarker` mention no parameter and are shortened; `usize` is printed as it is (274, 276, 961). -/
def GenTy.syn (d : GItem) : GenTy → Syn
  | .plain ty => ty.syn d
  | .fieldMarker ty => .path true (.cons "FieldMarker" (.ofList [ty.syn d]) .nil)
  | .arrayMarker elem => .path true (.cons "ArrayMarker" (.ofList [elem.syn d]) .nil)
  | .param p => .name p
  | .ref ty => .node (.ofList [.lifetime "'a", ty.syn d])
  | .mutRef ty => .node (.ofList [.lifetime "'a", ty.syn d])
  | .pinMut ty => .path true (.cons "Pin" (.ofList [.node (.ofList [.lifetime "'a", ty.syn d])]) .nil)
  | .refSlice elem => .node (.ofList [.lifetime "'a", .node (.ofList [elem.syn d])])
  | .mutSlice elem => .node (.ofList [.lifetime "'a", .node (.ofList [elem.syn d])])
  | .layoutOf ty => .qpath (ty.syn d) (.cons "VarLen" .nil (.cons "Layout" .nil .nil))
  | .usize => .name "usize"

/-- The parsed form of a printed bound. -/
def GenBound.syn (d : GItem) : GenBound → Syn
  | .initializer ty => .bound (.cons "Initializer" (.ofList [ty.syn d]) .nil)
  | .arrayInitializer elem => .bound (.cons "ArrayInitializer" (.ofList [elem.syn d]) .nil)

/-- What the macro prints for an item with generics: the item of Model/Macro.lean and the results of the two calls of `parse_generics` (varlen_macro/src/lib.rs:249-252). -/
structure GOutput where
  base : Output
  structdef : List Param
  impl : List Param
  apply : List PName
  whereClause : Syns
  layoutStructdef : List Param
  layoutImpl : List Param
  layoutApply : List PName
  layoutWhere : Syns

/-- `varlen_layout_ty_refs`: the visitor run on the types of the `#[varlen]` fields (varlen_macro/src/lib.rs:659-661, 880). -/
def layoutRefs (d : GItem) (tys : List Ty) : GenericRefs := tys.foldl (fun r ty => r.visit (ty.syn d)) .new

/-- `define_varlen_impl` with generics (varlen_macro/src/lib.rs:169-511). -/
def defineVarlenGen (camel snake : String → String) (d : GItem) : Except Error GOutput := do
  let o ← defineVarlenImpl camel snake d.item
  let (structdef, impl, apply, whereClause) := parseGenerics d.generics none
  let (layoutStructdef, layoutImpl, layoutApply, layoutWhere) := parseGenerics d.generics (some (layoutRefs d o.layoutTyRefs))
  pure ⟨o, structdef, impl, apply, whereClause, layoutStructdef, layoutImpl, layoutApply, layoutWhere⟩

/-! ### The printed items, with the names they bind and what is written in them -/

/-- A printed item: the parameters it declares, the syntax in it, and the names by which the macro means primitive types in it (besides those in `writes`), where the traits or the functions
of `macro_support` demand them. (`u8` in `vdrop` and `initialize`, 384, 416, is left out.) -/
structure Printed where
  declares : List PName
  writes : List Syn
  prims : List Ident := []

/-- What declaring a parameter writes: its bounds and its default. -/
def Param.writes (p : Param) : List Syn := .node p.bounds :: p.default.toList

/-- An argument in `Name<#apply, ..>`. -/
def PName.syn : PName → Syn
  | .lifetime l => .lifetime l
  | .ident i => .name i

/-- A struct or impl with parameters `ps` after those in `first`, a where clause and other syntax. -/
def printed (first : List PName) (ps : List Param) (whereClause : Syns) (writes : List Syn) (prims : List Ident := []) : Printed :=
  ⟨first ++ ps.map Param.pname, ps.flatMap Param.writes ++ .node whereClause :: writes, prims⟩

def GOutput.fieldTys (d : GItem) (fs : List GenField) : List Syn := fs.map fun g => g.ty.syn d

/-- `struct VarLenLayout` (varlen_macro/src/lib.rs:273-279). -/
def GOutput.varLenLayout (d : GItem) (o : GOutput) : Printed := printed [] o.layoutStructdef o.layoutWhere (fieldTys d o.base.varLenLayout) ["usize"]
/-- `impl Layout for VarLenLayout` (varlen_macro/src/lib.rs:281-286). -/
def GOutput.layoutImplItem (o : GOutput) : Printed := printed [] o.layoutImpl o.layoutWhere (o.layoutApply.map PName.syn) ["usize"]
/-- The length functions (varlen_macro/src/lib.rs:288-298): the types of their parameters. -/
def GOutput.lenFnTypes (d : GItem) (o : GOutput) : Printed := ⟨[], o.base.lenParams.map fun x => x.2.syn d, ["usize"]⟩
/-- The bodies of the length functions, in which the names of the parameters are bound. -/
def GOutput.lenFnBodies (d : GItem) (o : GOutput) : Printed := ⟨o.base.lenParams.map fun x => .ident x.1, o.base.lenFns.map fun x => d.expr x.2, []⟩
/-- `struct Init` (varlen_macro/src/lib.rs:300-305). -/
def GOutput.init (d : GItem) (o : GOutput) : Printed := ⟨o.base.initParams.map fun x => .ident x.1, fieldTys d o.base.init, []⟩
/-- `struct Muts` (varlen_macro/src/lib.rs:307-312). -/
def GOutput.muts (d : GItem) (o : GOutput) : Printed := printed [.lifetime "'a"] o.structdef .nil (fieldTys d o.base.muts)
/-- `struct Refs` (varlen_macro/src/lib.rs:314-319). -/
def GOutput.refs (d : GItem) (o : GOutput) : Printed := printed [.lifetime "'a"] o.structdef .nil (fieldTys d o.base.refs)
/-- `struct LayoutControllers` (varlen_macro/src/lib.rs:321-326). -/
def GOutput.layoutControllers (d : GItem) (o : GOutput) : Printed := ⟨[], fieldTys d o.base.layoutControllers, []⟩
/-- The struct (varlen_macro/src/lib.rs:331-336). -/
def GOutput.decl (d : GItem) (o : GOutput) : Printed := printed [] o.structdef o.whereClause (fieldTys d o.base.decl)
/-- The `impl`s of `Drop` and `VarLen` and of the methods (varlen_macro/src/lib.rs:338-390, 427-484): the struct and the layout type are named with arguments, field types occur in the bodies, `usize` and `bool` in the types of the constants (367, 376). -/
def GOutput.impls (d : GItem) (o : GOutput) : Printed :=
  printed [] o.impl o.whereClause (o.apply.map PName.syn ++ o.layoutApply.map PName.syn ++ fieldTys d o.base.decl) ["usize", "bool"]
/-- The `impl` of `Initializer` (varlen_macro/src/lib.rs:391-426): its parameters are those of the struct and those of `Init`. -/
def GOutput.initializerImpl (d : GItem) (o : GOutput) : Printed where
  declares := o.impl.map Param.pname ++ o.base.initParams.map fun x => .ident x.1
  writes := o.impl.flatMap Param.writes ++ .node o.whereClause :: (o.apply.map PName.syn ++ o.layoutApply.map PName.syn ++ fieldTys d o.base.decl ++
    o.base.initParams.map fun x => x.2.syn d)

/-- All printed items. -/
def GOutput.items (d : GItem) (o : GOutput) : List Printed :=
  [o.varLenLayout d, o.layoutImplItem, o.lenFnTypes d, o.lenFnBodies d, o.init d, o.muts d, o.refs d, o.layoutControllers d, o.decl d, o.impls d, o.initializerImpl d]

/-- The generic arguments written after `#tyname` in `size_of::<#tyname>()` (varlen_macro/src/lib.rs:403): none. -/
def GOutput.bareArgs (_ : GOutput) : List PName := []

end Varlen.Macro
