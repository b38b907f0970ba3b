/-!
# The `#[define_varlen]` macro: from the declaration to the generated item (varlen_macro/src/lib.rs)

Syntax is modelled down to what the macro inspects: identifiers, attributes and expressions are token strings, of types only "is it an array, and what are its
element type and length" matters. Spans are left out. Parsing of Rust itself (`syn::parse2`) is not modelled: the input is the parsed item.
-/
namespace Varlen.Macro

/-- `syn::Ident`. -/
abbrev Ident := String
/-- Tokens of an attribute or an expression. -/
abbrev Tok := String

/-- `syn::Type`, as far as the macro looks at it (`Type::Array` in varlen_macro/src/lib.rs:934-945). -/
inductive Ty
  | array (elem : Ty) (len : Tok)
  | other (t : Tok)
  deriving DecidableEq, Repr

/-- `syn::Visibility`. In `pub(path)` / `pub(in path)` the path is its segments and whether it starts with `::`. -/
inductive Vis
  | pub
  | crateKw
  | restricted (leadingColon : Bool) (path : List Ident)
  | inherited
  deriving DecidableEq, Repr

/-- A named `syn::Field`. -/
structure Field where
  attrs : List Tok
  vis : Vis
  ident : Ident
  ty : Ty
  deriving DecidableEq, Repr

/-- The errors the macro reports, by message (varlen_macro/src/lib.rs:173-188, 535-540, 940-943, 1036). -/
inductive Error
  | badVisibility
  | multipleAttributes
  | notAnArray
  | notNamed
  | notStruct
  deriving DecidableEq, Repr

/-- Their texts (varlen_macro/src/lib.rs:173-188, 535-540, 940-943, 1036). -/
def Error.msg : Error → String
  | .badVisibility => "Visibility must be one of: (none), pub, pub(crate), pub(self), pub(super)"
  | .multipleAttributes => "Field must have at most one of #[varlen], #[varlen_array], #[controls_layout] attributes"
  | .notAnArray => "Fields annotated with #[varlen_array] must be of array type"
  | .notNamed => "define_varlen requires named fields"
  | .notStruct => "define_varlen requires a struct"

/-- `SimpleVisibility` (varlen_macro/src/lib.rs:513-520). -/
inductive SimpleVisibility
  | Private | Super | SuperSuper | Crate | Public
  deriving DecidableEq, Repr

/-- `path.is_ident(name)` of syn: one segment without arguments, no leading `::`. -/
def isIdent (leadingColon : Bool) (path : List Ident) (name : Ident) : Bool := !leadingColon && path == [name]

/-- `SimpleVisibility::try_parse` (varlen_macro/src/lib.rs:542-559). -/
def SimpleVisibility.tryParse : Vis → Except Error (SimpleVisibility × SimpleVisibility)
  | .pub => .ok (.Public, .Public)
  | .crateKw => .ok (.Crate, .Crate)
  | .restricted c path =>
    if isIdent c path "crate" then .ok (.Crate, .Crate)
    else if isIdent c path "super" then .ok (.Super, .SuperSuper)
    else if isIdent c path "self" then .ok (.Private, .Super)
    else .error .badVisibility
  | .inherited => .ok (.Private, .Super)

/-- `SimpleVisibility::to_tokens` (varlen_macro/src/lib.rs:522-532), as the visibility it prints. -/
def SimpleVisibility.toTokens : SimpleVisibility → Vis
  | .Private => .inherited
  | .Super => .restricted false ["super"]
  | .SuperSuper => .restricted false ["super", "super"]
  | .Crate => .restricted false ["crate"]
  | .Public => .pub

/-- `OneMeta` (varlen_macro/src/lib.rs:570-580). -/
structure OneMeta where
  attr : List Tok
  vis : SimpleVisibility
  visInner : SimpleVisibility
  ident : Ident
  deriving DecidableEq, Repr

/-- `OneMeta::parse` (varlen_macro/src/lib.rs:583-595). -/
def OneMeta.parse (f : Field) : Except Error OneMeta := do
  let (vis, visInner) ← SimpleVisibility.tryParse f.vis
  pure ⟨f.attrs, vis, visInner, f.ident⟩

/-- `Meta` (varlen_macro/src/lib.rs:598-607). -/
structure Meta where
  attrs : List (List Tok)
  vis : List SimpleVisibility
  visInner : List SimpleVisibility
  ident : List Ident

/-- `Meta::new` (varlen_macro/src/lib.rs:610-617). -/
def Meta.new : Meta := ⟨[], [], [], []⟩

/-- `Meta::push` (varlen_macro/src/lib.rs:619-624). -/
def Meta.push (m : Meta) (one : OneMeta) : Meta :=
  ⟨m.attrs ++ [one.attr], m.vis ++ [one.vis], m.visInner ++ [one.visInner], m.ident ++ [one.ident]⟩

/-- Types printed by the macro. -/
inductive GenTy
  /-- `#ty` -/
  | plain (ty : Ty)
  /-- `FieldMarker<#ty>` -/
  | fieldMarker (ty : Ty)
  /-- `ArrayMarker<#elem_ty>` -/
  | arrayMarker (elem : Ty)
  /-- A type parameter. -/
  | param (p : Ident)
  /-- `&'a #ty` -/
  | ref (ty : Ty)
  /-- `&'a mut #ty` -/
  | mutRef (ty : Ty)
  /-- `Pin<&'a mut #ty>` -/
  | pinMut (ty : Ty)
  /-- `&'a [#elem_ty]` -/
  | refSlice (elem : Ty)
  /-- `&'a mut [#elem_ty]` -/
  | mutSlice (elem : Ty)
  /-- `<#ty as VarLen>::Layout` -/
  | layoutOf (ty : Ty)
  /-- `usize` -/
  | usize
  deriving DecidableEq, Repr

/-- Bounds printed on initializer parameters. -/
inductive GenBound
  /-- `Initializer<#ty>` -/
  | initializer (ty : Ty)
  /-- `ArrayInitializer<#elem_ty>` -/
  | arrayInitializer (elem : Ty)
  deriving DecidableEq, Repr

/-- Expressions printed for `cat_field_cautious` / `cat_field_fast`; the variables `self`, `size` and `lengths` are in scope. -/
inductive CatExpr
  /-- `cat_field_cautious::<#ty, _>(&self.#ident, size)` -/
  | fieldCautious (ty : Ty) (ident : Ident)
  /-- `cat_field_fast::<#ty, _>(self, size)` -/
  | fieldFast (ty : Ty)
  /-- `cat_array_field_cautious::<#elem_ty>(#mod_name::lengths::#len_ident(lengths), size)` -/
  | arrayCautious (elem : Ty) (lenIdent : Ident)
  /-- `cat_array_field_fast::<#elem_ty>(#mod_name::lengths::#len_ident(lengths), size)` -/
  | arrayFast (elem : Ty) (lenIdent : Ident)
  deriving DecidableEq, Repr

/-- Expressions printed for `init_field`. -/
inductive InitExpr
  /-- `self.#ident` -/
  | self (ident : Ident)
  /-- `init_field(self.#ident, p, layout.#ident, layout.#layout_ident)` -/
  | field (ident layoutIdent : Ident)
  /-- `init_array(self.#ident, p, layout.#ident, layout.#len_ident)` -/
  | array (ident lenIdent : Ident)
  deriving DecidableEq, Repr

/-- Expressions printed for `ref_field` and `mut_field`. -/
inductive RefExpr
  /-- `&self.#ident` / `&mut mut_ref.#ident` -/
  | self (ident : Ident)
  /-- `ref_field(self, layout.#ident)` / `mut_field(mut_ptr, layout.#ident)` -/
  | field (ident : Ident)
  /-- `ref_array(self, layout.#ident, layout.#len_ident)` / `mut_array(mut_ptr, ...)` -/
  | array (ident lenIdent : Ident)
  deriving DecidableEq, Repr

/-- Statements printed for `drop_field`. -/
inductive DropStmt
  /-- `drop_in_place(addr_of_mut!((*p_typed).#ident))` -/
  | inPlace (ident : Ident)
  /-- `vdrop_field::<#ty>(p, layout.#ident, layout.#layout_ident)` -/
  | field (ty : Ty) (ident layoutIdent : Ident)
  /-- `drop_array::<#elem_ty>(p, layout.#ident, layout.#len_ident)` -/
  | array (elem : Ty) (ident lenIdent : Ident)
  deriving DecidableEq, Repr

/-- Expressions printed for `needs_vdrop`. -/
inductive NeedsExpr
  /-- `needs_drop::<#ty>()` -/
  | needsDrop (ty : Ty)
  /-- `<#ty as VarLen>::NEEDS_VDROP` -/
  | needsVdrop (ty : Ty)
  deriving DecidableEq, Repr

/-- Expressions printed for `align_of_field`. -/
inductive AlignExpr
  /-- `<#ty as VarLen>::ALIGN` -/
  | varlen (ty : Ty)
  /-- `align_of::<#elem_ty>()` -/
  | elem (ty : Ty)
  deriving DecidableEq, Repr

/-- `LengthFields` (varlen_macro/src/lib.rs:627-641). -/
structure LengthFields where
  meta_ : Meta
  tys : List Ty

/-- `LengthExprs` (varlen_macro/src/lib.rs:761-773). -/
structure LengthExprs where
  lenIdent : List Ident
  lenExpr : List Tok

/-- `FieldMarkers` (varlen_macro/src/lib.rs:682-718). `layout_ty_refs` is kept as the list of types added to it. -/
structure FieldMarkers where
  meta_ : Meta
  initTyParams : List Ident
  initTyConstraints : List GenBound
  layoutIdents : List Ident
  layoutTy : List GenTy
  layoutTyRefs : List Ty
  catFieldCautious : List CatExpr
  catFieldFast : List CatExpr
  alignOfField : List AlignExpr

/-- `AllFields` (varlen_macro/src/lib.rs:720-759). -/
structure AllFields where
  meta_ : Meta
  declTy : List GenTy
  initTy : List GenTy
  refTy : List GenTy
  mutTy : List GenTy
  initField : List InitExpr
  refField : List RefExpr
  mutField : List RefExpr
  dropField : List DropStmt
  needsVdrop : List NeedsExpr

/-- `FieldGroups` (varlen_macro/src/lib.rs:775-790). -/
structure FieldGroups where
  lengths : LengthFields
  lenExprs : LengthExprs
  varlenFields : FieldMarkers
  allFields : AllFields

/-- `FieldGroups::new` (varlen_macro/src/lib.rs:783-790). -/
def FieldGroups.new : FieldGroups := ⟨⟨.new, []⟩, ⟨[], []⟩, ⟨.new, [], [], [], [], [], [], [], []⟩, ⟨.new, [], [], [], [], [], [], [], [], []⟩⟩

/-- `mk_layout_ident` (varlen_macro/src/lib.rs:562-564). -/
def mkLayoutIdent (i : Ident) : Ident := i ++ "_layout"
/-- `format_ident!("{}_len", &ident)` (varlen_macro/src/lib.rs:929). -/
def mkLenIdent (i : Ident) : Ident := i ++ "_len"
/-- `mk_init_ident` (varlen_macro/src/lib.rs:566-568). The case conversion of the `convert_case` crate is the parameter `camel`. -/
def mkInitIdent (camel : String → String) (i : Ident) : Ident := "Init" ++ camel i

/-- `push_normal` (varlen_macro/src/lib.rs:792-823). -/
def FieldGroups.pushNormal (g : FieldGroups) (f : Field) : Except Error FieldGroups := do
  let m ← OneMeta.parse f
  pure { g with allFields := {
    meta_ := g.allFields.meta_.push m
    declTy := g.allFields.declTy ++ [.plain f.ty]
    initTy := g.allFields.initTy ++ [.plain f.ty]
    refTy := g.allFields.refTy ++ [.ref f.ty]
    mutTy := g.allFields.mutTy ++ [.mutRef f.ty]
    initField := g.allFields.initField ++ [.self f.ident]
    refField := g.allFields.refField ++ [.self f.ident]
    mutField := g.allFields.mutField ++ [.self f.ident]
    dropField := g.allFields.dropField ++ [.inPlace f.ident]
    needsVdrop := g.allFields.needsVdrop ++ [.needsDrop f.ty] } }

/-- `push_length` (varlen_macro/src/lib.rs:825-859). -/
def FieldGroups.pushLength (g : FieldGroups) (f : Field) : Except Error FieldGroups := do
  let m ← OneMeta.parse f
  pure { g with
    lengths := ⟨g.lengths.meta_.push m, g.lengths.tys ++ [f.ty]⟩
    allFields := {
      meta_ := g.allFields.meta_.push m
      declTy := g.allFields.declTy ++ [.plain f.ty]
      initTy := g.allFields.initTy ++ [.plain f.ty]
      refTy := g.allFields.refTy ++ [.ref f.ty]
      mutTy := g.allFields.mutTy ++ [.ref f.ty]
      initField := g.allFields.initField ++ [.self f.ident]
      refField := g.allFields.refField ++ [.self f.ident]
      mutField := g.allFields.mutField ++ [.self f.ident]
      dropField := g.allFields.dropField ++ [.inPlace f.ident]
      needsVdrop := g.allFields.needsVdrop ++ [.needsDrop f.ty] } }

/-- `push_varlen` (varlen_macro/src/lib.rs:861-924). -/
def FieldGroups.pushVarlen (camel : String → String) (g : FieldGroups) (f : Field) : Except Error FieldGroups := do
  let m ← OneMeta.parse f
  let layoutIdent := mkLayoutIdent f.ident
  let initIdent := mkInitIdent camel f.ident
  pure { g with
    varlenFields := {
      meta_ := g.varlenFields.meta_.push m
      initTyParams := g.varlenFields.initTyParams ++ [initIdent]
      initTyConstraints := g.varlenFields.initTyConstraints ++ [.initializer f.ty]
      layoutIdents := g.varlenFields.layoutIdents ++ [layoutIdent]
      layoutTy := g.varlenFields.layoutTy ++ [.layoutOf f.ty]
      layoutTyRefs := g.varlenFields.layoutTyRefs ++ [f.ty]
      catFieldCautious := g.varlenFields.catFieldCautious ++ [.fieldCautious f.ty f.ident]
      catFieldFast := g.varlenFields.catFieldFast ++ [.fieldFast f.ty]
      alignOfField := g.varlenFields.alignOfField ++ [.varlen f.ty] }
    allFields := {
      meta_ := g.allFields.meta_.push m
      declTy := g.allFields.declTy ++ [.fieldMarker f.ty]
      initTy := g.allFields.initTy ++ [.param initIdent]
      refTy := g.allFields.refTy ++ [.ref f.ty]
      mutTy := g.allFields.mutTy ++ [.pinMut f.ty]
      initField := g.allFields.initField ++ [.field f.ident layoutIdent]
      refField := g.allFields.refField ++ [.field f.ident]
      mutField := g.allFields.mutField ++ [.field f.ident]
      dropField := g.allFields.dropField ++ [.field f.ty f.ident layoutIdent]
      needsVdrop := g.allFields.needsVdrop ++ [.needsVdrop f.ty] } }

/-- `push_varlen_array` (varlen_macro/src/lib.rs:926-1009). -/
def FieldGroups.pushVarlenArray (camel : String → String) (g : FieldGroups) (f : Field) : Except Error FieldGroups := do
  let m ← OneMeta.parse f
  let lenIdent := mkLenIdent f.ident
  let initIdent := mkInitIdent camel f.ident
  match f.ty with
  | .array elemTy lenExpr =>
    pure { g with
      lenExprs := ⟨g.lenExprs.lenIdent ++ [lenIdent], g.lenExprs.lenExpr ++ [lenExpr]⟩
      varlenFields := {
        meta_ := g.varlenFields.meta_.push m
        initTyParams := g.varlenFields.initTyParams ++ [initIdent]
        initTyConstraints := g.varlenFields.initTyConstraints ++ [.arrayInitializer elemTy]
        layoutIdents := g.varlenFields.layoutIdents ++ [lenIdent]
        layoutTy := g.varlenFields.layoutTy ++ [.usize]
        layoutTyRefs := g.varlenFields.layoutTyRefs
        catFieldCautious := g.varlenFields.catFieldCautious ++ [.arrayCautious elemTy lenIdent]
        catFieldFast := g.varlenFields.catFieldFast ++ [.arrayFast elemTy lenIdent]
        alignOfField := g.varlenFields.alignOfField ++ [.elem elemTy] }
      allFields := {
        meta_ := g.allFields.meta_.push m
        declTy := g.allFields.declTy ++ [.arrayMarker elemTy]
        initTy := g.allFields.initTy ++ [.param initIdent]
        refTy := g.allFields.refTy ++ [.refSlice elemTy]
        mutTy := g.allFields.mutTy ++ [.mutSlice elemTy]
        initField := g.allFields.initField ++ [.array f.ident lenIdent]
        refField := g.allFields.refField ++ [.array f.ident lenIdent]
        mutField := g.allFields.mutField ++ [.array f.ident lenIdent]
        dropField := g.allFields.dropField ++ [.array elemTy f.ident lenIdent]
        needsVdrop := g.allFields.needsVdrop ++ [.needsDrop elemTy] } }
  | .other _ => .error .notAnArray

/-- `FieldType` (varlen_macro/src/lib.rs:1012-1018). -/
inductive FieldType
  | Normal | Length | Varlen | VarlenArray
  deriving DecidableEq, Repr

/-- The closure `set_type` (varlen_macro/src/lib.rs:1033-1041), on its captured `field_type` and `err`. -/
def setType (st : FieldType × Option Error) (t : FieldType) : FieldType × Option Error :=
  if st.1 ≠ .Normal then (st.1, some .multipleAttributes) else (t, st.2)

/-- `f.attrs.retain(..)` (varlen_macro/src/lib.rs:1043-1056): the retained attributes and the captured variables afterwards. -/
def retainAttrs : List Tok → FieldType × Option Error → List Tok × (FieldType × Option Error)
  | [], st => ([], st)
  | a :: as, st =>
    if a = "#[varlen_array]" then retainAttrs as (setType st .VarlenArray)
    else if a = "#[controls_layout]" then retainAttrs as (setType st .Length)
    else if a = "#[varlen]" then retainAttrs as (setType st .Varlen)
    else
      let r := retainAttrs as st
      (a :: r.1, r.2)

/-- One iteration of the loop of `parse_fields` (varlen_macro/src/lib.rs:1027-1064). -/
def parseField (camel : String → String) (g : FieldGroups) (f : Field) : Except Error FieldGroups :=
  let r := retainAttrs f.attrs (.Normal, none)
  match r.2.2 with
  | some err => .error err
  | none =>
    let f := { f with attrs := r.1 }
    match r.2.1 with
    | .Normal => g.pushNormal f
    | .Length => g.pushLength f
    | .Varlen => g.pushVarlen camel f
    | .VarlenArray => g.pushVarlenArray camel f

/-- `parse_fields` (varlen_macro/src/lib.rs:1020-1066). -/
def parseFields (camel : String → String) : List Field → FieldGroups → Except Error FieldGroups
  | [], g => .ok g
  | f :: fs, g => do
    let g ← parseField camel g f
    parseFields camel fs g

/-! ## The item that is printed -/

/-- A field of a printed struct definition. -/
structure GenField where
  attrs : List Tok
  vis : SimpleVisibility
  ident : Ident
  ty : GenTy
  deriving DecidableEq, Repr

/-- `#( #attr #vis #ident : #ty, )*`: `quote!` iterates in lockstep until one of the lists ends. -/
def quoteFields : List (List Tok) → List SimpleVisibility → List Ident → List GenTy → List GenField
  | a :: as, v :: vs, i :: is, t :: ts => ⟨a, v, i, t⟩ :: quoteFields as vs is ts
  | _, _, _, _ => []

/-- `#( pub(super) #varlen_ident: usize, pub(super) #varlen_layout_ident: #varlen_layout_ty, )*`. -/
def quoteLayoutFields : List Ident → List Ident → List GenTy → List GenField
  | i :: is, l :: ls, t :: ts => ⟨[], .Super, i, .usize⟩ :: ⟨[], .Super, l, t⟩ :: quoteLayoutFields is ls ts
  | _, _, _ => []

/-- `let (#varlen_ident, #varlen_layout_ident, size) = #cat;`: the names bound and the expression. -/
structure LetCat where
  ident : Ident
  layoutIdent : Ident
  expr : CatExpr
  deriving DecidableEq, Repr

/-- `#( let (..) = ..; )*`. -/
def quoteLets : List Ident → List Ident → List CatExpr → List LetCat
  | i :: is, l :: ls, e :: es => ⟨i, l, e⟩ :: quoteLets is ls es
  | _, _, _ => []

/-- `#( #varlen_ident, #varlen_layout_ident, )* size`: the field names of the `VarLenLayout` literal (varlen_macro/src/lib.rs:358-364, 407-412). -/
def quoteLayoutLit : List Ident → List Ident → List Ident
  | i :: is, l :: ls => i :: l :: quoteLayoutLit is ls
  | _, _ => ["size"]

/-- What `define_varlen_impl` prints (varlen_macro/src/lib.rs:266-511), as data. Generics (see Model/Generics.lean), attributes of the struct itself and doc comments are left out. -/
structure Output where
  /-- `#tyvis` of the struct, the module and the methods. -/
  tyVis : SimpleVisibility
  /-- `#tyvis_inner` of the types in the module. -/
  tyVisInner : SimpleVisibility
  tyName : Ident
  modName : Ident
  /-- `struct VarLenLayout` (273-279). -/
  varLenLayout : List GenField
  /-- `const fn #len_ident((#lengths_ident,*): (&#lengths_ty,*)) -> usize { #len_expr }` (288-298): parameter names, and name with body of each function. -/
  lenParams : List (Ident × Ty)
  lenFns : List (Ident × Tok)
  /-- The type parameters of `Init` with their bounds in the `Initializer` impl (300, 391). -/
  initParams : List (Ident × GenBound)
  /-- `struct Init` (300-305). -/
  init : List GenField
  /-- `struct Muts` (307-312). -/
  muts : List GenField
  /-- `struct Refs` (314-319). -/
  refs : List GenField
  /-- `struct LayoutControllers` (321-326). -/
  layoutControllers : List GenField
  /-- The struct itself (331-336). -/
  decl : List GenField
  /-- The `let`s of `calculate_layout` (355-357). -/
  fastLets : List LetCat
  /-- The `let`s of `calculate_layout_cautious` (404-406). -/
  cautiousLets : List LetCat
  /-- The fields of the `VarLenLayout` literal at the end of both layout computations (358-364, 407-412), in shorthand notation. -/
  layoutLit : List Ident
  /-- The entries of `ALIGN` after the first (367-375). -/
  aligns : List AlignExpr
  /-- The operands of `NEEDS_VDROP` (377-381). -/
  needs : List NeedsExpr
  /-- The body of `vdrop` (383-389). -/
  drops : List DropStmt
  /-- `initialize`: the struct literal (417-425). -/
  inits : List (Ident × InitExpr)
  /-- `muts()`: the struct literal (429-441). -/
  mutLit : List (Ident × RefExpr)
  /-- `refs()`: the struct literal (443-452). -/
  refLit : List (Ident × RefExpr)
  /-- The names in the assignments and tuples of `try_set_layout_controllers` (454-483), and the length functions compared. -/
  setFields : List Ident
  setLens : List Ident
  /-- The types whose names decide which generic parameters `VarLenLayout` gets: `varlen_layout_ty_refs` (252, 880). Not printed; used in Model/Generics.lean. -/
  layoutTyRefs : List Ty

/-- The shapes of `syn::Data` / `syn::Fields` that matter. -/
inductive ItemData
  | named (fields : List Field)
  | unnamed
  | notStruct

/-- The parsed item (`syn::DeriveInput`). -/
structure Item where
  vis : Vis
  ident : Ident
  data : ItemData

/-- `define_varlen_impl` (varlen_macro/src/lib.rs:169-511); the case conversions `camel`, `snake` are parameters. -/
def defineVarlenImpl (camel snake : String → String) (d : Item) : Except Error Output := do
  let fields ← match d.data with
    | .named fs => Except.ok fs
    | .unnamed => .error .notNamed
    | .notStruct => .error .notStruct
  let (tyVis, tyVisInner) ← SimpleVisibility.tryParse d.vis
  let modName := snake d.ident
  let g ← parseFields camel fields .new
  let all := g.allFields
  pure {
    tyVis, tyVisInner, tyName := d.ident, modName
    varLenLayout := ⟨[], .Super, "size", .usize⟩ :: quoteLayoutFields g.varlenFields.meta_.ident g.varlenFields.layoutIdents g.varlenFields.layoutTy
    lenParams := g.lengths.meta_.ident.zip g.lengths.tys
    lenFns := g.lenExprs.lenIdent.zip g.lenExprs.lenExpr
    initParams := g.varlenFields.initTyParams.zip g.varlenFields.initTyConstraints
    init := quoteFields all.meta_.attrs all.meta_.visInner all.meta_.ident all.initTy
    muts := quoteFields all.meta_.attrs all.meta_.visInner all.meta_.ident all.mutTy
    refs := quoteFields all.meta_.attrs all.meta_.visInner all.meta_.ident all.refTy
    layoutControllers := quoteFields g.lengths.meta_.attrs g.lengths.meta_.visInner g.lengths.meta_.ident (g.lengths.tys.map .plain)
    decl := quoteFields all.meta_.attrs all.meta_.vis all.meta_.ident all.declTy
    fastLets := quoteLets g.varlenFields.meta_.ident g.varlenFields.layoutIdents g.varlenFields.catFieldFast
    cautiousLets := quoteLets g.varlenFields.meta_.ident g.varlenFields.layoutIdents g.varlenFields.catFieldCautious
    layoutLit := quoteLayoutLit g.varlenFields.meta_.ident g.varlenFields.layoutIdents
    aligns := g.varlenFields.alignOfField
    needs := all.needsVdrop
    drops := all.dropField
    inits := all.meta_.ident.zip all.initField
    mutLit := all.meta_.ident.zip all.mutField
    refLit := all.meta_.ident.zip all.refField
    setFields := g.lengths.meta_.ident
    setLens := g.lenExprs.lenIdent
    layoutTyRefs := g.varlenFields.layoutTyRefs }

/-- What `define_varlen` returns (varlen_macro/src/lib.rs:146-165): the generated items, or the input with a `compile_error!`. -/
inductive Expansion
  | generated (o : Output)
  | compileError (d : Item) (e : Error)

/-- `define_varlen` (varlen_macro/src/lib.rs:146-165). -/
def defineVarlen (camel snake : String → String) (d : Item) : Expansion :=
  match defineVarlenImpl camel snake d with
  | .ok o => .generated o
  | .error e => .compileError d e

end Varlen.Macro
