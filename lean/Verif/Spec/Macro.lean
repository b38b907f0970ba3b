import Verif.Model.Macro
/-! # Specification of `#[define_varlen]`: what its input means -/
namespace Varlen.Macro

/-- The four kinds of fields. -/
inductive Kind
  | normal | controlsLayout | varlen | varlenArray
  deriving DecidableEq, Repr

/-- The kind that a field attribute asks for, if it is one of the macro's attributes. -/
def attrKind (a : Tok) : Option Kind :=
  if a = "#[controls_layout]" then some .controlsLayout else if a = "#[varlen]" then some .varlen else if a = "#[varlen_array]" then some .varlenArray else none

/-- The macro attributes on a field. -/
def Field.marks (f : Field) : List Kind := f.attrs.filterMap attrKind
/-- The kind of a field with at most one macro attribute. -/
def Field.kind (f : Field) : Kind := f.marks.headD .normal
/-- The attributes of the field that are not the macro's. -/
def Field.otherAttrs (f : Field) : List Tok := f.attrs.filter fun a => (attrKind a).isNone

/-- The visibilities the documentation allows: none, `pub`, `pub(crate)`, `pub(self)`, `pub(super)`. -/
def Vis.Allowed (v : Vis) : Prop :=
  v = .inherited ∨ v = .pub ∨ v = .crateKw ∨ v = .restricted false ["crate"] ∨ v = .restricted false ["self"] ∨ v = .restricted false ["super"]

/-- A field that the macro should accept. -/
structure Field.Acceptable (f : Field) : Prop where
  one_mark : f.marks.length ≤ 1
  vis : f.vis.Allowed
  array : f.kind = .varlenArray → ∃ elem len, f.ty = .array elem len

/-- Why the macro rejects a field: the first of these problems that it has. -/
inductive Field.Rejected (f : Field) : Error → Prop
  | attrs : 1 < f.marks.length → f.Rejected .multipleAttributes
  | vis : f.marks.length ≤ 1 → ¬ f.vis.Allowed → f.Rejected .badVisibility
  | array : f.marks.length ≤ 1 → f.vis.Allowed → f.kind = .varlenArray → (∀ elem len, f.ty ≠ .array elem len) → f.Rejected .notAnArray

/-- Why the macro rejects an item: it is not a struct; its fields have no names; its visibility; or the first field that is to be rejected. -/
inductive Item.Rejected (d : Item) : Error → Prop
  | notStruct : d.data = .notStruct → d.Rejected .notStruct
  | notNamed : d.data = .unnamed → d.Rejected .notNamed
  | vis {fs : List Field} : d.data = .named fs → ¬ d.vis.Allowed → d.Rejected .badVisibility
  | field {before after : List Field} {f : Field} {e : Error} : d.data = .named (before ++ f :: after) → d.vis.Allowed → (∀ g ∈ before, g.Acceptable) → f.Rejected e → d.Rejected e

/-- Meaning of a path of `self`, `super` and `crate` seen from module `m` (a list of names from the crate root), `none` if there is none. -/
def resolve : List Ident → List Ident → Option (List Ident)
  | m, [] => some m
  | m, seg :: rest =>
    if seg = "crate" then resolve [] rest
    else if seg = "self" then resolve m rest
    else if seg = "super" then (if m = [] then none else resolve m.dropLast rest)
    else resolve (m ++ [seg]) rest

/-- Where an item declared in module `m` with visibility `v` is visible: everywhere, or in a module and its descendants. -/
inductive Scope
  | everywhere
  | within (m : List Ident)
  deriving DecidableEq, Repr

/-- The scope of a visibility written in module `m`; `none` if the compiler rejects it. (Paths starting with `::` name other crates and are always rejected.) -/
def Vis.scope (m : List Ident) : Vis → Option Scope
  | .pub => some .everywhere
  | .crateKw => some (.within [])
  | .inherited => some (.within m)
  | .restricted c path => if c then none else (resolve m path).map .within

/-- The type of the field in the generated struct. -/
def Field.declTy (f : Field) : GenTy :=
  match f.kind, f.ty with
  | .varlen, t => .fieldMarker t
  | .varlenArray, .array e _ => .arrayMarker e
  | _, t => .plain t

/-- The type of the field in `Init`: the value itself, or any initializer. -/
def Field.initTy (camel : String → String) (f : Field) : GenTy :=
  match f.kind with
  | .varlen => .param ("Init" ++ camel f.ident)
  | .varlenArray => .param ("Init" ++ camel f.ident)
  | _ => .plain f.ty

/-- The type parameter of `Init` that stands for the field's initializer and what it must implement, for the fields behind the head. -/
def Field.initParam (camel : String → String) (f : Field) : Option (Ident × GenBound) :=
  match f.kind, f.ty with
  | .varlen, t => some ("Init" ++ camel f.ident, .initializer t)
  | .varlenArray, .array e _ => some ("Init" ++ camel f.ident, .arrayInitializer e)
  | _, _ => none

/-- The type of the field in `Refs`. -/
def Field.refTy (f : Field) : GenTy :=
  match f.kind, f.ty with
  | .varlenArray, .array e _ => .refSlice e
  | _, t => .ref t

/-- The type of the field in `Muts`: no mutable access to `#[controls_layout]` fields; `#[varlen]` fields are pinned. -/
def Field.mutTy (f : Field) : GenTy :=
  match f.kind, f.ty with
  | .controlsLayout, t => .ref t
  | .varlen, t => .pinMut t
  | .varlenArray, .array e _ => .mutSlice e
  | _, t => .mutRef t

/-- `gs` are the definitions of the fields `fs`: same names in the same order, the non-macro attributes kept, types given by `ty`, and written in module `inner m` they are
visible exactly where the user's declaration, written in `m`, says. -/
def Defines (inner : List Ident → List Ident) (ty : Field → GenTy) (fs : List Field) (gs : List GenField) : Prop :=
  gs.length = fs.length ∧ ∀ (i : Nat) f g, fs[i]? = some f → gs[i]? = some g →
    g.ident = f.ident ∧ g.attrs = f.otherAttrs ∧ g.ty = ty f ∧ ∀ m, g.vis.toTokens.scope (inner m) = f.vis.scope m

end Varlen.Macro
