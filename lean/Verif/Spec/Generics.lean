import Verif.Model.Generics
import Verif.Spec.MacroSem
/-! # Specification: generic parameters of declarations, scoping, instances -/
namespace Varlen.Macro
variable {w : Nat}

mutual
/-- All syntax trees inside a syntax tree, including itself. -/
def Syn.inside : Syn → List Syn
  | .path c segs => .path c segs :: segs.inside
  | .qpath s segs => .qpath s segs :: (s.inside ++ segs.inside)
  | .bound segs => .bound segs :: segs.inside
  | .node ss => .node ss :: ss.inside
  | .lifetime l => [.lifetime l]
  | .expr ns ss => .expr ns ss :: ss.inside
def Syns.inside : Syns → List Syn
  | .nil => []
  | .cons s ss => s.inside ++ ss.inside
def Segs.inside : Segs → List Syn
  | .nil => []
  | .cons _ args rest => args.inside ++ rest.inside
end

/-- The parameter `x` is written somewhere in `s`: a lifetime as itself; another parameter as the first name of a path (`T`, `T::Item`) or as a name in an expression (`N` in `[u8; N]`). -/
def Mentions : PName → Syn → Prop
  | .lifetime l, s => .lifetime l ∈ s.inside
  | .ident i, s => (∃ args rest, Syn.path false (.cons i args rest) ∈ s.inside) ∨ ∃ ns ss, Syn.expr ns ss ∈ s.inside ∧ i ∈ ns

/-- The parameter `x` is written somewhere in `s` as a whole type, not just at the start of a longer path or in an expression. -/
def MentionsBare : PName → Syn → Prop
  | .lifetime l, s => .lifetime l ∈ s.inside
  | .ident i, s => Syn.name i ∈ s.inside

/-- The names of the generic parameters of a declaration. -/
def GItem.params (d : GItem) : List PName := d.generics.params.map Param.pname

/-- rustc's conditions on generic parameters in the printed items (`d` is the declaration they come from). Names of items outside that happen to equal the name of a parameter are left
aside. -/
structure WellScoped (d : GItem) (o : GOutput) : Prop where
  /-- A parameter of the declaration may only be used in items that declare it (E0412, E0425, E0261). -/
  scope : ∀ it ∈ o.items d, ∀ s ∈ it.writes, ∀ x ∈ d.params, Mentions x s → x ∈ it.declares
  /-- Where the macro means a primitive type, no parameter has its name (E0053, E0308, E0326). -/
  prims : ∀ it ∈ o.items d, ∀ i ∈ it.prims, .ident i ∉ it.declares
  /-- The parameters of an item have distinct names (E0403). -/
  distinct : ∀ it ∈ o.items d, it.declares.Nodup
  /-- Lifetimes and type parameters of `VarLenLayout` occur in its fields (E0392). -/
  used : ∀ p ∈ o.layoutStructdef, p.kind ≠ .const → ∃ s ∈ GOutput.fieldTys d o.base.varLenLayout, Mentions p.pname s
  /-- Where the layout type is named, it gets one argument per parameter, in order (E0107, E0747). -/
  arity : o.layoutApply = o.layoutStructdef.map Param.pname ∧ o.apply = o.structdef.map Param.pname
  /-- `size_of::<Name>()` leaves out the arguments, so they must have defaults (E0107); lifetimes may be left out. -/
  bare : ∀ p ∈ o.structdef, p.kind ≠ .lifetime → p.pname ∉ o.bareArgs → p.default.isSome

/-- `x` is written as a whole type in the type of a `#[varlen]` field. -/
def BareInVarlen (d : GItem) (fs : List Field) (x : PName) : Prop := ∃ g ∈ fs, g.kind = .varlen ∧ MentionsBare x (g.ty.syn d)

/-- The generic declarations that the macro supports. -/
structure GenericsOk (camel : String → String) (d : GItem) (fs : List Field) : Prop where
  /-- Every type or const parameter has a default. -/
  defaults : ∀ p ∈ d.generics.params, p.kind ≠ .lifetime → p.default.isSome
  /-- The types of the fields in the head use no parameter. -/
  head : ∀ f ∈ fs, f.behindHead = false → ∀ x ∈ d.params, ¬ Mentions x (f.ty.syn d)
  /-- The length expressions use no parameter (names of `#[controls_layout]` fields stand for these fields). -/
  lens : ∀ f ∈ fs, f.kind = .varlenArray → ∀ e n, f.ty = .array e n → ∀ x ∈ d.params, Mentions x (d.expr n) → ∃ c ∈ controllers fs, x = .ident c
  /-- Parameters used in `#[varlen]` fields, in the where clause, or in the bounds and defaults of such parameters are used somewhere in a `#[varlen]` field as a whole type. -/
  varlen : ∀ f ∈ fs, f.kind = .varlen → ∀ x ∈ d.params, Mentions x (f.ty.syn d) → BareInVarlen d fs x
  whereClause : ∀ x ∈ d.params, Mentions x (.node d.generics.whereClause) → BareInVarlen d fs x
  bounds : ∀ p ∈ d.generics.params, BareInVarlen d fs p.pname → ∀ s ∈ p.writes, ∀ x ∈ d.params, Mentions x s → BareInVarlen d fs x
  /-- Parameters have distinct names, and not those the macro makes up or uses for primitive types. -/
  distinct : d.params.Nodup
  not_usize : .ident "usize" ∉ d.params
  not_bool : .ident "bool" ∉ d.params
  not_a : .lifetime "'a" ∉ d.params
  not_init : ∀ f ∈ fs, f.behindHead = true → .ident ("Init" ++ camel f.ident) ∉ d.params

/-- The type that the user declared for what is in the field: of a `#[varlen_array]` field, that of its elements. -/
def Field.ownTy (f : Field) : Ty :=
  match f.kind, f.ty with
  | .varlenArray, .array e _ => e
  | _, t => t

mutual
/-- Writing the arguments `σ` for the parameters. -/
def Syn.subst (σ : PName → Option Syn) : Syn → Syn
  | .path false (.cons i args rest) =>
    match σ (.ident i) with
    | some t => if getIdent false (.cons i args rest) = some i then t else .qpath t (.cons i (args.subst σ) (rest.subst σ))
    | none => .path false (.cons i (args.subst σ) (rest.subst σ))
  | .path c segs => .path c (segs.subst σ)
  | .qpath s segs => .qpath (s.subst σ) (segs.subst σ)
  | .bound segs => .bound (segs.subst σ)
  | .node ss => .node (ss.subst σ)
  | .lifetime l =>
    match σ (.lifetime l) with
    | some t => t
    | none => .lifetime l
  | .expr ns ss => .expr (ns.filter fun i => (σ (.ident i)).isNone) (ns.foldr (fun i r => match σ (.ident i) with | some t => .cons t r | none => r) (ss.subst σ))
def Syns.subst (σ : PName → Option Syn) : Syns → Syns
  | .nil => .nil
  | .cons s ss => .cons (s.subst σ) (ss.subst σ)
def Segs.subst (σ : PName → Option Syn) : Segs → Segs
  | .nil => .nil
  | .cons i args rest => .cons i (args.subst σ) (rest.subst σ)
end

/-- The types of the fields of the struct, with arguments for the parameters; the markers of `#[varlen]` and `#[varlen_array]` fields have size 0 and alignment 1 whatever type they name. -/
def headTypes (d : GItem) (fs : List Field) (σ : PName → Option Syn) : List (Option Syn) :=
  fs.map fun f => if f.behindHead then none else some ((f.ty.syn d).subst σ)

/-- `σ` gives arguments to the parameters of the declaration and to nothing else. -/
def IsArgs (d : GItem) (σ : PName → Option Syn) : Prop := ∀ x, (σ x).isSome = true ↔ x ∈ d.params

/-- What the compiler guarantees about the head of a generic struct, for each choice of arguments: its size is determined by the types of its fields, and the size of the struct without
arguments is that with the defaults as arguments. -/
structure HeadOf (d : GItem) (fs : List Field) (ι : (PName → Option Syn) → Meaning w) : Prop where
  determined : ∃ size : List (Option Syn) → Nat, ∀ σ, IsArgs d σ → (ι σ).headSize = size (headTypes d fs σ)
  bare : ∃ defaults, IsArgs d defaults ∧ ∀ σ, IsArgs d σ → (ι σ).bareHeadSize = (ι defaults).headSize

end Varlen.Macro
