import Verif.Spec.Macro
import Verif.Model.MacroSem
/-! # Specification: which printed items the compiler accepts, and which type a declaration means -/
namespace Varlen.Macro
variable {w : Nat}

/-- The names bound by the patterns of `let`s. -/
def boundNames (cs : List LetCat) : List Ident := cs.flatMap fun c => [c.ident, c.layoutIdent]

/-- The expression calls a length function with the variable `lengths`. -/
def CatExpr.usesLengths : CatExpr → Bool
  | .arrayCautious _ _ => true
  | .arrayFast _ _ => true
  | _ => false

/-- rustc's conditions on names in the printed item: fields of a struct are distinct (E0124), so are functions in a module (E0428), parameters of a function (E0415), type
parameters (E0403) and variables in a pattern (E0416); and where `lengths` is passed to a length function it is the tuple, not a `usize` that shadows it (E0308). -/
structure WellNamed (o : Output) : Prop where
  decl : (o.decl.map GenField.ident).Nodup
  layout : (o.varLenLayout.map GenField.ident).Nodup
  init : (o.init.map GenField.ident).Nodup
  muts : (o.muts.map GenField.ident).Nodup
  refs : (o.refs.map GenField.ident).Nodup
  controllers : (o.layoutControllers.map GenField.ident).Nodup
  lenFns : (o.lenFns.map Prod.fst).Nodup
  lenParams : (o.lenParams.map Prod.fst).Nodup
  initParams : (o.initParams.map Prod.fst).Nodup
  fastPats : ∀ c ∈ o.fastLets, [c.ident, c.layoutIdent, "size"].Nodup
  cautiousPats : ∀ c ∈ o.cautiousLets, [c.ident, c.layoutIdent, "size"].Nodup
  fastLengths : o.fastLets.Pairwise fun a b => b.expr.usesLengths = true → a.ident ≠ "lengths" ∧ a.layoutIdent ≠ "lengths"
  cautiousLengths : o.cautiousLets.Pairwise fun a b => b.expr.usesLengths = true → a.ident ≠ "lengths" ∧ a.layoutIdent ≠ "lengths"

/-- The names of the `#[controls_layout]` fields. -/
def controllers (fs : List Field) : List Ident := (fs.filter fun f => f.kind == .controlsLayout).map Field.ident

/-- A length expression, with the `#[controls_layout]` fields bound to their values. -/
def lenOf (ι : Meaning w) (ctl : List Ident) (e : Tok) : LenFn w := ⟨fun xs => (ι.expr e (ctl.zip xs)).getD 0, fun xs => (ι.expr e (ctl.zip xs)).isSome⟩

/-- What a declared field means: a field of the kind its attribute says, of its type. The length of an array field is its length expression, with the `#[controls_layout]` fields bound
to their values. -/
def Field.meaning (ι : Meaning w) (ctl : List Ident) (f : Field) : Fld w :=
  match f.kind, f.ty with
  | .controlsLayout, t => .length (ι.rty t) (ι.off f.ident)
  | .varlen, t => .varlen (ι.vty t)
  | .varlenArray, .array e n => .array (ι.rty e) (lenOf ι ctl n)
  | _, t => .normal (ι.rty t) (ι.off f.ident)

/-- What a struct declaration means. -/
def meaning (ι : Meaning w) (fs : List Field) : List (Fld w) := fs.map (Field.meaning ι (controllers fs))

/-- What a field of an `Init { … }` literal means. -/
def Field.initMeaning (ι : Meaning w) (ctl : List Ident) (a : InitArgs w) (f : Field) : FI w :=
  match f.kind, f.ty with
  | .controlsLayout, t => .length (ι.rty t) (ι.off f.ident) (a.value f.ident)
  | .varlen, t => .varlen (ι.vty t) (a.init f.ident)
  | .varlenArray, .array e n => .array (ι.rty e) (lenOf ι ctl n) (a.array f.ident)
  | _, t => .normal (ι.rty t) (ι.off f.ident) (a.value f.ident)

/-- What an `Init { … }` literal means. -/
def initMeaning (ι : Meaning w) (fs : List Field) (a : InitArgs w) : List (FI w) := fs.map (Field.initMeaning ι (controllers fs) a)

/-- The printed implementation of `VarLen` (varlen_macro/src/lib.rs:342-390). The printed `Drop` impl makes `needs_drop` true. The ghost fields (which bytes represent which value, and
which destructor effects are owed) are those of the declared struct. -/
def genVarLen (ι : Meaning w) (o : Output) (fs : List Field) : VarLen w where
  headSize := ι.headSize
  headAlign := ι.headAlign
  ALIGN := genAlign ι o
  NEEDS_VDROP := genNeeds ι o
  headNeedsDrop := true
  calculateLayout := genCalc ι o
  vdrop := genVdrop ι o
  Rep := aggRep ι.headSize (meaning ι fs)
  drops := aggDrops (meaning ι fs)

/-- The printed implementation of `Initializer` for `Init` (varlen_macro/src/lib.rs:391-426). The ghost fields (which value it constructs, what it borrows) are those of the literal. -/
def genInitializer (ι : Meaning w) (o : Output) (fs : List Field) (a : InitArgs w) : Init w :=
  { Struct.init ι.headSize ι.headAlign (initMeaning ι fs a) with
    cautious := genCautious ι o a
    initTo := genInit ι o a
    dropI := dropInitFields ι o a [] o.init }

end Varlen.Macro

namespace Varlen.Macro

/-- Stored behind the head: `#[varlen]` and `#[varlen_array]` fields. -/
def Field.behindHead (f : Field) : Bool := f.kind == .varlen || f.kind == .varlenArray

/-- The second name the macro makes up for a field behind the head. -/
def Field.companion (f : Field) : Ident := if f.kind = .varlenArray then f.ident ++ "_len" else f.ident ++ "_layout"

/-- The field names that do not get in the way of the names the macro makes up: distinct; those behind the head are not `size`, not the made-up second name of another, and have distinct
names in camel case (`camel`); and `lengths` is not used before an array field. -/
structure NamesOk (camel : String → String) (fs : List Field) : Prop where
  distinct : (fs.map Field.ident).Nodup
  not_size : ∀ f ∈ fs, f.behindHead = true → f.ident ≠ "size"
  not_companion : ∀ f ∈ fs, ∀ g ∈ fs, f.behindHead = true → g.behindHead = true → f.ident ≠ g.companion
  camel_distinct : ((fs.filter Field.behindHead).map fun f => camel f.ident).Nodup
  not_lengths : (fs.filter Field.behindHead).Pairwise fun a b => b.kind = .varlenArray → a.ident ≠ "lengths"

end Varlen.Macro
