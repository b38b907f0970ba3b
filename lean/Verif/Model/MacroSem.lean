import Verif.Model.Macro
import Verif.Model.Struct
/-!
# Running the code that `#[define_varlen]` prints

`Varlen.Macro.Output` (Model/Macro.lean) is the printed item as data. This file is an interpreter for it: names are looked up in the printed struct definitions and in the
environment of local variables, and each printed expression calls the function of varlen/src/macro_support.rs that it names (Model/MacroSupport.lean). Programs that rustc would
reject (unbound names, wrong types) run into `UB.typeConfusion`.
-/
namespace Varlen.Macro
variable {w : Nat}

/-- What the compiler knows about the names in a declaration: its types, what the length expressions mean when the parameters of the printed length functions are bound to
values, and the memory layout of the struct. -/
structure Meaning (w : Nat) where
  /-- Sized types. -/
  rty : Ty → RTy
  /-- Variable-length types. -/
  vty : Ty → VarLen w
  /-- Value of an expression under bindings of variables; `none` if evaluating it panics. -/
  expr : Tok → List (Ident × Img) → Option (BitVec w)
  /-- `size_of::<Self>()` -/
  headSize : Nat
  /-- `size_of::<#tyname>()`: the struct without generic arguments, i.e. with the defaults of its parameters (varlen_macro/src/lib.rs:403). -/
  bareHeadSize : Nat
  /-- `align_of::<Self>()` -/
  headAlign : Nat
  /-- Offsets of the fields of the struct. -/
  off : Ident → Nat

/-- Values of local variables and of fields of `VarLenLayout`: `usize`, a layout of a varlen field, or the tuple of layout-controlling values. -/
inductive LVal (w : Nat)
  | word (n : BitVec w)
  | lay (l : Layout w)
  | tuple (xs : List Img)

/-- Local variables. -/
abbrev Env (w : Nat) := Ident → Option (LVal w)

/-- `let x = v;` (shadowing). -/
def Env.set (env : Env w) (x : Ident) (v : LVal w) : Env w := fun y => if y = x then some v else env y

/-- The type of field `x` of the printed struct (varlen_macro/src/lib.rs:331-336). -/
def Output.fieldTy (o : Output) (x : Ident) : Option GenTy := (o.decl.find? fun g => g.ident == x).map GenField.ty

/-- The type of a field of fixed size, e.g. of `self.#ident` where it is read. -/
def plainTy (ι : Meaning w) (o : Output) (x : Ident) : Option RTy :=
  match o.fieldTy x with
  | some (.plain ty) => some (ι.rty ty)
  | _ => none

/-- `(#( &self.#lengths_ident, )*)` (varlen_macro/src/lib.rs:349-353, 458-462), with the values behind the references. -/
def readFields (ι : Meaning w) (o : Output) (p : Ptr) : List Ident → M (List Img)
  | [] => pure []
  | x :: xs =>
    match plainTy ι o x with
    | none => ubM .typeConfusion
    | some R => do
      let v ← readVal R (p.add (ι.off x))
      let vs ← readFields ι o p xs
      pure (v :: vs)

/-- A call `#mod_name::lengths::#len_ident(lengths)` of a printed length function (varlen_macro/src/lib.rs:288-298). -/
def callLen (ι : Meaning w) (o : Output) (f : Ident) (args : List Img) : M (BitVec w) :=
  match (o.lenFns.find? fun g => g.1 == f).map Prod.snd with
  | none => ubM .typeConfusion
  | some body =>
    match ι.expr body ((o.lenParams.map Prod.fst).zip args) with
    | some n => pure n
    | none => panicM .user

/-- An expression in the `let`s of `calculate_layout` (varlen_macro/src/lib.rs:884-888, 968-973). -/
def evalFast (ι : Meaning w) (o : Output) (p : Ptr) (env : Env w) : CatExpr → M (BitVec w × LVal w × BitVec w)
  | .fieldFast ty =>
    match env "size" with
    | some (.word size) => do
      let (off, l, size) ← catFieldFast (ι.vty ty) p size
      pure (off, .lay l, size)
    | _ => ubM .typeConfusion
  | .arrayFast elem f =>
    match env "lengths", env "size" with
    | some (.tuple lengths), some (.word size) => do
      let n ← callLen ι o f lengths
      let (off, n, size) := catArrayFieldFast (ι.rty elem) n size
      pure (off, .word n, size)
    | _, _ => ubM .typeConfusion
  | _ => ubM .typeConfusion

/-- The `let`s of `calculate_layout` (varlen_macro/src/lib.rs:355-357). -/
def runFast (ι : Meaning w) (o : Output) (p : Ptr) : List LetCat → Env w → M (Env w)
  | [], env => pure env
  | c :: cs, env => do
    let (off, l, size) ← evalFast ι o p env c.expr
    runFast ι o p cs (((env.set c.ident (.word off)).set c.layoutIdent l).set "size" (.word size))

/-- The offset and layout fields of a `VarLenLayout`, in declaration order, with values given by name. -/
def layoutPairs (val : Ident → Option (LVal w)) : List GenField → Option (List (BitVec w × Layout w))
  | [] => some []
  | a :: b :: rest =>
    match val a.ident, b.ty, val b.ident, layoutPairs val rest with
    | some (.word off), .usize, some (.word n), some r => some ((off, .len n) :: r)
    | some (.word off), .layoutOf _, some (.lay l), some r => some ((off, l) :: r)
    | _, _, _, _ => none
  | _ => none

/-- The literal `VarLenLayout { #( #varlen_ident, #varlen_layout_ident, )* size }` (varlen_macro/src/lib.rs:358-364, 407-412): shorthand fields take the values of the variables
of that name. -/
def layoutLiteral (o : Output) (env : Env w) : Option (Layout w) :=
  let val := fun x => if x ∈ o.layoutLit then env x else none
  match o.varLenLayout with
  | s :: rest =>
    match val s.ident, layoutPairs val rest with
    | some (.word size), some ls => some (.fields size ls)
    | _, _ => none
  | [] => none

/-- Printed `calculate_layout` (varlen_macro/src/lib.rs:347-365). -/
def genCalc (ι : Meaning w) (o : Output) (p : Ptr) : M (Layout w) := do
  let lengths ← readFields ι o p (o.lenParams.map Prod.fst)
  let env : Env w := fun _ => none
  let env := (env.set "lengths" (.tuple lengths)).set "size" (.word (BitVec.ofNat w ι.headSize))
  let env ← runFast ι o p o.fastLets env
  match layoutLiteral o env with
  | some l => pure l
  | none => ubM .typeConfusion

/-- Value of field `x` among the offset and layout fields of a `VarLenLayout`. -/
def pairField (x : Ident) : List GenField → List (BitVec w × Layout w) → Option (LVal w)
  | a :: b :: rest, (off, l) :: ls =>
    if a.ident = x then some (.word off)
    else if b.ident = x then
      match b.ty, l with
      | .usize, .len n => some (.word n)
      | .layoutOf _, l => some (.lay l)
      | _, _ => none
    else pairField x rest ls
  | _, _ => none

/-- `layout.#x` for `layout: VarLenLayout` (declared in varlen_macro/src/lib.rs:273-279). -/
def layoutField (o : Output) (l : Layout w) (x : Ident) : Option (LVal w) :=
  match o.varLenLayout, l with
  | s :: rest, .fields size ls => if s.ident = x then some (.word size) else pairField x rest ls
  | _, _ => none

/-- `<VarLenLayout as Layout>::size` (varlen_macro/src/lib.rs:281-286): `self.size`. -/
def genSize (o : Output) (l : Layout w) : Option (BitVec w) :=
  match layoutField o l "size" with
  | some (.word n) => some n
  | _ => none

/-- Printed `ALIGN` (varlen_macro/src/lib.rs:367-375). -/
def genAlign (ι : Meaning w) (o : Output) : BitVec w :=
  arrayMax (BitVec.ofNat w ι.headAlign :: o.aligns.map fun
    | .varlen ty => (ι.vty ty).ALIGN
    | .elem ty => (ι.rty ty).alignOf w)

/-- Printed `NEEDS_VDROP` (varlen_macro/src/lib.rs:377-381). -/
def genNeeds (ι : Meaning w) (o : Output) : Bool :=
  o.needs.foldr (fun e r => (match e with
    | .needsDrop ty => (ι.rty ty).needsDrop
    | .needsVdrop ty => (ι.vty ty).NEEDS_VDROP) || r) false

/-- A statement of the printed `vdrop` (varlen_macro/src/lib.rs:816-818, 852-854, 917-919, 1002-1004). -/
def runDrop (ι : Meaning w) (o : Output) (p : Ptr) (layout : Layout w) : DropStmt → M Unit
  | .inPlace x =>
    match plainTy ι o x with
    | some R => dropInPlace R (p.add (ι.off x))
    | none => ubM .typeConfusion
  | .field ty x lx =>
    match layoutField o layout x, layoutField o layout lx with
    | some (.word off), some (.lay l) => vdropField (ι.vty ty) p off l
    | _, _ => ubM .typeConfusion
  | .array elem x lx =>
    match layoutField o layout x, layoutField o layout lx with
    | some (.word off), some (.word n) => dropArray (ι.rty elem) p off n
    | _, _ => ubM .typeConfusion

/-- Statements in sequence. -/
def runDrops (ι : Meaning w) (o : Output) (p : Ptr) (layout : Layout w) : List DropStmt → M Unit
  | [] => pure ()
  | d :: ds => do
    runDrop ι o p layout d
    runDrops ι o p layout ds

/-- Printed `vdrop` (varlen_macro/src/lib.rs:383-389). A layout of another type is excluded by the type checker. -/
def genVdrop (ι : Meaning w) (o : Output) (p : Ptr) (layout : Layout w) : M Unit :=
  match layout with
  | .fields size ls => runDrops ι o p (.fields size ls) o.drops
  | _ => ubM .typeConfusion

/-- The fields of a value of the printed struct `Init` (varlen_macro/src/lib.rs:300-305): values, initializers and array initializers by field name. -/
structure InitArgs (w : Nat) where
  value : Ident → Img
  init : Ident → Init w
  array : Ident → ArrInit

/-- An expression in the `let`s of `calculate_layout_cautious`, before the `?` (varlen_macro/src/lib.rs:879-883, 962-967). -/
def evalCautious (ι : Meaning w) (o : Output) (self : InitArgs w) (env : Env w) : CatExpr → M (Option (BitVec w × LVal w × BitVec w))
  | .fieldCautious ty x =>
    match env "size" with
    | some (.word size) => do
      match ← catFieldCautious (ι.vty ty).ALIGN (self.init x) size with
      | some (off, l, size) => pure (some (off, .lay l, size))
      | none => pure none
    | _ => ubM .typeConfusion
  | .arrayCautious elem f =>
    match env "lengths", env "size" with
    | some (.tuple lengths), some (.word size) => do
      let n ← callLen ι o f lengths
      match catArrayFieldCautious (ι.rty elem) n size with
      | some (off, n, size) => pure (some (off, .word n, size))
      | none => pure none
    | _, _ => ubM .typeConfusion
  | _ => ubM .typeConfusion

/-- The `let`s of `calculate_layout_cautious` (varlen_macro/src/lib.rs:404-406); `?` returns `None`. -/
def runCautious (ι : Meaning w) (o : Output) (self : InitArgs w) : List LetCat → Env w → M (Option (Env w))
  | [], env => pure (some env)
  | c :: cs, env => do
    match ← evalCautious ι o self env c.expr with
    | none => pure none
    | some (off, l, size) => runCautious ι o self cs (((env.set c.ident (.word off)).set c.layoutIdent l).set "size" (.word size))

/-- Printed `calculate_layout_cautious` (varlen_macro/src/lib.rs:396-413). -/
def genCautious (ι : Meaning w) (o : Output) (self : InitArgs w) : M (Option (Layout w)) := do
  let lengths := (o.lenParams.map Prod.fst).map self.value
  let env : Env w := fun _ => none
  let env := (env.set "lengths" (.tuple lengths)).set "size" (.word (BitVec.ofNat w ι.bareHeadSize))
  match ← runCautious ι o self o.cautiousLets env with
  | none => pure none
  | some env =>
    match layoutLiteral o env with
    | some l => pure (some l)
    | none => ubM .typeConfusion

/-- An entry `#all_ident: #all_init_field` of the struct literal in `initialize` (varlen_macro/src/lib.rs:807-809, 843-845, 908-910, 993-995): the effects of evaluating it, and the
bytes of the field (the markers of varlen fields are zero-sized). -/
def evalInit (ι : Meaning w) (o : Output) (self : InitArgs w) (p : Ptr) (layout : Layout w) (name : Ident) : InitExpr → M Img
  | .self x => pure (self.value x)
  | .field x lx =>
    match layoutField o layout x, layoutField o layout lx with
    | some (.word off), some (.lay l) => do
      initField (self.init x) p off l
      pure []
    | _, _ => ubM .typeConfusion
  | .array x lx =>
    match o.fieldTy name, layoutField o layout x, layoutField o layout lx with
    | some (.arrayMarker elem), some (.word off), some (.word n) => do
      initArray (ι.rty elem) (self.array x) p off n
      pure []
    | _, _, _ => ubM .typeConfusion

/-- Dropping a field of the printed struct `Init` (varlen_macro/src/lib.rs:300-305), according to its type: a value, or an initializer whose kind is the bound of its type
parameter (varlen_macro/src/lib.rs:391-394). -/
def dropInitField (ι : Meaning w) (o : Output) (self : InitArgs w) (g : GenField) : M Unit :=
  match g.ty with
  | .plain ty => emit ((ι.rty ty).drops (self.value g.ident))
  | .param P =>
    match (o.initParams.find? fun b => b.1 == P).map Prod.snd with
    | some (.initializer _) => (self.init g.ident).dropI
    | some (.arrayInitializer _) => (self.array g.ident).dropI
    | none => ubM .typeConfusion
  | _ => ubM .typeConfusion

/-- Drop glue of what is left of a value of the printed struct `Init`: its fields in declaration order, except those moved out of it. -/
def dropInitFields (ι : Meaning w) (o : Output) (self : InitArgs w) (moved : List Ident) : List GenField → M Unit
  | [] => pure ()
  | g :: gs =>
    if g.ident ∈ moved then dropInitFields ι o self moved gs
    else do
      dropInitField ι o self g
      dropInitFields ι o self moved gs

/-- The field of `self` that the entry moves. -/
def InitExpr.moves : InitExpr → Ident
  | .self x => x
  | .field x _ => x
  | .array x _ => x

/-- The temporary that holds the value of an entry of the literal, if dropping it can have an effect: the markers have no drop glue (varlen/src/marker.rs). -/
def tempOf (ι : Meaning w) (o : Output) (name : Ident) (img : Img) : List (RTy × Img) :=
  match plainTy ι o name with
  | some R => [(R, img)]
  | none => []

/-- Unwinding out of the struct literal in `initialize` (varlen_macro/src/lib.rs:419-423): the values of the entries evaluated so far are dropped, the last one first, then what is left of
`self`. -/
def genUnwind (ι : Meaning w) (o : Output) (self : InitArgs w) (done : List (RTy × Img)) (moved : List Ident) : M Unit := do
  emit (doneDrops done)
  dropInitFields ι o self moved o.init

/-- The struct literal, evaluated in order: the bytes of the head. `done` are the values of the entries so far, last first; `moved` the fields of `self` moved so far. -/
def evalInits (ι : Meaning w) (o : Output) (self : InitArgs w) (p : Ptr) (layout : Layout w) : List (RTy × Img) → List Ident → List (Ident × InitExpr) → M View
  | _, _, [] => pure fun _ => none
  | done, moved, (name, e) :: es => do
    let img ← onUnwind (evalInit ι o self p layout name e) (genUnwind ι o self done (e.moves :: moved))
    let v ← evalInits ι o self p layout (tempOf ι o name img ++ done) (e.moves :: moved) es
    pure (overwrite v (ι.off name) img)

/-- Printed `initialize` (varlen_macro/src/lib.rs:415-425). -/
def genInit (ι : Meaning w) (o : Output) (self : InitArgs w) (p : Ptr) (layout : Layout w) : M Unit :=
  match layout with
  | .fields size ls => do
    let v ← evalInits ι o self p (.fields size ls) [] [] o.inits
    checkAlign p ι.headAlign
    writeBytes p (takeV v 0 ι.headSize)
  | _ => ubM .typeConfusion

/-- An entry of the literal in `refs()` or `muts()` (varlen_macro/src/lib.rs:810-815, 846-851, 911-916, 996-1001), whose expected type is the field's type in `Refs` / `Muts`. -/
def evalRef (ι : Meaning w) (o : Output) (p : Ptr) (layout : Layout w) (ty : GenTy) : RefExpr → M FRef
  | .self x =>
    match plainTy ι o x with
    | some R => do
      mkRef (p.add (ι.off x)) R.size R.align
      pure (.val (p.add (ι.off x)))
    | none => ubM .typeConfusion
  | .field x =>
    match ty, layoutField o layout x with
    | .ref t, some (.word off) => do
      let q ← refField (ι.vty t) p off
      pure (.field q)
    | .pinMut t, some (.word off) => do
      let q ← refField (ι.vty t) p off
      pure (.field q)
    | _, _ => ubM .typeConfusion
  | .array x lx =>
    match ty, layoutField o layout x, layoutField o layout lx with
    | .refSlice t, some (.word off), some (.word n) => do
      let s ← refArray (ι.rty t) p off n
      pure (.slice s)
    | .mutSlice t, some (.word off), some (.word n) => do
      let s ← refArray (ι.rty t) p off n
      pure (.slice s)
    | _, _, _ => ubM .typeConfusion

/-- A literal of type `Refs` or `Muts`, the fields `decl` of which are declared in varlen_macro/src/lib.rs:307-319: each entry with its name and declared type. -/
def evalRefs (ι : Meaning w) (o : Output) (p : Ptr) (layout : Layout w) (decl : List GenField) : List (Ident × RefExpr) → M (List (Ident × GenTy × FRef))
  | [] => pure []
  | (x, e) :: es =>
    match decl.find? fun g => g.ident == x with
    | none => ubM .typeConfusion
    | some g => do
      let r ← evalRef ι o p layout g.ty e
      let rs ← evalRefs ι o p layout decl es
      pure ((x, g.ty, r) :: rs)

/-- Printed `refs()` (varlen_macro/src/lib.rs:443-452). -/
def genRefs (ι : Meaning w) (o : Output) (p : Ptr) : M (List (Ident × GenTy × FRef)) := do
  let layout ← genCalc ι o p
  evalRefs ι o p layout o.refs o.refLit

/-- Printed `muts()` (varlen_macro/src/lib.rs:429-441). -/
def genMuts (ι : Meaning w) (o : Output) (p : Ptr) : M (List (Ident × GenTy × FRef)) := do
  let layout ← genCalc ι o p
  evalRefs ι o p layout o.muts o.mutLit

/-- `self_mut.#lengths_ident = layout_controllers.#lengths_ident;` (varlen_macro/src/lib.rs:475-477). -/
def assignFields (ι : Meaning w) (o : Output) (p : Ptr) (new : Ident → Img) : List Ident → M Unit
  | [] => pure ()
  | x :: xs =>
    match plainTy ι o x with
    | none => ubM .typeConfusion
    | some R => do
      dropInPlace R (p.add (ι.off x))
      writeVal R (p.add (ι.off x)) (new x)
      assignFields ι o p new xs

/-- Dropping a `LayoutControllers` value (declared in varlen_macro/src/lib.rs:321-326): its fields in declaration order. -/
def dropControllers (ι : Meaning w) (new : Ident → Img) : List GenField → M Unit
  | [] => pure ()
  | g :: gs =>
    match g.ty with
    | .plain ty => do
      emit ((ι.rty ty).drops (new g.ident))
      dropControllers ι new gs
    | _ => ubM .typeConfusion

/-- `true & (#len_ident(lengths_before) == #len_ident(lengths_after)) & …` (varlen_macro/src/lib.rs:468-474). -/
def sameLens (ι : Meaning w) (o : Output) (before after : List Img) : List Ident → M Bool
  | [] => pure true
  | f :: fs => do
    let a ← callLen ι o f before
    let b ← callLen ι o f after
    let r ← sameLens ι o before after fs
    pure (a == b && r)

/-- Printed `try_set_layout_controllers` (varlen_macro/src/lib.rs:454-483); `true` is `Ok(())`. -/
def genTrySet (ι : Meaning w) (o : Output) (p : Ptr) (new : Ident → Img) : M Bool := do
  let before ← readFields ι o p o.setFields
  let after := o.setFields.map new
  if ← onUnwind (sameLens ι o before after o.setLens) (dropControllers ι new o.layoutControllers) then do
    assignFields ι o p new o.setFields
    pure true
  else do
    dropControllers ι new o.layoutControllers
    pure false

end Varlen.Macro
