import Verif.Spec.Scopes
import Verif.Spec.Access
import Verif.Props.MacroExamples
import Verif.Props.LenPanic
/-! # C74: the types that `refs()` and `muts()` give the fields -/
namespace Varlen.Macro
variable {w : Nat}

theorem evalRefsIn_eq {ι ιm : Meaning w} {o : Output} {p : Ptr} {layout : Layout w} {decl : List GenField}
    (h : ∀ g ∈ decl, ∀ t, (g.ty = .ref t ∨ g.ty = .pinMut t → ιm.vty t = ι.vty t) ∧ (g.ty = .refSlice t ∨ g.ty = .mutSlice t → ιm.rty t = ι.rty t)) :
    ∀ es, evalRefsIn ι ιm o p layout decl es = evalRefs ι o p layout decl es := by
  intro es
  induction es with
  | nil => rfl
  | cons xe es ih =>
    obtain ⟨x, e⟩ := xe
    unfold evalRefsIn evalRefs
    cases hg : decl.find? fun g => g.ident == x with
    | none => rfl
    | some g =>
      have hm := h g (List.mem_of_find?_eq_some hg)
      have he : evalRefIn ι ιm o p layout g.ty e = evalRef ι o p layout g.ty e := by
        cases e with
        | self x => rfl
        | field x =>
          show evalRef ιm o p layout g.ty (.field x) = _
          simp only [evalRef]
          cases ht : g.ty with
          | ref t => cases layoutField o layout x with
            | none => rfl
            | some a => cases a <;> simp only [(hm t).1 (Or.inl ht)]
          | pinMut t => cases layoutField o layout x with
            | none => rfl
            | some a => cases a <;> simp only [(hm t).1 (Or.inr ht)]
          | _ => rfl
        | array x lx =>
          show evalRef ιm o p layout g.ty (.array x lx) = _
          simp only [evalRef]
          cases ht : g.ty with
          | refSlice t => cases layoutField o layout x with
            | none => rfl
            | some a => cases a <;> cases layoutField o layout lx with
              | none => rfl
              | some b => cases b <;> simp only [(hm t).2 (Or.inl ht)]
          | mutSlice t => cases layoutField o layout x with
            | none => rfl
            | some a => cases a <;> cases layoutField o layout lx with
              | none => rfl
              | some b => cases b <;> simp only [(hm t).2 (Or.inr ht)]
          | _ => rfl
      simp only [he, ih]

/-- The types of all fields mean the same in the module as beside the declaration. -/
theorem agree_of {E : Type} {T : Types w E} {W : World E} {fs : List Field} (hc : TypeChecks T W fs) (base : Meaning w)
    (hs : ∀ f ∈ fs, f.behindHead = true → T.typ W.inModule f.tailTy = T.typ W.beside f.tailTy) :
    ∀ f ∈ fs, (T.read base W.inModule).vty f.tailTy = (T.read base W.beside).vty f.tailTy ∧ (T.read base W.inModule).rty f.tailTy = (T.read base W.beside).rty f.tailTy := by
  intro f hf
  have e : T.typ W.inModule f.tailTy = T.typ W.beside f.tailTy := by
    cases hb : f.behindHead with
    | true => exact hs f hf hb
    | false =>
      obtain ⟨i, h1, h2, _⟩ := hc.head f hf hb
      have ht : f.tailTy = f.ty := by
        cases hk : f.kind <;> simp [Field.behindHead, hk] at hb <;> simp [Field.tailTy, hk]
      rw [ht, h1, h2]
  simp only [Types.read, e, and_self]

theorem tailTy_eq {f : Field} (h : f.kind ≠ .varlenArray) : f.tailTy = f.ty := by
  cases hk : f.kind <;> simp_all [Field.tailTy]

theorem tailTy_array {f : Field} {e : Ty} {n : Tok} (h : f.kind = .varlenArray) (ht : f.ty = .array e n) : f.tailTy = e := by
  simp [Field.tailTy, h, ht]

theorem meaning_agree {ι ιm : Meaning w} {fs : List Field} (hacc : ∀ f ∈ fs, f.Acceptable) (hoff : ιm.off = ι.off) (hexpr : ιm.expr = ι.expr)
    (h : ∀ f ∈ fs, ιm.vty f.tailTy = ι.vty f.tailTy ∧ ιm.rty f.tailTy = ι.rty f.tailTy) : meaning ιm fs = meaning ι fs := by
  refine List.map_congr_left fun f hf => ?_
  obtain ⟨h1, h2⟩ := h f hf
  cases hk : f.kind with
  | normal => rw [tailTy_eq (by simp [hk])] at h2; rw [meaning_normal ιm _ hk, meaning_normal ι _ hk, h2, hoff]
  | controlsLayout => rw [tailTy_eq (by simp [hk])] at h2; rw [meaning_length ιm _ hk, meaning_length ι _ hk, h2, hoff]
  | varlen => rw [tailTy_eq (by simp [hk])] at h1; rw [meaning_varlen ιm _ hk, meaning_varlen ι _ hk, h1]
  | varlenArray =>
    obtain ⟨e, n, ht⟩ := (hacc f hf).array hk
    rw [tailTy_array hk ht] at h2
    simp only [Field.meaning, hk, ht, h2, lenOf, hexpr]

/-- The printed `refs()` and `muts()`, if the compiler accepts the item and the types of the fields behind the head mean the same in the module as beside the declaration: they give one reference for each field, and each shows the
value of its field, of the type that the field of `Refs` and `Muts` has (the type in the module). See the comments of `Access`. The property claims this without the last hypothesis; see `C74_wrong_type`. -/
theorem C74_refs_partial {camel snake : String → String} {d : Item} {fs : List Field} {o : Output} (hd : d.data = .named fs) (h : defineVarlen camel snake d = .generated o) (hn : WellNamed o)
    {E : Type} {T : Types w E} {W : World E} (hc : TypeChecks T W fs) {base : Meaning w} (hcomp : Compiled (T.read base W.beside) fs)
    (hs : ∀ f ∈ fs, f.behindHead = true → T.typ W.inModule f.tailTy = T.typ W.beside f.tailTy)
    {s : St} {p : Ptr} {v : V} {l : Layout w} (hv : Valid (genVarLen (T.read base W.beside) o fs) s p v l) :
    ∃ vs rs shapes, v = .node vs ∧
      genRefsIn (T.read base W.beside) (T.read base W.inModule) o p s = .ok ((fs.zip rs).map fun x => (x.1.ident, x.1.refTy, x.2)) s ∧
      genMutsIn (T.read base W.beside) (T.read base W.inModule) o p s = .ok ((fs.zip rs).map fun x => (x.1.ident, x.1.mutTy, x.2)) s ∧
      Access (genVarLen (T.read base W.beside) o fs) (meaning (T.read base W.inModule) fs) s p vs l rs shapes := by
  have c := ctx_of hd h hn
  have hag := agree_of hc base hs
  have hm := meaning_agree (ι := T.read base W.beside) (ιm := T.read base W.inModule) c.acc rfl rfl hag
  obtain ⟨e0, _, _, e1, e2, _⟩ := C49_expansion hd h hn (T.read base W.beside)
  rw [e0] at hv ⊢
  have hok : StructOk _ _ (meaning (T.read base W.beside) fs) := hcomp.header.structOk fun U hU => by
    obtain ⟨f, hf, hk, rfl⟩ := meaning_varlen_iff c.acc hU
    exact (hcomp.varlen f hf hk).lawful
  obtain ⟨vs, rs, shapes, rfl, href, hmut, hacc⟩ := Struct.accessIx hok hv
  refine ⟨vs, rs, shapes, rfl, ?_, ?_, by rw [hm]; exact hacc⟩
  · have eo : o.refs = fs.map fun f => ⟨f.otherAttrs, (visOf f.vis).2, f.ident, f.refTy⟩ := by rw [c.eq]; rfl
    have e : genRefsIn (T.read base W.beside) (T.read base W.inModule) o p = genRefs (T.read base W.beside) o p := by
      unfold genRefsIn genRefs
      congr 1
      funext layout
      refine evalRefsIn_eq ?_ _
      intro g hg t
      rw [eo] at hg
      obtain ⟨f, hf, rfl⟩ := List.mem_map.1 hg
      obtain ⟨h1, h2⟩ := hag f hf
      constructor
      · intro ht
        cases hk : f.kind with
        | varlenArray =>
          obtain ⟨e, n, hty⟩ := (c.acc f hf).array hk
          simp [Field.refTy, hk, hty] at ht
        | _ =>
          rw [tailTy_eq (by simp [hk])] at h1
          simp [Field.refTy, hk] at ht
          exact ht ▸ h1
      · intro ht
        cases hk : f.kind with
        | varlenArray =>
          obtain ⟨e, n, hty⟩ := (c.acc f hf).array hk
          rw [tailTy_array hk hty] at h2
          simp [Field.refTy, hk, hty] at ht
          exact ht ▸ h2
        | _ => simp [Field.refTy, hk] at ht
    rw [e, e1]
    simp only [bind_apply, href, Res.bind_ok, pure_apply]
  · have eo : o.muts = fs.map fun f => ⟨f.otherAttrs, (visOf f.vis).2, f.ident, f.mutTy⟩ := by rw [c.eq]; rfl
    have e : genMutsIn (T.read base W.beside) (T.read base W.inModule) o p = genMuts (T.read base W.beside) o p := by
      unfold genMutsIn genMuts
      congr 1
      funext layout
      refine evalRefsIn_eq ?_ _
      intro g hg t
      rw [eo] at hg
      obtain ⟨f, hf, rfl⟩ := List.mem_map.1 hg
      obtain ⟨h1, h2⟩ := hag f hf
      constructor
      · intro ht
        cases hk : f.kind with
        | varlenArray =>
          obtain ⟨e, n, hty⟩ := (c.acc f hf).array hk
          simp [Field.mutTy, hk, hty] at ht
        | _ =>
          rw [tailTy_eq (by simp [hk])] at h1
          simp [Field.mutTy, hk] at ht
          try exact ht ▸ h1
      · intro ht
        cases hk : f.kind with
        | varlenArray =>
          obtain ⟨e, n, hty⟩ := (c.acc f hf).array hk
          rw [tailTy_array hk hty] at h2
          simp [Field.mutTy, hk, hty] at ht
          exact ht ▸ h2
        | _ => simp [Field.mutTy, hk] at ht
    rw [e, e2]
    simp only [bind_apply, href, Res.bind_ok, pure_apply]

/-- Types whose paths are all safe mean the same in all three places. -/
theorem C74_safe_paths {E : Type} (T : Types w E) (W : World E) {t : Ty} (h : ∀ p ∈ T.paths t, p.Safe W) :
    T.typ W.inModule t = T.typ W.beside t ∧ ((∀ p ∈ T.paths t, p.root = .plain ∨ p.root = .absolute) → T.typ W.inLengths t = T.typ W.beside t) := by
  have h1 : ∀ p ∈ T.paths t, W.inModule p = W.beside p := by
    intro p hp
    have := h p hp
    obtain ⟨r, x⟩ := p
    cases r with
    | plain =>
      simp only [Path.Safe] at this
      simp [World.inModule, World.beside, World.moduleItem, this.1, this.2]
    | up k =>
      cases k with
      | zero => simp only [Path.Safe] at this; simp [World.inModule, World.beside, World.moduleItem, this]
      | succ k => exact this.elim
    | absolute => rfl
  refine ⟨T.typ_congr _ _ _ h1, fun hr => T.typ_congr _ _ _ fun p hp => ?_⟩
  rw [← h1 p hp]
  have := hr p hp
  obtain ⟨r, x⟩ := p
  rcases this with h | h <;> simp only at h <;> subst h <;> rfl

/-- Every other path can mean one thing beside the declaration and another in the module; which paths these are: plain names, `super::…`, and `self::` with the name of a printed item. -/
theorem C74_unsafe_paths (p : Path) : (∃ W : World Bool, W.beside p = some true ∧ W.inModule p = some false) ↔
    p.root = .plain ∨ (∃ k, p.root = .up (k + 1)) ∨ (p.root = .up 0 ∧ p.name ∈ printedNames) := by
  obtain ⟨r, x⟩ := p
  cases r with
  | plain =>
    refine ⟨fun _ => Or.inl rfl, fun _ => ⟨⟨fun _ => some true, fun _ _ => some false, fun _ => none, fun _ => none, fun _ => some false⟩, rfl, ?_⟩⟩
    simp only [World.inModule, World.moduleItem]
    split <;> rfl
  | absolute =>
    simp only [World.beside, World.inModule, reduceCtorEq, exists_false, false_and, or_self, iff_false, not_exists, not_and]
    intro W h1 h2
    rw [h1] at h2
    cases h2
  | up k =>
    cases k with
    | zero =>
      simp only [World.beside, World.inModule, World.moduleItem, reduceCtorEq, Root.up.injEq, Nat.zero_ne_add_one, exists_false, true_and, false_or]
      constructor
      · rintro ⟨W, h1, h2⟩
        split at h2
        · assumption
        · rw [h1] at h2; cases h2
      · intro hx
        exact ⟨⟨fun _ => none, fun _ _ => some true, fun _ => none, fun _ => none, fun _ => some false⟩, rfl, by simp [hx]⟩
    | succ k =>
      refine ⟨fun _ => Or.inr (Or.inl ⟨k, rfl⟩), fun _ => ⟨⟨fun _ => none, fun j _ => some (decide (j = k + 1)), fun _ => none, fun _ => none, fun _ => none⟩, ?_, ?_⟩⟩
      · simp [World.beside]
      · simp [World.inModule]

namespace ScopeDemo

/-- Types of the examples, which are also what names can stand for. -/
inductive Tp
  | usize | u8 | u16
  /-- `Array<D4, u16>` -/
  | arrD4
  /-- `Array<usize, u16>` -/
  | arrUsize
  | arrayLayout
  deriving DecidableEq

/-- The examples write `super::E` and plain names. -/
def pathsOf : Ty → List Path
  | .array e _ => pathsOf e
  | .other t => if t = "super::E" then [⟨.up 1, "E"⟩] else [⟨.plain, t⟩]

def types : Types 64 Tp where
  Id := Tp
  paths := pathsOf
  typ r t := (pathsOf t).head?.bind r
  typ_congr r r' t h := by
    cases hp : (pathsOf t).head? with
    | none => rfl
    | some p => exact h p (List.mem_of_head? hp)
  rty
    | .u8 => u8Ty
    | .u16 => u16Ty
    | _ => Demo.lenUsize.ty
  vty
    | .arrUsize => Array 64 Demo.lenUsize.ty Demo.lenU16
    | _ => Demo.ArrT
  layout _ := .arrayLayout

/-- What does not depend on the place: the struct is `{ #[controls_layout] len: usize, … }`, and the length is `*len`. -/
def base : Meaning 64 := { tMeaning with rty := fun _ => Demo.lenUsize.ty }

/-- `#[define_varlen] struct T { #[controls_layout] len: usize, #[varlen_array] arr: [E; *len] }`, with some type in place of `E`. -/
def arrFields (e : Tok) : List Field := [
  ⟨["#[controls_layout]"], .inherited, "len", .other "usize"⟩,
  ⟨["#[varlen_array]"], .inherited, "arr", .array (.other e) "*len"⟩]

def prelude (x : Ident) : Option Tp := if x = "usize" then some .usize else if x = "u8" then some .u8 else none

/-- `mod a { type E = u8; mod b { type E = u16; #[define_varlen] struct T { … [super::E; *len] } } }` -/
def wSuper : World Tp := ⟨fun _ => none, fun k x => if x = "E" then (if k = 1 then some .u8 else if k = 0 then some .u16 else none) else none, prelude, fun _ => none, fun _ => none⟩

/-- `type E = u16; fn f() { type E = u8; #[define_varlen] struct T { … [E; *len] } }` -/
def wBlock : World Tp := ⟨fun x => if x = "E" then some .u8 else none, fun k x => if x = "E" ∧ k = 0 then some .u16 else none, prelude, fun _ => none, fun _ => none⟩

/-- `type LayoutControllers = u8; #[define_varlen] struct T { … [LayoutControllers; *len] }`; the printed struct of that name has one field, `len: usize`. -/
def wPrinted : World Tp :=
  ⟨fun _ => none, fun k x => if x = "LayoutControllers" ∧ k = 0 then some .u8 else none, prelude, fun _ => none, fun x => if x = "LayoutControllers" then some .usize else none⟩

/-- `t::Init { len: 3, arr: FillSequentially(|i| i as u8) }` -/
def arrArgs : InitArgs 64 := tArgs 3

/-- `let b = VBox::new(t::Init { … }); b.refs().arr` (as a list of numbers). -/
def boxRefs (W : World Tp) (e : Tok) : M (List Nat) :=
  match defineVarlen id id ⟨.inherited, "T", .named (arrFields e)⟩ with
  | .compileError _ _ => ubM .typeConfusion
  | .generated o => do
    let p ← VBox.new Demo.alloc (genVarLen (types.read base W.beside) o (arrFields e)) (genInitializer (types.read base W.beside) o (arrFields e) arrArgs)
    let rs ← genRefsIn (types.read base W.beside) (types.read base W.inModule) o p
    let a ← (sliceOf "arr" rs).read ((types.read base W.inModule).rty (.other e))
    pure (a.map decLE)

theorem arr_fine {e : Tok} (he : e ∈ ["super::E", "E", "LayoutControllers", "u8"]) : Fine ⟨.inherited, "T", .named (arrFields e)⟩ (arrFields e) := by
  simp only [List.mem_cons, List.mem_nil_iff, or_false] at he
  rcases he with rfl | rfl | rfl | rfl
  all_goals
    refine ⟨rfl, Or.inl rfl, fun f hf => ?_, ⟨by decide +kernel, by decide +kernel, by decide +kernel, by decide +kernel, by decide +kernel⟩⟩
    simp only [arrFields, List.mem_cons, List.mem_nil_iff, or_false] at hf
    rcases hf with rfl | rfl <;> exact acceptable_of (by decide) (by decide) (by decide)

theorem arr_typeChecks {W : World Tp} {e : Tok} (h1 : types.typ W.beside (.other "usize") = some .usize) (h2 : types.typ W.inModule (.other "usize") = some .usize)
    (h3 : types.typ W.inLengths (.other "usize") = some .usize) {i j : Tp} (h4 : types.typ W.beside (.other e) = some i) (h5 : types.typ W.inModule (.other e) = some j) :
    TypeChecks types W (arrFields e) := by
  refine ⟨fun f hf hb => ?_, fun f hf hk => ?_, fun f hf hk => ?_⟩
  all_goals simp only [arrFields, List.mem_cons, List.mem_nil_iff, or_false] at hf
  · rcases hf with rfl | rfl
    · exact ⟨.usize, h1, h2, fun _ => h3⟩
    · cases hb
  · rcases hf with rfl | rfl <;> cases hk
  · rcases hf with rfl | rfl
    · cases hk
    · exact ⟨i, j, h4, h5⟩

theorem arr_compiled {W : World Tp} {e : Tok} (h1 : types.typ W.beside (.other "usize") = some .usize) (h4 : types.typ W.beside (.other e) = some .u8) :
    Compiled (types.read base W.beside) (arrFields e) := by
  have r1 : (types.read base W.beside).rty (.other "usize") = Demo.lenUsize.ty := by simp only [Types.read, h1]; rfl
  have r2 : (types.read base W.beside).rty (.other e) = u8Ty := by simp only [Types.read, h4]; rfl
  have em : meaning (types.read base W.beside) (arrFields e) = [.length Demo.lenUsize.ty 0, .array u8Ty (lenOf (types.read base W.beside) ["len"] "*len")] := by
    simp only [meaning, arrFields, List.map_cons, List.map_nil]
    rw [← r1, ← r2]
    rfl
  refine ⟨?_, rfl, fun f hf hk => ?_⟩
  · rw [em]
    refine ⟨⟨3, by decide, rfl⟩, (by decide : (8 : Nat) < 2 ^ 64), ?_, ?_, ?_, ?_⟩
    · intro R off h
      simp at h
    · intro R off h
      simp at h
      obtain ⟨rfl, rfl⟩ := h
      exact ⟨Demo.lenUsize_ok.ty, (by decide : 8 ≤ 8), rfl, (by decide : 8 ∣ 8)⟩
    · intro R len h
      simp at h
      obtain ⟨rfl, rfl⟩ := h
      exact u8Ty_ok (by decide)
    · simp [Fld.range]
  · simp only [arrFields, List.mem_cons, List.mem_nil_iff, or_false] at hf
    rcases hf with rfl | rfl <;> cases hk

theorem arr_made {e : Tok} (he : e ∈ ["super::E", "E", "LayoutControllers", "u8"]) {f : Output → Bool}
    (h : (match defineVarlen id id ⟨.inherited, "T", .named (arrFields e)⟩ with | .compileError _ _ => false | .generated o => f o) = true) :
    ∃ o, defineVarlen id id ⟨.inherited, "T", .named (arrFields e)⟩ = .generated o ∧ WellNamed o ∧ f o = true := by
  obtain ⟨o, ho, hw⟩ := (arr_fine he).output
  rw [ho] at h
  exact ⟨o, ho, hw, h⟩

/-- `#[define_varlen] struct T { #[controls_layout] len: usize, #[varlen] a: super::E }` -/
def fldFields : List Field := [
  ⟨["#[controls_layout]"], .inherited, "len", .other "usize"⟩,
  ⟨["#[varlen]"], .inherited, "a", .other "super::E"⟩]

/-- `mod a { type E = Array<D4, u16>; mod b { type E = Array<usize, u16>; #[define_varlen] struct T { … a: super::E } } }` -/
def wField : World Tp :=
  ⟨fun _ => none, fun k x => if x = "E" then (if k = 1 then some .arrD4 else if k = 0 then some .arrUsize else none) else none, prelude, fun _ => none, fun _ => none⟩

/-- `t::Init { len: 0, a: … }` with an initializer for an array of three. -/
def fldArgs : InitArgs 64 := ⟨fun _ => encLE 8 0, fun _ => Demo.arrInit [1, 2, 3], fun _ => MoveFrom u8Ty []⟩

/-- The reference `refs().x` to a `#[varlen]` field. -/
def fieldOf (x : Ident) (rs : List (Ident × GenTy × FRef)) : Ptr :=
  match rs.lookup x with
  | some (_, .field q) => q
  | _ => ⟨0, 0⟩

/-- `let b = VBox::new(t::Init { … }); &b.refs().a[..]`, where the array has elements of the type that the module sees. -/
def boxRefsFld (W : World Tp) : M (List Nat) :=
  match defineVarlen id id ⟨.inherited, "T", .named fldFields⟩ with
  | .compileError _ _ => ubM .typeConfusion
  | .generated o => do
    let p ← VBox.new Demo.alloc (genVarLen (types.read base W.beside) o fldFields) (genInitializer (types.read base W.beside) o fldFields fldArgs)
    let rs ← genRefsIn (types.read base W.beside) (types.read base W.inModule) o p
    let R := if W.inModule ⟨.up 1, "E"⟩ = some .arrUsize then Demo.lenUsize.ty else Demo.D4
    let sl ← Array.deref 64 R Demo.lenU16 (fieldOf "a" rs)
    let a ← sl.read R
    pure (a.map decLE)

end ScopeDemo

open ScopeDemo in
/-- The claim without the hypothesis is false. The declarations `mod a { type E = u8; mod b { type E = u16; #[define_varlen] struct T { #[controls_layout] len: usize, #[varlen_array] arr: [super::E; *len] } } }`, the
same in a function body with its own `type E = u8` (and `[E; *len]`), and the same with a `type LayoutControllers = u8` of the user are accepted by the macro and by the compiler, and satisfy the hypotheses of C49: their objects
can be made. But `refs().arr` is a slice of elements of another type, which are larger than those in the object: it reaches beyond the allocation. -/
theorem C74_wrong_type : ∀ x ∈ [(wSuper, "super::E"), (wBlock, "E"), (wPrinted, "LayoutControllers")],
    (∃ o, defineVarlen id id ⟨.inherited, "T", .named (arrFields x.2)⟩ = .generated o ∧ WellNamed o ∧
      (Demo.okOf (VBox.new Demo.alloc (genVarLen (types.read base x.1.beside) o (arrFields x.2)) (genInitializer (types.read base x.1.beside) o (arrFields x.2) arrArgs) Demo.st0)).isSome = true) ∧
    TypeChecks types x.1 (arrFields x.2) ∧ Compiled (types.read base x.1.beside) (arrFields x.2) ∧
    Demo.ubOf (boxRefs x.1 x.2 Demo.st0) = some .outOfBounds := by
  intro x hx
  simp only [List.mem_cons, List.mem_nil_iff, or_false] at hx
  rcases hx with rfl | rfl | rfl
  all_goals
    refine ⟨?_, arr_typeChecks rfl rfl rfl rfl rfl, arr_compiled rfl rfl, by decide +kernel⟩
    exact arr_made (by decide) (by decide +kernel)

open ScopeDemo in
/-- The same for a `#[varlen]` field: the compiler compares only the types of the layouts, and all arrays have the same one. -/
theorem C74_wrong_field_type : TypeChecks types wField fldFields ∧ Demo.ubOf (boxRefsFld wField Demo.st0) = some .outOfBounds := by
  refine ⟨⟨fun f hf hb => ?_, fun f hf hk => ?_, fun f hf hk => ?_⟩, by decide +kernel⟩
  all_goals simp only [fldFields, List.mem_cons, List.mem_nil_iff, or_false] at hf
  · rcases hf with rfl | rfl
    · exact ⟨.usize, rfl, rfl, fun _ => rfl⟩
    · cases hb
  · rcases hf with rfl | rfl
    · cases hk
    · exact ⟨.arrD4, .arrUsize, rfl, rfl, rfl⟩
  · rcases hf with rfl | rfl <;> cases hk

open ScopeDemo in
/-- A case that `C74_refs_partial` and `C74_safe_paths` apply to: elements of type `u8`. -/
example : (∀ p ∈ types.paths (.other "u8"), p.Safe wBlock) ∧ TypeChecks types wBlock (arrFields "u8") ∧ Compiled (types.read base wBlock.beside) (arrFields "u8") ∧
    (Demo.okOf (boxRefs wBlock "u8" Demo.st0)).map Prod.fst = some [0, 1, 2] := by
  refine ⟨?_, arr_typeChecks rfl rfl rfl rfl rfl, arr_compiled rfl rfl, by decide +kernel⟩
  intro p hp
  simp only [types, pathsOf] at hp
  have : p = ⟨.plain, "u8"⟩ := by simpa using hp
  subst this
  exact ⟨by decide, by decide⟩

end Varlen.Macro
