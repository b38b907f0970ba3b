import Verif.Props.Macro
import Verif.Props.Struct
import Verif.Proofs.MacroNames
/-! # C49, C50: the code the macro prints is the declared struct; which names clash -/
namespace Varlen.Macro
variable {w : Nat}

theorem ctx_of {camel snake : String → String} {d : Item} {fs : List Field} {o : Output} (hd : d.data = .named fs) (h : defineVarlen camel snake d = .generated o) (hn : WellNamed o) :
    Ctx camel snake d fs o := by
  have hacc : ∃ fs, d.data = .named fs ∧ d.vis.Allowed ∧ ∀ f ∈ fs, f.Acceptable := by
    refine Classical.byContradiction fun hn => ?_
    obtain ⟨e, he⟩ := (C40_accepts camel snake d).2 hn
    rw [he] at h; cases h
  obtain ⟨fs', h1, h2, h3⟩ := hacc
  rw [hd] at h1
  cases h1
  simp only [defineVarlen, define_ok camel snake hd h2 h3, Expansion.generated.injEq] at h
  exact ⟨h.symm, h3, hn⟩

/-- Running the printed code is the same as running the struct that the declaration means, for whatever types and length expressions: the `VarLen` implementation, the `Initializer`
implementation, `size()`, `refs()`, `muts()` (with the field names and the reference types documented for each kind) and `try_set_layout_controllers`. -/
theorem C49_expansion {camel snake : String → String} {d : Item} {fs : List Field} {o : Output} (hd : d.data = .named fs) (h : defineVarlen camel snake d = .generated o) (hn : WellNamed o)
    (ι : Meaning w) :
    genVarLen ι o fs = Struct w ι.headSize ι.headAlign (meaning ι fs) ∧
    (ι.bareHeadSize = ι.headSize → ∀ a, genInitializer ι o fs a = Struct.init ι.headSize ι.headAlign (initMeaning ι fs a)) ∧
    (∀ size ls, genSize o (.fields size ls) = some (Layout.size (.fields (w := w) size ls))) ∧
    (∀ p, genRefs ι o p = do
      let rs ← aggRefs ι.headSize (meaning ι fs) p
      pure ((fs.zip rs).map fun x => (x.1.ident, x.1.refTy, x.2))) ∧
    (∀ p, genMuts ι o p = do
      let rs ← aggRefs ι.headSize (meaning ι fs) p
      pure ((fs.zip rs).map fun x => (x.1.ident, x.1.mutTy, x.2))) ∧
    (∀ p new, genTrySet ι o p new = trySetLayoutControllers (meaning ι fs) p ((controllers fs).map new)) := by
  have c := ctx_of hd h hn
  exact ⟨c.genVarLen ι, c.genInitializer ι, c.genSize, c.genRefs ι, c.genMuts ι, c.genTrySet ι⟩

/-- What the compiler guarantees about the types of a declaration and the head struct, and that the `#[varlen]` fields have types of the library or user types that keep the contract. -/
structure Compiled (ι : Meaning w) (fs : List Field) : Prop where
  header : HeaderOk ι.headSize ι.headAlign (meaning ι fs)
  /-- Trivial for structs without type parameters; for the others see C62. -/
  bare : ι.bareHeadSize = ι.headSize
  varlen : ∀ f ∈ fs, f.kind = .varlen → LibType (ι.vty f.ty)

theorem meaning_varlen_iff {ι : Meaning w} {fs : List Field} (hacc : ∀ f ∈ fs, f.Acceptable) {T : VarLen w} (h : Fld.varlen T ∈ meaning ι fs) : ∃ f ∈ fs, f.kind = .varlen ∧ T = ι.vty f.ty := by
  obtain ⟨f, hf, he⟩ := List.mem_map.1 h
  cases hk : f.kind with
  | normal => rw [meaning_normal ι _ hk] at he; cases he
  | controlsLayout => rw [meaning_length ι _ hk] at he; cases he
  | varlen => rw [meaning_varlen ι _ hk] at he; cases he; exact ⟨f, hf, hk, rfl⟩
  | varlenArray => rw [meaning_array ι _ hk (hacc f hf)] at he; cases he

/-- The printed `unsafe impl VarLen` keeps the contract of the trait, and is one of the types for which everything else is proved. -/
theorem C49_contract {camel snake : String → String} {d : Item} {fs : List Field} {o : Output} (hd : d.data = .named fs) (h : defineVarlen camel snake d = .generated o) (hn : WellNamed o)
    {ι : Meaning w} (hc : Compiled ι fs) : Lawful (genVarLen ι o fs) ∧ LibType (genVarLen ι o fs) := by
  have c := ctx_of hd h hn
  rw [c.genVarLen ι]
  have hl : LibType (Struct w ι.headSize ι.headAlign (meaning ι fs)) := .struct hc.header fun T hT => by
    obtain ⟨f, hf, hk, rfl⟩ := meaning_varlen_iff c.acc hT
    exact hc.varlen f hf hk
  exact ⟨hl.lawful, hl⟩

/-- An `Init { … }` literal that the compiler accepts: values of the fields' types, initializers for `#[varlen]` fields and array initializers for `#[varlen_array]` fields. -/
structure LiteralOk (ι : Meaning w) (fs : List Field) (a : InitArgs w) : Prop where
  value : ∀ f ∈ fs, f.kind = .normal ∨ f.kind = .controlsLayout → (ι.rty f.ty).valid (a.value f.ident) = true
  init : ∀ f ∈ fs, f.kind = .varlen → LibInit (ι.vty f.ty) (a.init f.ident)
  array : ∀ f ∈ fs, f.kind = .varlenArray → ∀ e n, f.ty = .array e n → LibArrInit (ι.rty e) (a.array f.ident)

/-- The printed `unsafe impl Initializer` keeps the contract of the trait. -/
theorem C49_init_contract {camel snake : String → String} {d : Item} {fs : List Field} {o : Output} (hd : d.data = .named fs) (h : defineVarlen camel snake d = .generated o)
    (hn : WellNamed o) {ι : Meaning w} (hc : Compiled ι fs) {a : InitArgs w} (ha : LiteralOk ι fs a) : InitLawful (genVarLen ι o fs) (genInitializer ι o fs a) := by
  have c := ctx_of hd h hn
  rw [c.genVarLen ι, c.genInitializer ι hc.bare a]
  have e : (initMeaning ι fs a).map FI.fld = meaning ι fs := by
    simp only [initMeaning, meaning, List.map_map]
    exact List.map_congr_left fun f hf => initMeaning_fld ι _ a (c.acc f hf)
  have hl : StructLit ι.headSize ι.headAlign (initMeaning ι fs a) := by
    refine ⟨by rw [e]; exact hc.header, ?_, ?_, ?_, ?_⟩
    all_goals
      intros
      rename_i hm
      obtain ⟨f, hf, he⟩ := List.mem_map.1 hm
      cases hk : f.kind with
      | normal =>
        rw [initMeaning_normal ι _ a hk] at he
        cases he
        try exact ha.value f hf (Or.inl hk)
      | controlsLayout =>
        rw [initMeaning_length ι _ a hk] at he
        cases he
        try exact ha.value f hf (Or.inr hk)
      | varlen =>
        rw [initMeaning_varlen ι _ a hk] at he
        cases he
        try exact ha.init f hf hk
      | varlenArray =>
        rw [initMeaning_array ι _ a hk (c.acc f hf)] at he
        obtain ⟨t, n, ht⟩ := (c.acc f hf).array hk
        cases he
        try
          rw [ht]
          exact ha.array f hf hk t n ht
  rw [← e]
  exact hl.lib.lib.2

/-! ### A concrete case -/

open Varlen.Demo in
/-- The declaration of the demo struct: `{ a: D4, #[controls_layout] n: u8, #[varlen] s: Arr, #[varlen_array] xs: [u8; *n as usize], #[varlen] t: Arr }`. -/
def exFields : List Field := [
  ⟨["#[doc = \"x\"]"], .pub, "a", .other "D4"⟩,
  ⟨["#[controls_layout]"], .inherited, "n", .other "u8"⟩,
  ⟨["#[varlen]"], .pub, "s", .other "Arr"⟩,
  ⟨["#[varlen_array]"], .pub, "xs", .array (.other "u8") "*n as usize"⟩,
  ⟨["#[varlen]"], .pub, "t", .other "Arr"⟩]

def exItem : Item := ⟨.pub, "Demo", .named exFields⟩

/-- What its names mean. -/
def exMeaning : Meaning 64 where
  rty t := if t = .other "D4" then Demo.D4 else u8Ty
  vty _ := Demo.ArrT
  expr _ env := some (BitVec.ofNat 64 (decLE ((env.lookup "n").getD [])))
  headSize := 8
  bareHeadSize := 8
  headAlign := 4
  off x := if x = "n" then 4 else 0

theorem exMeaning_eq : meaning exMeaning exFields = Demo.sFs := by
  have : lenOf exMeaning (controllers exFields) "*n as usize" = Demo.u8Len := by
    refine LenFn.mk.injEq .. ▸ ⟨?_, rfl⟩
    funext xs
    cases xs <;> rfl
  show [_, _, _, Fld.array u8Ty (lenOf exMeaning (controllers exFields) "*n as usize"), _] = _
  rw [this]
  rfl

theorem exCompiled : Compiled exMeaning exFields := ⟨exMeaning_eq ▸ Demo.sHeader, rfl, fun _ _ _ => Demo.ArrT_lib⟩

/-- A literal. -/
def exArgs : InitArgs 64 where
  value x := if x = "n" then encLE 1 3 else Demo.d4 7
  init x := if x = "s" then Demo.arrInit [1, 2] else Demo.arrInit [5]
  array _ := MoveFrom u8Ty ([10, 11, 12].map (encLE 1))

theorem exLiteral : LiteralOk exMeaning exFields exArgs := by
  refine ⟨?_, ?_, ?_⟩
  · intro f hf hk
    simp only [exFields, List.mem_cons, List.mem_nil_iff, or_false] at hf
    rcases hf with rfl | rfl | rfl | rfl | rfl <;> first | decide +kernel | exact absurd hk (by decide)
  · intro f hf hk
    simp only [exFields, List.mem_cons, List.mem_nil_iff, or_false] at hf
    rcases hf with rfl | rfl | rfl | rfl | rfl <;> first | exact Demo.arrInit_lib _ | exact absurd hk (by decide)
  · intro f hf hk e n he
    simp only [exFields, List.mem_cons, List.mem_nil_iff, or_false] at hf
    rcases hf with rfl | rfl | rfl | rfl | rfl <;> first | exact absurd hk (by decide) | skip
    cases he
    refine .moveFrom fun x hx => ?_
    obtain ⟨n, _, rfl⟩ := List.mem_map.1 hx
    exact Demo.encLE1_valid n

/-! ## C50 -/


/-- The expansion of an accepted declaration satisfies the compiler's rules about names exactly when the field names satisfy `NamesOk`. -/
theorem C50_names {camel snake : String → String} {d : Item} {fs : List Field} {o : Output} (hd : d.data = .named fs) (h : defineVarlen camel snake d = .generated o) :
    WellNamed o ↔ NamesOk camel fs := by
  have hacc : ∃ fs, d.data = .named fs ∧ d.vis.Allowed ∧ ∀ f ∈ fs, f.Acceptable := by
    refine Classical.byContradiction fun hn => ?_
    obtain ⟨e, he⟩ := (C40_accepts camel snake d).2 hn
    rw [he] at h; cases h
  obtain ⟨fs', h1, h2, h3⟩ := hacc
  rw [hd] at h1
  cases h1
  simp only [defineVarlen, define_ok camel snake hd h2 h3, Expansion.generated.injEq] at h
  rw [← h]
  exact wellNamed_iff camel snake d fs

/-- Names that the documentation does not exclude but that clash: an array field called `size`; a field and its made-up companion. -/
theorem C50_clash : ∃ d o, defineVarlen id id d = .generated o ∧ ¬ WellNamed o ∧
    d.data = .named [⟨["#[controls_layout]"], .pub, "n", .other "u8"⟩, ⟨["#[varlen_array]"], .pub, "size", .array (.other "u16") "*n as usize"⟩] := by
  obtain ⟨o, ho⟩ := (C40_accepts id id ⟨.pub, "T", .named [⟨["#[controls_layout]"], .pub, "n", .other "u8"⟩,
    ⟨["#[varlen_array]"], .pub, "size", .array (.other "u16") "*n as usize"⟩]⟩).1 ⟨_, rfl, Or.inr (Or.inl rfl), by
      intro f hf
      simp only [List.mem_cons, List.mem_nil_iff, or_false] at hf
      rcases hf with rfl | rfl <;> exact ⟨by decide, by simp [Vis.Allowed], by first | exact fun _ => ⟨_, _, rfl⟩ | exact fun h => absurd h (by decide)⟩⟩
  refine ⟨_, o, ho, fun hw => ?_, rfl⟩
  exact ((C50_names rfl ho).1 hw).not_size _ (List.mem_cons_of_mem _ (List.mem_singleton.2 rfl)) (by decide) rfl

/-- Its hypotheses and the right hand side, for the example. -/
theorem exNames : NamesOk id exFields := by
  refine ⟨by decide +kernel, by decide +kernel, by decide +kernel, by decide +kernel, by decide +kernel⟩

theorem exOutput : ∃ o, defineVarlen id id exItem = .generated o ∧ WellNamed o := by
  obtain ⟨o, ho⟩ := (C40_accepts id id exItem).1 ⟨exFields, rfl, by simp [exItem, Vis.Allowed], by
    intro f hf
    simp only [exFields, List.mem_cons, List.mem_nil_iff, or_false] at hf
    rcases hf with rfl | rfl | rfl | rfl | rfl <;> exact ⟨by decide, by simp [Vis.Allowed], by first | exact fun _ => ⟨_, _, rfl⟩ | exact fun h => absurd h (by decide)⟩⟩
  exact ⟨o, ho, (C50_names rfl ho).2 exNames⟩

/-- C49 applies to it: the printed code is the struct of the other examples. -/
example : ∃ o, defineVarlen id id exItem = .generated o ∧ genVarLen exMeaning o exFields = Demo.S ∧ InitLawful (genVarLen exMeaning o exFields) (genInitializer exMeaning o exFields exArgs) := by
  obtain ⟨o, ho, hw⟩ := exOutput
  refine ⟨o, ho, ?_, C49_init_contract rfl ho hw exCompiled exLiteral⟩
  rw [(C49_expansion rfl ho hw exMeaning).1, exMeaning_eq]
  rfl

/-- The printed code at work: the layout that `calculate_layout_cautious` computes for the literal. -/
example : (match defineVarlen id id exItem with
    | .generated o => match genCautious exMeaning o exArgs Demo.st0 with
      | .ok (some (.fields size ls)) _ => some (size, ls.map Prod.fst)
      | _ => none
    | _ => none) = some (32, [8, 20, 24]) := by decide +kernel

/-- Names that clash: `a` and its companion, `lengths` before an array, two names that agree in camel case. -/
example : ¬ NamesOk id [⟨["#[varlen]"], .pub, "a", .other "Str"⟩, ⟨["#[varlen]"], .pub, "a_layout", .other "Str"⟩] :=
  fun h => h.not_companion _ (List.mem_cons_of_mem _ (List.mem_singleton.2 rfl)) _ List.mem_cons_self (by decide) (by decide) (by decide)
example : ¬ NamesOk id [⟨["#[varlen]"], .pub, "lengths", .other "Str"⟩, ⟨["#[varlen_array]"], .pub, "xs", .array (.other "u8") "3"⟩] :=
  fun h => absurd h.not_lengths (by decide +kernel)
example : ¬ NamesOk String.toUpper [⟨["#[varlen]"], .pub, "a", .other "Str"⟩, ⟨["#[varlen]"], .pub, "A", .other "Str"⟩] :=
  fun h => absurd h.camel_distinct (by decide +kernel)

end Varlen.Macro
