import Verif.Proofs.Macro
/-! # C40: the macro classifies fields by their attributes and keeps names, order, attributes and visibility -/
namespace Varlen.Macro

/-- The macro generates code exactly for structs with named fields where the struct and every field have an allowed visibility, every field has at most one macro attribute, and
`#[varlen_array]` fields have array type; otherwise it reports a compile error beside the unchanged item. -/
theorem C40_accepts (camel snake : String → String) (d : Item) :
    ((∃ fs, d.data = .named fs ∧ d.vis.Allowed ∧ ∀ f ∈ fs, f.Acceptable) → ∃ o, defineVarlen camel snake d = .generated o) ∧
    ((¬ ∃ fs, d.data = .named fs ∧ d.vis.Allowed ∧ ∀ f ∈ fs, f.Acceptable) → ∃ e, defineVarlen camel snake d = .compileError d e) := by
  constructor
  · rintro ⟨fs, h1, h2, h3⟩
    exact ⟨_, by simp only [defineVarlen, define_ok camel snake h1 h2 h3]; rfl⟩
  · intro h
    obtain ⟨e, he⟩ := define_error camel snake h
    exact ⟨e, by simp [defineVarlen, he]⟩

/-- The message of the compile error is that of the first problem of the declaration. -/
theorem C40_error (camel snake : String → String) (d : Item) (e : Error) : defineVarlen camel snake d = .compileError d e ↔ d.Rejected e := by
  constructor
  · intro h
    have hn : ¬ ∃ fs, d.data = .named fs ∧ d.vis.Allowed ∧ ∀ f ∈ fs, f.Acceptable := by
      intro ha
      obtain ⟨o, ho⟩ := (C40_accepts camel snake d).1 ha
      rw [ho] at h; cases h
    obtain ⟨e', he⟩ := Item.rejected_of hn
    simp only [defineVarlen, he.define camel snake, Expansion.compileError.injEq, true_and] at h
    exact h ▸ he
  · intro h
    simp [defineVarlen, h.define camel snake]

theorem defines_of_map {inner : List Ident → List Ident} {ty : Field → GenTy} {fs : List Field} {vis : Field → SimpleVisibility}
    (hv : ∀ f ∈ fs, ∀ m, (vis f).toTokens.scope (inner m) = f.vis.scope m) : Defines inner ty fs (fs.map fun f => ⟨f.otherAttrs, vis f, f.ident, ty f⟩) := by
  refine ⟨by simp, fun i f g h1 h2 => ?_⟩
  simp only [List.getElem?_map, h1, Option.map_some, Option.some.injEq] at h2
  subst h2
  exact ⟨rfl, rfl, rfl, hv f (List.mem_of_getElem? h1)⟩

/-- The generated struct and its companions `Init`, `Refs`, `Muts` have exactly the declared fields, in declaration order, with the attributes that are not the macro's, the type
that belongs to the kind of the field, and the visibility the user wrote; `LayoutControllers` has exactly the `#[controls_layout]` fields. -/
theorem C40_fields (camel snake : String → String) {d : Item} {fs : List Field} {o : Output} (hd : d.data = .named fs) (h : defineVarlen camel snake d = .generated o) :
    Defines id Field.declTy fs o.decl ∧ Defines (· ++ [o.modName]) (Field.initTy camel) fs o.init ∧ Defines (· ++ [o.modName]) Field.refTy fs o.refs ∧
    Defines (· ++ [o.modName]) Field.mutTy fs o.muts ∧
    Defines (· ++ [o.modName]) (fun f => .plain f.ty) (fs.filter fun f => f.kind == .controlsLayout) o.layoutControllers ∧
    (∀ m, o.tyVis.toTokens.scope m = d.vis.scope m ∧ o.tyVisInner.toTokens.scope (m ++ [o.modName]) = d.vis.scope m) ∧ o.tyName = d.ident ∧ o.modName = snake d.ident := by
  have hacc : ∃ fs, d.data = .named fs ∧ d.vis.Allowed ∧ ∀ f ∈ fs, f.Acceptable := by
    refine Classical.byContradiction fun hn => ?_
    obtain ⟨e, he⟩ := (C40_accepts camel snake d).2 hn
    rw [he] at h; cases h
  obtain ⟨fs', h1, h2, h3⟩ := hacc
  rw [hd] at h1
  cases h1
  simp only [defineVarlen, define_ok camel snake hd h2 h3, Expansion.generated.injEq] at h
  subst h
  have hs : ∀ f ∈ fs, ∀ m name, (visOf f.vis).1.toTokens.scope m = f.vis.scope m ∧ (visOf f.vis).2.toTokens.scope (m ++ [name]) = f.vis.scope m :=
    fun f hf m name => tryParse_scope (tryParse_visOf (h3 f hf).vis) m name
  refine ⟨defines_of_map fun f hf m => (hs f hf m "").1, defines_of_map fun f hf m => (hs f hf m _).2, defines_of_map fun f hf m => (hs f hf m _).2,
    defines_of_map fun f hf m => (hs f hf m _).2, defines_of_map fun f hf m => (hs f (List.mem_filter.1 hf).1 m _).2, fun m => ?_, rfl, rfl⟩
  exact tryParse_scope (tryParse_visOf h2) m _

/-- `Init` has one type parameter for each `#[varlen]` or `#[varlen_array]` field, in order, which must be an initializer of the field's type, or an array initializer of its
element type. -/
theorem C40_init_params (camel snake : String → String) {d : Item} {fs : List Field} {o : Output} (hd : d.data = .named fs) (h : defineVarlen camel snake d = .generated o) :
    o.initParams = fs.filterMap (Field.initParam camel) := by
  have hacc : ∃ fs, d.data = .named fs ∧ d.vis.Allowed ∧ ∀ f ∈ fs, f.Acceptable := by
    refine Classical.byContradiction fun hn => ?_
    obtain ⟨e, he⟩ := (C40_accepts camel snake d).2 hn
    rw [he] at h; cases h
  obtain ⟨fs', h1, h2, h3⟩ := hacc
  rw [hd] at h1
  cases h1
  simp only [defineVarlen, define_ok camel snake hd h2 h3, Expansion.generated.injEq] at h
  subst h
  clear hd
  induction fs with
  | nil => rfl
  | cons f fs ih =>
    have ih := ih fun g hg => h3 g (List.mem_cons_of_mem _ hg)
    have hf := h3 f List.mem_cons_self
    cases hk : f.kind with
    | normal => simpa [outputOf, Field.initParam, hk, Field.tail, List.filter_cons] using ih
    | controlsLayout => simpa [outputOf, Field.initParam, hk, Field.tail, List.filter_cons] using ih
    | varlen => simpa [outputOf, Field.initParam, hk, Field.tail, List.filter_cons, mkInitIdent, Field.isArr] using ih
    | varlenArray =>
      obtain ⟨e, n, ht⟩ := hf.array hk
      simpa [outputOf, Field.initParam, hk, ht, Field.tail, List.filter_cons, mkInitIdent, Field.isArr, Ty.elem] using ih

/-- A declaration the macro accepts, with all kinds of fields and several visibilities. -/
def demoItem : Item where
  vis := .restricted false ["super"]
  ident := "Demo"
  data := .named [
    ⟨["#[doc = \"x\"]"], .pub, "a", .other "u32"⟩,
    ⟨["#[controls_layout]", "#[doc = \"y\"]"], .inherited, "n", .other "u8"⟩,
    ⟨["#[varlen]"], .restricted false ["crate"], "s", .other "Str"⟩,
    ⟨["#[varlen_array]"], .pub, "xs", .array (.other "u16") "*n as usize"⟩]

example : ∃ fs, demoItem.data = .named fs ∧ demoItem.vis.Allowed ∧ ∀ f ∈ fs, f.Acceptable := by
  refine ⟨_, rfl, by simp [demoItem, Vis.Allowed], ?_⟩
  intro f hf
  simp only [List.mem_cons, List.mem_nil_iff, or_false] at hf
  rcases hf with rfl | rfl | rfl | rfl <;> exact ⟨by decide, by simp [Vis.Allowed], by first | exact fun _ => ⟨_, _, rfl⟩ | exact fun h => absurd h (by decide)⟩

example : (match defineVarlen id id demoItem with
    | .generated o => some (o.decl.map fun f => (f.ident, f.ty))
    | _ => none) = some [("a", .plain (.other "u32")), ("n", .plain (.other "u8")), ("s", .fieldMarker (.other "Str")), ("xs", .arrayMarker (.other "u16"))] := by decide +kernel

/-- Declarations it rejects: two macro attributes on one field; an unsupported visibility. -/
example : (match defineVarlen id id ⟨.pub, "T", .named [⟨["#[varlen]", "#[cold]", "#[varlen_array]"], .pub, "a", .array (.other "u8") "1"⟩]⟩ with
    | .compileError _ e => some e
    | _ => none) = some .multipleAttributes := by decide +kernel
example : (match defineVarlen id id ⟨.restricted false ["crate", "a"], "T", .named []⟩ with
    | .compileError _ e => some e
    | _ => none) = some .badVisibility := by decide +kernel

end Varlen.Macro
