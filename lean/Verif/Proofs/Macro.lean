import Verif.Spec.Macro
/-! # Proofs about the macro: the groups in closed form -/
namespace Varlen.Macro

theorem tryParse_allowed {v : Vis} : (∃ p, SimpleVisibility.tryParse v = .ok p) ↔ v.Allowed := by
  unfold Vis.Allowed
  cases v with
  | pub => simp [SimpleVisibility.tryParse]
  | crateKw => simp [SimpleVisibility.tryParse]
  | inherited => simp [SimpleVisibility.tryParse]
  | restricted c path =>
    simp only [SimpleVisibility.tryParse, isIdent]
    cases c with
    | true => simp
    | false =>
      simp only [Bool.not_false, Bool.true_and, beq_iff_eq, reduceCtorEq, Vis.restricted.injEq, true_and, false_or]
      by_cases h1 : path = ["crate"]
      · simp [h1]
      · by_cases h2 : path = ["super"]
        · simp [h2]
        · by_cases h3 : path = ["self"]
          · simp [h3]
          · simp [h1, h2, h3]

theorem tryParse_scope {v : Vis} {p : SimpleVisibility × SimpleVisibility} (h : SimpleVisibility.tryParse v = .ok p) (m : List Ident) (name : Ident) :
    p.1.toTokens.scope m = v.scope m ∧ p.2.toTokens.scope (m ++ [name]) = v.scope m := by
  have ha := tryParse_allowed.1 ⟨p, h⟩
  rcases ha with rfl | rfl | rfl | rfl | rfl | rfl
  all_goals
    simp [SimpleVisibility.tryParse, isIdent] at h
    subst h
    constructor <;> simp [SimpleVisibility.toTokens, Vis.scope, resolve]

/-- The two visibilities of an allowed visibility. -/
def visOf (v : Vis) : SimpleVisibility × SimpleVisibility :=
  match SimpleVisibility.tryParse v with
  | .ok p => p
  | .error _ => (.Private, .Private)

theorem tryParse_visOf {v : Vis} (h : v.Allowed) : SimpleVisibility.tryParse v = .ok (visOf v) := by
  obtain ⟨p, e⟩ := tryParse_allowed.2 h
  simp [visOf, e]

theorem tryParse_error {v : Vis} (h : ¬ v.Allowed) : SimpleVisibility.tryParse v = .error .badVisibility := by
  cases hv : SimpleVisibility.tryParse v with
  | ok p => exact absurd (tryParse_allowed.1 ⟨p, hv⟩) h
  | error e =>
    cases v with
    | restricted c path =>
      simp only [SimpleVisibility.tryParse] at hv
      split at hv
      · cases hv
      · split at hv
        · cases hv
        · split at hv
          · cases hv
          · exact hv.symm
    | _ => simp [SimpleVisibility.tryParse] at hv

/-- The `FieldType` of a kind. -/
def Kind.fieldType : Kind → FieldType
  | .normal => .Normal
  | .controlsLayout => .Length
  | .varlen => .Varlen
  | .varlenArray => .VarlenArray

theorem retainAttrs_spec (as : List Tok) : ∀ st, 
    (retainAttrs as st).1 = as.filter (fun a => (attrKind a).isNone) ∧
    (retainAttrs as st).2 = (as.filterMap attrKind).foldl (fun st k => setType st k.fieldType) st := by
  induction as with
  | nil => intro st; exact ⟨rfl, rfl⟩
  | cons a as ih =>
    intro st
    simp only [retainAttrs]
    by_cases h1 : a = "#[varlen_array]"
    · subst h1
      simp [attrKind, Kind.fieldType, ih]
    · by_cases h2 : a = "#[controls_layout]"
      · subst h2
        simp [attrKind, Kind.fieldType, ih]
      · by_cases h3 : a = "#[varlen]"
        · subst h3
          simp [attrKind, Kind.fieldType, ih]
        · have : attrKind a = none := by simp [attrKind, h1, h2, h3]
          simp [h1, h2, h3, this, ih]

theorem setType_err_stays (ks : List Kind) : ∀ t e, ∃ t', ks.foldl (fun st k => setType st k.fieldType) (t, some e) = (t', some .multipleAttributes) ∨
    ks.foldl (fun st k => setType st k.fieldType) (t, some e) = (t', some e) := by
  induction ks with
  | nil => intro t e; exact ⟨t, Or.inr rfl⟩
  | cons k ks ih =>
    intro t e
    simp only [List.foldl_cons, setType]
    by_cases h : t = .Normal
    · simp only [h, ne_eq, not_true, if_false]
      exact ih _ _
    · simp only [ne_eq, h, not_false_eq_true, if_true]
      obtain ⟨t', h | h⟩ := ih t .multipleAttributes
      · exact ⟨t', Or.inl h⟩
      · exact ⟨t', Or.inl h⟩

theorem attrKind_fieldType {a k} (h : attrKind a = some k) : k.fieldType ≠ .Normal := by
  unfold attrKind at h
  split at h
  · cases h; simp [Kind.fieldType]
  · split at h
    · cases h; simp [Kind.fieldType]
    · split at h
      · cases h; simp [Kind.fieldType]
      · cases h

theorem marks_spec (f : Field) :
    (f.marks.length ≤ 1 → (retainAttrs f.attrs (.Normal, none)).2 = (f.kind.fieldType, none)) ∧
    (¬ f.marks.length ≤ 1 → (retainAttrs f.attrs (.Normal, none)).2.2 = some .multipleAttributes) := by
  rw [(retainAttrs_spec f.attrs _).2]
  have hk : ∀ k ∈ f.marks, k.fieldType ≠ .Normal := by
    intro k hk
    obtain ⟨a, _, h⟩ := List.mem_filterMap.1 hk
    exact attrKind_fieldType h
  change (_ → f.marks.foldl (fun st k => setType st k.fieldType) (FieldType.Normal, none) = _) ∧ (_ → (f.marks.foldl (fun st k => setType st k.fieldType) (FieldType.Normal, none)).2 = _)
  unfold Field.kind
  match hm : f.marks, hk with
  | [], _ => simp [Kind.fieldType]
  | [k], _ => simp [setType]
  | k :: k' :: ks, hk =>
    refine ⟨fun h => by simp at h, fun _ => ?_⟩
    have h1 : k.fieldType ≠ .Normal := hk k (by simp)
    simp only [List.foldl_cons]
    have e1 : setType (.Normal, none) k.fieldType = (k.fieldType, none) := by simp [setType]
    have e2 : setType (k.fieldType, none) k'.fieldType = (k.fieldType, some .multipleAttributes) := by simp [setType, h1]
    rw [e1, e2]
    obtain ⟨t, h | h⟩ := setType_err_stays ks k.fieldType .multipleAttributes <;> rw [h]

/-- The element type of an array type. -/
def Ty.elem : Ty → Ty
  | .array e _ => e
  | t => t
/-- The length expression of an array type. -/
def Ty.len : Ty → Tok
  | .array _ n => n
  | .other _ => ""

/-- The metadata of fields. -/
def metaOf (fs : List Field) : Meta :=
  ⟨fs.map Field.otherAttrs, fs.map fun f => (visOf f.vis).1, fs.map fun f => (visOf f.vis).2, fs.map Field.ident⟩

/-- `#[varlen]` or `#[varlen_array]`. -/
def Field.tail (f : Field) : Bool := f.kind == .varlen || f.kind == .varlenArray
def Field.ctl (f : Field) : Bool := f.kind == .controlsLayout
def Field.isArr (f : Field) : Bool := f.kind == .varlenArray
def Field.isVarlen (f : Field) : Bool := f.kind == .varlen

def Field.layoutIdent (f : Field) : Ident := if f.isArr then mkLenIdent f.ident else mkLayoutIdent f.ident
def Field.catCautious (f : Field) : CatExpr := if f.isArr then .arrayCautious f.ty.elem (mkLenIdent f.ident) else .fieldCautious f.ty f.ident
def Field.catFast (f : Field) : CatExpr := if f.isArr then .arrayFast f.ty.elem (mkLenIdent f.ident) else .fieldFast f.ty
def Field.initExpr (f : Field) : InitExpr :=
  if f.isArr then .array f.ident (mkLenIdent f.ident) else if f.isVarlen then .field f.ident (mkLayoutIdent f.ident) else .self f.ident
def Field.refExpr (f : Field) : RefExpr :=
  if f.isArr then .array f.ident (mkLenIdent f.ident) else if f.isVarlen then .field f.ident else .self f.ident
def Field.dropStmt (f : Field) : DropStmt :=
  if f.isArr then .array f.ty.elem f.ident (mkLenIdent f.ident) else if f.isVarlen then .field f.ty f.ident (mkLayoutIdent f.ident) else .inPlace f.ident
def Field.needs (f : Field) : NeedsExpr := if f.isArr then .needsDrop f.ty.elem else if f.isVarlen then .needsVdrop f.ty else .needsDrop f.ty

/-- The groups after processing `fs`. -/
def closed (camel : String → String) (fs : List Field) : FieldGroups where
  lengths := ⟨metaOf (fs.filter Field.ctl), (fs.filter Field.ctl).map Field.ty⟩
  lenExprs := ⟨(fs.filter Field.isArr).map fun f => mkLenIdent f.ident, (fs.filter Field.isArr).map fun f => f.ty.len⟩
  varlenFields := {
    meta_ := metaOf (fs.filter Field.tail)
    initTyParams := (fs.filter Field.tail).map fun f => mkInitIdent camel f.ident
    initTyConstraints := (fs.filter Field.tail).map fun f => if f.isArr then .arrayInitializer f.ty.elem else .initializer f.ty
    layoutIdents := (fs.filter Field.tail).map Field.layoutIdent
    layoutTy := (fs.filter Field.tail).map fun f => if f.isArr then .usize else .layoutOf f.ty
    layoutTyRefs := (fs.filter Field.isVarlen).map Field.ty
    catFieldCautious := (fs.filter Field.tail).map Field.catCautious
    catFieldFast := (fs.filter Field.tail).map Field.catFast
    alignOfField := (fs.filter Field.tail).map fun f => if f.isArr then .elem f.ty.elem else .varlen f.ty }
  allFields := {
    meta_ := metaOf fs
    declTy := fs.map Field.declTy
    initTy := fs.map (Field.initTy camel)
    refTy := fs.map Field.refTy
    mutTy := fs.map Field.mutTy
    initField := fs.map Field.initExpr
    refField := fs.map Field.refExpr
    mutField := fs.map Field.refExpr
    dropField := fs.map Field.dropStmt
    needsVdrop := fs.map Field.needs }

theorem parseField_closed (camel : String → String) (fs : List Field) {f : Field} (h : f.Acceptable) :
    parseField camel (closed camel fs) f = .ok (closed camel (fs ++ [f])) := by
  have hr := retainAttrs_spec f.attrs (.Normal, none)
  have hm := (marks_spec f).1 h.one_mark
  have hv := tryParse_visOf h.vis
  have ho : (retainAttrs f.attrs (.Normal, none)).1 = f.otherAttrs := hr.1
  unfold parseField
  simp only [hm]
  rw [ho]
  cases hk : f.kind with
  | normal =>
    simp [Kind.fieldType, FieldGroups.pushNormal, OneMeta.parse, hv, closed, Meta.push, metaOf, Field.ctl, Field.isArr, Field.isVarlen, Field.tail, hk, Field.declTy,
      Field.initTy, Field.refTy, Field.mutTy, Field.initExpr, Field.refExpr, Field.dropStmt, Field.needs]
    rfl
  | controlsLayout =>
    simp [Kind.fieldType, FieldGroups.pushLength, OneMeta.parse, hv, closed, Meta.push, metaOf, Field.ctl, Field.isArr, Field.isVarlen, Field.tail, hk, Field.declTy,
      Field.initTy, Field.refTy, Field.mutTy, Field.initExpr, Field.refExpr, Field.dropStmt, Field.needs]
    rfl
  | varlen =>
    simp [Kind.fieldType, FieldGroups.pushVarlen, OneMeta.parse, hv, closed, Meta.push, metaOf, Field.ctl, Field.isArr, Field.isVarlen, Field.tail, hk, Field.declTy,
      Field.initTy, Field.refTy, Field.mutTy, Field.initExpr, Field.refExpr, Field.dropStmt, Field.needs, mkInitIdent, Field.layoutIdent, Field.catCautious,
      Field.catFast]
    rfl
  | varlenArray =>
    obtain ⟨e, n, ht⟩ := h.array hk
    simp [Kind.fieldType, FieldGroups.pushVarlenArray, OneMeta.parse, hv, closed, Meta.push, metaOf, Field.ctl, Field.isArr, Field.isVarlen, Field.tail, hk, Field.declTy,
      Field.initTy, Field.refTy, Field.mutTy, Field.initExpr, Field.refExpr, Field.dropStmt, Field.needs, mkInitIdent, Field.layoutIdent, Field.catCautious,
      Field.catFast, ht, Ty.elem, Ty.len]
    rfl

theorem parseField_error (camel : String → String) (g : FieldGroups) {f : Field} (h : ¬ f.Acceptable) : ∃ e, parseField camel g f = .error e := by
  unfold parseField
  by_cases h1 : f.marks.length ≤ 1
  · have hm := (marks_spec f).1 h1
    simp only [hm]
    by_cases h2 : f.vis.Allowed
    · have hv := tryParse_visOf h2
      have h3 : f.kind = .varlenArray := Classical.byContradiction fun h3 => h ⟨h1, h2, fun h => absurd h h3⟩
      rw [h3]
      cases ht : f.ty with
      | array e n => exact absurd ⟨h1, h2, fun _ => ⟨e, n, ht⟩⟩ h
      | other t => exact ⟨.notAnArray, by simp [Kind.fieldType, FieldGroups.pushVarlenArray, OneMeta.parse, hv]; rfl⟩
    · have hv := tryParse_error h2
      refine ⟨.badVisibility, ?_⟩
      cases f.kind <;> simp [Kind.fieldType, FieldGroups.pushVarlenArray, FieldGroups.pushNormal, FieldGroups.pushLength, FieldGroups.pushVarlen, OneMeta.parse, hv] <;> rfl
  · exact ⟨.multipleAttributes, by simp [(marks_spec f).2 h1]⟩

theorem parseFields_closed (camel : String → String) : ∀ (fs done : List Field), (∀ f ∈ fs, f.Acceptable) →
    parseFields camel fs (closed camel done) = .ok (closed camel (done ++ fs)) := by
  intro fs
  induction fs with
  | nil => intro done _; simp [parseFields]
  | cons f fs ih =>
    intro done h
    have := ih (done ++ [f]) fun g hg => h g (by simp [hg])
    simp only [parseFields, parseField_closed camel done (h f (by simp))]
    simpa [bind, Except.bind] using this

theorem parseFields_error (camel : String → String) : ∀ (fs : List Field) (g : FieldGroups), (¬ ∀ f ∈ fs, f.Acceptable) → ∃ e, parseFields camel fs g = .error e := by
  intro fs
  induction fs with
  | nil => intro g h; simp at h
  | cons f fs ih =>
    intro g h
    simp only [parseFields]
    cases hp : parseField camel g f with
    | error e => exact ⟨e, rfl⟩
    | ok g' =>
      by_cases hf : f.Acceptable
      · exact ih g' fun h' => h fun x hx => by
          rcases List.mem_cons.1 hx with rfl | hx
          · exact hf
          · exact h' x hx
      · obtain ⟨e, he⟩ := parseField_error camel g hf
        rw [hp] at he
        cases he

theorem closed_nil (camel : String → String) : closed camel [] = .new := rfl

theorem quoteFields_map {α : Type} (f1 : α → List Tok) (f2 : α → SimpleVisibility) (f3 : α → Ident) (f4 : α → GenTy) (xs : List α) :
    quoteFields (xs.map f1) (xs.map f2) (xs.map f3) (xs.map f4) = xs.map fun x => ⟨f1 x, f2 x, f3 x, f4 x⟩ := by
  induction xs with
  | nil => rfl
  | cons x xs ih => simp [quoteFields, ih]

theorem quoteLets_map {α : Type} (f1 f2 : α → Ident) (f3 : α → CatExpr) (xs : List α) :
    quoteLets (xs.map f1) (xs.map f2) (xs.map f3) = xs.map fun x => ⟨f1 x, f2 x, f3 x⟩ := by
  induction xs with
  | nil => rfl
  | cons x xs ih => simp [quoteLets, ih]

theorem quoteLayoutFields_map {α : Type} (f1 f2 : α → Ident) (f3 : α → GenTy) (xs : List α) :
    quoteLayoutFields (xs.map f1) (xs.map f2) (xs.map f3) = xs.flatMap fun x => [⟨[], .Super, f1 x, .usize⟩, ⟨[], .Super, f2 x, f3 x⟩] := by
  induction xs with
  | nil => rfl
  | cons x xs ih => simp [quoteLayoutFields, ih]

theorem quoteLayoutLit_map {α : Type} (f1 f2 : α → Ident) (xs : List α) : quoteLayoutLit (xs.map f1) (xs.map f2) = xs.flatMap (fun x => [f1 x, f2 x]) ++ ["size"] := by
  induction xs with
  | nil => rfl
  | cons x xs ih => simp [quoteLayoutLit, ih]

theorem zip_map' {α β γ : Type} (f : α → β) (g : α → γ) (xs : List α) : (xs.map f).zip (xs.map g) = xs.map fun x => (f x, g x) := by
  induction xs with
  | nil => rfl
  | cons x xs ih => simp [ih]

/-- The printed item for an accepted declaration. -/
def outputOf (camel snake : String → String) (d : Item) (fs : List Field) : Output where
  tyVis := (visOf d.vis).1
  tyVisInner := (visOf d.vis).2
  tyName := d.ident
  modName := snake d.ident
  varLenLayout := ⟨[], .Super, "size", .usize⟩ ::
    (fs.filter Field.tail).flatMap fun f => [⟨[], .Super, f.ident, .usize⟩, ⟨[], .Super, f.layoutIdent, if f.isArr then .usize else .layoutOf f.ty⟩]
  lenParams := (fs.filter Field.ctl).map fun f => (f.ident, f.ty)
  lenFns := (fs.filter Field.isArr).map fun f => (mkLenIdent f.ident, f.ty.len)
  initParams := (fs.filter Field.tail).map fun f => (mkInitIdent camel f.ident, if f.isArr then .arrayInitializer f.ty.elem else .initializer f.ty)
  init := fs.map fun f => ⟨f.otherAttrs, (visOf f.vis).2, f.ident, f.initTy camel⟩
  muts := fs.map fun f => ⟨f.otherAttrs, (visOf f.vis).2, f.ident, f.mutTy⟩
  refs := fs.map fun f => ⟨f.otherAttrs, (visOf f.vis).2, f.ident, f.refTy⟩
  layoutControllers := (fs.filter Field.ctl).map fun f => ⟨f.otherAttrs, (visOf f.vis).2, f.ident, .plain f.ty⟩
  decl := fs.map fun f => ⟨f.otherAttrs, (visOf f.vis).1, f.ident, f.declTy⟩
  fastLets := (fs.filter Field.tail).map fun f => ⟨f.ident, f.layoutIdent, f.catFast⟩
  cautiousLets := (fs.filter Field.tail).map fun f => ⟨f.ident, f.layoutIdent, f.catCautious⟩
  layoutLit := (fs.filter Field.tail).flatMap (fun f => [f.ident, f.layoutIdent]) ++ ["size"]
  aligns := (fs.filter Field.tail).map fun f => if f.isArr then .elem f.ty.elem else .varlen f.ty
  needs := fs.map Field.needs
  drops := fs.map Field.dropStmt
  inits := fs.map fun f => (f.ident, f.initExpr)
  mutLit := fs.map fun f => (f.ident, f.refExpr)
  refLit := fs.map fun f => (f.ident, f.refExpr)
  setFields := (fs.filter Field.ctl).map Field.ident
  setLens := (fs.filter Field.isArr).map fun f => mkLenIdent f.ident
  layoutTyRefs := (fs.filter Field.isVarlen).map Field.ty

theorem define_ok (camel snake : String → String) {d : Item} {fs : List Field} (hd : d.data = .named fs) (hv : d.vis.Allowed) (hf : ∀ f ∈ fs, f.Acceptable) :
    defineVarlenImpl camel snake d = .ok (outputOf camel snake d fs) := by
  have hp := parseFields_closed camel fs [] hf
  rw [closed_nil, List.nil_append] at hp
  unfold defineVarlenImpl
  simp only [hd, tryParse_visOf hv, hp, bind, Except.bind, pure, Except.pure]
  simp only [closed, metaOf, quoteFields_map, quoteLets_map, quoteLayoutFields_map, quoteLayoutLit_map, zip_map', List.map_map, outputOf]
  rfl

theorem define_error (camel snake : String → String) {d : Item} (h : ¬ ∃ fs, d.data = .named fs ∧ d.vis.Allowed ∧ ∀ f ∈ fs, f.Acceptable) :
    ∃ e, defineVarlenImpl camel snake d = .error e := by
  unfold defineVarlenImpl
  cases hd : d.data with
  | unnamed => exact ⟨_, rfl⟩
  | notStruct => exact ⟨_, rfl⟩
  | named fs =>
    by_cases hv : d.vis.Allowed
    · obtain ⟨e, he⟩ := parseFields_error camel fs .new fun hf => h ⟨fs, hd, hv, hf⟩
      exact ⟨e, by simp [tryParse_visOf hv, he, bind, Except.bind]⟩
    · exact ⟨.badVisibility, by simp [tryParse_error hv, bind, Except.bind]⟩

theorem Field.Rejected.parse (camel : String → String) (g : FieldGroups) {f : Field} {e : Error} (h : f.Rejected e) : parseField camel g f = .error e := by
  unfold parseField
  cases h with
  | attrs h1 => simp [(marks_spec f).2 (Nat.not_le.2 h1)]
  | vis h1 h2 =>
    simp only [(marks_spec f).1 h1]
    have hv := tryParse_error h2
    cases f.kind <;> simp [Kind.fieldType, FieldGroups.pushVarlenArray, FieldGroups.pushNormal, FieldGroups.pushLength, FieldGroups.pushVarlen, OneMeta.parse, hv] <;> rfl
  | array h1 h2 h3 h4 =>
    simp only [(marks_spec f).1 h1]
    have hv := tryParse_visOf h2
    rw [h3]
    cases ht : f.ty with
    | array e n => exact absurd ht (h4 e n)
    | other t => simp [Kind.fieldType, FieldGroups.pushVarlenArray, OneMeta.parse, hv]; rfl

theorem Field.rejected_of {f : Field} (h : ¬ f.Acceptable) : ∃ e, f.Rejected e := by
  by_cases h1 : f.marks.length ≤ 1
  · by_cases h2 : f.vis.Allowed
    · have h3 : f.kind = .varlenArray := Classical.byContradiction fun h3 => h ⟨h1, h2, fun h => absurd h h3⟩
      exact ⟨_, .array h1 h2 h3 fun e n ht => h ⟨h1, h2, fun _ => ⟨e, n, ht⟩⟩⟩
    · exact ⟨_, .vis h1 h2⟩
  · exact ⟨_, .attrs (Nat.not_le.1 h1)⟩

theorem parseFields_rejected (camel : String → String) {after : List Field} {f : Field} {e : Error} (h : f.Rejected e) : ∀ (before done : List Field), (∀ g ∈ before, g.Acceptable) →
    parseFields camel (before ++ f :: after) (closed camel done) = .error e := by
  intro before
  induction before with
  | nil =>
    intro done _
    simp only [List.nil_append, parseFields, h.parse]
    rfl
  | cons g before ih =>
    intro done hb
    simp only [List.cons_append, parseFields, parseField_closed camel done (hb g (by simp))]
    simpa [bind, Except.bind] using ih (done ++ [g]) fun x hx => hb x (by simp [hx])

theorem Item.Rejected.define (camel snake : String → String) {d : Item} {e : Error} (h : d.Rejected e) : defineVarlenImpl camel snake d = .error e := by
  unfold defineVarlenImpl
  cases h with
  | notStruct hd => rw [hd]; rfl
  | notNamed hd => rw [hd]; rfl
  | vis hd hv => rw [hd]; simp [tryParse_error hv, bind, Except.bind]
  | @field before after f _ hd hv hb hf =>
    have hp := parseFields_rejected camel (after := after) hf before [] hb
    rw [closed_nil] at hp
    rw [hd]
    simp [tryParse_visOf hv, hp, bind, Except.bind]

theorem first_rejected : ∀ {fs : List Field}, (¬ ∀ f ∈ fs, f.Acceptable) → ∃ before f after, fs = before ++ f :: after ∧ (∀ g ∈ before, g.Acceptable) ∧ ¬ f.Acceptable
  | [], h => absurd (fun f hf => by cases hf) h
  | f :: fs, h => by
    by_cases hf : f.Acceptable
    · obtain ⟨b, g, a, e, h1, h2⟩ := first_rejected (fs := fs) fun h' => h fun x hx => by
        rcases List.mem_cons.1 hx with rfl | hx
        · exact hf
        · exact h' x hx
      refine ⟨f :: b, g, a, by rw [e]; rfl, fun x hx => ?_, h2⟩
      rcases List.mem_cons.1 hx with rfl | hx
      · exact hf
      · exact h1 x hx
    · exact ⟨[], f, fs, rfl, (fun _ h => by cases h), hf⟩

theorem Item.rejected_of {d : Item} (h : ¬ ∃ fs, d.data = .named fs ∧ d.vis.Allowed ∧ ∀ f ∈ fs, f.Acceptable) : ∃ e, d.Rejected e := by
  cases hd : d.data with
  | unnamed => exact ⟨_, .notNamed hd⟩
  | notStruct => exact ⟨_, .notStruct hd⟩
  | named fs =>
    by_cases hv : d.vis.Allowed
    · obtain ⟨b, f, a, rfl, h1, h2⟩ := first_rejected fun hf => h ⟨fs, hd, hv, hf⟩
      obtain ⟨e, he⟩ := Field.rejected_of h2
      exact ⟨e, .field hd hv h1 he⟩
    · exact ⟨_, .vis hd hv⟩

end Varlen.Macro
