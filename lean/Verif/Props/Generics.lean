import Verif.Proofs.Generics
import Verif.Props.MacroSem
/-! # C62: generic structs -/
namespace Varlen.Macro
variable {w : Nat} {camel snake : String → String} {d : GItem} {fs : List Field} {o : GOutput}

/-- The parameters that `VarLenLayout` gets. -/
def layoutParams (d : GItem) (fs : List Field) : List Param := d.generics.params.filter (keepParam (some (layoutRefs d ((fs.filter Field.isVarlen).map Field.ty))))

theorem gen_ok (hd : d.item.data = .named fs) (h : defineVarlenGen camel snake d = .ok o) : (∀ f ∈ fs, f.Acceptable) ∧ defineVarlen camel snake d.item = .generated o.base ∧
    o = ⟨outputOf camel snake d.item fs, d.generics.params, d.generics.params.map Param.forImpl, d.params, d.generics.whereClause,
      layoutParams d fs, (layoutParams d fs).map Param.forImpl, (layoutParams d fs).map Param.pname, d.generics.whereClause⟩ := by
  unfold defineVarlenGen at h
  rcases hi : defineVarlenImpl camel snake d.item with e | b
  · rw [hi] at h; cases h
  · have hacc : ∃ fs, d.item.data = .named fs ∧ d.item.vis.Allowed ∧ ∀ f ∈ fs, f.Acceptable := by
      refine Classical.byContradiction fun hn => ?_
      obtain ⟨e, he⟩ := define_error camel snake hn
      rw [he] at hi; cases hi
    obtain ⟨fs', h1, h2, h3⟩ := hacc
    rw [hd] at h1
    cases h1
    rw [define_ok camel snake hd h2 h3] at hi h
    cases hi
    simp only [bind, Except.bind, pure, Except.pure, parseGenerics_eq] at h
    cases h
    refine ⟨h3, ?_, ?_⟩
    · simp only [defineVarlen, define_ok camel snake hd h2 h3]
    · simp only [GItem.params, layoutParams, outputOf]
      have : d.generics.params.filter (keepParam none) = d.generics.params := List.filter_eq_self.2 fun _ _ => rfl
      rw [this]

theorem mem_layoutParams {p : Param} : p ∈ layoutParams d fs ↔ p ∈ d.generics.params ∧ BareInVarlen d fs p.pname := by
  rw [layoutParams, List.mem_filter, keepParam_layoutRefs]
  simp only [List.mem_map, List.mem_filter, Field.isVarlen, BareInVarlen, beq_iff_eq]
  constructor
  · rintro ⟨h, t, ⟨g, ⟨hg, hk⟩, rfl⟩, hb⟩
    exact ⟨h, g, hg, hk, hb⟩
  · rintro ⟨h, g, hg, hk, hb⟩
    exact ⟨h, _, ⟨g, ⟨hg, hk⟩, rfl⟩, hb⟩

theorem mem_layoutNames {x : PName} : x ∈ (layoutParams d fs).map Param.pname ↔ x ∈ d.params ∧ BareInVarlen d fs x := by
  simp only [List.mem_map, mem_layoutParams, GItem.params]
  constructor
  · rintro ⟨p, ⟨h1, h2⟩, rfl⟩; exact ⟨⟨p, h1, rfl⟩, h2⟩
  · rintro ⟨⟨p, h1, rfl⟩, h2⟩; exact ⟨p, ⟨h1, h2⟩, rfl⟩

/-- What `define_varlen` makes of the generic parameters: the struct, its companions and its `impl`s get all parameters in order, `VarLenLayout` exactly those that are written as a whole
type in a `#[varlen]` field, in order; `impl`s repeat bounds but not defaults; and wherever the struct or the layout type is named with arguments, these are the names of its parameters. -/
theorem C62_params (hd : d.item.data = .named fs) (h : defineVarlenGen camel snake d = .ok o) :
    o.structdef = d.generics.params ∧ o.layoutStructdef.Sublist o.structdef ∧ (∀ p, p ∈ o.layoutStructdef ↔ p ∈ d.generics.params ∧ BareInVarlen d fs p.pname) ∧
    o.impl.map (fun p => (p.kind, p.name, p.bounds)) = o.structdef.map (fun p => (p.kind, p.name, p.bounds)) ∧
    o.layoutImpl.map (fun p => (p.kind, p.name, p.bounds)) = o.layoutStructdef.map (fun p => (p.kind, p.name, p.bounds)) ∧
    (∀ p ∈ o.impl ++ o.layoutImpl, p.kind ≠ .lifetime → p.default = none) ∧
    o.apply = o.structdef.map Param.pname ∧ o.layoutApply = o.layoutStructdef.map Param.pname ∧ o.whereClause = d.generics.whereClause ∧ o.layoutWhere = d.generics.whereClause := by
  obtain ⟨-, -, rfl⟩ := gen_ok hd h
  have he : ∀ ps : List Param, (ps.map Param.forImpl).map (fun p => (p.kind, p.name, p.bounds)) = ps.map (fun p => (p.kind, p.name, p.bounds)) := by
    intro ps
    rw [List.map_map]
    refine List.map_congr_left fun p _ => ?_
    simp only [Function.comp, Param.forImpl]
    split <;> rfl
  have hdef : ∀ (ps : List Param) (p : Param), p ∈ ps.map Param.forImpl → p.kind ≠ .lifetime → p.default = none := by
    intro ps p hp hk
    obtain ⟨q, hq, rfl⟩ := List.mem_map.1 hp
    unfold Param.forImpl at hk ⊢
    split
    · next hl => simp only [hl, if_true] at hk; exact absurd rfl hk
    · rfl
  exact ⟨rfl, List.filter_sublist, fun p => mem_layoutParams, he _, he _, fun p hp hk => (List.mem_append.1 hp).elim (hdef _ p · hk) (hdef _ p · hk), rfl, rfl, rfl, rfl⟩

/-- The printed item obeys the compiler's rules about generic parameters exactly for the declarations that satisfy `GenericsOk`. In particular, a parameter without a default, a field in the
head whose type uses a parameter, a lifetime called `'a`, a parameter called `usize` or `bool`, or a where clause about a parameter that only occurs in array fields, are not supported. -/
theorem C62_scoped (hd : d.item.data = .named fs) (h : defineVarlenGen camel snake d = .ok o) (hn : WellNamed o.base) : WellScoped d o ↔ GenericsOk camel d fs := by
  obtain ⟨hacc, -, rfl⟩ := gen_ok hd h
  have hparams : ∀ {ps : List Param}, (ps.map Param.forImpl).map Param.pname = ps.map Param.pname := by
    intro ps
    rw [List.map_map]
    exact List.map_congr_left fun p _ => forImpl_pname p
  have hwr : ∀ {ps : List Param} {s : Syn}, s ∈ (ps.map Param.forImpl).flatMap Param.writes → s ∈ ps.flatMap Param.writes := by
    intro ps s hs
    obtain ⟨q, hq, hs⟩ := List.mem_flatMap.1 hs
    obtain ⟨p, hp, rfl⟩ := List.mem_map.1 hq
    refine List.mem_flatMap.2 ⟨p, hp, ?_⟩
    unfold Param.forImpl at hs
    split at hs
    · exact hs
    · simp only [Param.writes, Option.toList_none, List.mem_singleton] at hs
      rw [hs]; exact List.mem_cons_self
  have hbn : ∀ f : Field, f.behindHead = f.tail := fun f => rfl
  constructor
  · intro hw
    have key : ∀ it ∈ GOutput.items d _, _ := hw.scope
    simp only [GOutput.items, List.mem_cons, List.mem_nil_iff, or_false, forall_eq_or_imp, forall_eq] at key
    obtain ⟨kLayout, -, -, kBody, kInit, -, -, -, -, -, -⟩ := key
    have kd : ∀ it ∈ GOutput.items d _, _ := hw.distinct
    simp only [GOutput.items, List.mem_cons, List.mem_nil_iff, or_false, forall_eq_or_imp, forall_eq] at kd
    obtain ⟨-, -, -, -, -, dMuts, -, -, dDecl, -, dInit⟩ := kd
    simp only [GOutput.initializerImpl, hparams, List.nodup_append] at dInit
    have hnoinit : ∀ x ∈ d.params, x ∉ (outputOf camel snake d.item fs).initParams.map fun x => PName.ident x.1 := fun x hx hm => dInit.2.2 x hx x hm rfl
    have hbare : ∀ x, x ∈ [] ++ (layoutParams d fs).map Param.pname → BareInVarlen d fs x := fun x hx => (mem_layoutNames.1 hx).2
    have hprim : ∀ i ∈ ["usize", "bool"], PName.ident i ∉ d.params := by
      have h : ∀ it ∈ GOutput.items d _, _ := hw.prims
      simp only [GOutput.items, List.mem_cons, List.mem_nil_iff, or_false, forall_eq_or_imp, forall_eq] at h
      have h := h.2.2.2.2.2.2.2.2.2.1
      simp only [GOutput.impls, printed, hparams, List.nil_append] at h
      exact h
    refine ⟨?_, ?_, ?_, ?_, ?_, ?_, ?_, hprim _ (by simp), hprim _ (by simp), ?_, ?_⟩
    · exact fun p hp hk => hw.bare p hp hk (by simp [GOutput.bareArgs])
    · intro f hf hb x hx hm
      refine hnoinit x hx (kInit _ (List.mem_map.2 ⟨_, List.mem_map.2 ⟨f, hf, rfl⟩, rfl⟩) x hx ?_)
      have : f.initTy camel = .plain f.ty := by
        cases hk : f.kind <;> simp [Field.behindHead, hk] at hb <;> simp [Field.initTy, hk]
      simpa only [this, GenTy.syn] using hm
    · intro f hf hk e n ht x hx hm
      have := kBody _ (List.mem_map.2 ⟨(mkLenIdent f.ident, f.ty.len), List.mem_map.2 ⟨f, List.mem_filter.2 ⟨hf, by simp [Field.isArr, hk]⟩, rfl⟩, rfl⟩) x hx (by rw [ht]; exact hm)
      simp only [GOutput.lenFnBodies, outputOf, List.map_map] at this
      obtain ⟨g, hg, rfl⟩ := List.mem_map.1 this
      exact ⟨g.ident, List.mem_map.2 ⟨g, hg, rfl⟩, rfl⟩
    · intro f hf hk x hx hm
      refine hbare x (kLayout ((GenTy.layoutOf f.ty).syn d) ?_ x hx (mentions_qpath2.2 hm))
      refine List.mem_append_right _ (List.mem_cons_of_mem _ (List.mem_map.2 ⟨⟨[], .Super, f.layoutIdent, .layoutOf f.ty⟩, ?_, rfl⟩))
      refine List.mem_cons_of_mem _ (List.mem_flatMap.2 ⟨f, List.mem_filter.2 ⟨hf, by simp [Field.tail, hk]⟩, ?_⟩)
      simp [Field.isArr, hk]
    · intro x hx hm
      exact hbare x (kLayout _ (List.mem_append_right _ List.mem_cons_self) x hx hm)
    · intro p hp hb s hs x hx hm
      exact hbare x (kLayout s (List.mem_append_left _ (List.mem_flatMap.2 ⟨p, mem_layoutParams.2 ⟨hp, hb⟩, hs⟩)) x hx hm)
    · exact dInit.1
    · simp only [GOutput.muts, printed, List.singleton_append, List.nodup_cons] at dMuts
      exact dMuts.1
    · intro f hf hb hm
      exact hnoinit _ hm (List.mem_map.2 ⟨(mkInitIdent camel f.ident, _), List.mem_map.2 ⟨f, List.mem_filter.2 ⟨hf, hbn f ▸ hb⟩, rfl⟩, rfl⟩)
  · intro hg
    have hlayout : ∀ s ∈ (layoutParams d fs).flatMap Param.writes ++ [Syn.node d.generics.whereClause], ∀ x ∈ d.params, Mentions x s → x ∈ (layoutParams d fs).map Param.pname := by
      intro s hs x hx hm
      refine mem_layoutNames.2 ⟨hx, ?_⟩
      rcases List.mem_append.1 hs with hs | hs
      · obtain ⟨p, hp, hs⟩ := List.mem_flatMap.1 hs
        obtain ⟨h1, h2⟩ := mem_layoutParams.1 hp
        exact hg.bounds p h1 h2 s hs x hx hm
      · rw [List.mem_singleton.1 hs] at hm
        exact hg.whereClause x hx hm
    have hlsub : ∀ x ∈ (layoutParams d fs).map Param.pname, x ∈ d.params := fun x hx => (mem_layoutNames.1 hx).1
    have husize : ∀ {x : PName}, x ∈ d.params → ¬ Mentions x (GenTy.usize.syn d) := fun hx hm => by
      rw [mentions_name.1 hm] at hx
      exact hg.not_usize hx
    refine ⟨?_, ?_, ?_, ?_, ⟨rfl, rfl⟩, ?_⟩
    · simp only [GOutput.items, List.mem_cons, List.mem_nil_iff, or_false, forall_eq_or_imp, forall_eq]
      refine ⟨?_, ?_, ?_, ?_, ?_, ?_, ?_, ?_, ?_, ?_, ?_⟩
      · intro s hs x hx hm
        simp only [GOutput.varLenLayout, printed, List.nil_append] at hs ⊢
        rw [← List.singleton_append, ← List.append_assoc] at hs
        rcases List.mem_append.1 hs with hs | hs
        · exact hlayout s hs x hx hm
        · refine mem_layoutNames.2 ⟨hx, ?_⟩
          obtain ⟨g, hg', rfl⟩ := List.mem_map.1 hs
          rcases List.mem_cons.1 hg' with rfl | hg'
          · exact absurd hm (husize hx)
          · obtain ⟨f, hf, hg'⟩ := List.mem_flatMap.1 hg'
            obtain ⟨hf, ht⟩ := List.mem_filter.1 hf
            simp only [List.mem_cons, List.mem_nil_iff, or_false] at hg'
            rcases hg' with rfl | rfl
            · exact absurd hm (husize hx)
            · cases hk : f.kind <;> simp [Field.tail, hk] at ht
              · simp only [Field.isArr, hk] at hm
                exact hg.varlen f hf hk x hx (mentions_qpath2.1 hm)
              · simp only [Field.isArr, hk] at hm
                exact absurd hm (husize hx)
      · intro s hs x hx hm
        simp only [GOutput.layoutImplItem, printed, List.nil_append, hparams] at hs ⊢
        rcases List.mem_append.1 hs with hs | hs
        · exact hlayout s (List.mem_append_left _ (hwr hs)) x hx hm
        · rcases List.mem_cons.1 hs with rfl | hs
          · exact hlayout _ (List.mem_append_right _ (List.mem_singleton.2 rfl)) x hx hm
          · obtain ⟨y, hy, rfl⟩ := List.mem_map.1 hs
            rw [mentions_pname.1 hm]; exact hy
      · intro s hs x hx hm
        simp only [GOutput.lenFnTypes, outputOf, List.map_map] at hs
        obtain ⟨f, hf, rfl⟩ := List.mem_map.1 hs
        obtain ⟨hf, hc⟩ := List.mem_filter.1 hf
        refine absurd hm (hg.head f hf ?_ x hx)
        simp only [Field.ctl, beq_iff_eq] at hc
        simp [Field.behindHead, hc]
      · intro s hs x hx hm
        simp only [GOutput.lenFnBodies, outputOf, List.map_map] at hs ⊢
        obtain ⟨f, hf, rfl⟩ := List.mem_map.1 hs
        obtain ⟨hf, hc⟩ := List.mem_filter.1 hf
        simp only [Field.isArr, beq_iff_eq] at hc
        obtain ⟨e, n, ht⟩ := (hacc f hf).array hc
        simp only [Function.comp, ht, Ty.len] at hm
        obtain ⟨c, hc, rfl⟩ := hg.lens f hf hc e n ht x hx hm
        obtain ⟨g, hg, rfl⟩ := List.mem_map.1 hc
        exact List.mem_map.2 ⟨g, hg, rfl⟩
      · intro s hs x hx hm
        obtain ⟨g, hg', rfl⟩ := List.mem_map.1 hs
        obtain ⟨f, hf, rfl⟩ := List.mem_map.1 hg'
        cases hb : f.behindHead with
        | false =>
          have : f.initTy camel = .plain f.ty := by
            cases hk : f.kind <;> simp [Field.behindHead, hk] at hb <;> simp [Field.initTy, hk]
          simp only [this] at hm
          exact absurd hm (hg.head f hf hb x hx)
        | true =>
          have : f.initTy camel = .param ("Init" ++ camel f.ident) := by
            cases hk : f.kind <;> simp [Field.behindHead, hk] at hb <;> simp [Field.initTy, hk]
          simp only [this] at hm
          rw [mentions_name.1 hm] at hx
          exact absurd hx (hg.not_init f hf hb)
      all_goals
        intro s hs x hx hm
        first
          | (simp only [GOutput.muts, GOutput.refs, GOutput.decl, GOutput.impls, printed, hparams]; exact List.mem_append_right _ hx)
          | (simp only [GOutput.initializerImpl, hparams]; exact List.mem_append_left _ hx)
          | skip
      · simp only [GOutput.layoutControllers, GOutput.fieldTys, outputOf, List.map_map] at hs
        obtain ⟨f, hf, rfl⟩ := List.mem_map.1 hs
        obtain ⟨hf, hc⟩ := List.mem_filter.1 hf
        refine absurd hm (hg.head f hf ?_ x hx)
        simp only [Field.ctl, beq_iff_eq] at hc
        simp [Field.behindHead, hc]
    · have hno : ∀ i ∈ ["usize", "bool"], PName.ident i ∉ d.params := by
        intro i hi
        simp only [List.mem_cons, List.mem_nil_iff, or_false] at hi
        rcases hi with rfl | rfl
        · exact hg.not_usize
        · exact hg.not_bool
      have hl : ∀ i ∈ ["usize"], PName.ident i ∉ (layoutParams d fs).map Param.pname := fun i hi hm => hno i (by simp_all) (hlsub _ hm)
      simp only [GOutput.items, List.mem_cons, List.mem_nil_iff, or_false, forall_eq_or_imp, forall_eq]
      refine ⟨hl, ?_, fun i _ => List.not_mem_nil, fun i hi => (List.not_mem_nil hi).elim, fun i hi => (List.not_mem_nil hi).elim, fun i hi => (List.not_mem_nil hi).elim,
        fun i hi => (List.not_mem_nil hi).elim, fun i hi => (List.not_mem_nil hi).elim, fun i hi => (List.not_mem_nil hi).elim, ?_, fun i hi => (List.not_mem_nil hi).elim⟩
      · simpa only [GOutput.layoutImplItem, printed, hparams, List.nil_append] using hl
      · simp only [GOutput.impls, printed, hparams, List.nil_append]
        exact hno
    · have hla : ((layoutParams d fs).map Param.pname).Nodup := hg.distinct.sublist (List.filter_sublist.map _)
      have hpar : ((outputOf camel snake d.item fs).initParams.map fun x => PName.ident x.1).Nodup := by
        have h := hn.initParams
        rw [List.nodup_iff_pairwise_ne, List.pairwise_map] at h ⊢
        exact h.imp fun hne he => hne (PName.ident.inj he)
      have hlen : ((outputOf camel snake d.item fs).lenParams.map fun x => PName.ident x.1).Nodup := by
        have h := hn.lenParams
        rw [List.nodup_iff_pairwise_ne, List.pairwise_map] at h ⊢
        exact h.imp fun hne he => hne (PName.ident.inj he)
      have ha : (PName.lifetime "'a" :: d.generics.params.map Param.pname).Nodup := List.nodup_cons.2 ⟨hg.not_a, hg.distinct⟩
      simp only [GOutput.items, List.mem_cons, List.mem_nil_iff, or_false, forall_eq_or_imp, forall_eq]
      refine ⟨hla, ?_, List.nodup_nil, hlen, hpar, ha, ha, List.nodup_nil, hg.distinct, ?_, ?_⟩
      · simpa only [GOutput.layoutImplItem, printed, hparams, List.nil_append] using hla
      · simp only [GOutput.impls, printed, hparams, List.nil_append]
        exact hg.distinct
      · simp only [GOutput.initializerImpl, hparams]
        refine List.nodup_append.2 ⟨hg.distinct, hpar, fun x hx y hy e => ?_⟩
        subst e
        simp only [outputOf, List.map_map] at hy
        obtain ⟨f, hf, rfl⟩ := List.mem_map.1 hy
        obtain ⟨hf, ht⟩ := List.mem_filter.1 hf
        exact hg.not_init f hf (hbn f ▸ ht) hx
    · intro p hp _
      obtain ⟨hp, f, hf, hk, hb⟩ := mem_layoutParams.1 hp
      refine ⟨(GenTy.layoutOf f.ty).syn d, List.mem_map.2 ⟨⟨[], .Super, f.layoutIdent, .layoutOf f.ty⟩, ?_, rfl⟩, mentions_qpath2.2 hb.mentions⟩
      refine List.mem_cons_of_mem _ (List.mem_flatMap.2 ⟨f, List.mem_filter.2 ⟨hf, by simp [Field.tail, hk]⟩, ?_⟩)
      simp [Field.isArr, hk]
    · exact fun p hp hk _ => hg.defaults p hp hk

/-- The printed types capture no parameter: whatever the parameters are called, in the type printed for a field of the struct, of `Refs` and of `Muts` they are those that the user wrote in the
type of this field (and the lifetime `'a` of the references). -/
theorem C62_own_types (hd : d.item.data = .named fs) (h : defineVarlenGen camel snake d = .ok o) {i : Nat} {f : Field} (hf : fs[i]? = some f) {x : PName} :
    (∃ g : GenField, o.base.decl[i]? = some g ∧ g.ident = f.ident ∧ (Mentions x (g.ty.syn d) ↔ Mentions x (f.ownTy.syn d))) ∧
    (∃ g : GenField, o.base.refs[i]? = some g ∧ g.ident = f.ident ∧ (Mentions x (g.ty.syn d) ↔ x = .lifetime "'a" ∨ Mentions x (f.ownTy.syn d))) ∧
    (∃ g : GenField, o.base.muts[i]? = some g ∧ g.ident = f.ident ∧ (Mentions x (g.ty.syn d) ↔ x = .lifetime "'a" ∨ Mentions x (f.ownTy.syn d))) := by
  obtain ⟨-, -, rfl⟩ := gen_ok hd h
  simp only [outputOf, List.getElem?_map, hf, Option.map_some, Option.some.injEq, exists_eq_left', true_and]
  refine ⟨?_, ?_, ?_⟩
  · cases hk : f.kind <;> cases ht : f.ty <;> simp [Field.declTy, Field.ownTy, hk, ht, GenTy.syn, mentions_path1]
  · cases hk : f.kind <;> cases ht : f.ty <;> simp [Field.refTy, Field.ownTy, hk, ht, GenTy.syn, mentions_node_list, mentions_lifetime]
  · cases hk : f.kind <;> cases ht : f.ty <;> simp [Field.mutTy, Field.ownTy, hk, ht, GenTy.syn, mentions_node_list, mentions_lifetime, mentions_path1]

/-- `calculate_layout_cautious` starts from the size of the head of the struct with the default arguments, `calculate_layout` and everything else from the size of the instance. For every
declaration that compiles the two agree, for all arguments. -/
theorem C62_head (hd : d.item.data = .named fs) (h : defineVarlenGen camel snake d = .ok o) (hn : WellNamed o.base) (hs : WellScoped d o)
    {ι : (PName → Option Syn) → Meaning w} (hι : HeadOf d fs ι) {σ : PName → Option Syn} (hσ : IsArgs d σ) : (ι σ).bareHeadSize = (ι σ).headSize := by
  have hg := (C62_scoped hd h hn).1 hs
  obtain ⟨size, hsize⟩ := hι.determined
  obtain ⟨df, hdf, hbare⟩ := hι.bare
  have hid : ∀ τ, IsArgs d τ → headTypes d fs τ = fs.map fun f => if f.behindHead then none else some (f.ty.syn d) := by
    intro τ hτ
    refine List.map_congr_left fun f hf => ?_
    cases hb : f.behindHead with
    | true => rfl
    | false =>
      have := Syn.subst_id (f.ty.syn d) (untouched_of_mentions fun x hx => hg.head f hf hb x ((hτ x).1 hx))
      simp [this]
  rw [hbare σ hσ, hsize σ hσ, hsize df hdf, hid σ hσ, hid df hdf]

/-- So the printed implementations of `VarLen` and `Initializer` keep the contracts of the traits, for every instance of every generic struct that compiles. -/
theorem C62_contract (hd : d.item.data = .named fs) (h : defineVarlenGen camel snake d = .ok o) (hn : WellNamed o.base) (hs : WellScoped d o)
    {ι : (PName → Option Syn) → Meaning w} (hι : HeadOf d fs ι) {σ : PName → Option Syn} (hσ : IsArgs d σ)
    (hheader : HeaderOk (ι σ).headSize (ι σ).headAlign (meaning (ι σ) fs)) (hvarlen : ∀ f ∈ fs, f.kind = .varlen → LibType ((ι σ).vty f.ty)) :
    Lawful (genVarLen (ι σ) o.base fs) ∧ LibType (genVarLen (ι σ) o.base fs) ∧
    ∀ a, LiteralOk (ι σ) fs a → InitLawful (genVarLen (ι σ) o.base fs) (genInitializer (ι σ) o.base fs a) := by
  obtain ⟨-, hgen, -⟩ := gen_ok hd h
  have hc : Compiled (ι σ) fs := ⟨hheader, C62_head hd h hn hs hι hσ, hvarlen⟩
  exact ⟨(C49_contract hd hgen hn hc).1, (C49_contract hd hgen hn hc).2, fun a ha => C49_init_contract hd hgen hn hc ha⟩

/-! ### Concrete cases -/

/-- `struct G<T: Default = usize> { a: D4, #[controls_layout] n: u8, #[varlen] s: Array<T>, #[varlen_array] xs: [T; *n as usize], #[varlen] t: Array<T> }`. -/
def exGFields : List Field := [
  ⟨["#[doc = \"x\"]"], .pub, "a", .other "D4"⟩,
  ⟨["#[controls_layout]"], .inherited, "n", .other "u8"⟩,
  ⟨["#[varlen]"], .pub, "s", .other "Array<T>"⟩,
  ⟨["#[varlen_array]"], .pub, "xs", .array (.other "T") "*n as usize"⟩,
  ⟨["#[varlen]"], .pub, "t", .other "Array<T>"⟩]

def exG : GItem where
  item := ⟨.pub, "G", .named exGFields⟩
  generics := ⟨[⟨.type, "T", .ofList [.bound (.cons "Default" .nil .nil)], some (.name "usize")⟩], .nil⟩
  ty t := if t = "Array<T>" then .path false (.cons "Array" (.ofList [.name "T"]) .nil) else .name t
  expr _ := .expr ["n"] (.ofList [.name "usize"])

theorem exG_params : exG.params = [.ident "T"] := rfl

theorem exG_ok : GenericsOk id exG exGFields := by
  have hbare : BareInVarlen exG exGFields (.ident "T") := by
    refine ⟨⟨["#[varlen]"], .pub, "s", .other "Array<T>"⟩, by simp [exGFields], by decide, ?_⟩
    show Syn.name "T" ∈ Syn.inside (.path false (.cons "Array" (.ofList [.name "T"]) .nil))
    rw [Syn.inside, Segs.inside, ofList_inside]
    simp only [List.flatMap_cons, List.flatMap_nil, List.append_nil, Syn.name, Syn.inside]
    simp
  refine ⟨?_, ?_, ?_, ?_, ?_, ?_, by decide, by decide, by decide, by decide, ?_⟩
  · intro p hp _
    rw [List.mem_singleton.1 hp]; rfl
  · intro f hf hb x hx
    rw [exG_params, List.mem_singleton] at hx
    subst hx
    simp only [exGFields, List.mem_cons, List.mem_nil_iff, or_false] at hf
    rcases hf with rfl | rfl | rfl | rfl | rfl <;> first | exact absurd hb (by decide) | (rw [show Ty.syn exG _ = Syn.name _ from rfl, mentions_name]; decide)
  · intro f hf hk e n ht x hx hm
    rw [exG_params, List.mem_singleton] at hx
    subst hx
    refine absurd hm ?_
    show ¬ Mentions _ (.expr ["n"] (.ofList [.name "usize"]))
    simp only [Mentions, Syn.inside, ofList_inside, List.flatMap_cons, List.flatMap_nil, List.append_nil, Syn.name, Segs.inside, Syns.inside, List.mem_cons, List.mem_nil_iff, or_false]
    rintro (⟨args, rest, h | h⟩ | ⟨ns, ss, h | h, hi⟩)
    · cases h
    · simp at h
    · cases h; exact absurd hi (by decide)
    · cases h
  all_goals try
    intro f hf hk x hx hm
    rw [exG_params, List.mem_singleton] at hx
    subst hx
    exact hbare
  · intro x hx hm
    rw [exG_params, List.mem_singleton] at hx
    subst hx
    exact hbare
  · intro p hp hb s hs x hx hm
    rw [exG_params, List.mem_singleton] at hx
    subst hx
    exact hbare
  · decide

theorem exG_output : ∃ o, defineVarlenGen id id exG = .ok o ∧ WellNamed o.base ∧ WellScoped exG o := by
  have hacc : ∀ f ∈ exGFields, f.Acceptable := by
    intro f hf
    simp only [exGFields, List.mem_cons, List.mem_nil_iff, or_false] at hf
    rcases hf with rfl | rfl | rfl | rfl | rfl <;> exact ⟨by decide, by simp [Vis.Allowed], by first | exact fun _ => ⟨_, _, rfl⟩ | exact fun h => absurd h (by decide)⟩
  have hv : exG.item.vis.Allowed := by simp [exG, Vis.Allowed]
  have h := define_ok id id (d := exG.item) rfl hv hacc
  have hn : WellNamed (outputOf id id exG.item exGFields) :=
    (wellNamed_iff id id exG.item exGFields).2 ⟨by decide +kernel, by decide +kernel, by decide +kernel, by decide +kernel, by decide +kernel⟩
  have hg : ∃ o, defineVarlenGen id id exG = .ok o ∧ o.base = outputOf id id exG.item exGFields := by
    unfold defineVarlenGen
    rw [h]
    exact ⟨_, rfl, rfl⟩
  obtain ⟨o, ho, hb⟩ := hg
  rw [← hb] at hn
  exact ⟨o, ho, hn, (C62_scoped rfl ho hn).2 exG_ok⟩

/-- What its names mean for arguments `σ`: `T` is `u8` or the type `D4` with a destructor. -/
def exGMeaning (σ : PName → Option Syn) : Meaning 64 where
  rty t := if t = .other "D4" ∨ t = .other "T" ∧ σ (.ident "T") matches some (.path false (.cons "D4" .nil .nil)) then Demo.D4 else u8Ty
  vty _ := Demo.ArrT
  expr _ env := some (BitVec.ofNat 64 (decLE ((env.lookup "n").getD [])))
  headSize := 8
  bareHeadSize := 8
  headAlign := 4
  off x := if x = "n" then 4 else 0

theorem exG_head : HeadOf exG exGFields exGMeaning :=
  ⟨⟨fun _ => 8, fun _ _ => rfl⟩, ⟨fun x => if x = .ident "T" then some (.name "usize") else none, fun x => by rw [exG_params]; by_cases h : x = .ident "T" <;> simp [h], fun _ _ => rfl⟩⟩

/-- `C62_head` applies to it, for two different arguments. -/
example (t : Syn) : ∃ o, defineVarlenGen id id exG = .ok o ∧ WellNamed o.base ∧ WellScoped exG o ∧
    IsArgs exG (fun x => if x = .ident "T" then some t else none) ∧ HeadOf exG exGFields exGMeaning := by
  obtain ⟨o, h1, h2, h3⟩ := exG_output
  exact ⟨o, h1, h2, h3, fun x => by rw [exG_params]; by_cases h : x = .ident "T" <;> simp [h], exG_head⟩

/-- If the head could depend on the parameters, the code would be wrong: were the head of the default instance empty, creating a box of this instance would write behind its allocation. -/
theorem C62_head_matters : ∃ o, defineVarlen id id exItem = .generated o ∧ LiteralOk { exMeaning with bareHeadSize := 0 } exFields exArgs ∧
    VBox.new Demo.alloc (genVarLen { exMeaning with bareHeadSize := 0 } o exFields) (genInitializer { exMeaning with bareHeadSize := 0 } o exFields exArgs) Demo.st0 = .ub .outOfBounds := by
  have h : (match defineVarlen id id exItem with
    | .generated o =>
      match VBox.new Demo.alloc (genVarLen { exMeaning with bareHeadSize := 0 } o exFields) (genInitializer { exMeaning with bareHeadSize := 0 } o exFields exArgs) Demo.st0 with
      | .ub .outOfBounds => true
      | _ => false
    | _ => false) = true := by decide +kernel
  split at h
  · next o ho =>
    split at h
    · next hk => exact ⟨o, ho, ⟨exLiteral.1, exLiteral.2, exLiteral.3⟩, hk⟩
    · cases h
  · cases h

/-- The types of a declaration with a parameter called like the marker type mention it exactly where the user wrote it. -/
example : ∃ o, defineVarlenGen id id exG = .ok o ∧ (∃ g : GenField, o.base.decl[2]? = some g ∧ Mentions (.ident "T") (g.ty.syn exG) ∧ ¬ Mentions (.ident "FieldMarker") (g.ty.syn exG)) := by
  obtain ⟨o, h1, -, -⟩ := exG_output
  obtain ⟨⟨g, h2, -, h3⟩, -, -⟩ := C62_own_types (i := 2) (f := ⟨["#[varlen]"], .pub, "s", .other "Array<T>"⟩) (x := .ident "T") rfl h1 rfl
  obtain ⟨⟨g', h4, -, h5⟩, -, -⟩ := C62_own_types (i := 2) (f := ⟨["#[varlen]"], .pub, "s", .other "Array<T>"⟩) (x := .ident "FieldMarker") rfl h1 rfl
  rw [h2] at h4
  cases h4
  have e : Ty.syn exG (Field.ownTy ⟨["#[varlen]"], .pub, "s", .other "Array<T>"⟩) = .path false (.cons "Array" (.ofList [.name "T"]) .nil) := rfl
  rw [e] at h3 h5
  refine ⟨o, h1, g, h2, h3.2 ?_, fun hm => ?_⟩
  · refine (mentions_iff _ _).2 ⟨.name "T", ?_, Here.name.2 rfl⟩
    rw [Syn.inside, Segs.inside, ofList_inside]
    simp [Syn.name, Syn.inside]
  · obtain ⟨t, ht, hh⟩ := (mentions_iff _ _).1 (h5.1 hm)
    rw [Syn.inside, Segs.inside, ofList_inside] at ht
    simp only [List.flatMap_cons, List.flatMap_nil, List.append_nil, Syn.name, Syn.inside, Segs.inside, Syns.inside, List.mem_cons, List.not_mem_nil, or_false] at ht
    rcases ht with rfl | rfl
    · simp [Here] at hh
    · simp [Here] at hh

/-- Not supported: a parameter without a default; a field in the head whose type is a parameter; a parameter called `usize`. -/
example : ¬ GenericsOk id { exG with generics := ⟨[⟨.type, "T", .nil, none⟩], .nil⟩ } exGFields :=
  fun h => absurd (h.defaults _ List.mem_cons_self (by decide)) (by decide)
example : ¬ GenericsOk id exG [⟨[], .pub, "a", .other "T"⟩] :=
  fun h => h.head _ List.mem_cons_self (by decide) (.ident "T") (by rw [exG_params]; exact List.mem_cons_self) (mentions_name.2 rfl)
example : ¬ GenericsOk id { exG with generics := ⟨[⟨.type, "usize", .nil, some (.name "u8")⟩], .nil⟩ } exGFields :=
  fun h => h.not_usize (by decide)

end Varlen.Macro
