import Verif.Proofs.MacroSem
/-! # Proofs: which names clash -/
namespace Varlen.Macro

theorem append_inj_left {a b c : String} (h : a ++ c = b ++ c) : a = b := by
  have : a.toList ++ c.toList = b.toList ++ c.toList := by rw [← String.toList_append, h, String.toList_append]
  exact String.toList_inj.1 (List.append_cancel_right this)

theorem append_inj_right {a b c : String} (h : c ++ a = c ++ b) : a = b := by
  have : c.toList ++ a.toList = c.toList ++ b.toList := by rw [← String.toList_append, h, String.toList_append]
  exact String.toList_inj.1 (List.append_cancel_left this)

theorem last_layout (a : String) : (a ++ "_layout").toList.getLast? = some 't' := by
  rw [String.toList_append, List.getLast?_append]; rfl
theorem last_len (a : String) : (a ++ "_len").toList.getLast? = some 'n' := by
  rw [String.toList_append, List.getLast?_append]; rfl

theorem companion_last (f : Field) : f.companion.toList.getLast? = some 't' ∨ f.companion.toList.getLast? = some 'n' := by
  unfold Field.companion
  split
  · exact Or.inr (last_len _)
  · exact Or.inl (last_layout _)

theorem companion_ne_size (f : Field) : f.companion ≠ "size" := by
  intro e
  rcases companion_last f with h | h <;> (rw [e] at h; revert h; decide)
theorem companion_ne_lengths (f : Field) : f.companion ≠ "lengths" := by
  intro e
  rcases companion_last f with h | h <;> (rw [e] at h; revert h; decide)

theorem companion_inj {f g : Field} (h : f.companion = g.companion) : f.ident = g.ident := by
  unfold Field.companion at h
  split at h <;> split at h
  · exact append_inj_left h
  · have h1 := last_len f.ident
    rw [h, last_layout] at h1
    exact absurd h1 (by decide)
  · have h1 := last_layout f.ident
    rw [h, last_len] at h1
    exact absurd h1 (by decide)
  · exact append_inj_left h

theorem layoutIdent_eq (f : Field) : f.layoutIdent = f.companion := by
  simp [Field.layoutIdent, Field.companion, Field.isArr, mkLenIdent, mkLayoutIdent]
theorem tail_eq (f : Field) : f.tail = f.behindHead := rfl

theorem nodup_map_of {α β : Type} {f : α → β} : ∀ {l : List α}, l.Nodup → (∀ a ∈ l, ∀ b ∈ l, f a = f b → a = b) → (l.map f).Nodup := by
  intro l
  induction l with
  | nil => intro _ _; exact List.nodup_nil
  | cons a l ih =>
    intro hn h
    rw [List.map_cons, List.nodup_cons]
    rw [List.nodup_cons] at hn
    refine ⟨fun hm => ?_, ih hn.2 fun x hx y hy => h x (by simp [hx]) y (by simp [hy])⟩
    obtain ⟨b, hb, he⟩ := List.mem_map.1 hm
    exact hn.1 (h b (by simp [hb]) a (by simp) he ▸ hb)

theorem nodup_of_map {α β : Type} {f : α → β} : ∀ {l : List α}, (l.map f).Nodup → l.Nodup ∧ ∀ a ∈ l, ∀ b ∈ l, f a = f b → a = b := by
  intro l
  induction l with
  | nil => intro _; exact ⟨List.nodup_nil, fun a h => by simp at h⟩
  | cons a l ih =>
    intro h
    rw [List.map_cons, List.nodup_cons] at h
    obtain ⟨h1, h2⟩ := ih h.2
    refine ⟨List.nodup_cons.2 ⟨fun ha => h.1 (List.mem_map_of_mem ha), h1⟩, fun x hx y hy he => ?_⟩
    rcases List.mem_cons.1 hx with ex | hx'
    · rcases List.mem_cons.1 hy with ey | hy'
      · rw [ex, ey]
      · exact absurd (ex ▸ he ▸ List.mem_map_of_mem hy') h.1
    · rcases List.mem_cons.1 hy with ey | hy'
      · exact absurd (ey ▸ he ▸ List.mem_map_of_mem hx') h.1
      · exact h2 x hx' y hy' he

theorem Nodup.filter' {α : Type} {l : List α} (p : α → Bool) (h : l.Nodup) : (l.filter p).Nodup := h.sublist List.filter_sublist

/-- Names in pairs are distinct. -/
theorem pairs_nodup (f1 f2 : Field → Ident) : ∀ (l : List Field), ((l.flatMap fun f => [f1 f, f2 f]).Nodup) ↔
    (l.map f1).Nodup ∧ (l.map f2).Nodup ∧ ∀ f ∈ l, ∀ g ∈ l, f1 f ≠ f2 g := by
  intro l
  induction l with
  | nil => simp
  | cons a l ih =>
    have hm : ∀ x, (x ∈ l.flatMap fun f => [f1 f, f2 f]) ↔ x ∈ l.map f1 ∨ x ∈ l.map f2 := by
      intro x
      simp only [List.mem_flatMap, List.mem_cons, List.not_mem_nil, or_false, List.mem_map]
      constructor
      · rintro ⟨f, hf, rfl | rfl⟩
        · exact Or.inl ⟨f, hf, rfl⟩
        · exact Or.inr ⟨f, hf, rfl⟩
      · rintro (⟨f, hf, rfl⟩ | ⟨f, hf, rfl⟩)
        · exact ⟨f, hf, Or.inl rfl⟩
        · exact ⟨f, hf, Or.inr rfl⟩
    simp only [List.flatMap_cons, List.cons_append, List.nil_append, List.nodup_cons, List.mem_cons, not_or, hm, ih, List.map_cons]
    constructor
    · rintro ⟨⟨h1, h2, h3⟩, ⟨h4, h5⟩, h6, h7, h8⟩
      refine ⟨⟨h2, h6⟩, ⟨h5, h7⟩, ?_⟩
      rintro f (rfl | hf) g (rfl | hg)
      · exact h1
      · exact fun e => h3 (e ▸ List.mem_map_of_mem hg)
      · exact fun e => h4 (e ▸ List.mem_map_of_mem hf)
      · exact h8 f hf g hg
    · rintro ⟨⟨h2, h6⟩, ⟨h5, h7⟩, h⟩
      refine ⟨⟨h a (Or.inl rfl) a (Or.inl rfl), h2, fun hx => ?_⟩, ⟨fun hx => ?_, h5⟩, h6, h7, fun f hf g hg => h f (Or.inr hf) g (Or.inr hg)⟩
      · obtain ⟨g, hg, e⟩ := List.mem_map.1 hx
        exact h a (Or.inl rfl) g (Or.inr hg) e.symm
      · obtain ⟨g, hg, e⟩ := List.mem_map.1 hx
        exact h g (Or.inr hg) a (Or.inl rfl) e

theorem wellNamed_iff (camel snake : String → String) (d : Item) (fs : List Field) : WellNamed (outputOf camel snake d fs) ↔ NamesOk camel fs := by
  have hctl : ∀ {p : Field → Bool}, (fs.map Field.ident).Nodup → ((fs.filter p).map Field.ident).Nodup := fun {p} h =>
    h.sublist (List.filter_sublist.map Field.ident)
  have hname : (outputOf camel snake d fs).varLenLayout.map GenField.ident = "size" :: (fs.filter Field.behindHead).flatMap fun f => [f.ident, f.companion] := by
    simp only [outputOf, List.map_cons, List.map_flatMap, List.map_nil, layoutIdent_eq]; rfl
  have hdecl : ∀ {vis : Field → SimpleVisibility} {ty : Field → GenTy} (l : List Field),
      (l.map fun f => (⟨f.otherAttrs, vis f, f.ident, ty f⟩ : GenField)).map GenField.ident = l.map Field.ident := by
    intro vis ty l; simp [List.map_map, Function.comp_def]
  constructor
  · intro h
    have h1 := h.decl
    have h2 := h.layout
    rw [hname, List.nodup_cons, pairs_nodup] at h2
    simp only [outputOf, hdecl] at h1
    obtain ⟨h3, h4, h5, h6⟩ := h2
    refine ⟨h1, fun f hf hb e => h3 ?_, fun f hf g hg hb hb' => h6 f (List.mem_filter.2 ⟨hf, hb⟩) g (List.mem_filter.2 ⟨hg, hb'⟩), ?_, ?_⟩
    · exact List.mem_flatMap.2 ⟨f, List.mem_filter.2 ⟨hf, hb⟩, by simp [e]⟩
    · have h7 := h.initParams
      simp only [outputOf, List.map_map, Function.comp_def] at h7
      obtain ⟨h8, h9⟩ := nodup_of_map h7
      exact nodup_map_of h8 fun a ha b hb e => h9 a ha b hb (by simp only [mkInitIdent, e])
    · have h7 := h.fastLengths
      simp only [outputOf, List.pairwise_map] at h7
      exact h7.imp fun {a b} hab hk => (hab (by simp [Field.catFast, Field.isArr, hk, CatExpr.usesLengths])).1
  · intro h
    have hn : ((fs.filter Field.behindHead).map Field.ident).Nodup := hctl h.distinct
    have hc : ((fs.filter Field.behindHead).map Field.companion).Nodup := by
      obtain ⟨h1, h2⟩ := nodup_of_map hn
      exact nodup_map_of h1 fun a ha b hb e => h2 a ha b hb (companion_inj e)
    have hlen : (fs.filter Field.tail).Pairwise fun a b => b.isArr = true → a.ident ≠ "lengths" ∧ a.layoutIdent ≠ "lengths" :=
      h.not_lengths.imp fun {a b} hab hb => ⟨hab (by simpa [Field.isArr] using hb), by rw [layoutIdent_eq]; exact companion_ne_lengths a⟩
    have hpat : ∀ f ∈ fs.filter Field.tail, [f.ident, f.layoutIdent, "size"].Nodup := by
      intro f hf
      obtain ⟨hf, hb⟩ := List.mem_filter.1 hf
      rw [layoutIdent_eq]
      have h1 := h.not_companion f hf f hf hb hb
      have h2 := h.not_size f hf hb
      have h3 := companion_ne_size f
      simp [h1, h2, h3]
    have huse : ∀ f : Field, f.catFast.usesLengths = f.isArr := fun f => by cases ha : f.isArr <;> simp [Field.catFast, ha, CatExpr.usesLengths]
    have huse' : ∀ f : Field, f.catCautious.usesLengths = f.isArr := fun f => by cases ha : f.isArr <;> simp [Field.catCautious, ha, CatExpr.usesLengths]
    refine { decl := ?_, layout := ?_, init := ?_, muts := ?_, refs := ?_, controllers := ?_, lenFns := ?_, lenParams := ?_, initParams := ?_,
             fastPats := ?_, cautiousPats := ?_, fastLengths := ?_, cautiousLengths := ?_ }
    · simpa only [outputOf, hdecl] using h.distinct
    · rw [hname, List.nodup_cons, pairs_nodup]
      refine ⟨fun hm => ?_, hn, hc, fun f hf g hg => ?_⟩
      · obtain ⟨f, hf, hx⟩ := List.mem_flatMap.1 hm
        obtain ⟨hf, hb⟩ := List.mem_filter.1 hf
        simp only [List.mem_cons, List.not_mem_nil, or_false] at hx
        rcases hx with e | e
        · exact h.not_size f hf hb e.symm
        · exact companion_ne_size f e.symm
      · obtain ⟨hf, hb⟩ := List.mem_filter.1 hf
        obtain ⟨hg, hb'⟩ := List.mem_filter.1 hg
        exact h.not_companion f hf g hg hb hb'
    · simpa only [outputOf, hdecl] using h.distinct
    · simpa only [outputOf, hdecl] using h.distinct
    · simpa only [outputOf, hdecl] using h.distinct
    · simpa only [outputOf, hdecl] using hctl h.distinct
    · simp only [outputOf, List.map_map, Function.comp_def]
      obtain ⟨h1, h2⟩ := nodup_of_map (hctl (p := Field.isArr) h.distinct)
      exact nodup_map_of h1 fun a ha b hb e => h2 a ha b hb (append_inj_left e)
    · simpa only [outputOf, List.map_map, Function.comp_def] using hctl h.distinct
    · simp only [outputOf, List.map_map, Function.comp_def]
      obtain ⟨h1, h2⟩ := nodup_of_map h.camel_distinct
      exact nodup_map_of h1 fun a ha b hb e => h2 a ha b hb (append_inj_right e)
    · intro c hc
      obtain ⟨f, hf, rfl⟩ := List.mem_map.1 hc
      exact hpat f hf
    · intro c hc
      obtain ⟨f, hf, rfl⟩ := List.mem_map.1 hc
      exact hpat f hf
    · simp only [outputOf, List.pairwise_map, huse]
      exact hlen
    · simp only [outputOf, List.pairwise_map, huse']
      exact hlen

end Varlen.Macro
