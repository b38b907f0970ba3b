import Verif.Spec.Generics
import Verif.Proofs.Macro
/-! # Proofs about generic declarations -/
namespace Varlen.Macro
variable {w : Nat}

/-! ### The visitor -/

mutual
theorem visit_spec : ∀ (s : Syn) (r : GenericRefs), (∀ i, i ∈ (r.visit s).idents ↔ i ∈ r.idents ∨ Syn.name i ∈ s.inside) ∧
    (∀ l, l ∈ (r.visit s).lifetimes ↔ l ∈ r.lifetimes ∨ Syn.lifetime l ∈ s.inside)
  | .path c segs, r => by
    rw [GenericRefs.visit]
    have h := visitPath_spec segs r
    rcases hg : getIdent c segs with _ | j
    · refine ⟨fun i => ?_, fun l => ?_⟩
      · rw [Syn.inside]
        simp only [List.mem_cons]
        rw [(h.1 i)]
        constructor
        · rintro (h | h)
          · exact Or.inl h
          · exact Or.inr (Or.inr h)
        · rintro (h | h | h)
          · exact Or.inl h
          · rw [Syn.name] at h
            cases h
            cases hg
          · exact Or.inr h
      · rw [Syn.inside]
        simp only [List.mem_cons, reduceCtorEq, false_or]
        exact h.2 l
    · have he : c = false ∧ segs = .cons j .nil .nil := by
        unfold getIdent at hg
        split at hg
        · cases hg; exact ⟨rfl, rfl⟩
        · cases hg
      obtain ⟨rfl, rfl⟩ := he
      simp [Syn.inside, Segs.inside, Syns.inside, Syn.name, or_comm]
  | .qpath t segs, r => by
    rw [GenericRefs.visit]
    have h1 := visit_spec t r
    have h2 := visitPath_spec segs (r.visit t)
    refine ⟨fun i => ?_, fun l => ?_⟩
    · rw [h2.1, h1.1, Syn.inside]
      simp [Syn.name, or_assoc]
    · rw [h2.2, h1.2, Syn.inside]
      simp [or_assoc]
  | .bound segs, r => by
    rw [GenericRefs.visit]
    have h := visitPath_spec segs r
    refine ⟨fun i => ?_, fun l => ?_⟩
    · rw [h.1, Syn.inside]; simp [Syn.name]
    · rw [h.2, Syn.inside]; simp
  | .node ss, r => by
    rw [GenericRefs.visit]
    have h := visitAll_spec ss r
    refine ⟨fun i => ?_, fun l => ?_⟩
    · rw [h.1, Syn.inside]; simp [Syn.name]
    · rw [h.2, Syn.inside]; simp
  | .lifetime l, r => by
    rw [GenericRefs.visit]
    refine ⟨fun i => ?_, fun l' => ?_⟩
    · rw [Syn.inside]; simp [Syn.name]
    · rw [Syn.inside]; simp [or_comm]
  | .expr ns ss, r => by
    rw [GenericRefs.visit]
    have h := visitAll_spec ss r
    refine ⟨fun i => ?_, fun l => ?_⟩
    · rw [h.1, Syn.inside]; simp [Syn.name]
    · rw [h.2, Syn.inside]; simp
theorem visitAll_spec : ∀ (ss : Syns) (r : GenericRefs), (∀ i, i ∈ (r.visitAll ss).idents ↔ i ∈ r.idents ∨ Syn.name i ∈ ss.inside) ∧
    (∀ l, l ∈ (r.visitAll ss).lifetimes ↔ l ∈ r.lifetimes ∨ Syn.lifetime l ∈ ss.inside)
  | .nil, r => by rw [GenericRefs.visitAll, Syns.inside]; simp
  | .cons s ss, r => by
    rw [GenericRefs.visitAll]
    have h1 := visit_spec s r
    have h2 := visitAll_spec ss (r.visit s)
    refine ⟨fun i => ?_, fun l => ?_⟩
    · rw [h2.1, h1.1, Syns.inside]; simp [or_assoc]
    · rw [h2.2, h1.2, Syns.inside]; simp [or_assoc]
theorem visitPath_spec : ∀ (ss : Segs) (r : GenericRefs), (∀ i, i ∈ (r.visitPath ss).idents ↔ i ∈ r.idents ∨ Syn.name i ∈ ss.inside) ∧
    (∀ l, l ∈ (r.visitPath ss).lifetimes ↔ l ∈ r.lifetimes ∨ Syn.lifetime l ∈ ss.inside)
  | .nil, r => by rw [GenericRefs.visitPath, Segs.inside]; simp
  | .cons i args rest, r => by
    rw [GenericRefs.visitPath]
    have h1 := visitAll_spec args r
    have h2 := visitPath_spec rest (r.visitAll args)
    refine ⟨fun i => ?_, fun l => ?_⟩
    · rw [h2.1, h1.1, Segs.inside]; simp [or_assoc]
    · rw [h2.2, h1.2, Segs.inside]; simp [or_assoc]
end

theorem layoutRefs_foldl (d : GItem) : ∀ (tys : List Ty) (r : GenericRefs),
    (∀ i, i ∈ (tys.foldl (fun r ty => r.visit (ty.syn d)) r).idents ↔ i ∈ r.idents ∨ ∃ t ∈ tys, Syn.name i ∈ (t.syn d).inside) ∧
    (∀ l, l ∈ (tys.foldl (fun r ty => r.visit (ty.syn d)) r).lifetimes ↔ l ∈ r.lifetimes ∨ ∃ t ∈ tys, Syn.lifetime l ∈ (t.syn d).inside)
  | [], r => by simp
  | t :: ts, r => by
    rw [List.foldl_cons]
    have h1 := visit_spec (t.syn d) r
    have h2 := layoutRefs_foldl d ts (r.visit (t.syn d))
    refine ⟨fun i => ?_, fun l => ?_⟩
    · rw [h2.1, h1.1]; simp [or_assoc]
    · rw [h2.2, h1.2]; simp [or_assoc]

/-- The filter keeps the parameters that are written as a whole type in one of the types. -/
theorem keepParam_layoutRefs (d : GItem) (tys : List Ty) (p : Param) : keepParam (some (layoutRefs d tys)) p = true ↔ ∃ t ∈ tys, MentionsBare p.pname (t.syn d) := by
  have h := layoutRefs_foldl d tys .new
  have e1 : (layoutRefs d tys).lifetimes = (tys.foldl (fun r ty => r.visit (ty.syn d)) GenericRefs.new).lifetimes := rfl
  have e2 : (layoutRefs d tys).idents = (tys.foldl (fun r ty => r.visit (ty.syn d)) GenericRefs.new).idents := rfl
  simp only [keepParam, Param.pname]
  by_cases hk : p.kind = .lifetime
  · simp only [hk, if_true, List.contains_iff_mem, MentionsBare, e1, h.2]
    simp [GenericRefs.new]
  · simp only [hk, if_false, List.contains_iff_mem, MentionsBare, e2, h.1]
    simp [GenericRefs.new]

/-! ### `parse_generics` -/

theorem parseGenerics_go (g : Generics) (filter : Option GenericRefs) : ∀ (ps defs impls : List Param) (apply : List PName),
    parseGenerics.go g filter ps (defs, impls, apply) =
      (defs ++ ps.filter (keepParam filter), impls ++ (ps.filter (keepParam filter)).map Param.forImpl, apply ++ (ps.filter (keepParam filter)).map Param.pname, g.whereClause)
  | [], defs, impls, apply => by simp [parseGenerics.go]
  | p :: ps, defs, impls, apply => by
    rw [parseGenerics.go]
    split
    · next h => rw [parseGenerics_go g filter ps]; simp [h]
    · next h => rw [parseGenerics_go g filter ps]; simp [h]

theorem parseGenerics_eq (g : Generics) (filter : Option GenericRefs) :
    parseGenerics g filter = (g.params.filter (keepParam filter), (g.params.filter (keepParam filter)).map Param.forImpl, (g.params.filter (keepParam filter)).map Param.pname, g.whereClause) := by
  rw [parseGenerics, parseGenerics_go]; simp

theorem parseGenerics_none (g : Generics) : parseGenerics g none = (g.params, g.params.map Param.forImpl, g.params.map Param.pname, g.whereClause) := by
  rw [parseGenerics_eq]
  have : g.params.filter (keepParam none) = g.params := List.filter_eq_self.2 fun _ _ => rfl
  rw [this]

@[simp] theorem forImpl_pname (p : Param) : p.forImpl.pname = p.pname := by
  unfold Param.forImpl
  split <;> rfl

/-! ### Mentions -/

/-- `x` is mentioned at the root of `s`. -/
def Here : PName → Syn → Prop
  | .lifetime l, s => s = .lifetime l
  | .ident i, s => (∃ args rest, s = Syn.path false (.cons i args rest)) ∨ ∃ ns ss, s = Syn.expr ns ss ∧ i ∈ ns

theorem mentions_iff (x : PName) (s : Syn) : Mentions x s ↔ ∃ t ∈ s.inside, Here x t := by
  cases x with
  | lifetime l => simp [Mentions, Here]
  | ident i =>
    simp only [Mentions, Here]
    constructor
    · rintro (⟨a, r, h⟩ | ⟨ns, ss, h, hi⟩)
      · exact ⟨_, h, Or.inl ⟨a, r, rfl⟩⟩
      · exact ⟨_, h, Or.inr ⟨ns, ss, rfl, hi⟩⟩
    · rintro ⟨t, h, ⟨a, r, rfl⟩ | ⟨ns, ss, rfl, hi⟩⟩
      · exact Or.inl ⟨a, r, h⟩
      · exact Or.inr ⟨ns, ss, h, hi⟩

theorem MentionsBare.mentions {x : PName} {s : Syn} (h : MentionsBare x s) : Mentions x s := by
  cases x with
  | lifetime l => exact h
  | ident i => exact Or.inl ⟨_, _, h⟩

theorem Here.node {x : PName} {ss : Syns} : ¬ Here x (.node ss) := by cases x <;> simp [Here]
theorem Here.bound {x : PName} {ss : Segs} : ¬ Here x (.bound ss) := by cases x <;> simp [Here]
theorem Here.qpath {x : PName} {t : Syn} {ss : Segs} : ¬ Here x (.qpath t ss) := by cases x <;> simp [Here]
theorem Here.path_true {x : PName} {ss : Segs} : ¬ Here x (.path true ss) := by cases x <;> simp [Here]
theorem Here.lifetime {x : PName} {l : Ident} : Here x (.lifetime l) ↔ x = .lifetime l := by cases x <;> simp [Here, eq_comm]
theorem Here.name {x : PName} {i : Ident} : Here x (.name i) ↔ x = .ident i := by
  cases x <;> simp [Here, Syn.name, eq_comm]

theorem ofList_inside (ss : List Syn) : (Syns.ofList ss).inside = ss.flatMap Syn.inside := by
  induction ss with
  | nil => rfl
  | cons s ss ih => rw [Syns.ofList, Syns.inside, ih]; rfl

theorem mentions_node_list {x : PName} {ss : List Syn} : Mentions x (.node (.ofList ss)) ↔ ∃ s ∈ ss, Mentions x s := by
  simp only [mentions_iff, Syn.inside, ofList_inside, List.mem_cons, List.mem_flatMap]
  constructor
  · rintro ⟨t, rfl | ⟨s, hs, ht⟩, hh⟩
    · exact absurd hh Here.node
    · exact ⟨s, hs, t, ht, hh⟩
  · rintro ⟨s, hs, t, ht, hh⟩
    exact ⟨t, Or.inr ⟨s, hs, ht⟩, hh⟩

theorem mentions_lifetime {x : PName} {l : Ident} : Mentions x (.lifetime l) ↔ x = .lifetime l := by
  rw [mentions_iff]; simp [Syn.inside, Here.lifetime]

theorem mentions_name {x : PName} {i : Ident} : Mentions x (.name i) ↔ x = .ident i := by
  rw [mentions_iff]
  simp only [Syn.name, Syn.inside, Segs.inside, Syns.inside, List.append_nil, List.mem_singleton, exists_eq_left]
  exact Here.name

theorem mentions_pname {x y : PName} : Mentions x y.syn ↔ x = y := by
  cases y with
  | lifetime l => exact mentions_lifetime
  | ident i => exact mentions_name

theorem mentions_path1 {x : PName} {i : Ident} {ss : List Syn} : Mentions x (.path true (.cons i (.ofList ss) .nil)) ↔ ∃ s ∈ ss, Mentions x s := by
  simp only [mentions_iff, Syn.inside, Segs.inside, ofList_inside, List.append_nil, List.mem_cons, List.mem_flatMap]
  constructor
  · rintro ⟨t, rfl | ⟨s, hs, ht⟩, hh⟩
    · exact absurd hh Here.path_true
    · exact ⟨s, hs, t, ht, hh⟩
  · rintro ⟨s, hs, t, ht, hh⟩
    exact ⟨t, Or.inr ⟨s, hs, ht⟩, hh⟩

theorem mentions_bound1 {x : PName} {i : Ident} {ss : List Syn} : Mentions x (.bound (.cons i (.ofList ss) .nil)) ↔ ∃ s ∈ ss, Mentions x s := by
  simp only [mentions_iff, Syn.inside, Segs.inside, ofList_inside, List.append_nil, List.mem_cons, List.mem_flatMap]
  constructor
  · rintro ⟨t, rfl | ⟨s, hs, ht⟩, hh⟩
    · exact absurd hh Here.bound
    · exact ⟨s, hs, t, ht, hh⟩
  · rintro ⟨s, hs, t, ht, hh⟩
    exact ⟨t, Or.inr ⟨s, hs, ht⟩, hh⟩

theorem mentions_qpath2 {x : PName} {i j : Ident} {s : Syn} : Mentions x (.qpath s (.cons i .nil (.cons j .nil .nil))) ↔ Mentions x s := by
  simp only [mentions_iff, Syn.inside, Segs.inside, Syns.inside, List.append_nil, List.mem_cons]
  constructor
  · rintro ⟨t, rfl | ht, hh⟩
    · exact absurd hh Here.qpath
    · exact ⟨t, ht, hh⟩
  · rintro ⟨t, ht, hh⟩
    exact ⟨t, Or.inr ht, hh⟩

/-- The type of an array is written as its parts. -/
theorem mentions_elem {d : GItem} {x : PName} {ty : Ty} (h : Mentions x (ty.elem.syn d)) : Mentions x (ty.syn d) := by
  cases ty with
  | array e n => exact mentions_node_list.2 ⟨_, List.mem_cons_self, h⟩
  | other t => exact h

/-! ### Substitution -/

/-- No name with an argument occurs in `l`. -/
structure Untouched (σ : PName → Option Syn) (l : List Syn) : Prop where
  lifetime : ∀ a, Syn.lifetime a ∈ l → σ (.lifetime a) = none
  path : ∀ i args rest, Syn.path false (.cons i args rest) ∈ l → σ (.ident i) = none
  expr : ∀ ns ss, Syn.expr ns ss ∈ l → ∀ i ∈ ns, σ (.ident i) = none

theorem Untouched.sub {σ : PName → Option Syn} {l l' : List Syn} (h : Untouched σ l) (hs : ∀ s ∈ l', s ∈ l) : Untouched σ l' :=
  ⟨fun a ha => h.lifetime a (hs _ ha), fun i a r hi => h.path i a r (hs _ hi), fun ns ss he => h.expr ns ss (hs _ he)⟩

theorem untouched_of_mentions {σ : PName → Option Syn} {s : Syn} (h : ∀ x, (σ x).isSome = true → ¬ Mentions x s) : Untouched σ s.inside := by
  refine ⟨fun a ha => ?_, fun i args rest hi => ?_, fun ns ss he i hi => ?_⟩
  all_goals rw [← Option.not_isSome_iff_eq_none]; intro hs
  · exact h _ hs ha
  · exact h _ hs (Or.inl ⟨_, _, hi⟩)
  · exact h _ hs (Or.inr ⟨_, _, he, hi⟩)

mutual
theorem Syn.subst_id {σ : PName → Option Syn} : ∀ s : Syn, Untouched σ s.inside → s.subst σ = s
  | .path false (.cons i args rest), h => by
    have h1 := h.path i args rest (by rw [Syn.inside]; exact List.mem_cons_self)
    rw [Syn.inside] at h
    have h2 := Segs.subst_id (.cons i args rest) (h.sub fun _ hs => List.mem_cons_of_mem _ hs)
    rw [Segs.subst] at h2
    rw [Syn.subst, h1, h2]
  | .path true (.cons i args rest), h => by
    rw [Syn.inside] at h
    rw [Syn.subst, Segs.subst_id _ (h.sub fun _ hs => List.mem_cons_of_mem _ hs)]
    simp
  | .path c .nil, h => by
    rw [Syn.subst, Segs.subst]
    simp
  | .qpath s segs, h => by
    rw [Syn.inside] at h
    rw [Syn.subst, Syn.subst_id s (h.sub fun _ hs => List.mem_cons_of_mem _ (List.mem_append_left _ hs)),
      Segs.subst_id segs (h.sub fun _ hs => List.mem_cons_of_mem _ (List.mem_append_right _ hs))]
  | .bound segs, h => by
    rw [Syn.inside] at h
    rw [Syn.subst, Segs.subst_id segs (h.sub fun _ hs => List.mem_cons_of_mem _ hs)]
  | .node ss, h => by
    rw [Syn.inside] at h
    rw [Syn.subst, Syns.subst_id ss (h.sub fun _ hs => List.mem_cons_of_mem _ hs)]
  | .lifetime l, h => by
    rw [Syn.subst, h.lifetime l (by rw [Syn.inside]; exact List.mem_cons_self)]
  | .expr ns ss, h => by
    have h1 := h.expr ns ss (by rw [Syn.inside]; exact List.mem_cons_self)
    rw [Syn.inside] at h
    rw [Syn.subst, Syns.subst_id ss (h.sub fun _ hs => List.mem_cons_of_mem _ hs)]
    have e1 : ns.filter (fun i => (σ (.ident i)).isNone) = ns := List.filter_eq_self.2 fun i hi => by rw [h1 i hi]; rfl
    have e2 : ∀ l : List Ident, (∀ i ∈ l, σ (.ident i) = none) → l.foldr (fun i r => match σ (.ident i) with | some t => Syns.cons t r | none => r) ss = ss := by
      intro l hl
      induction l with
      | nil => rfl
      | cons i l ih => rw [List.foldr_cons, ih fun j hj => hl j (List.mem_cons_of_mem _ hj), hl i List.mem_cons_self]
    rw [e1]
    exact congrArg (Syn.expr ns) (e2 ns h1)
theorem Syns.subst_id {σ : PName → Option Syn} : ∀ s : Syns, Untouched σ s.inside → s.subst σ = s
  | .nil, _ => by rw [Syns.subst]
  | .cons s ss, h => by
    rw [Syns.inside] at h
    rw [Syns.subst, Syn.subst_id s (h.sub fun _ hs => List.mem_append_left _ hs), Syns.subst_id ss (h.sub fun _ hs => List.mem_append_right _ hs)]
theorem Segs.subst_id {σ : PName → Option Syn} : ∀ s : Segs, Untouched σ s.inside → s.subst σ = s
  | .nil, _ => by rw [Segs.subst]
  | .cons i args rest, h => by
    rw [Segs.inside] at h
    rw [Segs.subst, Syns.subst_id args (h.sub fun _ hs => List.mem_append_left _ hs), Segs.subst_id rest (h.sub fun _ hs => List.mem_append_right _ hs)]
end

end Varlen.Macro
