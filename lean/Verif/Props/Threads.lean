import Verif.Spec.Threads
import Verif.Spec.LibType
import Verif.Props.Demo
/-!
# C67: sharing and moving objects between threads
-/
namespace Varlen
variable {w : Nat}

theorem Is.of_plain {has : AutoTrait → Plain → Prop} {tr : AutoTrait} {P : Plain} (h : Is (w := w) has tr (.plain P)) : has tr P := by cases h; assumption
theorem Is.of_obj {has : AutoTrait → Plain → Prop} {tr : AutoTrait} {T : Ty w} (h : Is has tr (.obj T)) : ∀ t ∈ T.decl, Is has tr t := by cases h; assumption
theorem Is.of_fieldMarker {has : AutoTrait → Plain → Prop} {tr : AutoTrait} {T : Ty w} (h : Is has tr (fieldMarker T)) : Is has tr (.obj T) := by
  cases h with
  | struct h => cases h (.phantom (.obj T)) (by simp) with | phantom h => exact h
theorem Is.of_arrayMarker {has : AutoTrait → Plain → Prop} {tr : AutoTrait} {P : Plain} (h : Is (w := w) has tr (arrayMarker P)) : has tr P := by
  cases h with
  | struct h => cases h (.phantom (.slice (.plain P))) (by simp) with | phantom h => cases h with | slice h => exact h.of_plain
theorem Is.fieldMarker {has : AutoTrait → Plain → Prop} {tr : AutoTrait} {T : Ty w} (h : Is has tr (.obj T)) : Is has tr (fieldMarker T) :=
  .struct fun t ht => by
    simp only [List.mem_cons, List.not_mem_nil, or_false] at ht
    rcases ht with rfl | rfl
    · exact .phantomPinned
    · exact .phantom h
theorem Is.arrayMarker {has : AutoTrait → Plain → Prop} {tr : AutoTrait} {P : Plain} (h : has tr P) : Is (w := w) has tr (arrayMarker P) :=
  .struct fun t ht => by
    simp only [List.mem_cons, List.not_mem_nil, or_false] at ht
    rcases ht with rfl | rfl
    · exact .phantomPinned
    · exact .phantom (.slice (.plain h))

theorem Is.mentions {has : AutoTrait → Plain → Prop} {tr : AutoTrait} {T : Ty w} {P : Plain} (hm : Mentions T P) : Is has tr (.obj T) → has tr P := by
  induction hm with
  | fixedLen => exact fun h => (h.of_obj _ (List.mem_cons_self ..)).of_plain
  | @arrayElem P L => exact fun h => (h.of_obj (Varlen.arrayMarker P) (by simp [Ty.decl])).of_arrayMarker
  | arrayLen => exact fun h => (h.of_obj _ (List.mem_cons_self ..)).of_plain
  | @strByte L => exact fun h => ((h.of_obj _ (List.mem_cons_self ..)).of_obj (Varlen.arrayMarker u8Plain) (by simp [Ty.decl])).of_arrayMarker
  | strLen => exact fun h => ((h.of_obj _ (List.mem_cons_self ..)).of_obj _ (List.mem_cons_self ..)).of_plain
  | newtype _ ih => exact fun h => ih (h.of_obj _ (List.mem_cons_self ..))
  | tuple hT _ ih => exact fun h => ih (h.of_obj _ (List.mem_map.2 ⟨_, hT, rfl⟩)).of_fieldMarker
  | normal hf => exact fun h => (h.of_obj (.plain _) (List.mem_map.2 ⟨_, hf, rfl⟩)).of_plain
  | length hf => exact fun h => (h.of_obj (.plain _) (List.mem_map.2 ⟨_, hf, rfl⟩)).of_plain
  | varlen hf _ ih => exact fun h => ih (h.of_obj (Varlen.fieldMarker _) (List.mem_map.2 ⟨_, hf, rfl⟩)).of_fieldMarker
  | array hf => exact fun h => (h.of_obj (Varlen.arrayMarker _) (List.mem_map.2 ⟨_, hf, rfl⟩)).of_arrayMarker

theorem Is.of_mentions {has : AutoTrait → Plain → Prop} {tr : AutoTrait} : (T : Ty w) → (∀ P, Mentions T P → has tr P) → Is has tr (.obj T)
  | .fixedLen P, h => .obj fun t ht => by simp only [Ty.decl, List.mem_singleton] at ht; subst ht; exact .plain (h _ .fixedLen)
  | .array P L, h => .obj fun t ht => by
      simp only [Ty.decl, List.mem_cons, List.not_mem_nil, or_false] at ht
      rcases ht with rfl | rfl
      · exact .plain (h _ .arrayLen)
      · exact .arrayMarker (h _ .arrayElem)
  | .str L, h => .obj fun t ht => by
      simp only [Ty.decl, List.mem_singleton] at ht
      subst ht
      refine .obj fun t ht => ?_
      simp only [Ty.decl, List.mem_cons, List.not_mem_nil, or_false] at ht
      rcases ht with rfl | rfl
      · exact .plain (h _ .strLen)
      · exact .arrayMarker (h _ .strByte)
  | .newtype T, h => .obj fun t ht => by
      simp only [Ty.decl, List.mem_singleton] at ht
      subst ht
      exact Is.of_mentions T fun P hP => h P (.newtype hP)
  | .tuple Ts, h => .obj fun t ht => by
      obtain ⟨T, hT, rfl⟩ := List.mem_map.1 ht
      exact .fieldMarker (Is.of_mentions T fun P hP => h P (.tuple hT hP))
  | .struct hs ha fs, h => .obj fun t ht => by
      obtain ⟨f, hf, rfl⟩ := List.mem_map.1 ht
      cases f with
      | normal P off => exact .plain (h _ (.normal hf))
      | length P off => exact .plain (h _ (.length hf))
      | varlen T => exact .fieldMarker (Is.of_mentions T fun P hP => h P (.varlen hf hP))
      | array P len => exact .arrayMarker (h _ (.array hf))
  termination_by T => sizeOf T
  decreasing_by
    all_goals simp_wf
    · have := List.sizeOf_lt_of_mem hT; omega
    · have := List.sizeOf_lt_of_mem hf; simp at this; omega

/-- A variable-length type is `Send` (`Sync`) exactly if all ordinary types of which its values are made up are, those in the tail and in nested objects included. -/
theorem C67_auto_iff (has : AutoTrait → Plain → Prop) (tr : AutoTrait) (T : Ty w) : Is has tr (.obj T) ↔ ∀ P, Mentions T P → has tr P :=
  ⟨fun h _ hP => h.mentions hP, Is.of_mentions T⟩

/-- Which of the library's handles can be moved to another thread, and which can be shared with one. A plain reference and a pinned one: as the contents allow; so with the references that `refs()` and `muts()` return;
boxes, owned objects, sequences and their iterators: never. -/
theorem C67_handles (has : AutoTrait → Plain → Prop) (T : Ty w) :
    ((∀ tr, Is has tr (.ref (.obj T)) ↔ ∀ P, Mentions T P → has .sync P) ∧ (∀ tr, Is has tr (.mutRef (.obj T)) ↔ ∀ P, Mentions T P → has tr P)) ∧
    (∀ (hs ha : Nat) (fs : List (TyFld w)) (tr : AutoTrait), Is has tr (.struct (fs.map TyFld.refDecl)) ↔ ∀ P, Mentions (.struct hs ha fs) P → has .sync P) ∧
    (∀ (hs ha : Nat) (fs : List (TyFld w)) (tr : AutoTrait), (∀ P, has .sync P → has .send P) → (∀ P, Mentions (.struct hs ha fs) P → has tr P ∧ has .sync P) → Is has tr (.struct (fs.map TyFld.mutDecl))) ∧
    (∀ (hs ha : Nat) (fs : List (TyFld w)), Is has .send (.struct (fs.map TyFld.mutDecl)) → ∀ P, Mentions (.struct hs ha fs) P → has .send P ∨ has .sync P) ∧
    ∀ t ∈ [VBox.decl T, Owned.decl T, Seq.decl T, Iter.decl T, IterMut.decl T, OwnedElems.decl T], ∀ tr, ¬ Is has tr t := by
  have hr : ∀ {t : RTm w} {tr}, Is has tr (.ref t) ↔ Is has .sync t := ⟨fun h => by cases h; assumption, .ref⟩
  have hm : ∀ {t : RTm w} {tr}, Is has tr (.mutRef t) ↔ Is has tr t := ⟨fun h => by cases h; assumption, .mutRef⟩
  have hst : ∀ {fs : List (RTm w)} {tr}, Is has tr (.struct fs) ↔ ∀ t ∈ fs, Is has tr t := ⟨fun h => by cases h; assumption, .struct⟩
  have hsl : ∀ {P : Plain} {tr}, Is (w := w) has tr (.slice (.plain P)) ↔ has tr P := ⟨fun h => by cases h with | slice h => exact h.of_plain, fun h => .slice (.plain h)⟩
  have hpl : ∀ {P : Plain} {tr}, Is (w := w) has tr (.plain P) ↔ has tr P := ⟨Is.of_plain, .plain⟩
  have hmem : ∀ {hs ha : Nat} {fs : List (TyFld w)} {P : Plain}, Mentions (.struct hs ha fs) P →
      (∃ off, .normal P off ∈ fs) ∨ (∃ off, .length P off ∈ fs) ∨ (∃ T, .varlen T ∈ fs ∧ Mentions T P) ∨ ∃ len, .array P len ∈ fs := by
    intro hs ha fs P h
    cases h with
    | normal h => exact .inl ⟨_, h⟩
    | length h => exact .inr (.inl ⟨_, h⟩)
    | varlen h h' => exact .inr (.inr (.inl ⟨_, h, h'⟩))
    | array h => exact .inr (.inr (.inr ⟨_, h⟩))
  refine ⟨⟨fun tr => ?_, fun tr => ?_⟩, fun hs ha fs tr => ?_, fun hs ha fs tr hsy h => ?_, fun hs ha fs h P hP => ?_, fun t ht tr h => ?_⟩
  · rw [hr, C67_auto_iff]
  · rw [hm, C67_auto_iff]
  · rw [hst]
    constructor
    · intro h P hP
      rcases hmem hP with ⟨off, hf⟩ | ⟨off, hf⟩ | ⟨T', hf, hP'⟩ | ⟨len, hf⟩
      · exact hpl.1 (hr.1 (h _ (List.mem_map.2 ⟨_, hf, rfl⟩)))
      · exact hpl.1 (hr.1 (h _ (List.mem_map.2 ⟨_, hf, rfl⟩)))
      · exact (hr.1 (h _ (List.mem_map.2 ⟨_, hf, rfl⟩))).mentions hP'
      · exact hsl.1 (hr.1 (h _ (List.mem_map.2 ⟨_, hf, rfl⟩)))
    · intro h t ht
      obtain ⟨f, hf, rfl⟩ := List.mem_map.1 ht
      cases f with
      | normal P off => exact hr.2 (hpl.2 (h _ (.normal hf)))
      | length P off => exact hr.2 (hpl.2 (h _ (.length hf)))
      | varlen T' => exact hr.2 (Is.of_mentions T' fun P hP => h _ (.varlen hf hP))
      | array P len => exact hr.2 (hsl.2 (h _ (.array hf)))
  · refine hst.2 fun t ht => ?_
    obtain ⟨f, hf, rfl⟩ := List.mem_map.1 ht
    cases f with
    | normal P off => exact hm.2 (hpl.2 (h _ (.normal hf)).1)
    | length P off => exact hr.2 (hpl.2 (h _ (.length hf)).2)
    | varlen T' => exact hm.2 (Is.of_mentions T' fun P hP => (h _ (.varlen hf hP)).1)
    | array P len => exact hm.2 (hsl.2 (h _ (.array hf)).1)
  · have h := hst.1 h
    rcases hmem hP with ⟨off, hf⟩ | ⟨off, hf⟩ | ⟨T', hf, hP'⟩ | ⟨len, hf⟩
    · exact .inl (hpl.1 (hm.1 (h _ (List.mem_map.2 ⟨_, hf, rfl⟩))))
    · exact .inr (hpl.1 (hr.1 (h _ (List.mem_map.2 ⟨_, hf, rfl⟩))))
    · exact .inl ((hm.1 (h _ (List.mem_map.2 ⟨_, hf, rfl⟩))).mentions hP')
    · exact .inl (hsl.1 (hm.1 (h _ (List.mem_map.2 ⟨_, hf, rfl⟩))))
  · have hnn : ∀ {fs : List (RTm w)}, ¬ Is has tr (.struct (.nonNull (.obj T) :: fs)) := fun h => by
      have := hst.1 h _ (List.mem_cons_self ..)
      cases this
    simp only [List.mem_cons, List.not_mem_nil, or_false] at ht
    rcases ht with rfl | rfl | rfl | rfl | rfl | rfl <;> exact hnn h

/-! ## What an object is made of -/

theorem PartOf.mentions {T : Ty w} {v : V} {P : Plain} {x : Img} (h : PartOf T v P x) : Mentions T P := by
  induction h with
  | fixedLen => exact .fixedLen
  | array => exact .arrayElem
  | str => exact .strByte
  | newtype _ ih => exact .newtype ih
  | tuple h _ _ ih => exact .tuple (List.mem_of_getElem? h) ih
  | normal h => exact .normal (List.mem_of_getElem? h)
  | length h => exact .length (List.mem_of_getElem? h)
  | varlen h _ _ ih => exact .varlen (List.mem_of_getElem? h) ih
  | arrayField h => exact .array (List.mem_of_getElem? h)

mutual
theorem drops_parts : (T : Ty w) → (v : V) → (e : Event) → e ∈ T.sem.drops v → ∃ P x, PartOf T v P x ∧ e ∈ P.ty.drops x
  | .fixedLen P, v, e, h => by
    cases v <;> simp only [Ty.sem, FixedLen, List.not_mem_nil] at h
    exact ⟨P, _, .fixedLen, h⟩
  | .array P L, v, e, h => by
    cases v <;> simp only [Ty.sem, Array, List.not_mem_nil] at h
    obtain ⟨x, hx, h⟩ := List.mem_flatMap.1 h
    exact ⟨P, x, .array hx, h⟩
  | .str L, v, e, h => by
    cases v <;> simp only [Ty.sem, Str, NewtypeInv, Array, List.not_mem_nil] at h
    obtain ⟨x, hx, h⟩ := List.mem_flatMap.1 h
    exact ⟨u8Plain, x, .str hx, h⟩
  | .newtype T, v, e, h => by
    obtain ⟨P, x, h1, h2⟩ := drops_parts T v e (by simpa only [Ty.sem, Newtype, NewtypeInv] using h)
    exact ⟨P, x, .newtype h1, h2⟩
  | .tuple Ts, v, e, h => by
    cases v <;> simp only [Ty.sem, Tuple, aggDrops, List.not_mem_nil] at h
    obtain ⟨i, T, v, P, x, h1, h2, h3, h4⟩ := drops_parts_tys Ts _ e h
    exact ⟨P, x, .tuple h1 h2 h3, h4⟩
  | .struct hs ha fs, v, e, h => by
    cases v <;> simp only [Ty.sem, Struct, aggDrops, List.not_mem_nil] at h
    obtain ⟨i, f, v, P, x, h1, h2, h3, h4⟩ := drops_parts_flds fs _ e h
    refine ⟨P, x, ?_, h4⟩
    rcases h3 with ⟨off, rfl, rfl⟩ | ⟨off, rfl, rfl⟩ | ⟨T, rfl, h3⟩ | ⟨len, xs, rfl, rfl, h3⟩
    · exact .normal h1 h2
    · exact .length h1 h2
    · exact .varlen h1 h2 h3
    · exact .arrayField h1 h2 h3
theorem drops_parts_tys : (Ts : List (Ty w)) → (vs : List V) → (e : Event) → e ∈ fieldDrops ((Ty.sems Ts).map .varlen) vs →
    ∃ (i : Nat) (T : Ty w) (v : V) (P : Plain) (x : Img), Ts[i]? = some T ∧ vs[i]? = some v ∧ PartOf T v P x ∧ e ∈ P.ty.drops x
  | [], vs, e, h => by simp [Ty.sems, fieldDrops] at h
  | T :: Ts, [], e, h => by simp [Ty.sems, fieldDrops] at h
  | T :: Ts, v :: vs, e, h => by
    simp only [Ty.sems, List.map_cons, fieldDrops, List.mem_append] at h
    rcases h with h | h
    · obtain ⟨P, x, h1, h2⟩ := drops_parts T v e h
      exact ⟨0, T, v, P, x, rfl, rfl, h1, h2⟩
    · obtain ⟨i, T', v', P, x, h1, h2, h3, h4⟩ := drops_parts_tys Ts vs e h
      exact ⟨i + 1, T', v', P, x, by simpa using h1, by simpa using h2, h3, h4⟩
theorem drops_parts_flds : (fs : List (TyFld w)) → (vs : List V) → (e : Event) → e ∈ fieldDrops (TyFld.sems fs) vs →
    ∃ (i : Nat) (f : TyFld w) (v : V) (P : Plain) (x : Img), fs[i]? = some f ∧ vs[i]? = some v ∧
      ((∃ off, f = .normal P off ∧ v = .leaf x) ∨ (∃ off, f = .length P off ∧ v = .leaf x) ∨ (∃ T, f = .varlen T ∧ PartOf T v P x) ∨ ∃ len xs, f = .array P len ∧ v = .arr xs ∧ x ∈ xs) ∧
      e ∈ P.ty.drops x
  | [], vs, e, h => by simp [TyFld.sems, fieldDrops] at h
  | f :: fs, [], e, h => by cases f <;> simp [TyFld.sems, TyFld.sem, fieldDrops] at h
  | f :: fs, v :: vs, e, h => by
    have tl : e ∈ fieldDrops (TyFld.sems fs) vs → ∃ (i : Nat) (f' : TyFld w) (v' : V) (P : Plain) (x : Img), (f :: fs)[i]? = some f' ∧ (v :: vs)[i]? = some v' ∧
        ((∃ off, f' = .normal P off ∧ v' = .leaf x) ∨ (∃ off, f' = .length P off ∧ v' = .leaf x) ∨ (∃ T, f' = .varlen T ∧ PartOf T v' P x) ∨ ∃ len xs, f' = .array P len ∧ v' = .arr xs ∧ x ∈ xs) ∧
        e ∈ P.ty.drops x := fun h => by
      obtain ⟨i, f', v', P, x, h1, h2, h3, h4⟩ := drops_parts_flds fs vs e h
      exact ⟨i + 1, f', v', P, x, by simpa using h1, by simpa using h2, h3, h4⟩
    match f with
    | .normal P off =>
      cases v <;> simp only [TyFld.sems, TyFld.sem, fieldDrops, List.mem_append, List.not_mem_nil] at h
      rcases h with h | h
      · exact ⟨0, _, _, P, _, rfl, rfl, .inl ⟨off, rfl, rfl⟩, h⟩
      · exact tl h
    | .length P off =>
      cases v <;> simp only [TyFld.sems, TyFld.sem, fieldDrops, List.mem_append, List.not_mem_nil] at h
      rcases h with h | h
      · exact ⟨0, _, _, P, _, rfl, rfl, .inr (.inl ⟨off, rfl, rfl⟩), h⟩
      · exact tl h
    | .varlen T =>
      simp only [TyFld.sems, TyFld.sem, fieldDrops, List.mem_append] at h
      rcases h with h | h
      · obtain ⟨P, x, h1, h2⟩ := drops_parts T v e h
        exact ⟨0, _, _, P, x, rfl, rfl, .inr (.inr (.inl ⟨T, rfl, h1⟩)), h2⟩
      · exact tl h
    | .array P len =>
      cases v <;> simp only [TyFld.sems, TyFld.sem, fieldDrops, List.mem_append, List.not_mem_nil] at h
      rcases h with h | h
      · obtain ⟨x, hx, h⟩ := List.mem_flatMap.1 h
        exact ⟨0, _, _, P, x, rfl, rfl, .inr (.inr (.inr ⟨len, _, rfl, rfl, hx⟩)), h⟩
      · exact tl h
end

/-- Everything in an object that is `Send` (`Sync`) is: the values in it are of types that are, and `vdrop` runs only destructors of such values. -/
theorem C67_contents {has : AutoTrait → Plain → Prop} {tr : AutoTrait} {T : Ty w} (h : Is has tr (.obj T)) :
    (∀ v P x, PartOf T v P x → has tr P) ∧
    (LibType T.sem → ∀ s p v l, Valid T.sem s p v l → ∃ s' es, T.sem.vdrop p l s = .ok () s' ∧ s'.log = s.log ++ es ∧
      ∀ e ∈ es, ∃ P x, PartOf T v P x ∧ has tr P ∧ e ∈ P.ty.drops x) := by
  refine ⟨fun v P x hp => h.mentions hp.mentions, fun hT s p v l hv => ?_⟩
  obtain ⟨s', e1, _, e2, _⟩ := hT.lawful.vdrop_ok s p v l hv
  refine ⟨s', _, e1, e2, fun e he => ?_⟩
  obtain ⟨P, x, h1, h2⟩ := drops_parts T v e he
  exact ⟨P, x, h1, h.mentions h1.mentions, h2⟩

/-! ## Shared access is read-only -/
section
variable {α β : Type}

theorem NoEffect.pure (a : α) : NoEffect (Pure.pure a : M α) := fun s => ⟨fun a' s' e => by cases e; rfl, fun m s' e => by cases e⟩
theorem NoEffect.panic (m : PanicMsg) : NoEffect (panicM m : M α) := fun s => ⟨fun a' s' e => (by cases e), fun m s' e => by cases e; rfl⟩
theorem NoEffect.ub (k : UB) : NoEffect (ubM k : M α) := fun s => ⟨fun a' s' e => (by cases e), fun m s' e => by cases e⟩
theorem NoEffect.bind {x : M α} {f : α → M β} (hx : NoEffect x) (hf : ∀ a, NoEffect (f a)) : NoEffect (x >>= f) := fun s => by
  rw [bind_apply]
  cases e : x s with
  | ok a s1 =>
    obtain rfl := (hx s).1 _ _ e
    exact hf a _
  | panic m s1 =>
    obtain rfl := (hx s).2 _ _ e
    exact ⟨fun a' s' e => (by cases e), fun m s' e => by cases e; rfl⟩
  | ub k => exact ⟨fun a' s' e => (by cases e), fun m s' e => by cases e⟩
theorem NoEffect.ite {c : Prop} [Decidable c] {x y : M α} (hx : NoEffect x) (hy : NoEffect y) : NoEffect (if c then x else y) := by split <;> assumption

theorem NoEffect.checkAlign (p : Ptr) (a : Nat) : NoEffect (Varlen.checkAlign p a) := fun s => by
  unfold Varlen.checkAlign
  split <;> exact ⟨fun a' s' e => (by cases e <;> rfl), fun m s' e => (by cases e)⟩
theorem NoEffect.checkAcc (p : Ptr) (a : Nat) : NoEffect (Varlen.checkAcc p a) := fun s => by
  unfold Varlen.checkAcc
  split <;> exact ⟨fun a' s' e => (by cases e <;> rfl), fun m s' e => (by cases e)⟩
theorem NoEffect.readBytes (p : Ptr) (n : Nat) : NoEffect (Varlen.readBytes p n) := fun s => by
  unfold Varlen.readBytes
  split <;> exact ⟨fun a' s' e => (by cases e <;> rfl), fun m s' e => (by cases e)⟩
theorem NoEffect.mkRef (p : Ptr) (n a : Nat) : NoEffect (Varlen.mkRef p n a) := by
  unfold Varlen.mkRef
  exact .bind (.checkAlign _ _) fun _ => .checkAcc _ _
theorem NoEffect.readVal (R : RTy) (p : Ptr) : NoEffect (Varlen.readVal R p) := by
  unfold Varlen.readVal
  exact .bind (.checkAlign _ _) fun _ => .bind (.readBytes _ _) fun _ => .ite (.pure _) (.ub _)
theorem NoEffect.eval (len : LenFn w) (lens : List Img) : NoEffect (len.eval lens) := .ite (.pure _) (.panic _)
theorem NoEffect.refArray (R : RTy) (p : Ptr) (o n : BitVec w) : NoEffect (Varlen.refArray R p o n) := .bind (.mkRef _ _ _) fun _ => .pure _
theorem NoEffect.derefBox (T : VarLen w) (p : Ptr) : NoEffect (Varlen.derefBox T p) := .bind (.mkRef _ _ _) fun _ => .pure _
theorem NoEffect.refField (T : VarLen w) (p : Ptr) (o : BitVec w) : NoEffect (Varlen.refField T p o) := .bind (.mkRef _ _ _) fun _ => .pure _

theorem NoEffect.readLengths (p : Ptr) (fs : List (Fld w)) : NoEffect (Varlen.readLengths p fs) := by
  induction fs with
  | nil => exact .pure _
  | cons f fs ih =>
    cases f with
    | length R off => exact .bind (.readVal _ _) fun _ => .bind ih fun _ => .pure _
    | normal R off => exact ih
    | varlen T => exact ih
    | array R len => exact ih

theorem NoEffect.catFieldsFast (p : Ptr) (lens : List Img) (fs : List (Fld w)) (h : ∀ T, Fld.varlen T ∈ fs → ∀ p, NoEffect (T.calculateLayout p)) :
    ∀ cur, NoEffect (Varlen.catFieldsFast p lens fs cur) := by
  induction fs with
  | nil => exact fun _ => .pure _
  | cons f fs ih =>
    have ih := ih fun T hT => h T (List.mem_cons_of_mem _ hT)
    intro cur
    cases f with
    | length R off => exact ih _
    | normal R off => exact ih _
    | varlen T =>
      refine .bind (.bind (.mkRef _ _ _) fun _ => .bind (h T (List.mem_cons_self ..) _) fun _ => .pure _) fun r => ?_
      exact .bind (ih _) fun _ => .pure _
    | array R len => exact .bind (.eval _ _) fun _ => .bind (ih _) fun _ => .pure _

theorem NoEffect.aggCalc (hs : Nat) (fs : List (Fld w)) (h : ∀ T, Fld.varlen T ∈ fs → ∀ p, NoEffect (T.calculateLayout p)) (p : Ptr) : NoEffect (Varlen.aggCalc hs fs p) :=
  .bind (.readLengths _ _) fun _ => .bind (.catFieldsFast _ _ _ h _) fun _ => .pure _

theorem NoEffect.refFields (p : Ptr) (fs : List (Fld w)) : ∀ ls, NoEffect (Varlen.refFields p fs ls) := by
  induction fs with
  | nil => exact fun _ => .pure _
  | cons f fs ih =>
    intro ls
    cases f with
    | length R off => exact .bind (.mkRef _ _ _) fun _ => .bind (ih _) fun _ => .pure _
    | normal R off => exact .bind (.mkRef _ _ _) fun _ => .bind (ih _) fun _ => .pure _
    | varlen T =>
      rcases ls with _ | ⟨⟨o, l⟩, ls⟩
      · exact .ub _
      · exact .bind (.refField _ _ _) fun _ => .bind (ih _) fun _ => .pure _
    | array R len =>
      rcases ls with _ | ⟨⟨o, l⟩, ls⟩
      · exact .ub _
      · cases l with
        | len n => exact .bind (.refArray _ _ _ _) fun _ => .bind (ih _) fun _ => .pure _
        | _ => exact .ub _

theorem NoEffect.aggRefs (hs : Nat) (fs : List (Fld w)) (h : ∀ T, Fld.varlen T ∈ fs → ∀ p, NoEffect (T.calculateLayout p)) (p : Ptr) : NoEffect (Varlen.aggRefs hs fs p) :=
  .bind (.aggCalc _ _ h _) fun l => by
    cases l with
    | fields _ ls => exact .refFields _ _ _
    | _ => exact .ub _

mutual
theorem NoEffect.layout : (T : Ty w) → (p : Ptr) → NoEffect (T.sem.calculateLayout p)
  | .fixedLen P, p => .pure _
  | .array P L, p => .bind (.readVal _ _) fun _ => .pure _
  | .str L, p => .bind (.readVal _ _) fun _ => .pure _
  | .newtype T, p => NoEffect.layout T p
  | .tuple Ts, p => .aggCalc _ _ (fun T hT => by
      obtain ⟨T', hT', e⟩ := List.mem_map.1 hT
      cases e
      exact NoEffect.layout_tys Ts T hT') p
  | .struct hs ha fs, p => .aggCalc _ _ (NoEffect.layout_flds fs) p
theorem NoEffect.layout_tys : (Ts : List (Ty w)) → (T : VarLen w) → T ∈ Ty.sems Ts → (p : Ptr) → NoEffect (T.calculateLayout p)
  | [], T, h, p => by simp [Ty.sems] at h
  | T' :: Ts, T, h, p => by
    simp only [Ty.sems, List.mem_cons] at h
    rcases h with rfl | h
    · exact NoEffect.layout T' p
    · exact NoEffect.layout_tys Ts T h p
theorem NoEffect.layout_flds : (fs : List (TyFld w)) → (T : VarLen w) → Fld.varlen T ∈ TyFld.sems fs → (p : Ptr) → NoEffect (T.calculateLayout p)
  | [], T, h, p => by simp [TyFld.sems] at h
  | .normal _ _ :: fs, T, h, p => NoEffect.layout_flds fs T (by simpa [TyFld.sems, TyFld.sem] using h) p
  | .length _ _ :: fs, T, h, p => NoEffect.layout_flds fs T (by simpa [TyFld.sems, TyFld.sem] using h) p
  | .array _ _ :: fs, T, h, p => NoEffect.layout_flds fs T (by simpa [TyFld.sems, TyFld.sem] using h) p
  | .varlen T' :: fs, T, h, p => by
    simp only [TyFld.sems, TyFld.sem, List.mem_cons, Fld.varlen.injEq] at h
    rcases h with rfl | h
    · exact NoEffect.layout T' p
    · exact NoEffect.layout_flds fs T h p
end

theorem NoEffect.next {T : VarLen w} (h : ∀ p, NoEffect (T.calculateLayout p)) (it : IterS w) : NoEffect (Iter.next T it) :=
  .ite (.bind (.derefBox _ _) fun _ => .bind (h _) fun _ => .pure _) (.pure _)

theorem NoEffect.take {T : VarLen w} (h : ∀ p, NoEffect (T.calculateLayout p)) (k : Nat) : ∀ it, NoEffect (Iter.take T k it) := by
  induction k with
  | zero => exact fun _ => .pure _
  | succ k ih =>
    refine fun it => .bind (.next h it) fun r => ?_
    rcases r with ⟨_ | t, it⟩
    · exact .pure _
    · exact .bind (ih _) fun _ => .pure _

theorem NoEffect.readElems (R : RTy) (n : Nat) : ∀ p, NoEffect (Varlen.readElems R p n) := by
  induction n with
  | zero => exact fun _ => .pure _
  | succ n ih => exact fun p => .bind (.readVal _ _) fun _ => .bind (ih _) fun _ => .pure _

theorem NoEffect.arrayDeref (R : RTy) (L : LenTy) (p : Ptr) : NoEffect (Array.deref w R L p) :=
  .bind (.bind (.readVal _ _) fun _ => .pure _) fun l => by
    cases l with
    | array o n sz => exact .refArray _ _ _ _
    | _ => exact .ub _

theorem NoEffect.isOffsetValid (T : VarLen w) (q : SeqS w) (o : BitVec w) : NoEffect (Seq.isOffsetValid T q o) :=
  .ite (.pure _) (.bind (.readVal _ _) fun b => by split <;> first | exact .pure _ | exact .ub _)

/-- No operation on a shared reference writes memory, allocates, frees or runs a destructor, in whatever state the memory is. -/
theorem C67_shared_is_read_only {x : M α} (h : SharedOp (w := w) x) : NoEffect x := by
  induction h with
  | layout T p => exact .layout T p
  | deref T p => exact .derefBox _ _
  | structRefs hs fs p => exact .aggRefs _ _ (NoEffect.layout_flds fs) _
  | tupleRefs Ts p =>
    refine .aggRefs _ _ (fun T hT => ?_) _
    obtain ⟨T', hT', e⟩ := List.mem_map.1 hT
    cases e
    exact NoEffect.layout_tys Ts T hT'
  | arrayDeref P L p => exact .arrayDeref _ _ _
  | strDeref L p =>
    refine .bind (.bind (.mkRef _ _ _) fun _ => .pure _) fun _ => .bind (.arrayDeref _ _ _) fun sl => .bind (.readElems _ _ _) fun xs => ?_
    split
    · exact .pure _
    · exact .ub _
  | lenShort L p => exact .readVal _ _
  | inner T p => exact .bind (.mkRef _ _ _) fun _ => .pure _
  | iterate T k it => exact .take (NoEffect.layout T) k it
  | offsetOf T q p =>
    intro s
    unfold Seq.offsetOf
    simp only
    split
    · exact ⟨fun a s' e => (by cases e), fun m s' e => by cases e; rfl⟩
    · exact ⟨fun a s' e => by cases e; rfl, fun m s' e => by cases e⟩
  | isOffsetValid T q o => exact .isOffsetValid _ _ _
  | fromOffset T q o => exact .bind (.isOffsetValid _ _ _) fun b => by split <;> first | exact .derefBox _ _ | exact .panic _
  | fromOffsetUnchecked T q o => exact .derefBox _ _
  | read P p => exact .readVal _ _
  | readElem P sl i => exact .ite (.readVal _ _) (.panic _)
  | seq _ _ ih1 ih2 => exact .bind ih1 ih2
  | done a => exact .pure a

theorem runAll_readOnly {xs : List (M α)} (h : ∀ x ∈ xs, NoEffect x) {s s' : St} (e : runAll xs s = some s') : s' = s := by
  induction xs generalizing s with
  | nil => cases e; rfl
  | cons x xs ih =>
    have hx := h x (List.mem_cons_self ..) s
    have ih := @ih fun y hy => h y (List.mem_cons_of_mem _ hy)
    unfold runAll at e
    cases e' : x s with
    | ok a s1 => rw [e'] at e; cases hx.1 _ _ e'; exact ih e
    | panic m s1 => rw [e'] at e; cases hx.2 _ _ e'; exact ih e
    | ub k => rw [e'] at e; cases e

theorem Interleaving.mem {γ : Type} {ts : List (List γ)} {xs : List γ} (h : Interleaving ts xs) : ∀ x, x ∈ xs ↔ ∃ t ∈ ts, x ∈ t := by
  induction h with
  | nil h => exact fun x => ⟨fun hx => by simp at hx, fun ⟨t, ht, hx⟩ => by rw [h t ht] at hx; simp at hx⟩
  | step _ ih =>
    intro y
    rw [List.mem_cons, ih]
    constructor
    · rintro (rfl | ⟨t, ht, hy⟩)
      · exact ⟨_, List.mem_append_right _ (List.mem_cons_self ..), List.mem_cons_self ..⟩
      · rcases List.mem_append.1 ht with ht | ht
        · exact ⟨t, List.mem_append_left _ ht, hy⟩
        · rcases List.mem_cons.1 ht with rfl | ht
          · exact ⟨_, List.mem_append_right _ (List.mem_cons_self ..), List.mem_cons_of_mem _ hy⟩
          · exact ⟨t, List.mem_append_right _ (List.mem_cons_of_mem _ ht), hy⟩
    · rintro ⟨t, ht, hy⟩
      rcases List.mem_append.1 ht with ht | ht
      · exact .inr ⟨t, List.mem_append_left _ ht, hy⟩
      · rcases List.mem_cons.1 ht with rfl | ht
        · rcases List.mem_cons.1 hy with rfl | hy
          · exact .inl rfl
          · exact .inr ⟨_, List.mem_append_right _ (List.mem_cons_self ..), hy⟩
        · exact .inr ⟨t, List.mem_append_right _ (List.mem_cons_of_mem _ ht), hy⟩

/-- Any number of threads may share objects: if each only uses shared references, then under every schedule each operation has the result that it has alone, and the memory is unchanged in the end. -/
theorem C67_schedules {ts : List (List (M α))} (h : ∀ t ∈ ts, ∀ x ∈ t, SharedOp (w := w) x) {xs : List (M α)} (hi : Interleaving ts xs) {s : St} :
    (∀ before x after, xs = before ++ x :: after → ∀ s1, runAll before s = some s1 → x s1 = x s) ∧ (∀ s1, runAll xs s = some s1 → s1 = s) ∧
    ((∀ t ∈ ts, ∀ x ∈ t, ∀ k, x s ≠ .ub k) → runAll xs s = some s) := by
  have hr : ∀ x ∈ xs, NoEffect x := fun x hx => by
    obtain ⟨t, ht, hx⟩ := (hi.mem x).1 hx
    exact C67_shared_is_read_only (h t ht x hx)
  refine ⟨fun before x after e s1 h1 => ?_, fun s1 h1 => runAll_readOnly hr h1, fun hd => ?_⟩
  · subst e
    rw [runAll_readOnly (fun y hy => hr y (List.mem_append_left _ hy)) h1]
  · have hd : ∀ x ∈ xs, ∀ k, x s ≠ .ub k := fun x hx => by
      obtain ⟨t, ht, hx⟩ := (hi.mem x).1 hx
      exact hd t ht x hx
    clear hi
    induction xs with
    | nil => rfl
    | cons x xs ih =>
      have ih := ih (fun y hy => hr y (List.mem_cons_of_mem _ hy)) (fun y hy => hd y (List.mem_cons_of_mem _ hy))
      have hx := hr x (List.mem_cons_self ..) s
      unfold runAll
      cases e' : x s with
      | ok a s1 => cases hx.1 _ _ e'; exact ih
      | panic m s1 => cases hx.2 _ _ e'; exact ih
      | ub k => exact absurd e' (hd x (List.mem_cons_self ..) k)
end

namespace Demo

/-- `D4`, say a guard of a lock: it may be shared but not sent. -/
def guardP : Plain := ⟨"Guard", D4⟩
/-- `Cell<u8>`: it may be sent but not shared. -/
def cellP : Plain := ⟨"Cell<u8>", u8Ty⟩
/-- `u8` and the integers are both. -/
def hasD (tr : AutoTrait) (P : Plain) : Prop := (P.name = "Guard" → tr = .sync) ∧ (P.name = "Cell<u8>" → tr = .send)

/-- The demo struct with `D4` = `Guard`; and one with a `Cell<u8>` deep in the tail: `{ #[controls_layout] n: u8, #[varlen] t: (Newtype<Array<Cell<u8>, u16>>, Str) }`. -/
def sT : Ty 64 := .struct 8 4 [.normal guardP 0, .length u8Plain 4, .varlen (.array guardP lenU16), .array u8Plain u8Len, .varlen (.array guardP lenU16)]
def cT : Ty 64 := .struct 1 1 [.length u8Plain 0, .varlen (.tuple [.newtype (.array cellP lenU16), .str lenU8])]

example : sT.sem = S := rfl

theorem sT_mentions {P : Plain} (h : Mentions sT P) : P.name ≠ "Cell<u8>" := by
  cases h with
  | normal h => simp [guardP] at h; rw [h.1]; decide
  | length h => simp at h; rw [h.1]; decide
  | varlen h h' =>
    simp at h; subst h
    cases h' with
    | arrayElem => decide
    | arrayLen => decide +kernel
  | array h => simp at h; rw [h.1]; decide

-- the struct can be shared but not sent; the nested cell makes the other one sendable only
example : Is hasD .sync (.obj sT) ∧ ¬ Is hasD .send (.obj sT) :=
  ⟨(C67_auto_iff ..).2 fun P hP => ⟨fun _ => rfl, fun e => absurd e (sT_mentions hP)⟩,
   fun h => by
    have := ((C67_auto_iff ..).1 h guardP (.normal (off := 0) (by simp))).1 rfl
    cases this⟩

theorem cT_mentions {P : Plain} (h : Mentions cT P) : P.name ≠ "Guard" := by
  cases h with
  | length h => simp at h; rw [h.1]; decide
  | normal h => simp at h
  | array h => simp at h
  | varlen h h' =>
    simp at h; subst h
    cases h' with
    | tuple h h' =>
      simp at h
      rcases h with rfl | rfl
      · cases h' with
        | newtype h' =>
          cases h' with
          | arrayElem => decide
          | arrayLen => decide +kernel
      · cases h' with
        | strByte => decide
        | strLen => decide +kernel

theorem cT_cell : Mentions cT cellP :=
  .varlen (T := .tuple [.newtype (.array cellP lenU16), .str lenU8]) (by simp) (.tuple (List.mem_cons_self ..) (.newtype .arrayElem))

example : Is hasD .send (.obj cT) ∧ ¬ Is hasD .sync (.obj cT) ∧ ¬ Is hasD .send (.ref (.obj cT)) ∧ Is hasD .send (.mutRef (.obj cT)) ∧ ¬ Is hasD .send (VBox.decl cT) := by
  have h := C67_handles hasD cT
  have hs : ∀ P, Mentions cT P → hasD .send P := fun P hP => ⟨fun e => absurd e (cT_mentions hP), fun _ => rfl⟩
  have hn : ¬ ∀ P, Mentions cT P → hasD .sync P := fun h => by
    have := (h _ cT_cell).2 rfl
    cases this
  exact ⟨(C67_auto_iff ..).2 hs, fun h => hn ((C67_auto_iff ..).1 h), fun h' => hn ((h.1.1 _).1 h'), (h.1.2 _).2 hs, h.2.2.2.2 _ (by simp) _⟩

-- the parts of an object
example : PartOf sT (.node sVal) guardP (d4 2) ∧ PartOf sT (.node sVal) u8Plain (encLE 1 11) :=
  ⟨.varlen (i := 2) rfl rfl (.array (by simp)), .arrayField (i := 3) rfl rfl (by simp)⟩
example : ∃ T : Ty 64, LibType T.sem ∧ ∃ s p v l, Valid T.sem s p v l ∧ ∃ tr, Is hasD tr (.obj T) :=
  ⟨sT, S_lib, sSt, p1, .node sVal, sLay, sSt_valid, .sync, (C67_auto_iff ..).2 fun P hP => ⟨fun _ => rfl, fun e => absurd e (sT_mentions hP)⟩⟩

/-- One thread computes the size of the struct twice, another takes `refs()` and computes the layout. -/
def th1 : List (M Unit) := [(do let _ ← S.calculateLayout p1; pure ()), (do let _ ← S.calculateLayout p1; pure ())]
def th2 : List (M Unit) := [(do let _ ← aggRefs 8 sFs p1; pure ()), (do let _ ← S.calculateLayout p1; pure ())]

theorem shared_layout : SharedOp (w := 64) (do let _ ← S.calculateLayout p1; pure () : M Unit) := .seq (.layout sT p1) fun _ => .done ()
theorem shared_refs : SharedOp (w := 64) (do let _ ← aggRefs 8 sFs p1; pure () : M Unit) :=
  .seq (.structRefs 8 [.normal guardP 0, .length u8Plain 4, .varlen (.array guardP lenU16), .array u8Plain u8Len, .varlen (.array guardP lenU16)] p1) fun _ => .done ()

example : (∀ t ∈ [th1, th2], ∀ x ∈ t, SharedOp (w := 64) x) ∧
    Interleaving [th1, th2] [(do let _ ← aggRefs 8 sFs p1; pure ()), (do let _ ← S.calculateLayout p1; pure ()), (do let _ ← S.calculateLayout p1; pure ()),
      (do let _ ← S.calculateLayout p1; pure ())] := by
  constructor
  · intro t ht x hx
    simp at ht
    rcases ht with rfl | rfl <;> simp [th1, th2] at hx
    · subst hx; exact shared_layout
    · rcases hx with rfl | rfl
      · exact shared_refs
      · exact shared_layout
  · refine .step (ts₁ := [th1]) (ts₂ := []) ?_
    refine .step (ts₁ := []) ?_
    refine .step (ts₁ := [_]) (ts₂ := []) ?_
    refine .step (ts₁ := []) (ts₂ := [[]]) ?_
    exact .nil (by simp)

-- none of them is undefined on the struct of `sSt`
example : isOk (aggRefs 8 sFs p1 sSt) = true ∧ isOk (S.calculateLayout p1 sSt) = true := ⟨by decide +kernel, by decide +kernel⟩

/-- The types of lengths are called what they are called in Rust. -/
example : [lenU8, lenU16, ⟨4, 4, false⟩, ⟨8, 8, false⟩, lenUsize].map (·.plain.name) = ["u8", "u16", "u32", "u64", "usize"] := by decide +kernel

end Demo
end Varlen
