import Verif.Spec.Drops
import Verif.Proofs.LibType
namespace Varlen
variable {w : Nat}

theorem flatMap_drops (R : RTy) (xs : List Img) : xs.flatMap R.drops = (xs.map R.dtor).flatten := by
  rw [← List.flatMap_def]; rfl

theorem Destroys.eq {T : VarLen w} {v : V} {es : List Event} (h : Destroys T v es) : T.drops v = es := by
  refine Destroys.rec (motive_1 := fun T v es _ => T.drops v = es) (motive_2 := fun fs vs es _ => fieldDrops fs vs = es) ?_ ?_ ?_ ?_ ?_ ?_ ?_ ?_ ?_ ?_ ?_ ?_ h
  · intro R img; rfl
  · intro R L xs; exact flatMap_drops _ _
  · intro L xs
    show List.flatMap u8Ty.drops _ = []
    simp [RTy.drops, u8Ty]
  · intro T v es _ ih; exact ih
  · intro Ts vs es _ ih; exact ih
  · intro hs ha fs vs es _ ih; exact ih
  · intro T v _; rfl
  · rfl
  · intro R off img fs vs es _ ih; simp only [fieldDrops, ih]; rfl
  · intro R off img fs vs es _ ih; simp only [fieldDrops, ih]; rfl
  · intro T v es' fs vs es _ _ ih1 ih2; simp only [fieldDrops, ih1, ih2]
  · intro R len xs fs vs es _ ih; simp only [fieldDrops, ih, flatMap_drops]

theorem destroysFields_exists {lens : List Img} {o : View} : ∀ (fs : List (Fld w)) vs ls cur fin,
    (∀ T, Fld.varlen T ∈ fs → ∀ v l o, T.Rep v l o → ∃ es, Destroys T v es) → RepHdr fs vs o → RepTails lens fs vs ls cur fin o → ∃ es, DestroysFields fs vs es := by
  intro fs
  induction fs with
  | nil => intro vs ls cur fin _ h _; cases vs with
    | nil => exact ⟨_, .nil⟩
    | cons v vs => exact h.elim
  | cons f fs ih =>
    intro vs ls cur fin hT h1 h2
    have hT' : ∀ T, Fld.varlen T ∈ fs → ∀ v l o, T.Rep v l o → ∃ es, Destroys T v es := fun T hm => hT T (by simp [hm])
    cases vs with
    | nil => cases f <;> exact h1.elim
    | cons v vs =>
    cases f with
    | normal R off =>
      cases v with
      | leaf img =>
        obtain ⟨es, h⟩ := ih vs ls cur fin hT' h1.2 h2
        exact ⟨_, .normal h⟩
      | arr xs => exact h1.elim
      | node xs => exact h1.elim
    | length R off =>
      cases v with
      | leaf img =>
        obtain ⟨es, h⟩ := ih vs ls cur fin hT' h1.2 h2
        exact ⟨_, .length h⟩
      | arr xs => exact h1.elim
      | node xs => exact h1.elim
    | varlen T =>
      rcases ls with _ | ⟨⟨o1, l⟩, ls⟩
      · exact h2.elim
      · obtain ⟨⟨_, hr⟩, h2⟩ := h2
        obtain ⟨es, h⟩ := ih vs ls _ fin hT' h1 h2
        obtain ⟨es', h'⟩ := hT T (by simp) v l _ hr
        exact ⟨_, .varlen h' h⟩
    | array R len =>
      rcases ls with _ | ⟨⟨o1, l⟩, ls⟩
      · cases v <;> exact h2.elim
      · cases v <;> cases l <;> simp only [RepTails] at h2
        obtain ⟨es, h⟩ := ih vs ls _ fin hT' h1 h2.2
        exact ⟨_, .array h⟩

theorem LibType.destroys {T : VarLen w} (h : LibType T) : ∀ v l o, T.Rep v l o → ∃ es, Destroys T v es := by
  induction h with
  | fixedLen hR => rintro v l o ⟨img, rfl, _⟩; exact ⟨_, .fixedLen⟩
  | array hR hL => rintro v l o ⟨off, n, size, xs, rfl, _⟩; exact ⟨_, .array⟩
  | str hw hL => rintro v l o ⟨⟨off, n, size, xs, rfl, _⟩, _⟩; exact ⟨_, .str⟩
  | newtype _ ih => rintro v l o ⟨h, _⟩; obtain ⟨es, h⟩ := ih v l o h; exact ⟨_, .newtype h⟩
  | tuple hne _ ih =>
    rintro v l o ⟨vs, ls, size, rfl, rfl, h1, h2⟩
    obtain ⟨es, h⟩ := destroysFields_exists _ vs ls _ _ (by
      intro T hT
      obtain ⟨T', hT', e⟩ := List.mem_map.1 hT
      cases e
      exact ih T hT') h1 h2
    exact ⟨_, .tuple h⟩
  | struct hh _ ih =>
    rintro v l o ⟨vs, ls, size, rfl, rfl, h1, h2⟩
    obtain ⟨es, h⟩ := destroysFields_exists _ vs ls _ _ ih h1 h2
    exact ⟨_, .struct h⟩
  | user h => intro v l o _; exact ⟨_, .user h⟩

end Varlen
