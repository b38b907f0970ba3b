import Verif.Spec.Layout
import Verif.Proofs.LibType
/-! # Layout lemmas against the declarative specification -/
namespace Varlen
variable {w : Nat}

theorem nextAligned_iff {n a o : Nat} (ha : 0 < a) : NextAligned n a o ↔ o = roundUpN n a := by
  constructor
  · rintro ⟨h1, h2, h3⟩
    exact Nat.le_antisymm (h3 _ (roundUpN_dvd n a) (roundUpN_ge n a ha)) (roundUpN_least ha h1 h2)
  · rintro rfl
    exact ⟨roundUpN_dvd n a, roundUpN_ge n a ha, fun m h1 h2 => roundUpN_least ha h1 h2⟩

theorem LayOk.packed {hs ha : Nat} {lens : List Img} : ∀ {fs : List (Fld w)} {ls cur fin}, (∀ f ∈ fs, f.Ok hs ha) →
    LayOk lens fs ls cur fin → PackedFrom cur (tailFields fs ls) fin ∧ (tailFields fs ls).length = (fs.filter Fld.isTail).length := by
  intro fs
  induction fs with
  | nil => intro ls cur fin _ h; cases ls <;> simp [LayOk, tailFields] at h ⊢; subst h; exact .nil _
  | cons f fs ih =>
    intro ls cur fin hok h
    have hok' : ∀ f ∈ fs, f.Ok hs ha := fun g hg => hok g (by simp [hg])
    have hf := hok f (by simp)
    cases f with
    | normal R off => obtain ⟨h1, h2⟩ := ih hok' h; exact ⟨h1, by simpa [Fld.isTail, tailFields] using h2⟩
    | length R off => obtain ⟨h1, h2⟩ := ih hok' h; exact ⟨h1, by simpa [Fld.isTail, tailFields] using h2⟩
    | varlen T =>
      rcases ls with _ | ⟨⟨o1, l⟩, ls⟩
      · exact h.elim
      · obtain ⟨h1, h2⟩ := ih hok' h.2
        exact ⟨.cons ((nextAligned_iff (Lawful.align_pow2 hf).pos).2 h.1) h1, by rw [List.filter_cons_of_pos rfl]; simp [tailFields, h2]⟩
    | array R len =>
      rcases ls with _ | ⟨⟨o1, l⟩, ls⟩
      · exact h.elim
      · cases l with
        | len n =>
          obtain ⟨h1, h2⟩ := ih hok' h.2
          exact ⟨.cons ((nextAligned_iff (RTy.Ok.align_pos hf)).2 h.1.1) h1, by rw [List.filter_cons_of_pos rfl]; simp [tailFields, h2]⟩
        | fixed => exact h.elim
        | array => exact h.elim
        | fields => exact h.elim

/-- What packing implies. -/
theorem PackedFrom.props : ∀ {fs : List TailField} {cur fin}, PackedFrom cur fs fin →
    cur ≤ fin ∧ (∀ f ∈ fs, cur ≤ f.off ∧ f.off + f.size ≤ fin ∧ f.align ∣ f.off) ∧ fs.Pairwise (fun a b => a.off + a.size ≤ b.off) := by
  intro fs cur fin h
  induction h with
  | nil c => exact ⟨Nat.le_refl _, by simp, .nil⟩
  | cons hn _ ih =>
    obtain ⟨h1, h2, h3⟩ := ih
    refine ⟨by have := hn.2.1; omega, ?_, .cons (fun b hb => (h2 b hb).1) h3⟩
    intro f hf
    rcases List.mem_cons.1 hf with rfl | hf
    · exact ⟨hn.2.1, h1, hn.1⟩
    · obtain ⟨h4, h5⟩ := h2 f hf
      have := hn.2.1
      exact ⟨by omega, h5⟩

/-- Packing is deterministic. -/
theorem PackedFrom.unique : ∀ {fs gs : List TailField} {cur fin fin'}, PackedFrom cur fs fin → PackedFrom cur gs fin' →
    fs.map (fun f => (f.align, f.size)) = gs.map (fun f => (f.align, f.size)) → fs = gs ∧ fin = fin' := by
  intro fs gs cur fin fin' h
  induction h generalizing gs with
  | nil c => intro h2 he; cases h2 with
    | nil => exact ⟨rfl, rfl⟩
    | cons _ _ => simp at he
  | @cons cur fin f fs hn hp ih =>
    intro h2 he
    cases h2 with
    | nil => simp at he
    | @cons _ _ g gs hn' hp' =>
      simp only [List.map_cons, List.cons.injEq, Prod.mk.injEq] at he
      obtain ⟨⟨ha, hs⟩, he⟩ := he
      have : f.off = g.off := by
        have h1 := hn.2.2 g.off (ha ▸ hn'.1) hn'.2.1
        have h2 := hn'.2.2 f.off (ha ▸ hn.1) hn.2.1
        omega
      have hfg : f = g := by cases f; cases g; simp_all
      subst hfg
      obtain ⟨rfl, rfl⟩ := ih hp' he
      exact ⟨rfl, rfl⟩

theorem tailFields_align {headSize headAlign : Nat} {fs : List (Fld w)} : ∀ {ls : List (BitVec w × Layout w)} {f : TailField},
    (∀ f ∈ fs, f.Ok headSize headAlign) → f ∈ tailFields fs ls → ∃ a ∈ tailAligns fs, a.toNat = f.align := by
  induction fs with
  | nil => intro ls f _ hf; cases ls <;> simp [tailFields] at hf
  | cons g fs ih =>
    intro ls f hflds hf
    have hg : ∀ f ∈ fs, f.Ok headSize headAlign := fun x hx => hflds x (by simp [hx])
    have hok := hflds g (by simp)
    cases g with
    | normal R off => exact ih hg hf
    | length R off => exact ih hg hf
    | varlen T =>
      rcases ls with _ | ⟨⟨o, l⟩, ls⟩
      · simp [tailFields] at hf
      · rcases List.mem_cons.1 hf with rfl | hf
        · exact ⟨T.ALIGN, by simp [tailAligns], rfl⟩
        · obtain ⟨a, h, e⟩ := ih hg hf
          exact ⟨a, by simp [tailAligns, h], e⟩
    | array R len =>
      rcases ls with _ | ⟨⟨o, l⟩, ls⟩
      · simp [tailFields] at hf
      · cases l with
        | len n =>
          rcases List.mem_cons.1 hf with rfl | hf
          · exact ⟨R.alignOf w, by simp [tailAligns], RTy.Ok.alignOf_toNat hok⟩
          · obtain ⟨a, h, e⟩ := ih hg hf
            exact ⟨a, by simp [tailAligns, h], e⟩
        | fixed => simp [tailFields] at hf
        | array => simp [tailFields] at hf
        | fields => simp [tailFields] at hf

theorem tailFields_align_tuple {Ts : List (VarLen w)} : ∀ {ls : List (BitVec w × Layout w)} {f : TailField},
    f ∈ tailFields (Ts.map .varlen) ls → ∃ T ∈ Ts, T.ALIGN.toNat = f.align := by
  induction Ts with
  | nil => intro ls f hf; cases ls <;> simp [tailFields] at hf
  | cons T Ts ih =>
    intro ls f hf
    rcases ls with _ | ⟨⟨o, l⟩, ls⟩
    · simp [tailFields] at hf
    · rcases List.mem_cons.1 hf with rfl | hf
      · exact ⟨T, by simp, rfl⟩
      · obtain ⟨T', h, e⟩ := ih hf
        exact ⟨T', by simp [h], e⟩

theorem requested_pos {hs ha : Nat} {lens : List Img} : ∀ (fis : List (FI w)) r, (∀ f ∈ fis, f.fld.Ok hs ha) →
    requested lens fis = some r → ∀ y ∈ r, 0 < y.1 := by
  intro fis
  induction fis with
  | nil => intro r _ h; cases h; simp
  | cons f fis ih =>
    intro r hok h
    have hok' : ∀ f ∈ fis, f.fld.Ok hs ha := fun g hg => hok g (by simp [hg])
    have hf := hok f (by simp)
    cases f with
    | normal => exact ih r hok' h
    | length => exact ih r hok' h
    | varlen T I =>
      simp only [requested, Option.bind_eq_bind] at h
      cases h1 : I.lay with
      | none => simp [h1] at h
      | some l =>
        cases h2 : requested lens fis with
        | none => simp [h1, h2] at h
        | some r2 =>
          simp only [h1, h2, Option.bind_some, Option.some.injEq] at h
          subst h
          intro y hy
          rcases List.mem_cons.1 hy with rfl | hy
          · exact (Lawful.align_pow2 hf).pos
          · exact ih r2 hok' h2 y hy
    | array R len I =>
      simp only [requested, Option.bind_eq_bind] at h
      cases h2 : requested lens fis with
      | none => simp [h2] at h
      | some r2 =>
        simp only [h2, Option.bind_some] at h
        cases hd : len.defd lens with
        | false => rw [hd] at h; cases h
        | true =>
        rw [hd, if_pos rfl, Option.some.injEq] at h
        subst h
        intro y hy
        rcases List.mem_cons.1 hy with rfl | hy
        · exact RTy.Ok.align_pos (w := w) hf
        · exact ih r2 hok' h2 y hy

/-- An exact packing always exists. -/
theorem packed_exists : ∀ (r : List (Nat × Nat)) (cur : Nat), (∀ y ∈ r, 0 < y.1) →
    ∃ fs fin, PackedFrom cur fs fin ∧ fs.map (fun f => (f.align, f.size)) = r
  | [], cur, _ => ⟨[], cur, .nil _, rfl⟩
  | y :: r, cur, h => by
    obtain ⟨fs, fin, h1, h2⟩ := packed_exists r (roundUpN cur y.1 + y.2) fun z hz => h z (by simp [hz])
    exact ⟨⟨roundUpN cur y.1, y.1, y.2⟩ :: fs, fin, .cons ((nextAligned_iff (h y (by simp))).2 rfl) h1, by simp [h2]⟩

/-- The checked layout computation against the exact one. -/
theorem layFields_exact {hs ha : Nat} {lens : List Img} : ∀ (fis : List (FI w)) (cur : BitVec w) r, (∀ f ∈ fis, f.fld.Ok hs ha) →
    requested lens fis = some r → ∃ fs fin, PackedFrom cur.toNat fs fin ∧ fs.map (fun f => (f.align, f.size)) = r ∧
      match layFields lens fis cur with
      | none => 2 ^ w ≤ fin
      | some (ls, size) => size.toNat = fin ∧ tailFields (fis.map FI.fld) ls = fs := by
  intro fis
  induction fis with
  | nil =>
    intro cur r _ h
    cases h
    exact ⟨[], cur.toNat, .nil _, rfl, rfl, by simp [tailFields]⟩
  | cons f fis ih =>
    intro cur r hok h
    have hok' : ∀ f ∈ fis, f.fld.Ok hs ha := fun g hg => hok g (by simp [hg])
    have hf := hok f (by simp)
    cases f with
    | normal R off img =>
      obtain ⟨fs, fin, h1, h2, h3⟩ := ih cur r hok' h
      exact ⟨fs, fin, h1, h2, by simpa [layFields, tailFields, FI.fld] using h3⟩
    | length R off img =>
      obtain ⟨fs, fin, h1, h2, h3⟩ := ih cur r hok' h
      exact ⟨fs, fin, h1, h2, by simpa [layFields, tailFields, FI.fld] using h3⟩
    | varlen T I =>
      have hp : IsPow2 T.ALIGN := Lawful.align_pow2 hf
      simp only [requested, Option.bind_eq_bind] at h
      cases hl : I.lay with
      | none => simp [hl] at h
      | some l =>
        cases hr : requested lens fis with
        | none => simp [hl, hr] at h
        | some r' =>
          simp only [hl, hr, Option.bind_some, Option.some.injEq] at h
          subst h
          have hover : 2 ^ w ≤ roundUpN cur.toNat T.ALIGN.toNat + l.size.toNat →
              layFields lens (.varlen T I :: fis) cur = none → ∃ fs fin, PackedFrom cur.toNat fs fin ∧
              fs.map (fun f => (f.align, f.size)) = (T.ALIGN.toNat, l.size.toNat) :: r' ∧
              match layFields lens (.varlen T I :: fis) cur with
              | none => 2 ^ w ≤ fin
              | some (ls, size) => size.toNat = fin ∧ tailFields ((FI.varlen T I :: fis).map FI.fld) ls = fs := by
            intro hge hnone
            obtain ⟨fs, fin, h1, h2⟩ := packed_exists r' (roundUpN cur.toNat T.ALIGN.toNat + l.size.toNat) (requested_pos fis r' hok' hr)
            refine ⟨⟨_, T.ALIGN.toNat, l.size.toNat⟩ :: fs, fin, .cons ((nextAligned_iff hp.pos).2 rfl) h1, by simp [h2], ?_⟩
            rw [hnone]
            exact Nat.le_trans hge h1.props.1
          cases h1 : checkedAdd cur (T.ALIGN - 1) with
          | none =>
            refine hover ?_ (by simp only [layFields, h1])
            rw [checkedAdd_eq_none, hp.sub_one] at h1
            have := (roundUpN_lt_two_pow (n := cur.toNat) hp)
            omega
          | some o =>
            have ho : (maskDown o T.ALIGN).toNat = roundUpN cur.toNat T.ALIGN.toNat := by
              rw [checkedAdd_eq_some, hp.sub_one] at h1
              rw [maskDown_toNat hp, h1]
              rfl
            cases h2 : checkedAdd (maskDown o T.ALIGN) l.size with
            | none =>
              refine hover ?_ (by simp only [layFields, h1, hl, h2])
              rw [checkedAdd_eq_none, ho] at h2
              exact h2
            | some cur' =>
              have hc := checkedAdd_eq_some.1 h2
              obtain ⟨fs, fin, h3, h4, h5⟩ := ih cur' r' hok' hr
              rw [hc] at h3
              refine ⟨⟨(maskDown o T.ALIGN).toNat, T.ALIGN.toNat, l.size.toNat⟩ :: fs, fin, .cons ((nextAligned_iff hp.pos).2 ho) h3, by simp [h4], ?_⟩
              cases h6 : layFields lens fis cur' with
              | none =>
                simp only [h6] at h5
                simp only [layFields, h1, hl, h2, h6]
                exact h5
              | some x =>
                obtain ⟨ls, size⟩ := x
                simp only [h6] at h5
                simp only [layFields, h1, hl, h2, h6]
                exact ⟨h5.1, by simp [tailFields, FI.fld, ← h5.2]⟩
    | array R len I =>
      have hR : R.Ok w := hf
      simp only [requested, Option.bind_eq_bind] at h
      cases hr : requested lens fis with
      | none => simp [hr] at h
      | some r' =>
        simp only [hr, Option.bind_some] at h
        cases hd : len.defd lens with
        | false => rw [hd] at h; cases h
        | true =>
        rw [hd, if_pos rfl, Option.some.injEq] at h
        subst h
        cases h1 : catArrayFieldCautious R (len lens) cur with
        | none =>
          obtain ⟨fs, fin, h3, h4⟩ := packed_exists r' (roundUpN cur.toNat R.align + (len lens).toNat * R.size) (requested_pos fis r' hok' hr)
          refine ⟨⟨_, R.align, (len lens).toNat * R.size⟩ :: fs, fin, .cons ((nextAligned_iff hR.align_pos).2 rfl) h3, by simp [h4], ?_⟩
          simp only [layFields, h1, hd, if_true]
          exact Nat.le_trans ((catArrayFieldCautious_eq_none hR).1 h1) h3.props.1
        | some x =>
          obtain ⟨o, n, cur'⟩ := x
          obtain ⟨rfl, ho, hc⟩ := (catArrayFieldCautious_eq_some hR).1 h1
          obtain ⟨fs, fin, h3, h4, h5⟩ := ih cur' r' hok' hr
          rw [hc] at h3
          refine ⟨⟨o.toNat, R.align, (len lens).toNat * R.size⟩ :: fs, fin, .cons ((nextAligned_iff hR.align_pos).2 ho) h3, by simp [h4], ?_⟩
          cases h6 : layFields lens fis cur' with
          | none => simpa [layFields, h1, h6, hd] using h5
          | some x =>
            obtain ⟨ls, size⟩ := x
            simp only [h6] at h5
            simp only [layFields, h1, h6, hd, if_true]
            exact ⟨h5.1, by simp [tailFields, FI.fld, ← h5.2]⟩

theorem layFields_none_of_requested {lens : List Img} : ∀ (fis : List (FI w)) (cur : BitVec w), requested lens fis = none →
    layFields lens fis cur = none := by
  intro fis
  induction fis with
  | nil => intro cur h; simp [requested] at h
  | cons f fis ih =>
    intro cur h
    cases f with
    | normal R off img => exact ih cur h
    | length R off img => exact ih cur h
    | varlen T I =>
      simp only [requested, Option.bind_eq_bind] at h
      simp only [layFields]
      cases h1 : checkedAdd cur (T.ALIGN - 1) with
      | none => rfl
      | some o =>
        cases hl : I.lay with
        | none => rfl
        | some l =>
          cases hr : requested lens fis with
          | some r => simp [hl, hr] at h
          | none =>
            cases h2 : checkedAdd (maskDown o T.ALIGN) l.size with
            | none => simp only [h2]
            | some cur' => simp only [h2, ih cur' hr]
    | array R len I =>
      simp only [requested, Option.bind_eq_bind] at h
      simp only [layFields]
      cases hd : len.defd lens with
      | false => rfl
      | true =>
      simp only [hd, if_true] at h ⊢
      cases h1 : catArrayFieldCautious R (len lens) cur with
      | none => rfl
      | some x =>
        cases hr : requested lens fis with
        | some r => simp [hr] at h
        | none => simp [ih x.2.2 hr]

theorem requested_good {lens : List Img} {hs ha : Nat} : ∀ (fis : List (FI w)) (cur : BitVec w) r, (∀ f ∈ fis, f.Ok hs ha) → requested lens fis = some r →
    badFields lens fis cur = false := by
  intro fis
  induction fis with
  | nil => intro cur r _ _; rfl
  | cons f fis ih =>
    intro cur r hok h
    have hok' : ∀ g ∈ fis, g.Ok hs ha := fun g hg => hok g (by simp [hg])
    have hf := hok f (by simp)
    cases f with
    | normal R off img => exact ih cur r hok' h
    | length R off img => exact ih cur r hok' h
    | varlen T I =>
      simp only [requested, Option.bind_eq_bind] at h
      simp only [badFields]
      cases h1 : checkedAdd cur (T.ALIGN - 1) with
      | none => rfl
      | some o =>
        cases hl : I.lay with
        | none => simp [hl] at h
        | some l =>
          simp only [InitLawful.good hf.2 hl, Bool.false_eq_true, if_false]
          cases hr : requested lens fis with
          | none => simp [hl, hr] at h
          | some r' =>
            cases h2 : checkedAdd (maskDown o T.ALIGN) l.size with
            | none => rfl
            | some cur' => exact ih cur' r' hok' hr
    | array R len I =>
      simp only [requested, Option.bind_eq_bind] at h
      simp only [badFields]
      cases hr : requested lens fis with
      | none => simp [hr] at h
      | some r' =>
        simp only [hr, Option.bind_some] at h
        cases hd : len.defd lens with
        | false => rw [hd] at h; cases h
        | true =>
          simp only [if_true]
          cases h1 : catArrayFieldCautious R (len lens) cur with
          | none => rfl
          | some x => exact ih x.2.2 r' hok' hr

theorem calm_good {lens : List Img} {hs ha : Nat} : ∀ (fis : List (FI w)) (cur : BitVec w) (s : St), (∀ f ∈ fis, f.Ok hs ha) → (∀ f ∈ fis, f.pre s) → Calm lens fis →
    badFields lens fis cur = false := by
  intro fis
  induction fis with
  | nil => intro cur s _ _ _; rfl
  | cons f fis ih =>
    intro cur s hok hp h
    have ih := fun cur => ih cur s (fun g hg => hok g (by simp [hg])) (fun g hg => hp g (by simp [hg])) fun g hg => h g (by simp [hg])
    have hf := hok f (by simp)
    have hpf := hp f (by simp)
    have hc := h f (by simp)
    cases f with
    | normal R off img => exact ih cur
    | length R off img => exact ih cur
    | varlen T I =>
      have hb : I.bad = false := by
        cases hb : I.bad with
        | false => rfl
        | true =>
          obtain ⟨l, e⟩ := hc s hpf
          rw [InitLawful.calc_panic hf.2 s hpf hb] at e
          cases e
      simp only [badFields]
      cases h1 : checkedAdd cur (T.ALIGN - 1) with
      | none => rfl
      | some o =>
        simp only [hb, Bool.false_eq_true, if_false]
        cases hl : I.lay with
        | none => rfl
        | some l =>
          simp only
          cases h2 : checkedAdd (maskDown o T.ALIGN) l.size with
          | none => rfl
          | some cur' => exact ih cur'
    | array R len I =>
      simp only at hc
      simp only [badFields, hc, if_true]
      cases h1 : catArrayFieldCautious R (len lens) cur with
      | none => rfl
      | some x => exact ih x.2.2

end Varlen
