import Verif.Proofs.StructAccess
namespace Varlen
variable {w : Nat}

/-! ## `try_set_layout_controllers` -/

/-- The types of the layout-controlling fields. -/
def ctlTys : List (Fld w) → List RTy
  | .length R _ :: fs => R :: ctlTys fs
  | _ :: fs => ctlTys fs
  | [] => []

/-- The field values with the layout controllers replaced. -/
def setCtl : List (Fld w) → List V → List Img → List V
  | .length _ _ :: fs, _ :: vs, x :: xs => .leaf x :: setCtl fs vs xs
  | _ :: fs, v :: vs, xs => v :: setCtl fs vs xs
  | _, vs, _ => vs

/-- All length expressions are defined for these controller values. -/
def LensDefd (fs : List (Fld w)) (lens : List Img) : Prop := ∀ R len, Fld.array R len ∈ fs → len.defd lens = true

theorem LensDefd.tail {f : Fld w} {fs : List (Fld w)} {lens : List Img} (h : LensDefd (f :: fs) lens) : LensDefd fs lens := fun R len hm => h R len (by simp [hm])

theorem RepTails.defd {lens : List Img} {o : View} : ∀ (fs : List (Fld w)) vs ls cur fin, RepTails lens fs vs ls cur fin o → LensDefd fs lens := by
  intro fs
  induction fs with
  | nil => intro vs ls cur fin _ R len hm; simp at hm
  | cons f fs ih =>
    intro vs ls cur fin h R len hm
    cases vs with
    | nil => cases f <;> simp [RepTails] at h
    | cons v vs =>
      cases f with
      | normal R' off => exact ih _ _ _ _ h R len (by simpa using hm)
      | length R' off => exact ih _ _ _ _ h R len (by simpa using hm)
      | varlen T =>
        rcases ls with _ | ⟨⟨o1, l⟩, ls⟩
        · simp [RepTails] at h
        · exact ih _ _ _ _ h.2 R len (by simpa using hm)
      | array R' len' =>
        rcases ls with _ | ⟨⟨o1, l⟩, ls⟩
        · simp [RepTails] at h
        · cases v <;> cases l <;> simp only [RepTails] at h
          rcases List.mem_cons.1 hm with e | hm
          · cases e; exact h.1.2.2.2.2
          · exact ih _ _ _ _ h.2 R len hm

/-- Comparing the lengths before and after, when all are defined. -/
theorem sameLens_defd {a b : List Img} : ∀ (fs : List (Fld w)) (s : St), LensDefd fs a → LensDefd fs b →
    sameLens a b fs s = .ok (arrayLens fs a == arrayLens fs b) s := by
  intro fs
  unfold arrayLens
  induction fs with
  | nil => intro s _ _; rfl
  | cons f fs ih =>
    intro s ha hb
    have ih := ih s ha.tail hb.tail
    cases f with
    | array R len =>
      simp only [sameLens, bind_apply, len.eval_ok (ha R len (by simp)), len.eval_ok (hb R len (by simp)), ih, Res.bind_ok, pure_apply, List.filterMap_cons]
      rfl
    | normal => simpa [sameLens] using ih
    | length => simpa [sameLens] using ih
    | varlen => simpa [sameLens] using ih

/-- … and when one of those after is not. -/
theorem sameLens_undef {a b : List Img} : ∀ (fs : List (Fld w)) (s : St), LensDefd fs a → (∃ R len, Fld.array R len ∈ fs ∧ len.defd b = false) →
    sameLens a b fs s = .panic .user s := by
  intro fs
  induction fs with
  | nil => rintro s _ ⟨R, len, hm, _⟩; simp at hm
  | cons f fs ih =>
    rintro s ha ⟨R, len, hm, hd⟩
    have ih := fun hm => ih s ha.tail ⟨R, len, hm, hd⟩
    cases f with
    | array R' len' =>
      simp only [sameLens, bind_apply, len'.eval_ok (ha R' len' (by simp)), Res.bind_ok]
      cases hd' : len'.defd b with
      | false => simp only [len'.eval_panic hd', Res.bind_panic]
      | true =>
        simp only [len'.eval_ok hd', Res.bind_ok, bind_apply]
        rcases List.mem_cons.1 hm with e | hm
        · cases e; rw [hd] at hd'; cases hd'
        · rw [ih hm]; rfl
    | normal => simpa [sameLens] using ih (by simpa using hm)
    | length => simpa [sameLens] using ih (by simpa using hm)
    | varlen => simpa [sameLens] using ih (by simpa using hm)

theorem RepTails.setCtl {lens lens' : List Img} {o o' : View} {hs ha : Nat} : ∀ (fs : List (Fld w)) vs ls cur fin new, (∀ f ∈ fs, f.Ok hs ha) →
    LensDefd fs lens' → arrayLens fs lens = arrayLens fs lens' → (∀ i, cur ≤ i → i < fin → o i = o' i) → RepTails lens fs vs ls cur fin o →
    RepTails lens' fs (setCtl fs vs new) ls cur fin o' := by
  intro fs
  induction fs with
  | nil => intro vs ls cur fin new _ _ _ _ h; cases vs <;> cases ls <;> simp [RepTails] at h ⊢ <;> simp [Varlen.setCtl, RepTails, h]
  | cons f fs ih =>
    intro vs ls cur fin new hok hd hl hc h
    have hok' : ∀ f ∈ fs, f.Ok hs ha := fun g hg => hok g (by simp [hg])
    have hf := hok f (by simp)
    cases vs with
    | nil => cases f <;> simp [RepTails] at h
    | cons v vs =>
      cases f with
      | normal R off => exact ih _ _ _ _ _ hok' hd.tail hl hc h
      | length R off =>
        cases new with
        | nil => exact ih _ _ _ _ _ hok' hd.tail hl hc h
        | cons x xs => exact ih _ _ _ _ _ hok' hd.tail hl hc h
      | varlen T =>
        rcases ls with _ | ⟨⟨o1, l⟩, ls⟩
        · simp [RepTails] at h
        · simp only [RepTails] at h
          simp only [Varlen.setCtl, RepTails]
          have h1 := RepTails.le _ _ _ _ _ hok' h.2
          have h2 := roundUpN_ge cur T.ALIGN.toNat (Lawful.align_pow2 hf).pos
          refine ⟨⟨h.1.1, Lawful.rep_ext hf _ _ _ _ h.1.2 fun i hi => hc _ (by omega) (by omega)⟩,
            ih _ _ _ _ _ hok' hd.tail hl (fun i hi hi' => hc i (by omega) hi') h.2⟩
      | array R len =>
        rcases ls with _ | ⟨⟨o1, l⟩, ls⟩
        · simp [RepTails] at h
        · cases v <;> cases l <;> simp only [RepTails] at h
          simp only [Varlen.setCtl, RepTails]
          have h1 := RepTails.le _ _ _ _ _ hok' h.2
          have h2 := roundUpN_ge cur R.align (RTy.Ok.align_pos hf)
          simp only [arrayLens, List.filterMap_cons, List.cons.injEq] at hl
          refine ⟨⟨h.1.1, h.1.2.1.trans hl.1, ?_, h.1.2.2.2.1, hd R len (by simp)⟩,
            ih _ _ _ _ _ hok' hd.tail hl.2 (fun i hi hi' => hc i (by omega) hi') h.2⟩
          rw [← h.1.2.2.1]
          exact elemsV_congr fun i hi => (hc _ (by omega) (by omega)).symm

/-- Byte `j` is not in a layout-controlling field. -/
def NotCtl (fs : List (Fld w)) (j : Nat) : Prop := ∀ R off, Fld.length R off ∈ fs → ¬ (off ≤ j ∧ j < off + R.size)

theorem setLengths_spec {hs ha : Nat} {p : Ptr} : ∀ (fs : List (Fld w)) vs new s, (∀ f ∈ fs, f.Ok hs ha) →
    (fs.Pairwise fun a b => a.range.2 = 0 ∨ b.range.2 = 0 ∨ a.range.1 + a.range.2 ≤ b.range.1 ∨
      b.range.1 + b.range.2 ≤ a.range.1) →
    Acc s p hs → Aligned s p ha → RepHdr fs vs (viewAt s p) → Rel2 (fun R x => R.valid x = true) (ctlTys fs) new →
    ∃ s', setLengths p fs new s = .ok () s' ∧ Touch s s' p hs noOwn ∧
      (∀ j, NotCtl fs j → viewAt s' p j = viewAt s p j) ∧
      RepHdr fs (setCtl fs vs new) (viewAt s' p) ∧ lengthsOf fs (viewAt s' p) = new ∧
      s'.log = s.log ++ controllerDrops fs (lengthsOf fs (viewAt s p)) ∧ s'.copied = s.copied := by
  intro fs
  induction fs with
  | nil =>
    intro vs new s _ _ _ _ h hn
    cases vs <;> simp [RepHdr] at h
    cases new <;> simp [ctlTys, Rel2] at hn
    exact ⟨s, rfl, Touch.refl _ _ _ _, fun _ _ => rfl, trivial, rfl, by simp [controllerDrops, lengthsOf], rfl⟩
  | cons f fs ih =>
    intro vs new s hok hdj hacc hal hr hn
    have hok' : ∀ f ∈ fs, f.Ok hs ha := fun g hg => hok g (by simp [hg])
    have hf := hok f (by simp)
    obtain ⟨hdj1, hdj2⟩ := List.pairwise_cons.1 hdj
    cases vs with
    | nil => cases f <;> simp [RepHdr] at hr
    | cons v vs =>
      have hnc : ∀ j, NotCtl (f :: fs) j → NotCtl fs j := fun j h R off hm => h R off (by simp [hm])
      cases f with
      | normal R off =>
        cases v <;> simp only [RepHdr] at hr
        obtain ⟨s', e1, e2, e3, e4, e5, e6, e7⟩ := ih vs new s hok' hdj2 hacc hal hr.2 hn
        refine ⟨s', e1, e2, fun j hj => e3 j (hnc j hj), ⟨⟨?_, hr.1.2⟩, e4⟩, e5, e6, e7⟩
        rw [← hr.1.1]
        apply takeV_congr
        intro i hi
        apply e3
        intro R' off' hm hcon
        have := hdj1 _ hm
        simp only [Fld.range] at this
        omega
      | length R off =>
        cases v <;> simp only [RepHdr] at hr
        rename_i img
        cases new with
        | nil => simp [ctlTys, Rel2] at hn
        | cons x xs =>
          have hR : R.Ok w := hf.1
          have hxv : R.valid x = true := hn.1
          have hxl := hR.valid_len _ hxv
          have hoff : off + R.size ≤ hs := hf.2.1
          have hal' : Aligned s (p.add off) R.align := (hal.of_dvd hf.2.2.2).add hf.2.2.1
          have hv : takeV (viewAt s (p.add off)) 0 R.size = img := by rw [viewAt_add, takeV_shift]; exact hr.1.1
          obtain ⟨s1, d1, d2, d3, d4⟩ := dropInPlace_ok (R := R) (hacc.sub (o := off) (by omega)) hal' (by rw [hv]; exact hr.1.2)
          rw [hv] at d3
          have hacc1 : Acc s1 (p.add off) x.length := d2.acc (fun h => h) (hacc.sub (by omega))
          have hal1 : Aligned s1 (p.add off) R.align := d2.aligned (fun h => h) hal'
          have d5 := writeVal_ok (R := R) hacc1 hal1
          generalize hs2 : s1.write (p.add off) x = s2 at d5
          have tw : Touch s1 s2 (p.add off) R.size noOwn := by
            have := Touch.write (s := s1) (p := p.add off) (img := x) (own := noOwn)
            rw [hxl, hs2] at this; exact this
          have t2 : Touch s s2 (p.add off) R.size noOwn := d2.trans tw
          have hview : ∀ i, ¬ (off ≤ i ∧ i < off + R.size) → viewAt s2 p i = viewAt s p i := fun i hi =>
            t2.view (q := p) (fun h => h) i (by simp; omega)
          have hnew : takeV (viewAt s2 p) off R.size = x := by
            have := takeV_viewAt_write hacc1
            rw [hs2, hxl, viewAt_add, takeV_shift] at this
            exact this
          have hag : ∀ g ∈ fs, ∀ i, i < g.range.2 → viewAt s p (g.range.1 + i) = viewAt s2 p (g.range.1 + i) := by
            intro g hg i hi
            have := hdj1 g hg
            simp only [Fld.range] at this hi ⊢
            exact (hview _ (by omega)).symm
          obtain ⟨s3, e1, e2, e3, e4, e5, e6, e7⟩ := ih vs xs s2 hok' hdj2 (t2.acc (fun h => h) hacc) (t2.aligned (fun h => h) hal)
            (RepHdr.congr _ _ hag hr.2) hn.2
          have hx3 : takeV (viewAt s3 p) off R.size = x := by
            rw [← hnew]
            apply takeV_congr
            intro i hi
            apply e3
            intro R' off' hm hcon
            have := hdj1 _ hm
            simp only [Fld.range] at this
            omega
          refine ⟨s3, ?_, (t2.sub (by omega)).trans e2, ?_, ⟨⟨hx3, hxv⟩, e4⟩, ?_, ?_, ?_⟩
          · simp only [setLengths, bind_apply, d1, Res.bind_ok, d5, e1]
          · intro j hj
            rw [e3 j (hnc j hj)]
            exact hview j (hj R off (by simp))
          · simp only [lengthsOf, List.filterMap_cons] at e5 ⊢
            rw [e5, hx3]
          · have hl : lengthsOf (Fld.length R off :: fs) (viewAt s p) = img :: lengthsOf fs (viewAt s p) := by
              simp only [lengthsOf, List.filterMap_cons, hr.1.1]
            rw [e6, ← hs2, St.write_log, d3, hl, hs2, ← lengthsOf_congr fs hag, controllerDrops, List.append_assoc]
          · rw [e7, ← hs2, St.write_copied, d4]
      | varlen T =>
        obtain ⟨s', e1, e2, e3, e4, e5, e6, e7⟩ := ih vs new s hok' hdj2 hacc hal hr hn
        exact ⟨s', e1, e2, fun j hj => e3 j (hnc j hj), e4, e5, e6, e7⟩
      | array R len =>
        obtain ⟨s', e1, e2, e3, e4, e5, e6, e7⟩ := ih vs new s hok' hdj2 hacc hal hr hn
        exact ⟨s', e1, e2, fun j hj => e3 j (hnc j hj), e4, e5, e6, e7⟩

/-- `try_set_layout_controllers` on a valid struct. -/
theorem trySet_spec {hs ha : Nat} {fs : List (Fld w)} (hok : StructOk hs ha fs) {s : St} {p : Ptr} {vs : List V} {l : Layout w}
    (h : Valid (Struct w hs ha fs) s p (.node vs) l) {new : List Img} (hn : Rel2 (fun R x => R.valid x = true) (ctlTys fs) new) :
    (LensDefd fs new → arrayLens fs (lengthsOf fs (viewAt s p)) = arrayLens fs new →
      ∃ s', trySetLayoutControllers fs p new s = .ok true s' ∧ Valid (Struct w hs ha fs) s' p (.node (setCtl fs vs new)) l ∧
        Touch s s' p l.size.toNat noOwn ∧ lengthsOf fs (viewAt s' p) = new ∧
        (∀ j, NotCtl fs j → viewAt s' p j = viewAt s p j) ∧
        s'.log = s.log ++ controllerDrops fs (lengthsOf fs (viewAt s p)) ∧ s'.copied = s.copied) ∧
    (LensDefd fs new → arrayLens fs (lengthsOf fs (viewAt s p)) ≠ arrayLens fs new →
      trySetLayoutControllers fs p new s = .ok false { s with log := s.log ++ controllerDrops fs new }) ∧
    ((∃ R len, Fld.array R len ∈ fs ∧ len.defd new = false) →
      trySetLayoutControllers fs p new s = .panic .user { s with log := s.log ++ controllerDrops fs new }) := by
  obtain ⟨hacc, hal, vs', ls, size, hv, rfl, hr, ht⟩ := h
  cases hv
  obtain ⟨h1, h2, h3⟩ := Struct.aligns hok
  have hle := RepTails.le _ _ _ _ _ hok.flds ht
  have hrd := readLengths_spec (hacc.mono hle) (hal.of_dvd h2) fs vs hok.flds hr
  have hdef := RepTails.defd _ _ _ _ _ ht
  refine ⟨?_, ?_, ?_⟩
  · intro hd heq
    obtain ⟨s', e1, e2, e3, e4, e5, e6, e7⟩ := setLengths_spec fs vs new s hok.flds hok.disjoint (hacc.mono hle) (hal.of_dvd h2) hr hn
    refine ⟨s', ?_, ⟨e2.acc (fun h => h) hacc, e2.aligned (fun h => h) hal, ?_⟩, e2.prefix hle, e5, e3, e6, e7⟩
    · simp only [trySetLayoutControllers, bind_apply, hrd, Res.bind_ok]
      rw [onUnwind_ok (sameLens_defd fs s hdef hd), beq_iff_eq.2 heq]
      simp only [Res.bind_ok, if_true, bind_apply, e1, pure_apply]
    · refine ⟨_, ls, size, rfl, rfl, e4, ?_⟩
      rw [e5]
      refine RepTails.setCtl fs vs ls hs _ new hok.flds hd heq (fun i hi _ => (e3 i ?_).symm) ht
      intro R off hm hcon
      have := (hok.flds _ hm).2.1
      omega
  · intro hd hne
    simp only [trySetLayoutControllers, bind_apply, hrd, Res.bind_ok]
    rw [onUnwind_ok (sameLens_defd fs s hdef hd), beq_eq_false_iff_ne.2 hne]
    rfl
  · intro hu
    simp only [trySetLayoutControllers, bind_apply, hrd, Res.bind_ok]
    rw [onUnwind_panic (sameLens_undef fs s hdef hu) (emit_apply _ s)]
    rfl

end Varlen
