import Verif.Proofs.DropPanic
import Verif.Proofs.StructSet
namespace Varlen.DP
variable {w : Nat}

theorem setCtl_same {o : View} : ∀ (fs : List (Varlen.Fld w)) vs, RepHdr fs vs o → setCtl fs vs (lengthsOf fs o) = vs := by
  intro fs
  induction fs with
  | nil => intro vs _; cases vs <;> rfl
  | cons f fs ih =>
    intro vs hr
    cases vs with
    | nil => cases f <;> simp [RepHdr] at hr
    | cons v vs =>
      unfold lengthsOf at ih ⊢
      cases f with
      | normal R off => cases v <;> simp only [RepHdr] at hr; simp [setCtl, ih vs hr.2]
      | length R off => cases v <;> simp only [RepHdr] at hr; simp [setCtl, hr.1.1, ih vs hr.2]
      | varlen T => simp only [RepHdr] at hr; simp [setCtl, ih vs hr]
      | array R len => simp only [RepHdr] at hr; simp [setCtl, ih vs hr]

theorem dropControllersRest_spec (boom : Boom) : ∀ (fs : List (Varlen.Fld w)) xs s, xs.length = (ctlTys fs).length →
    dropControllersRest boom fs xs s = match (group boom true ((ctlTys fs).zip xs)).2 with
      | .aborted => .panic .abort (s.logged (group boom true ((ctlTys fs).zip xs)).1)
      | _ => .ok () (s.logged (group boom true ((ctlTys fs).zip xs)).1) := by
  intro fs
  induction fs with
  | nil =>
    intro xs s _
    show Res.ok () s = _
    cases xs <;> simp [ctlTys, group, St.logged]
  | cons f fs ih =>
    intro xs s hl
    cases f with
    | normal R off => exact ih xs s hl
    | varlen T => exact ih xs s hl
    | array R len => exact ih xs s hl
    | length R off =>
      cases xs with
      | nil => simp [ctlTys] at hl
      | cons x xs =>
        simp only [ctlTys, List.length_cons, Nat.add_right_cancel_iff] at hl
        simp only [dropControllersRest, ctlTys, List.zip_cons_cons, bind_apply, unwinding, dropLocal, emit_apply, Res.bind_ok]
        cases hd : R.needsDrop
        · simp only [Bool.false_and, Bool.false_eq_true, if_false, pure_apply, Res.bind_ok, ih xs _ hl, group, hd, RTy.drops]
          simp [St.logged]
        · cases hb : boom R x
          · simp only [Bool.and_false, Bool.false_eq_true, if_false, pure_apply, Res.bind_ok, ih xs _ hl, group, hd, hb, if_true, RTy.drops]
            simp [St.logged]
          · simp [group, hd, hb, RTy.drops, panicM]

theorem setLengths_spec (boom : Boom) {hs ha : Nat} {p : Ptr} : ∀ (fs : List (Varlen.Fld w)) vs new s, (∀ f ∈ fs, f.Ok hs ha) →
    (fs.Pairwise fun a b => a.range.2 = 0 ∨ b.range.2 = 0 ∨ a.range.1 + a.range.2 ≤ b.range.1 ∨
      b.range.1 + b.range.2 ≤ a.range.1) →
    Acc s p hs → Aligned s p ha → RepHdr fs vs (viewAt s p) → Rel2 (fun R x => R.valid x = true) (ctlTys fs) new →
    ∃ s', setLengths boom p fs new s = (assign boom (ctlTys fs) (lengthsOf fs (viewAt s p)) new).2.1.res s' ∧ Touch s s' p hs noOwn ∧
      (∀ j, NotCtl fs j → viewAt s' p j = viewAt s p j) ∧
      RepHdr fs (setCtl fs vs (assign boom (ctlTys fs) (lengthsOf fs (viewAt s p)) new).2.2) (viewAt s' p) ∧
      lengthsOf fs (viewAt s' p) = (assign boom (ctlTys fs) (lengthsOf fs (viewAt s p)) new).2.2 ∧
      s'.log = s.log ++ (assign boom (ctlTys fs) (lengthsOf fs (viewAt s p)) new).1 ∧ s'.copied = s.copied := by
  intro fs
  induction fs with
  | nil =>
    intro vs new s _ _ _ _ h hn
    cases vs <;> simp [RepHdr] at h
    cases new <;> simp [ctlTys, Rel2] at hn
    exact ⟨s, rfl, Touch.refl _ _ _ _, fun _ _ => rfl, trivial, rfl, by simp [assign, ctlTys], rfl⟩
  | cons f fs ih =>
    intro vs new s hok hdj hacc hal hr hn
    have hok' : ∀ f ∈ fs, f.Ok hs ha := fun g hg => hok g (by simp [hg])
    have hf := hok f (by simp)
    obtain ⟨hdj1, hdj2⟩ := List.pairwise_cons.1 hdj
    cases vs with
    | nil => cases f <;> simp [RepHdr] at hr
    | cons v vs =>
      have hnc : ∀ j, NotCtl (f :: fs) j → NotCtl fs j := fun j h R off hm => h R off (by simp [hm])
      cases f with
      | normal R off =>
        cases v <;> simp only [RepHdr] at hr
        obtain ⟨s', e1, e2, e3, e4, e5, e6, e7⟩ := ih vs new s hok' hdj2 hacc hal hr.2 hn
        refine ⟨s', e1, e2, fun j hj => e3 j (hnc j hj), ⟨⟨?_, hr.1.2⟩, e4⟩, e5, e6, e7⟩
        rw [← hr.1.1]
        apply takeV_congr
        intro i hi
        apply e3
        intro R' off' hm hcon
        have := hdj1 _ hm
        simp only [Varlen.Fld.range] at this
        omega
      | length R off =>
        cases v <;> simp only [RepHdr] at hr
        rename_i img
        cases new with
        | nil => simp [ctlTys, Rel2] at hn
        | cons x xs =>
          have hR : R.Ok w := hf.1
          have hxv : R.valid x = true := hn.1
          have hxl := hR.valid_len _ hxv
          have hoff : off + R.size ≤ hs := hf.2.1
          have hal' : Aligned s (p.add off) R.align := (hal.of_dvd hf.2.2.2).add hf.2.2.1
          have hv : takeV (viewAt s (p.add off)) 0 R.size = img := by rw [viewAt_add, takeV_shift]; exact hr.1.1
          obtain ⟨s1, d1, d2, d3, d4⟩ := dropInPlace_spec boom (R := R) (hacc.sub (o := off) (by omega)) hal' hv hr.1.2
          have hacc1 : Acc s1 (p.add off) x.length := d2.acc (fun h => h) (hacc.sub (by omega))
          have hal1 : Aligned s1 (p.add off) R.align := d2.aligned (fun h => h) hal'
          have d5 := writeVal_ok (R := R) hacc1 hal1
          generalize hs2 : s1.write (p.add off) x = s2 at d5
          have tw : Touch s1 s2 (p.add off) R.size noOwn := by
            have := Touch.write (s := s1) (p := p.add off) (img := x) (own := noOwn)
            rw [hxl, hs2] at this; exact this
          have t2 : Touch s s2 (p.add off) R.size noOwn := d2.trans tw
          have hlog : s2.log = s1.log := by rw [← hs2, St.write_log]
          have hcop : s2.copied = s.copied := by rw [← hs2, St.write_copied, d4]
          have hview : ∀ i, ¬ (off ≤ i ∧ i < off + R.size) → viewAt s2 p i = viewAt s p i := fun i hi =>
            t2.view (q := p) (fun h => h) i (by simp; omega)
          have hnew : takeV (viewAt s2 p) off R.size = x := by
            have := takeV_viewAt_write hacc1
            rw [hs2, hxl, viewAt_add, takeV_shift] at this
            exact this
          have hag : ∀ g ∈ fs, ∀ i, i < g.range.2 → viewAt s p (g.range.1 + i) = viewAt s2 p (g.range.1 + i) := by
            intro g hg i hi
            have := hdj1 g hg
            simp only [Varlen.Fld.range] at this hi ⊢
            exact (hview _ (by omega)).symm
          have hl : lengthsOf (Varlen.Fld.length R off :: fs) (viewAt s p) = img :: lengthsOf fs (viewAt s p) := by
            simp only [lengthsOf, List.filterMap_cons, hr.1.1]
          rw [hl]
          simp only [ctlTys, assign]
          by_cases hb : R.needsDrop = true ∧ boom R img = true
          · -- the destructor of the old value panics
            have hg : group boom false [(R, img)] = (R.dropEv img, .panicked) := by simp [group, hb.1, hb.2]
            rw [hg] at d1 d3
            rw [if_pos hb]
            have hlen : xs.length = (ctlTys fs).length := (Rel2.length hn.2).symm
            have hrest := dropControllersRest_spec boom fs xs s2 hlen
            have hr2 := RepHdr.congr _ _ hag hr.2
            refine ⟨s2.logged (group boom true ((ctlTys fs).zip xs)).1, ?_, ((t2.sub (by omega)).trans (Touch.logged _ _ _ _ _)), ?_, ?_, ?_, ?_, ?_⟩
            · have hgt := group_true boom ((ctlTys fs).zip xs)
              simp only [setLengths, bind_apply, onUnwind, d1, Fate.res, d5, Res.bind_ok, hrest]
              generalize (group boom true ((ctlTys fs).zip xs)).2 = f at hgt
              cases f with
              | done => exact absurd rfl hgt
              | panicked => rfl
              | aborted => rfl
            · intro j hj
              rw [St.logged_viewAt]
              exact hview j (hj R off (by simp))
            · rw [St.logged_viewAt]
              refine ⟨⟨hnew, hxv⟩, ?_⟩
              rw [lengthsOf_congr fs hag, setCtl_same fs vs hr2]
              exact hr2
            · rw [St.logged_viewAt]
              have := lengthsOf_congr fs hag
              simp only [lengthsOf, List.filterMap_cons] at this ⊢
              rw [hnew, this]
            · rw [St.logged_log, hlog, d3]; simp
            · rw [St.logged_copied, hcop]
          · have hg : group boom false [(R, img)] = (R.dtor img, .done) := by
              cases hd : R.needsDrop
              · simp [group, hd, RTy.dtor]
              · have : boom R img = false := by simpa [hd] using hb
                simp [group, hd, this, RTy.dtor]
            rw [hg] at d1 d3
            rw [if_neg hb]
            obtain ⟨s3, e1, e2, e3, e4, e5, e6, e7⟩ := ih vs xs s2 hok' hdj2 (t2.acc (fun h => h) hacc) (t2.aligned (fun h => h) hal)
              (RepHdr.congr _ _ hag hr.2) hn.2
            rw [← lengthsOf_congr fs hag] at e1 e4 e5 e6
            have hx3 : takeV (viewAt s3 p) off R.size = x := by
              rw [← hnew]
              apply takeV_congr
              intro i hi
              apply e3
              intro R' off' hm hcon
              have := hdj1 _ hm
              simp only [Varlen.Fld.range] at this
              omega
            refine ⟨s3, ?_, (t2.sub (by omega)).trans e2, ?_, ⟨⟨hx3, hxv⟩, e4⟩, ?_, ?_, ?_⟩
            · simp only [setLengths, bind_apply, onUnwind, d1, Fate.res, Res.bind_ok, d5]
              exact e1
            · intro j hj
              rw [e3 j (hnc j hj)]
              exact hview j (hj R off (by simp))
            · simp only [lengthsOf, List.filterMap_cons] at e5 ⊢
              rw [e5, hx3]
            · rw [e6, hlog, d3]; simp
            · rw [e7, hcop]
      | varlen T =>
        obtain ⟨s', e1, e2, e3, e4, e5, e6, e7⟩ := ih vs new s hok' hdj2 hacc hal hr hn
        exact ⟨s', e1, e2, fun j hj => e3 j (hnc j hj), e4, e5, e6, e7⟩
      | array R len =>
        obtain ⟨s', e1, e2, e3, e4, e5, e6, e7⟩ := ih vs new s hok' hdj2 hacc hal hr hn
        exact ⟨s', e1, e2, fun j hj => e3 j (hnc j hj), e4, e5, e6, e7⟩

theorem dropControllers_spec (boom : Boom) : ∀ (fs : List (Varlen.Fld w)) xs s, xs.length = (ctlTys fs).length →
    dropControllers boom fs xs s = (group boom false ((ctlTys fs).zip xs)).2.res (s.logged (group boom false ((ctlTys fs).zip xs)).1) := by
  intro fs
  induction fs with
  | nil =>
    intro xs s _
    show Res.ok () s = _
    cases xs <;> simp [ctlTys, group, St.logged, Fate.res]
  | cons f fs ih =>
    intro xs s hl
    cases f with
    | normal R off => exact ih xs s hl
    | varlen T => exact ih xs s hl
    | array R len => exact ih xs s hl
    | length R off =>
      cases xs with
      | nil => simp [ctlTys] at hl
      | cons x xs =>
        simp only [ctlTys, List.length_cons, Nat.add_right_cancel_iff] at hl
        simp only [dropControllers, ctlTys, List.zip_cons_cons, bind_apply, onUnwind, dropLocal, emit_apply, Res.bind_ok]
        cases hd : R.needsDrop
        · simp only [Bool.false_and, Bool.false_eq_true, if_false, pure_apply, Res.bind_ok, ih xs _ hl, group, hd, RTy.drops]
          simp [St.logged]
        · cases hb : boom R x
          · simp only [Bool.and_false, Bool.false_eq_true, if_false, pure_apply, Res.bind_ok, ih xs _ hl, group, hd, hb, if_true, RTy.drops]
            simp [St.logged]
          · have hgt := group_true boom ((ctlTys fs).zip xs)
            simp only [Bool.and_self, if_true, panicM, dropControllersRest_spec boom fs xs _ hl, group, hd, hb, RTy.drops, Bool.false_eq_true, if_false]
            generalize group boom true ((ctlTys fs).zip xs) = r at hgt
            rcases r with ⟨es, _ | _ | _⟩
            · exact absurd rfl hgt
            · simp [Fate.res, St.logged]
            · simp [Fate.res, St.logged]

theorem onUnwind_calm {α : Type} {x : M α} {c : M Unit} {s s' : St} {a : α} (h : x s = .ok a s') : onUnwind x c s = .ok a s' := by simp [onUnwind, h]

/-- `try_set_layout_controllers` on a valid struct. -/
theorem trySet_spec (boom : Boom) {hs ha : Nat} {fs : List (Varlen.Fld w)} (hok : StructOk hs ha fs) {s : St} {p : Ptr} {vs : List V} {l : Layout w}
    (h : Valid (Struct w hs ha fs) s p (.node vs) l) {new : List Img} (hn : Rel2 (fun R x => R.valid x = true) (ctlTys fs) new) :
    (LensDefd fs new → arrayLens fs (lengthsOf fs (viewAt s p)) = arrayLens fs new →
      ∃ s', trySetLayoutControllers boom fs p new s = ((assign boom (ctlTys fs) (lengthsOf fs (viewAt s p)) new).2.1.res s').bind (fun _ s => .ok true s) ∧
        Touch s s' p hs noOwn ∧ lengthsOf fs (viewAt s' p) = (assign boom (ctlTys fs) (lengthsOf fs (viewAt s p)) new).2.2 ∧
        (∀ j, NotCtl fs j → viewAt s' p j = viewAt s p j) ∧ s'.log = s.log ++ (assign boom (ctlTys fs) (lengthsOf fs (viewAt s p)) new).1 ∧ s'.copied = s.copied ∧
        (LensDefd fs (assign boom (ctlTys fs) (lengthsOf fs (viewAt s p)) new).2.2 → arrayLens fs (lengthsOf fs (viewAt s p)) = arrayLens fs (assign boom (ctlTys fs) (lengthsOf fs (viewAt s p)) new).2.2 →
          Valid (Struct w hs ha fs) s' p (.node (setCtl fs vs (assign boom (ctlTys fs) (lengthsOf fs (viewAt s p)) new).2.2)) l)) ∧
    (LensDefd fs new → arrayLens fs (lengthsOf fs (viewAt s p)) ≠ arrayLens fs new →
      trySetLayoutControllers boom fs p new s = ((group boom false ((ctlTys fs).zip new)).2.res (s.logged (group boom false ((ctlTys fs).zip new)).1)).bind (fun _ s => .ok false s)) ∧
    ((∃ R len, Varlen.Fld.array R len ∈ fs ∧ len.defd new = false) →
      trySetLayoutControllers boom fs p new s = (match (group boom true ((ctlTys fs).zip new)).2 with
        | .aborted => .panic .abort (s.logged (group boom true ((ctlTys fs).zip new)).1)
        | _ => .panic .user (s.logged (group boom true ((ctlTys fs).zip new)).1))) := by
  obtain ⟨hacc, hal, vs', ls, size, hv, rfl, hr, ht⟩ := h
  cases hv
  obtain ⟨h1, h2, h3⟩ := Struct.aligns hok
  have hle := RepTails.le _ _ _ _ _ hok.flds ht
  have hrd := readLengths_spec (hacc.mono hle) (hal.of_dvd h2) fs vs hok.flds hr
  have hdef := RepTails.defd _ _ _ _ _ ht
  refine ⟨?_, ?_, ?_⟩
  · intro hd heq
    obtain ⟨s', e1, e2, e3, e4, e5, e6, e7⟩ := setLengths_spec boom fs vs new s hok.flds hok.disjoint (hacc.mono hle) (hal.of_dvd h2) hr hn
    refine ⟨s', ?_, e2, e5, e3, e6, e7, fun hd' hm => ⟨e2.acc (fun h => h) hacc, e2.aligned (fun h => h) hal, ?_⟩⟩
    · simp only [trySetLayoutControllers, bind_apply, hrd, Res.bind_ok]
      rw [onUnwind_calm (sameLens_defd fs s hdef hd), beq_iff_eq.2 heq]
      simp only [Res.bind_ok, if_true, bind_apply, e1]
      rfl
    · refine ⟨_, ls, size, rfl, rfl, e4, ?_⟩
      rw [e5]
      refine RepTails.setCtl fs vs ls hs _ _ hok.flds hd' hm (fun i hi _ => (e3 i ?_).symm) ht
      intro R off hm hcon
      have := (hok.flds _ hm).2.1
      omega
  · intro hd hne
    simp only [trySetLayoutControllers, bind_apply, hrd, Res.bind_ok]
    rw [onUnwind_calm (sameLens_defd fs s hdef hd), beq_eq_false_iff_ne.2 hne]
    simp only [Res.bind_ok, Bool.false_eq_true, if_false, bind_apply, dropControllers_spec boom fs new s (Rel2.length hn).symm]
    rfl
  · intro hu
    have hgt := group_true boom ((ctlTys fs).zip new)
    simp only [trySetLayoutControllers, bind_apply, hrd, Res.bind_ok]
    simp only [onUnwind, sameLens_undef fs s hdef hu, dropControllersRest_spec boom fs new s (Rel2.length hn).symm]
    generalize group boom true ((ctlTys fs).zip new) = r at hgt
    rcases r with ⟨es, _ | _ | _⟩
    · exact absurd rfl hgt
    · rfl
    · rfl

end Varlen.DP
