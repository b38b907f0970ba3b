import Verif.Proofs.UserDrop
import Verif.Proofs.DropPanicSet
namespace Varlen.UD
open Eff (World Ran Wrote)
open DP (Group Fate)
variable {w : Nat}

section
variable {W : Owner} {prot : Nat → Prop} {d : Dtor} {E : Effects}

theorem ran_trans {U U' : World} {s s' s'' : St} {es es' : List Event} (h : Ran U prot s s' es) (h' : Ran U' prot s' s'' es') : Ran U' prot s s'' (es ++ es') :=
  ⟨h'.ok, fun b hb => (h'.keep b hb).trans (h.keep b hb), by rw [h'.log, h.log, List.append_assoc]⟩

theorem ran_view {U : World} {s s' : St} {es : List Event} {p : Ptr} (h : Ran U prot s s' es) (hp : prot p.blk) : viewAt s' p = viewAt s p := by
  funext i
  simp only [viewAt, h.keep _ hp]

/-- Dropping a local variable. -/
theorem dropLocal_ends (hd : DtorOk W d E) {s : St} {R : RTy} {x : Img} {rest : List (RTy × Img)} (hv : R.valid x = true) (hU : (W.owing ((R, x) :: rest)).ok s prot) :
    ∃ s' es f, dropLocal d R x s = f.res s' ∧ Ran (W.owing rest) prot s s' es ∧ One E R x es f := by
  cases hn : R.needsDrop
  · exact ⟨s, [], .done, by simp [dropLocal, hn, Fate.res], ⟨W.skip hn hU, fun _ _ => rfl, by simp⟩, by simp [One, hn]⟩
  · obtain ⟨f, s1, es, e1, e2, e3⟩ := hd R _ rest s prot hn hv hU
    refine ⟨s1, es, f, ?_, e2, by simpa [One, hn] using e3⟩
    simp only [dropLocal, hn, if_true, bind_apply, e1]
    cases f <;> rfl

theorem dropControllersRest_ends (hd : DtorOk W d E) {rest : List (RTy × Img)} : ∀ (fs : List (Varlen.Fld w)) xs s, Rel2 (fun R x => R.valid x = true) (ctlTys fs) xs →
    (W.owing ((ctlTys fs).zip xs ++ rest)).ok s prot →
    ∃ s' es f lost, (dropControllersRest d fs xs s = match f with
        | .aborted => .panic .abort s'
        | _ => .ok () s') ∧ Ran (W.owing (lost ++ rest)) prot s s' es ∧ GroupEnds E true ((ctlTys fs).zip xs) es f lost := by
  intro fs
  induction fs with
  | nil =>
    intro xs s hn hU
    cases xs <;> simp [ctlTys, Rel2] at hn
    exact ⟨s, [], .panicked, [], rfl, ⟨hU, fun _ _ => rfl, by simp⟩, .panicked⟩
  | cons f fs ih =>
    intro xs s hn hU
    cases f with
    | normal R off => exact ih xs s hn hU
    | varlen T => exact ih xs s hn hU
    | array R len => exact ih xs s hn hU
    | length R off =>
      cases xs with
      | nil => simp [ctlTys, Rel2] at hn
      | cons x xs =>
        obtain ⟨s1, es, b, h1, h2, h3⟩ := dropLocal_ends hd (rest := (ctlTys fs).zip xs ++ rest) hn.1 hU
        simp only [dropControllersRest, ctlTys, List.zip_cons_cons]
        cases b with
        | done =>
          obtain ⟨s2, es2, f, lost, g1, g2, g3⟩ := ih xs s1 hn.2 h2.ok
          refine ⟨s2, es ++ es2, f, lost, ?_, ran_trans h2 g2, h3.done g3⟩
          simp only [bind_apply, DP.unwinding, h1, Fate.res, Res.bind_ok, g1]
        | panicked =>
          refine ⟨s1, es, .aborted, _, ?_, h2, h3.second⟩
          simp only [bind_apply, DP.unwinding, h1, Fate.res, Res.bind_panic]
        | aborted =>
          refine ⟨s1, es, .aborted, _, ?_, h2, h3.dead⟩
          simp only [bind_apply, DP.unwinding, h1, Fate.res, Res.bind_panic]

theorem dropControllers_ends (hd : DtorOk W d E) {rest : List (RTy × Img)} : ∀ (fs : List (Varlen.Fld w)) xs s, Rel2 (fun R x => R.valid x = true) (ctlTys fs) xs →
    (W.owing ((ctlTys fs).zip xs ++ rest)).ok s prot →
    ∃ s' es f lost, dropControllers d fs xs s = f.res s' ∧ Ran (W.owing (lost ++ rest)) prot s s' es ∧ GroupEnds E false ((ctlTys fs).zip xs) es f lost := by
  intro fs
  induction fs with
  | nil =>
    intro xs s hn hU
    cases xs <;> simp [ctlTys, Rel2] at hn
    exact ⟨s, [], .done, [], rfl, ⟨hU, fun _ _ => rfl, by simp⟩, .done⟩
  | cons f fs ih =>
    intro xs s hn hU
    cases f with
    | normal R off => exact ih xs s hn hU
    | varlen T => exact ih xs s hn hU
    | array R len => exact ih xs s hn hU
    | length R off =>
      cases xs with
      | nil => simp [ctlTys, Rel2] at hn
      | cons x xs =>
        obtain ⟨s1, es, b, h1, h2, h3⟩ := dropLocal_ends hd (rest := (ctlTys fs).zip xs ++ rest) hn.1 hU
        simp only [dropControllers, ctlTys, List.zip_cons_cons]
        cases b with
        | done =>
          obtain ⟨s2, es2, f, lost, g1, g2, g3⟩ := ih xs s1 hn.2 h2.ok
          refine ⟨s2, es ++ es2, f, lost, ?_, ran_trans h2 g2, h3.done g3⟩
          simp only [bind_apply, DP.onUnwind, h1, Fate.res, Res.bind_ok] at g1 ⊢
          exact g1
        | aborted => exact ⟨s1, es, .aborted, _, by simp only [bind_apply, DP.onUnwind, h1, Fate.res, Res.bind_panic], h2, h3.dead⟩
        | panicked =>
          obtain ⟨s2, es2, f, lost, g1, g2, g3⟩ := dropControllersRest_ends hd fs xs s1 hn.2 h2.ok
          refine ⟨s2, es ++ es2, f, lost, ?_, ran_trans h2 g2, h3.first g3⟩
          have hf := groupEnds_true g3 rfl
          simp only [bind_apply, DP.onUnwind, h1, Fate.res, g1]
          cases f with
          | done => exact absurd rfl hf
          | panicked => rfl
          | aborted => rfl

theorem One.assign {R : RTy} {x y : Img} {Rs : List RTy} {old new now : List Img} {es es' : List Event} {f : Fate} {lost : List (RTy × Img)} (h : One E R x es .done) (h' : AssignEnds E Rs old new es' f now lost) :
    AssignEnds E (R :: Rs) (x :: old) (y :: new) (es ++ es') f (y :: now) lost := by
  cases hd : R.needsDrop
  · obtain rfl : es = [] := by simpa [One, hd] using h
    exact .plain hd h'
  · exact .calm hd (by simpa [One, hd] using h) h'

theorem setLengths_ends (hd : DtorOk W d E) (hna : NeverAborts E) {hs ha : Nat} {p : Ptr} (hp : prot p.blk) : ∀ (fs : List (Varlen.Fld w)) vs new s (rest : List (RTy × Img)), (∀ f ∈ fs, f.Ok hs ha) →
    (fs.Pairwise fun a b => a.range.2 = 0 ∨ b.range.2 = 0 ∨ a.range.1 + a.range.2 ≤ b.range.1 ∨
      b.range.1 + b.range.2 ≤ a.range.1) →
    Acc s p hs → Aligned s p ha → RepHdr fs vs (viewAt s p) → Rel2 (fun R x => R.valid x = true) (ctlTys fs) new →
    (W.owing ((ctlTys fs).zip (lengthsOf fs (viewAt s p)) ++ ((ctlTys fs).zip new ++ rest))).ok s prot →
    ∃ s' es f now lost, setLengths d p fs new s = f.res s' ∧ AssignEnds E (ctlTys fs) (lengthsOf fs (viewAt s p)) new es f now lost ∧
      Wrote (W.owing (lost ++ ((ctlTys fs).zip now ++ rest))) prot s s' p hs (fun _ => False) es ∧
      (∀ j, NotCtl fs j → viewAt s' p j = viewAt s p j) ∧ RepHdr fs (setCtl fs vs now) (viewAt s' p) ∧ lengthsOf fs (viewAt s' p) = now := by
  intro fs
  induction fs with
  | nil =>
    intro vs new s rest _ _ _ _ h hn hU
    cases vs <;> simp [RepHdr] at h
    cases new <;> simp [ctlTys, Rel2] at hn
    exact ⟨s, [], .done, [], [], rfl, .nil, .refl hU _ _ _, fun _ _ => rfl, trivial, rfl⟩
  | cons f fs ih =>
    intro vs new s rest hok hdj hacc hal hr hn hU
    have hok' : ∀ f ∈ fs, f.Ok hs ha := fun g hg => hok g (by simp [hg])
    have hf := hok f (by simp)
    obtain ⟨hdj1, hdj2⟩ := List.pairwise_cons.1 hdj
    cases vs with
    | nil => cases f <;> simp [RepHdr] at hr
    | cons v vs =>
      have hnc : ∀ j, NotCtl (f :: fs) j → NotCtl fs j := fun j h R off hm => h R off (by simp [hm])
      cases f with
      | normal R off =>
        cases v <;> simp only [RepHdr] at hr
        obtain ⟨s', es, f, now, lost, e1, e2, e3, e4, e5, e6⟩ := ih vs new s rest hok' hdj2 hacc hal hr.2 hn hU
        refine ⟨s', es, f, now, lost, e1, e2, e3, fun j hj => e4 j (hnc j hj), ⟨⟨?_, hr.1.2⟩, e5⟩, e6⟩
        rw [← hr.1.1]
        apply takeV_congr
        intro i hi
        apply e4
        intro R' off' hm hcon
        have := hdj1 _ hm
        simp only [Varlen.Fld.range] at this
        omega
      | length R off =>
        cases v <;> simp only [RepHdr] at hr
        rename_i img
        cases new with
        | nil => simp [ctlTys, Rel2] at hn
        | cons x xs =>
          have hR : R.Ok w := hf.1
          have hxv : R.valid x = true := hn.1
          have hxl := hR.valid_len _ hxv
          have hoff : off + R.size ≤ hs := hf.2.1
          have hal' : Aligned s (p.add off) R.align := (hal.of_dvd hf.2.2.2).add hf.2.2.1
          have hv : takeV (viewAt s (p.add off)) 0 R.size = img := by rw [viewAt_add, takeV_shift]; exact hr.1.1
          have hl : lengthsOf (Varlen.Fld.length R off :: fs) (viewAt s p) = img :: lengthsOf fs (viewAt s p) := by
            simp only [lengthsOf, List.filterMap_cons, hr.1.1]
          rw [hl] at hU ⊢
          simp only [ctlTys, List.zip_cons_cons, List.cons_append] at hU
          obtain ⟨s1, es, b, d1, d2, d3⟩ := dropInPlace_ends hd (R := R) (hacc.sub (o := off) (by omega)) hal' hv hr.1.2 hp hU
          have hacc1 : Acc s1 (p.add off) x.length := d2.acc hp (fun h => h) (hacc.sub (by omega))
          have hal1 : Aligned s1 (p.add off) R.align := d2.aligned hp (fun h => h) hal'
          have d5 := writeVal_ok (R := R) hacc1 hal1
          generalize hs2 : s1.write (p.add off) x = s2 at d5
          have tw : Touch s1 s2 (p.add off) R.size (fun _ => False) := by
            have := Touch.write (s := s1) (p := p.add off) (img := x) (own := fun _ => False)
            rw [hxl, hs2] at this; exact this
          have hlog : s2.log = s1.log := by rw [← hs2, St.write_log]
          have ww : Wrote (W.owing ((ctlTys fs).zip (lengthsOf fs (viewAt s p)) ++ ((R, x) :: ((ctlTys fs).zip xs ++ rest)))) prot s1 s2 (p.add off) R.size (fun _ => False) [] :=
            Wrote.ofTouch tw d2.ok (fun _ => hp) (fun _ h => h.elim) (by simp [hlog])
          have t2 := wrote_trans d2 ww
          rw [List.append_nil] at t2
          have t2' := t2.mono (q := p) (m := hs) (.inr ⟨rfl, by simp, by simp; omega⟩)
          have hview : ∀ i, ¬ (off ≤ i ∧ i < off + R.size) → viewAt s2 p i = viewAt s p i := fun i hi =>
            t2.view (q := p) hp (fun h => h) i (by simp; omega)
          have hnew : takeV (viewAt s2 p) off R.size = x := by
            have := takeV_viewAt_write hacc1
            rw [hs2, hxl, viewAt_add, takeV_shift] at this
            exact this
          have hag : ∀ g ∈ fs, ∀ i, i < g.range.2 → viewAt s p (g.range.1 + i) = viewAt s2 p (g.range.1 + i) := by
            intro g hg i hi
            have := hdj1 g hg
            simp only [Varlen.Fld.range] at this hi ⊢
            exact (hview _ (by omega)).symm
          have hr2 := RepHdr.congr _ _ hag hr.2
          have hleq := lengthsOf_congr fs hag
          cases b with
          | aborted =>
            cases hnd : R.needsDrop
            · exact absurd d3 (by simp [One, hnd])
            · exact absurd (by simpa [One, hnd] using d3) (hna R img es hnd)
          | panicked =>
            -- the destructor of the old value panics
            have hU2 : (W.owing ((ctlTys fs).zip xs ++ ((R, x) :: ((ctlTys fs).zip (lengthsOf fs (viewAt s p)) ++ rest)))).ok s2 prot := W.perm (by
              have h1 : ((ctlTys fs).zip (lengthsOf fs (viewAt s p)) ++ ((R, x) :: ((ctlTys fs).zip xs ++ rest))).Perm ((R, x) :: ((ctlTys fs).zip xs ++ ((ctlTys fs).zip (lengthsOf fs (viewAt s p)) ++ rest))) := by
                refine List.perm_middle.trans (List.Perm.cons _ ?_)
                rw [← List.append_assoc, ← List.append_assoc]
                exact List.perm_append_comm.append_right _
              exact h1.trans List.perm_middle.symm) t2.ok
            obtain ⟨s3, es3, f, lost, g1, g2, g3⟩ := dropControllersRest_ends hd fs xs s2 hn.2 hU2
            have hv3 : viewAt s3 p = viewAt s2 p := ran_view g2 hp
            have hE : R.needsDrop = true ∧ E R img es .panicked := by
              cases hnd : R.needsDrop
              · exact absurd d3 (by simp [One, hnd])
              · exact ⟨rfl, by simpa [One, hnd] using d3⟩
            refine ⟨s3, es ++ es3, f, x :: lengthsOf fs (viewAt s p), lost, ?_, .boom hE.1 hE.2 g3, wrote_trans t2' (g2.wrote p hs _), ?_, ?_, ?_⟩
            · have hgt := groupEnds_true g3 rfl
              simp only [setLengths, bind_apply, DP.onUnwind, d1, Fate.res, bind_apply, d5, Res.bind_ok, g1]
              cases f with
              | done => exact absurd rfl hgt
              | panicked => rfl
              | aborted => rfl
            · intro j hj
              rw [hv3]
              exact hview j (hj R off (by simp))
            · rw [hv3]
              refine ⟨⟨hnew, hxv⟩, ?_⟩
              rw [hleq, DP.setCtl_same fs vs hr2]
              exact hr2
            · rw [hv3]
              simp only [lengthsOf, List.filterMap_cons] at hleq ⊢
              rw [hnew, hleq]
          | done =>
            have hU2 : (W.owing ((ctlTys fs).zip (lengthsOf fs (viewAt s2 p)) ++ ((ctlTys fs).zip xs ++ ((R, x) :: rest)))).ok s2 prot := W.perm (by
              rw [hleq]
              exact List.Perm.append_left _ List.perm_middle.symm) t2.ok
            obtain ⟨s3, es3, f, now, lost, e1, e2, e3, e4, e5, e6⟩ := ih vs xs s2 ((R, x) :: rest) hok' hdj2 (t2.acc hp (fun h => h) hacc) (t2.aligned hp (fun h => h) hal) hr2 hn.2 hU2
            rw [← hleq] at e2
            have hx3 : takeV (viewAt s3 p) off R.size = x := by
              rw [← hnew]
              apply takeV_congr
              intro i hi
              apply e4
              intro R' off' hm hcon
              have := hdj1 _ hm
              simp only [Varlen.Fld.range] at this
              omega
            refine ⟨s3, es ++ es3, f, x :: now, lost, ?_, d3.assign e2, wrote_world (wrote_trans t2' e3) (W.perm (List.Perm.append_left _ List.perm_middle) e3.ok), ?_, ⟨⟨hx3, hxv⟩, e5⟩, ?_⟩
            · simp only [setLengths, bind_apply, DP.onUnwind, d1, Fate.res, Res.bind_ok, d5]
              exact e1
            · intro j hj
              rw [e4 j (hnc j hj)]
              exact hview j (hj R off (by simp))
            · simp only [lengthsOf, List.filterMap_cons] at e6 ⊢
              rw [e6, hx3]
      | varlen T =>
        obtain ⟨s', es, f, now, lost, e1, e2, e3, e4, e5, e6⟩ := ih vs new s rest hok' hdj2 hacc hal hr hn hU
        exact ⟨s', es, f, now, lost, e1, e2, e3, fun j hj => e4 j (hnc j hj), e5, e6⟩
      | array R len =>
        obtain ⟨s', es, f, now, lost, e1, e2, e3, e4, e5, e6⟩ := ih vs new s rest hok' hdj2 hacc hal hr hn hU
        exact ⟨s', es, f, now, lost, e1, e2, e3, fun j hj => e4 j (hnc j hj), e5, e6⟩

/-- `try_set_layout_controllers` on a valid struct. -/
theorem trySet_ends (hd : DtorOk W d E) {hs ha : Nat} {fs : List (Varlen.Fld w)} (hok : StructOk hs ha fs) {s : St} {p : Ptr} (hp : prot p.blk) {vs : List V} {l : Layout w} {rest : List (RTy × Img)}
    (h : Valid (Struct w hs ha fs) s p (.node vs) l) {new : List Img} (hn : Rel2 (fun R x => R.valid x = true) (ctlTys fs) new) :
    (NeverAborts E → LensDefd fs new → arrayLens fs (lengthsOf fs (viewAt s p)) = arrayLens fs new → (W.owing ((ctlTys fs).zip (lengthsOf fs (viewAt s p)) ++ ((ctlTys fs).zip new ++ rest))).ok s prot →
      ∃ s' es f now lost, trySetLayoutControllers d fs p new s = (f.res s').bind (fun _ s => .ok true s) ∧ AssignEnds E (ctlTys fs) (lengthsOf fs (viewAt s p)) new es f now lost ∧
        Wrote (W.owing (lost ++ ((ctlTys fs).zip now ++ rest))) prot s s' p hs (fun _ => False) es ∧ lengthsOf fs (viewAt s' p) = now ∧
        (∀ j, NotCtl fs j → viewAt s' p j = viewAt s p j) ∧
        (LensDefd fs now → arrayLens fs (lengthsOf fs (viewAt s p)) = arrayLens fs now → Valid (Struct w hs ha fs) s' p (.node (setCtl fs vs now)) l)) ∧
    (LensDefd fs new → arrayLens fs (lengthsOf fs (viewAt s p)) ≠ arrayLens fs new → (W.owing ((ctlTys fs).zip new ++ rest)).ok s prot →
      ∃ s' es f lost, trySetLayoutControllers d fs p new s = (f.res s').bind (fun _ s => .ok false s) ∧ Ran (W.owing (lost ++ rest)) prot s s' es ∧ GroupEnds E false ((ctlTys fs).zip new) es f lost) ∧
    ((∃ R len, Varlen.Fld.array R len ∈ fs ∧ len.defd new = false) → (W.owing ((ctlTys fs).zip new ++ rest)).ok s prot →
      ∃ s' es f lost, trySetLayoutControllers d fs p new s = (f.res s').bind (fun _ s => .ok false s) ∧ Ran (W.owing (lost ++ rest)) prot s s' es ∧ GroupEnds E true ((ctlTys fs).zip new) es f lost) := by
  obtain ⟨hacc, hal, vs', ls, size, hv, rfl, hr, ht⟩ := h
  cases hv
  obtain ⟨h1, h2, h3⟩ := Struct.aligns hok
  have hle := RepTails.le _ _ _ _ _ hok.flds ht
  have hrd := readLengths_spec (hacc.mono hle) (hal.of_dvd h2) fs vs hok.flds hr
  have hdef := RepTails.defd _ _ _ _ _ ht
  refine ⟨?_, ?_, ?_⟩
  · intro hna hd' heq hU
    obtain ⟨s', es, f, now, lost, e1, e2, e3, e4, e5, e6⟩ := setLengths_ends hd hna hp fs vs new s rest hok.flds hok.disjoint (hacc.mono hle) (hal.of_dvd h2) hr hn hU
    refine ⟨s', es, f, now, lost, ?_, e2, e3, e6, e4, fun hd' hm => ⟨e3.acc hp (fun h => h) hacc, e3.aligned hp (fun h => h) hal, ?_⟩⟩
    · simp only [trySetLayoutControllers, bind_apply, hrd, Res.bind_ok]
      rw [DP.onUnwind_calm (sameLens_defd fs s hdef hd'), beq_iff_eq.2 heq]
      simp only [Res.bind_ok, if_true, bind_apply, e1]
      rfl
    · refine ⟨_, ls, size, rfl, rfl, e5, ?_⟩
      rw [e6]
      refine RepTails.setCtl fs vs ls hs _ _ hok.flds hd' hm (fun i hi _ => (e4 i ?_).symm) ht
      intro R off hm hcon
      have := (hok.flds _ hm).2.1
      omega
  · intro hd' hne hU
    obtain ⟨s', es, f, lost, e1, e2, e3⟩ := dropControllers_ends hd fs new s hn hU
    refine ⟨s', es, f, lost, ?_, e2, e3⟩
    simp only [trySetLayoutControllers, bind_apply, hrd, Res.bind_ok]
    rw [DP.onUnwind_calm (sameLens_defd fs s hdef hd'), beq_eq_false_iff_ne.2 hne]
    simp only [Res.bind_ok, Bool.false_eq_true, if_false, bind_apply, e1]
    rfl
  · intro hu hU
    obtain ⟨s', es, f, lost, e1, e2, e3⟩ := dropControllersRest_ends hd fs new s hn hU
    refine ⟨s', es, f, lost, ?_, e2, e3⟩
    have hgt := groupEnds_true e3 rfl
    simp only [trySetLayoutControllers, bind_apply, hrd, Res.bind_ok]
    simp only [DP.onUnwind, sameLens_undef fs s hdef hu, e1]
    cases f with
    | done => exact absurd rfl hgt
    | panicked => rfl
    | aborted => rfl
end

end Varlen.UD
