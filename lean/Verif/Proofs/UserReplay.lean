import Verif.Proofs.UserSim
import Verif.Proofs.ArrayInit
/-!
# Proofs: pure initializers that replay one run of an initializer with user code
-/
namespace Varlen.Eff
variable {w : Nat}
open Classical in
/-- The blocks in `on` are replaced. -/
noncomputable def patch (s : St) (on : Nat → Prop) (g : Nat → Block → Block) : St :=
  { s with blocks := s.blocks.mapIdx fun i B => if on (i + 1) then g (i + 1) B else B }

open Classical in
theorem patch_blk (s : St) (on : Nat → Prop) (g : Nat → Block → Block) (b : Nat) : (patch s on g).blk b = (s.blk b).map fun B => if on b then g b B else B := by
  cases b with
  | zero => rfl
  | succ b => simp [St.blk, patch]

theorem patch_blk_not {s : St} {on : Nat → Prop} {g : Nat → Block → Block} {b : Nat} (h : ¬ on b) : (patch s on g).blk b = s.blk b := by
  rw [patch_blk]; cases s.blk b <;> simp [h]

theorem patch_blk_on {s : St} {on : Nat → Prop} {g : Nat → Block → Block} {b : Nat} (h : on b) : (patch s on g).blk b = (s.blk b).map (g b) := by
  rw [patch_blk]; cases s.blk b <;> simp [h]

theorem patch_touch (s : St) (on : Nat → Prop) (g : Nat → Block → Block) : Touch s (patch s on g) ⟨0, 0⟩ 0 on :=
  ⟨by simp [patch], fun b ho B hB => ⟨B.data, by rw [patch_blk_not ho, hB], fun _ _ => rfl⟩⟩

/-- Dead blocks. -/
def kill (_ : Nat) (B : Block) : Block := { B with live := false }

/-- The block as it is in `s'`. -/
def recorded (s' : St) (b : Nat) (B : Block) : Block := (s'.blk b).getD B

/-! ## Array initializers -/

/-- What `initialize` may rely on. -/
structure GoodA (R : RTy) (I : ArrInit) (s : St) (p : Ptr) (n : Nat) : Prop where
  pre : I.pre s
  acc : Acc s p (n * R.size)
  aligned : Aligned s p R.align
  apart : ¬ I.fp p.blk

open Classical in
/-- The replay of a run of `I` on a slice of length `n` that leaves `bytes` in it, logs `es` and returns, or panics with `m`; or of a drop that logs `ed`. -/
noncomputable def replayA (R : RTy) (I : ArrInit) (n : Nat) (bytes : Img) (xs : Option (List Img)) (m : PanicMsg) (es ed : List Event) : ArrInit where
  run := fun dst s =>
    if GoodA R I s dst.ptr dst.len then
      if dst.len = n then
        if xs.isSome then .ok () ((s.write dst.ptr bytes).logged es) else .panic m ((s.write dst.ptr bytes).logged es)
      else .panic .user s
    else .ub .typeConfusion
  dropI := fun s => if I.pre s then .ok () (s.logged ed) else .ub .typeConfusion
  pre := I.pre
  fp := I.fp
  vals := fun k => if k = n then xs else none
  owes := ed
  left := fun _ => es
  lost := fun k => if k = n then es else []

theorem Touch.logged' {s s' : St} {p : Ptr} {n : Nat} {own : Nat → Prop} (h : Touch s s' p n own) (es : List Event) : Touch s (s'.logged es) p n own :=
  h.trans (Touch.logged _ _ _ _ _)

theorem replayA_lawful {R : RTy} {I : ArrInit} {n : Nat} {bytes : Img} {xs : Option (List Img)} {m : PanicMsg} {es ed : List Event}
    (hfp : ∀ s b, I.pre s → I.fp b → s.blk b ≠ none) (hst : ∀ s s', I.pre s → Same s s' I.fp → I.pre s')
    (hlen : bytes.length = n * R.size) (hxs : ∀ ys, xs = some ys → ys = elemsV (fun i => bytes.getD i none) 0 R.size n ∧ ∀ y ∈ ys, R.valid y = true) :
    ArrInitLawful R (replayA R I n bytes xs m es ed) where
  fp_exists := hfp
  stable := hst
  vals_ok := fun k ys h => by
    simp only [replayA] at h
    split at h
    · next hk => obtain ⟨h1, h2⟩ := hxs _ h; exact ⟨by rw [h1, hk]; simp, h2⟩
    · cases h
  drop_ok := fun s hp => ⟨s.logged ed, by have hp' : I.pre s := hp; simp [replayA, hp'], Touch.logged _ _ _ _ _, rfl, rfl⟩
  run_ok := fun s p k ys hp hv hacc hal hap => by
    simp only [replayA] at hv
    split at hv
    · next hk =>
      subst hk
      obtain ⟨h1, h2⟩ := hxs _ hv
      have hg : GoodA R I s p k := ⟨hp, hacc, hal, hap⟩
      refine ⟨(s.write p bytes).logged es, by simp [replayA, hg, hv], Touch.logged' (by rw [← hlen]; exact Touch.write) _, ?_, by simp [replayA], by simp⟩
      rw [h1]
      simp only [St.logged_viewAt]
      refine elemsV_congr fun i hi => ?_
      rw [viewAt_write (by rw [hlen]; exact hacc)]
      simp only [overwrite]
      rw [if_pos (by omega)]
      simp
    · cases hv
  run_panic := fun s p k hp hv hacc hal hap => by
    have hg : GoodA R I s p k := ⟨hp, hacc, hal, hap⟩
    simp only [replayA] at hv
    split at hv
    · next hk =>
      subst hk
      exact ⟨m, (s.write p bytes).logged es, by simp [replayA, hg, hv], Touch.logged' (by rw [← hlen]; exact Touch.write) _, by simp [replayA], by simp⟩
    · next hk => exact ⟨.user, s, by simp [replayA, hg, hk], Touch.refl _ _ _ _, by simp [replayA, hk], rfl⟩

/-- What can be said of a stand-in for an array initializer without running it. -/
structure SurA (R : RTy) (I J : ArrInit) : Prop where
  lib : LibArrInit R J
  pre : J.pre = I.pre
  fp : J.fp = I.fp

/-- An array initializer can be simulated by pure ones. -/
structure SimA (U : World) (R : RTy) (I : ArrInit) : Prop where
  sur : ∃ J, SurA R I J
  drop : ∀ s prot, U.ok s prot → (∀ b, I.fp b → prot b) → ∃ J, SurA R I J ∧ ∀ sP, Agree prot s sP →
    Sim U prot (I.dropI s) (J.dropI sP) (fun _ => ∀ n, RecA U R n false I J) False
  run : ∀ s prot p n, U.ok s prot → (∀ b, I.fp b → prot b) → prot p.blk → ∃ J, SurA R I J ∧ ∀ sP, Agree prot s sP →
    Sim U prot (I.run ⟨p, n⟩ s) (J.run ⟨p, n⟩ sP) (fun _ => RecA U R n true I J ∧ J.vals n ≠ none) (RecA U R n true I J ∧ J.vals n = none)

theorem GoodA.agree {R : RTy} {I : ArrInit} {s sP : St} {p : Ptr} {n : Nat} {prot : Nat → Prop} (hst : ∀ s s', I.pre s → Same s s' I.fp → I.pre s')
    (ha : Agree prot s sP) (hfp : ∀ b, I.fp b → prot b) (hp : prot p.blk) : GoodA R I sP p n ↔ GoodA R I s p n := by
  have hs : ∀ b, I.fp b → sP.blk b = s.blk b := fun b hb => ha.same b (hfp b hb)
  constructor
  · rintro ⟨h1, h2, h3, h4⟩
    exact ⟨hst _ _ h1 fun b hb => (hs b hb).symm, (ha.same.acc hp).1 h2, (ha.same.aligned hp).1 h3, h4⟩
  · rintro ⟨h1, h2, h3, h4⟩
    exact ⟨hst _ _ h1 hs, (ha.same.acc hp).2 h2, (ha.same.aligned hp).2 h3, h4⟩

/-- Writing the recorded bytes makes the protected blocks as recorded. -/
theorem wrote_replay {U : World} {prot : Nat → Prop} {s s' sP : St} {p : Ptr} {n : Nat} {own : Nat → Prop} {es : List Event} (h : Wrote U prot s s' p n own es) (ha : Agree prot s sP)
    {b : Nat} (hb : prot b) (hob : ¬ own b) : s'.blk b = (sP.write p (takeV (viewAt s' p) 0 n)).blk b := by
  cases hB : s.blk b with
  | none =>
    rw [(h.none b hb).2 hB]
    have : sP.blk b = none := by rw [ha.same b hb, hB]
    exact ((Touch.write (own := fun _ => False)).none.2 this).symm
  | some B =>
    obtain ⟨d, e1, e2⟩ := h.blk b hb hob B hB
    have hBP : sP.blk b = some B := by rw [ha.same b hb, hB]
    by_cases hbp : b = p.blk
    · subst hbp
      rw [St.blk_write hBP, if_pos rfl, e1]
      congr 2
      funext i
      simp only [overwrite, takeV_length]
      split
      · next hi =>
        obtain ⟨j, rfl⟩ : ∃ j, i = p.off + j := ⟨i - p.off, by omega⟩
        have hj : j < n := by omega
        simp [takeV, hj, viewAt, e1]
      · next hi => exact e2 i fun hc => hi ⟨hc.2.1, hc.2.2⟩
    · rw [h.same hb hob (.inr hbp), hB]
      by_cases hBp : sP.blk p.blk = none
      · simp only [St.write, hBp, hBP]
      · obtain ⟨C, hC⟩ := Option.ne_none_iff_exists'.1 hBp
        rw [St.blk_write hC, if_neg hbp, hBP]

theorem log_cancel {s s' : St} {es es' : List Event} (h : s'.log = s.log ++ es) (h' : s'.log = s.log ++ es') : es = es' := List.append_cancel_left (h.symm.trans h')

theorem ArrOk.sim {U : World} {R : RTy} {I : ArrInit} {Out : Nat → List Img → List Event → Prop} {Lost : Nat → List Event → Prop} {Owes : List Event → Prop} (h : ArrOk U R I Out Lost Owes) :
    SimA U R I where
  sur := ⟨replayA R I 0 [] none .user [] [], .user (replayA_lawful h.fp_exists h.stable (by simp) (by simp)), rfl, rfl⟩
  drop := fun s prot hU hfp => by
    have hagree : ∀ sP, Agree prot s sP → (I.pre sP ↔ I.pre s) := fun sP ha =>
      ⟨fun hp => h.stable _ _ hp fun b hb => (ha.same b (hfp b hb)).symm, fun hp => h.stable _ _ hp fun b hb => ha.same b (hfp b hb)⟩
    have hlaw : ∀ ed, LibArrInit R (replayA R I 0 [] none .user [] ed) := fun ed => .user (replayA_lawful h.fp_exists h.stable (by simp) (by simp))
    by_cases hpre : I.pre s
    · obtain ⟨s', es, e1, e2, e3⟩ := h.drop_ok s prot hU hfp hpre
      refine ⟨replayA R I 0 [] none .user [] es, ⟨hlaw _, rfl, rfl⟩, fun sP ha => ?_⟩
      simp only [replayA, hagree sP ha, hpre, if_true, e1]
      refine .ok e2.ok ⟨fun b hb => ?_, ?_⟩ fun n Out' Lost' Owes' h' => ?_
      · rw [St.logged_blk, ha.same b hb, e2.keep b hb]
      · rw [St.logged_log, ha.log, e2.log]
      · obtain ⟨s'', es', f1, f2, f3⟩ := h'.drop_ok s prot hU hfp hpre
        rw [e1] at f1
        cases f1
        simp only [Bool.false_eq_true, if_false]
        rw [log_cancel e2.log f2.log]; exact f3
    · refine ⟨replayA R I 0 [] none .user [] [], ⟨hlaw _, rfl, rfl⟩, fun sP ha => ?_⟩
      simp only [replayA, hagree sP ha, hpre, if_false]
      trivial
  run := fun s prot p n hU hfp hp => by
    by_cases hg : GoodA R I s p n
    · have hb : ∀ s', (takeV (viewAt s' p) 0 (n * R.size)).length = n * R.size := fun s' => by simp
      have hel : ∀ s', elemsV (viewAt s' p) 0 R.size n = elemsV (fun i => (takeV (viewAt s' p) 0 (n * R.size)).getD i none) 0 R.size n := fun s' =>
        elemsV_congr fun i hi => by simp [takeV, hi]
      have hag : ∀ s' es sP, Wrote U prot s s' p (n * R.size) (fun _ => False) es → Agree prot s sP → Agree prot s' ((sP.write p (takeV (viewAt s' p) 0 (n * R.size))).logged es) := by
        intro s' es sP hw ha
        exact ⟨fun b hb => by rw [St.logged_blk]; exact (wrote_replay hw ha hb id).symm, by simp [ha.log, hw.log]⟩
      rcases h.run_ok s prot p n hU hfp hp hg.pre hg.acc hg.aligned hg.apart with ⟨s', es, e1, e2, e3, e4⟩ | ⟨m, s', es, e1, e2, e3⟩
      · refine ⟨replayA R I n (takeV (viewAt s' p) 0 (n * R.size)) (some (elemsV (viewAt s' p) 0 R.size n)) .user es [],
          ⟨.user (replayA_lawful h.fp_exists h.stable (hb _) ?_), rfl, rfl⟩, fun sP ha => ?_⟩
        · rintro ys ⟨⟩; exact ⟨hel _, e3⟩
        · simp only [replayA, (GoodA.agree h.stable ha hfp hp), hg, if_true, Option.isSome, e1]
          refine .ok e2.ok (hag _ _ _ e2 ha) ⟨fun Out' Lost' Owes' h' => ?_, by simp⟩
          simp only [if_true]
          rcases h'.run_ok s prot p n hU hfp hp hg.pre hg.acc hg.aligned hg.apart with ⟨s'', es', f1, f2, f3, f4⟩ | ⟨m, s'', es', f1, f2, f3⟩
          · rw [e1] at f1; cases f1
            rw [log_cancel e2.log f2.log]; exact f4
          · rw [e1] at f1; cases f1
      · refine ⟨replayA R I n (takeV (viewAt s' p) 0 (n * R.size)) none m es [],
          ⟨.user (replayA_lawful h.fp_exists h.stable (hb _) (by simp)), rfl, rfl⟩, fun sP ha => ?_⟩
        simp only [replayA, (GoodA.agree h.stable ha hfp hp), hg, if_true, Option.isSome, e1, Bool.false_eq_true, if_false]
        refine .panic e2.ok (hag _ _ _ e2 ha) ⟨fun Out' Lost' Owes' h' => ?_, by simp⟩
        simp only [if_true]
        rcases h'.run_ok s prot p n hU hfp hp hg.pre hg.acc hg.aligned hg.apart with ⟨s'', es', f1, f2, f3, f4⟩ | ⟨m, s'', es', f1, f2, f3⟩
        · rw [e1] at f1; cases f1
        · rw [e1] at f1; cases f1
          rw [log_cancel e2.log f2.log]; exact f3
    · refine ⟨replayA R I 0 [] none .user [] [], ⟨.user (replayA_lawful h.fp_exists h.stable (by simp) (by simp)), rfl, rfl⟩, fun sP ha => ?_⟩
      simp only [replayA, (GoodA.agree h.stable ha hfp hp), hg, if_false]
      trivial

/-! ## Initializers -/

/-- What `initialize` may rely on. -/
structure GoodI (T : VarLen w) (I : Init w) (s : St) (p : Ptr) (l : Layout w) : Prop where
  pre : I.pre s
  lay : I.lay = some l
  acc : Acc s p l.size.toNat
  aligned : Aligned s p T.ALIGN.toNat
  apart : ¬ I.fp p.blk

open Classical in
/-- The replay of a run of `I` that leaves `bytes` in the destination and the blocks in `on` as `g` tells, logs `es` and returns, or panics with `m`; or of a drop that logs `ed` and leaves blocks as `gd` tells. -/
noncomputable def replayI (T : VarLen w) (I : Init w) (bytes : Img) (v : Option V) (m : PanicMsg) (g gd : Nat → Block → Block) (es ed : List Event) : Init w where
  cautious := I.cautious
  initTo := fun p l s =>
    if GoodI T I s p l then
      if v.isSome then .ok () (((patch s I.owns g).write p bytes).logged es) else .panic m (((patch s I.mods g).write p bytes).logged es)
    else .ub .typeConfusion
  dropI := fun s => if I.pre s then .ok () ((patch s I.mods gd).logged ed) else .ub .typeConfusion
  pre := I.pre
  fp := I.fp
  mods := I.mods
  owns := I.owns
  lay := I.lay
  bad := I.bad
  val := v
  owes := ed
  left := es
  lost := es

/-- The part of the contract that does not depend on the world. -/
structure Frame (I : Init w) : Prop where
  owns_mods : ∀ b, I.owns b → I.mods b
  mods_fp : ∀ b, I.mods b → I.fp b
  fp_exists : ∀ s b, I.pre s → I.fp b → s.blk b ≠ none
  stable : ∀ s s', I.pre s → Same s s' I.fp → I.pre s'
  calc_ok : ∀ s, I.pre s → I.bad = false → I.cautious s = .ok I.lay s
  calc_panic : ∀ s, I.pre s → I.bad = true → I.cautious s = .panic .user s
  bad_lay : I.bad = true → I.lay = none

theorem InitOk.frame {U : World} {T : VarLen w} {I : Init w} {Out : V → List Event → Prop} {Lost Owes : List Event → Prop} (h : InitOk U T I Out Lost Owes) : Frame I :=
  ⟨h.owns_mods, h.mods_fp, h.fp_exists, h.stable, h.calc_ok, h.calc_panic, h.bad_lay⟩

theorem replayI_lawful {T : VarLen w} (hT : Lawful T) {I : Init w} (hI : Frame I) {bytes : Img} {v : Option V} {m : PanicMsg} {g gd : Nat → Block → Block} {es ed : List Event}
    (hlen : ∀ l, I.lay = some l → bytes.length = l.size.toNat) (hv : ∀ x l, v = some x → I.lay = some l → T.Rep x l (fun i => bytes.getD i none))
    (hg : ∀ b B, I.owns b → (g b B).live = false) (hgd : ∀ b B, I.owns b → (gd b B).live = false) :
    InitLawful T (replayI T I bytes v m g gd es ed) where
  owns_mods := hI.owns_mods
  mods_fp := hI.mods_fp
  fp_exists := hI.fp_exists
  stable := hI.stable
  calc_ok := hI.calc_ok
  calc_panic := hI.calc_panic
  bad_lay := hI.bad_lay
  drop_ok := fun s hp => by
    have hp' : I.pre s := hp
    refine ⟨(patch s I.mods gd).logged ed, by simp [replayI, hp'], Touch.logged' (patch_touch _ _ _) _, fun b hb => ?_, rfl, rfl⟩
    obtain ⟨B, hB⟩ := Option.ne_none_iff_exists'.1 (hI.fp_exists s b hp (hI.mods_fp b (hI.owns_mods b hb)))
    exact ⟨gd b B, by rw [St.logged_blk, patch_blk_on (hI.owns_mods b hb), hB]; rfl, hgd b B hb⟩
  init_ok := fun s p l x hp hl hx hacc hal hap => by
    have hgood : GoodI T I s p l := ⟨hp, hl, hacc, hal, hap⟩
    have hx' : v = some x := hx
    have hl' : I.lay = some l := hl
    have hap' : ¬ I.fp p.blk := hap
    have hno : ¬ I.owns p.blk := fun h => hap' (hI.mods_fp _ (hI.owns_mods _ h))
    have hb := hlen l hl'
    have ht : Touch s ((patch s I.owns g).write p bytes) p l.size.toNat I.owns :=
      ((patch_touch s I.owns g).mono (.inl rfl) (fun _ h => h)).trans (by rw [← hb]; exact Touch.write)
    have hacc' : Acc (patch s I.owns g) p bytes.length := by
      rw [hb]; exact (patch_touch s I.owns g).acc hno hacc
    refine ⟨((patch s I.owns g).write p bytes).logged es, by simp [replayI, hgood, hx'], Touch.logged' ht _, fun b hb => ?_, ?_, by simp [replayI, patch], by simp [patch]⟩
    · obtain ⟨B, hB⟩ := Option.ne_none_iff_exists'.1 (hI.fp_exists s b hp (hI.mods_fp b (hI.owns_mods b hb)))
      have hne : b ≠ p.blk := by rintro rfl; exact hno hb
      refine ⟨g b B, ?_, hg b B hb⟩
      rw [St.logged_blk, (Touch.write (own := fun _ => False)).blk_eq (fun h => h) hne, patch_blk_on (show I.owns b from hb), hB]; rfl
    · refine hT.rep_ext _ _ _ _ (hv x l hx' hl') fun i hi => ?_
      rw [St.logged_viewAt, viewAt_write hacc']
      simp only [overwrite]
      rw [if_pos (by omega)]
      simp
  init_panic := fun s p l hp hl hx hacc hal hap => by
    have hgood : GoodI T I s p l := ⟨hp, hl, hacc, hal, hap⟩
    have hx' : v = none := hx
    have hl' : I.lay = some l := hl
    have hap' : ¬ I.fp p.blk := hap
    have hb := hlen l hl'
    have ht : Touch s ((patch s I.mods g).write p bytes) p l.size.toNat I.mods :=
      ((patch_touch s I.mods g).mono (.inl rfl) (fun _ h => h)).trans (by rw [← hb]; exact Touch.write)
    refine ⟨m, ((patch s I.mods g).write p bytes).logged es, by simp [replayI, hgood, hx'], Touch.logged' ht _, fun b hb => ?_, by simp [replayI, patch], by simp [patch]⟩
    obtain ⟨B, hB⟩ := Option.ne_none_iff_exists'.1 (hI.fp_exists s b hp (hI.mods_fp b (hI.owns_mods b hb)))
    have hne : b ≠ p.blk := by rintro rfl; exact hap' (hI.mods_fp _ (hI.owns_mods _ hb))
    refine ⟨g b B, ?_, hg b B hb⟩
    rw [St.logged_blk, (Touch.write (own := fun _ => False)).blk_eq (fun h => h) hne, patch_blk_on (hI.owns_mods b hb), hB]; rfl

/-- What can be said of a stand-in for an initializer without running it. -/
structure SurI (T : VarLen w) (I J : Init w) : Prop where
  lib : LibInit T J
  cautious : J.cautious = I.cautious
  pre : J.pre = I.pre
  fp : J.fp = I.fp
  mods : J.mods = I.mods
  owns : J.owns = I.owns
  lay : J.lay = I.lay
  bad : J.bad = I.bad

/-- An initializer can be simulated by pure ones, that satisfy `A`. -/
structure SimI (U : World) (T : VarLen w) (I : Init w) (A : Bool → Init w → Prop) : Prop where
  sur : ∃ J, SurI T I J
  drop : ∀ s prot, U.ok s prot → (∀ b, I.fp b → prot b) → ∃ J, SurI T I J ∧ ∀ sP, Agree prot s sP →
    Sim U prot (I.dropI s) (J.dropI sP) (fun _ => A false J) False
  run : ∀ s prot p l, U.ok s prot → (∀ b, I.fp b → prot b) → prot p.blk → I.lay = some l → ∃ J, SurI T I J ∧ ∀ sP, Agree prot s sP →
    Sim U prot (I.initTo p l s) (J.initTo p l sP) (fun _ => A true J ∧ J.val ≠ none) (A true J ∧ J.val = none)

theorem GoodI.agree {T : VarLen w} {I : Init w} {s sP : St} {p : Ptr} {l : Layout w} {prot : Nat → Prop} (hst : ∀ s s', I.pre s → Same s s' I.fp → I.pre s')
    (ha : Agree prot s sP) (hfp : ∀ b, I.fp b → prot b) (hp : prot p.blk) : GoodI T I sP p l ↔ GoodI T I s p l := by
  have hs : ∀ b, I.fp b → sP.blk b = s.blk b := fun b hb => ha.same b (hfp b hb)
  constructor
  · rintro ⟨h1, h2, h3, h4, h5⟩
    exact ⟨hst _ _ h1 fun b hb => (hs b hb).symm, h2, (ha.same.acc hp).1 h3, (ha.same.aligned hp).1 h4, h5⟩
  · rintro ⟨h1, h2, h3, h4, h5⟩
    exact ⟨hst _ _ h1 hs, h2, (ha.same.acc hp).2 h3, (ha.same.aligned hp).2 h4, h5⟩

/-- Replaying the change of the protected blocks. -/
theorem replay_agree {U : World} {prot : Nat → Prop} {s s' sP : St} {p : Ptr} {n : Nat} {on : Nat → Prop} {es : List Event} (h : Wrote U prot s s' p n on es) (ha : Agree prot s sP)
    (hon : ∀ b, on b → b ≠ p.blk) (hex : ∀ b, on b → s.blk b ≠ none) :
    Agree prot s' (((patch sP on (recorded s')).write p (takeV (viewAt s' p) 0 n)).logged es) := by
  refine ⟨fun b hb => ?_, by simp [patch, ha.log, h.log]⟩
  rw [St.logged_blk]
  by_cases ho : on b
  · rw [(Touch.write (own := fun _ => False)).blk_eq (fun h => h) (hon b ho), patch_blk_on ho, ha.same b hb]
    obtain ⟨B, hB⟩ := Option.ne_none_iff_exists'.1 (hex b ho)
    have hne : s'.blk b ≠ none := fun hc => by rw [(h.none b hb).1 hc] at hB; cases hB
    obtain ⟨C, hC⟩ := Option.ne_none_iff_exists'.1 hne
    rw [hB, hC]; simp [recorded, hC]
  · rw [wrote_replay h ha hb ho]
    by_cases hbp : b = p.blk
    · subst hbp
      cases hB : sP.blk p.blk with
      | none =>
        have h1 : (patch sP on (recorded s')).blk p.blk = none := by rw [patch_blk_not ho, hB]
        rw [(Touch.write (own := fun _ => False)).none.2 h1, (Touch.write (own := fun _ => False)).none.2 hB]
      | some B =>
        have h1 : (patch sP on (recorded s')).blk p.blk = some B := by rw [patch_blk_not ho, hB]
        rw [St.blk_write h1, St.blk_write hB]; simp
    · rw [(Touch.write (own := fun _ => False)).blk_eq (fun h => h) hbp, (Touch.write (own := fun _ => False)).blk_eq (fun h => h) hbp, patch_blk_not ho]

theorem Frame.stub {T : VarLen w} (hT : LibType T) {I : Init w} (hI : Frame I) (m : PanicMsg) (gd : Nat → Block → Block) (ed : List Event) (hgd : ∀ b B, I.owns b → (gd b B).live = false) :
    ∃ bytes : Img, SurI T I (replayI T I bytes none m kill gd [] ed) :=
  ⟨match I.lay with
    | some l => List.replicate l.size.toNat none
    | none => [],
   .user hT (replayI_lawful hT.lawful hI (fun l hl => by simp [hl]) (fun x l hx => by simp at hx) (fun _ _ _ => rfl) hgd), rfl, rfl, rfl, rfl, rfl, rfl, rfl⟩

theorem InitOk.sim {U : World} {T : VarLen w} (hT : LibType T) {I : Init w} {Out : V → List Event → Prop} {Lost Owes : List Event → Prop} (h : InitOk U T I Out Lost Owes) :
    SimI U T I (fun used => RecI U T used I) where
  sur := by
    obtain ⟨bytes, hs⟩ := h.frame.stub hT .user kill [] (fun _ _ _ => rfl)
    exact ⟨_, hs⟩
  drop := fun s prot hU hfp => by
    have hagree : ∀ sP, Agree prot s sP → (I.pre sP ↔ I.pre s) := fun sP ha =>
      ⟨fun hp => h.stable _ _ hp fun b hb => (ha.same b (hfp b hb)).symm, fun hp => h.stable _ _ hp fun b hb => ha.same b (hfp b hb)⟩
    by_cases hpre : I.pre s
    · obtain ⟨s', es, e1, e2, e3, e4⟩ := h.drop_ok s prot hU hfp hpre
      have hgd : ∀ b B, I.owns b → (recorded s' b B).live = false := fun b B hb => by
        obtain ⟨C, hC, hl⟩ := e3 b hb
        simp [recorded, hC, hl]
      obtain ⟨bytes, hs⟩ := h.frame.stub hT .user (recorded s') es hgd
      refine ⟨_, hs, fun sP ha => ?_⟩
      simp only [replayI, hagree sP ha, hpre, if_true, e1]
      refine .ok e2.ok ?_ (fun Out' Lost' Owes' h' => ?_)
      · have := replay_agree e2 ha (fun b hb => by
            rintro rfl
            exact h.fp_exists s 0 hpre (h.mods_fp _ hb) rfl) (fun b hb => h.fp_exists s b hpre (h.mods_fp _ hb))
        refine ⟨fun b hb => ?_, by rw [St.logged_log]; simp [patch, ha.log, e2.log]⟩
        rw [← this.same b hb, St.logged_blk, St.logged_blk]
        rfl
      · obtain ⟨s'', es', f1, f2, f3, f4⟩ := h'.drop_ok s prot hU hfp hpre
        rw [e1] at f1
        cases f1
        simp only [Bool.false_eq_true, if_false]
        rw [log_cancel e2.log f2.log]; exact f4
    · obtain ⟨bytes, hs⟩ := h.frame.stub hT .user kill [] (fun _ _ _ => rfl)
      refine ⟨_, hs, fun sP ha => ?_⟩
      simp only [replayI, hagree sP ha, hpre, if_false]
      trivial
  run := fun s prot p l hU hfp hp hl => by
    by_cases hg : GoodI T I s p l
    · have hb : ∀ s' l', I.lay = some l' → (takeV (viewAt s' p) 0 l.size.toNat).length = l'.size.toNat := fun s' l' hl' => by
        rw [hl] at hl'; cases hl'; simp
      have hne : ∀ b, I.mods b → b ≠ p.blk := fun b hb => by rintro rfl; exact hg.apart (h.mods_fp _ hb)
      have hex : ∀ b, I.mods b → s.blk b ≠ none := fun b hb => h.fp_exists s b hg.pre (h.mods_fp _ hb)
      have hkill : ∀ s', (∀ b, I.owns b → ∃ B, s'.blk b = some B ∧ B.live = false) → ∀ b B, I.owns b → (recorded s' b B).live = false := fun s' e3 b B hb => by
        obtain ⟨C, hC, hl⟩ := e3 b hb
        simp [recorded, hC, hl]
      rcases h.init_ok s prot p l hU hfp hp hg.pre hl hg.acc hg.aligned hg.apart with ⟨s', v, es, e1, e2, e3, e4, e5⟩ | ⟨m, s', es, e1, e2, e3, e4⟩
      · refine ⟨replayI T I (takeV (viewAt s' p) 0 l.size.toNat) (some v) .user (recorded s') kill es [],
          ⟨.user hT (replayI_lawful hT.lawful h.frame (hb _) ?_ (hkill _ e3) (fun _ _ _ => rfl)), rfl, rfl, rfl, rfl, rfl, rfl, rfl⟩, fun sP ha => ?_⟩
        · intro x l' hx hl'
          cases hx
          rw [hl] at hl'; cases hl'
          exact hT.lawful.rep_ext _ _ _ _ e4 fun i hi => by simp [takeV, hi]
        · simp only [replayI, (GoodI.agree h.stable ha hfp hp), hg, if_true, Option.isSome, e1]
          refine .ok e2.ok (replay_agree e2 ha (fun b hb => hne b (h.owns_mods b hb)) (fun b hb => hex b (h.owns_mods b hb))) ⟨fun Out' Lost' Owes' h' => ?_, by simp⟩
          simp only [if_true]
          rcases h'.init_ok s prot p l hU hfp hp hg.pre hl hg.acc hg.aligned hg.apart with ⟨s'', v', es', f1, f2, f3, f4, f5⟩ | ⟨m, s'', es', f1, f2, f3, f4⟩
          · rw [e1] at f1; cases f1
            rw [log_cancel e2.log f2.log, (hT.lawful.rep_unique _ _ _ _ _ e4 f4).1]; exact f5
          · rw [e1] at f1; cases f1
      · refine ⟨replayI T I (takeV (viewAt s' p) 0 l.size.toNat) none m (recorded s') kill es [],
          ⟨.user hT (replayI_lawful hT.lawful h.frame (hb _) (by simp) (hkill _ e3) (fun _ _ _ => rfl)), rfl, rfl, rfl, rfl, rfl, rfl, rfl⟩, fun sP ha => ?_⟩
        simp only [replayI, (GoodI.agree h.stable ha hfp hp), hg, if_true, Option.isSome, e1, Bool.false_eq_true, if_false]
        refine .panic e2.ok (replay_agree e2 ha hne hex) ⟨fun Out' Lost' Owes' h' => ?_, by simp⟩
        simp only [if_true]
        rcases h'.init_ok s prot p l hU hfp hp hg.pre hl hg.acc hg.aligned hg.apart with ⟨s'', v', es', f1, f2, f3, f4, f5⟩ | ⟨m, s'', es', f1, f2, f3, f4⟩
        · rw [e1] at f1; cases f1
        · rw [e1] at f1; cases f1
          rw [log_cancel e2.log f2.log]; exact f4
    · obtain ⟨bytes, hs⟩ := h.frame.stub hT .user kill [] (fun _ _ _ => rfl)
      refine ⟨_, hs, fun sP ha => ?_⟩
      simp only [replayI, (GoodI.agree h.stable ha hfp hp), hg, if_false]
      trivial

end Varlen.Eff
