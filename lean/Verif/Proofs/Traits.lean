import Verif.Proofs.Mem
import Verif.Spec.Unwind
namespace Varlen
variable {w : Nat}

/-- No block is released. -/
abbrev noOwn : Nat → Prop := fun _ => False

/-! ## Logging does not affect memory -/
def St.logged (s : St) (es : List Event) : St := { s with log := s.log ++ es }
@[simp] theorem St.logged_blk (s : St) (es b) : (s.logged es).blk b = s.blk b := by cases b <;> rfl
@[simp] theorem St.logged_blocks (s : St) (es) : (s.logged es).blocks = s.blocks := rfl
@[simp] theorem St.logged_log (s : St) (es) : (s.logged es).log = s.log ++ es := rfl
@[simp] theorem St.logged_copied (s : St) (es) : (s.logged es).copied = s.copied := rfl
@[simp] theorem emit_apply (es) (s : St) : emit es s = .ok () (s.logged es) := rfl
theorem Touch.logged (s : St) (es p n own) : Touch s (s.logged es) p n own :=
  ⟨rfl, fun b _ B h => ⟨B.data, by simpa using h, fun _ _ => rfl⟩⟩
@[simp] theorem St.logged_acc (s : St) (es p n) : Acc (s.logged es) p n ↔ Acc s p n := by simp [Acc]
@[simp] theorem St.logged_viewAt (s : St) (es p) : viewAt (s.logged es) p = viewAt s p := by
  funext i; simp [viewAt]

theorem InitLawful.owns_fp {T : VarLen w} {I : Init w} (h : InitLawful T I) (b : Nat) (hb : I.owns b) : I.fp b := h.mods_fp b (h.owns_mods b hb)

theorem InitLawful.dropped {T : VarLen w} {I : Init w} (h : InitLawful T I) {s : St} (hp : I.pre s) : ∃ s', I.dropI s = .ok () s' ∧ Dropped I s s' := by
  obtain ⟨s', h1, h2, h3, h4, h5⟩ := h.drop_ok s hp
  refine ⟨s', h1, fun b hb => ?_, h3, h2.len, h4, h5⟩
  cases hB : s.blk b with
  | none => exact h2.none.2 hB
  | some B =>
    obtain ⟨d, e1, e2⟩ := h2.blk b hb B hB
    have : d = B.data := by funext i; exact e2 i (by omega)
    rw [e1, this]

/-! ## Leaf types -/
theorem RTy.Ok.sizeOf_toNat {R : RTy} (h : R.Ok w) : (R.sizeOf w).toNat = R.size := by
  simp [RTy.sizeOf, Nat.mod_eq_of_lt h.size_lt]

theorem RTy.Ok.alignOf_toNat {R : RTy} (h : R.Ok w) : (R.alignOf w).toNat = R.align := by
  obtain ⟨k, hk, ha⟩ := h.align_pow2
  simp [RTy.alignOf, ha, Nat.mod_eq_of_lt (Nat.pow_lt_pow_right (a := 2) (by omega) hk)]

theorem RTy.Ok.pow2 {R : RTy} (h : R.Ok w) : IsPow2 (R.alignOf w) := by
  obtain ⟨k, hk, ha⟩ := h.align_pow2
  exact ⟨k, hk, by rw [h.alignOf_toNat, ha]⟩

theorem RTy.Ok.align_pos {R : RTy} (h : R.Ok w) : 0 < R.align := by
  obtain ⟨k, hk, ha⟩ := h.align_pow2; rw [ha]; exact Nat.two_pow_pos k

theorem readVal_ok {s : St} {R : RTy} {p : Ptr} (ha : Acc s p R.size) (hal : Aligned s p R.align)
    (hv : R.valid (takeV (viewAt s p) 0 R.size) = true) :
    readVal R p s = .ok (takeV (viewAt s p) 0 R.size) s := by
  simp [readVal, checkAlign_ok hal, readBytes_ok ha, hv]

theorem writeVal_ok {s : St} {R : RTy} {p : Ptr} {img : Img} (ha : Acc s p img.length) (hal : Aligned s p R.align) :
    writeVal R p img s = .ok () (s.write p img) := by
  simp [writeVal, checkAlign_ok hal, writeBytes_ok ha]

theorem dropInPlace_ok {s : St} {R : RTy} {p : Ptr} (ha : Acc s p R.size) (hal : Aligned s p R.align)
    (hv : R.valid (takeV (viewAt s p) 0 R.size) = true) :
    ∃ s', dropInPlace R p s = .ok () s' ∧ Touch s s' p R.size noOwn ∧
      s'.log = s.log ++ R.drops (takeV (viewAt s p) 0 R.size) ∧ s'.copied = s.copied := by
  unfold dropInPlace
  cases hd : R.needsDrop
  · refine ⟨s, by simp [checkAlign_ok hal], Touch.refl _ _ _ _, by simp [RTy.drops, hd], rfl⟩
  · refine ⟨(s.logged (R.dropEv (takeV (viewAt s p) 0 R.size))).write p (List.replicate R.size none), ?_, ?_, ?_, ?_⟩
    · simp only [if_true, bind_apply, checkAlign_ok hal, Res.bind_ok, readVal_ok ha hal hv, emit_apply]
      exact writeBytes_ok (by simpa using ha)
    · refine (Touch.logged s (R.dropEv (takeV (viewAt s p) 0 R.size)) _ _ _).trans ?_
      exact (Touch.write (own := noOwn)).mono (.inr ⟨rfl, Nat.le_refl _, by simp⟩) (fun _ h => h)
    · simp [RTy.drops, hd]
    · simp

/-! ## Validity and frames -/
theorem Valid.of_touch {T : VarLen w} (hT : Lawful T) {s s' : St} {p q : Ptr} {n own v l} (h : Touch s s' p n own)
    (hv : Valid T s q v l) (hq : ¬ own q.blk)
    (hd : q.blk ≠ p.blk ∨ q.off + l.size.toNat ≤ p.off ∨ p.off + n ≤ q.off) : Valid T s' q v l := by
  refine ⟨h.acc hq hv.acc, h.aligned hq hv.aligned, hT.rep_ext _ _ _ _ hv.rep fun i hi => ?_⟩
  exact (h.view hq i (by omega)).symm

theorem Valid.of_same {T : VarLen w} {s s' : St} {on q v l} (h : Same s s' on) (hq : on q.blk)
    (hv : Valid T s q v l) : Valid T s' q v l :=
  ⟨(h.acc hq).2 hv.acc, (h.aligned hq).2 hv.aligned, by rw [h.viewAt hq]; exact hv.rep⟩

/-! ## `FixedLen` -/
theorem FixedLen.lawful {R : RTy} (hR : R.Ok w) : Lawful (FixedLen w R) where
  align_pow2 := hR.pow2
  head_align := by simp [FixedLen, hR.alignOf_toNat]
  rep_ext := by
    rintro v l o o' ⟨img, rfl, rfl, h1, h2⟩ h
    refine ⟨img, rfl, rfl, ?_, h2⟩
    rw [← h1]
    apply takeV_congr
    intro i hi
    simp only [Layout.size, hR.sizeOf_toNat] at h
    exact (h _ (by omega)).symm
  rep_unique := by
    rintro v l o v' l' ⟨img, rfl, rfl, h1, h2⟩ ⟨img', rfl, rfl, h1', h2'⟩
    rw [← h1, ← h1']; exact ⟨rfl, rfl⟩
  head_le := by
    rintro v l o ⟨img, rfl, rfl, h1, h2⟩
    simp [FixedLen, Layout.size, hR.sizeOf_toNat]
  calc_ok := by
    rintro s p v l ⟨_, _, img, rfl, rfl, h1, h2⟩
    rfl
  vdrop_ok := by
    rintro s p v l ⟨ha, hal, img, rfl, rfl, h1, h2⟩
    simp only [Layout.size, hR.sizeOf_toNat] at ha ⊢
    simp only [FixedLen, hR.alignOf_toNat] at hal
    subst h1
    exact dropInPlace_ok ha hal h2
  no_vdrop := by intro h; cases h

/-- An initializer that reports a layout does not panic in doing so. -/
theorem InitLawful.calc_some {T : VarLen w} {I : Init w} (hI : InitLawful T I) {s : St} (hp : I.pre s) {l : Layout w} (hl : I.lay = some l) : I.cautious s = .ok (some l) s := by
  cases hb : I.bad with
  | false => rw [← hl]; exact hI.calc_ok s hp hb
  | true => rw [hI.bad_lay hb] at hl; cases hl

theorem InitLawful.of_cautious {T : VarLen w} {I : Init w} (hI : InitLawful T I) {s : St} (hp : I.pre s) {x : Option (Layout w)} (h : I.cautious s = .ok x s) :
    I.lay = x ∧ I.bad = false := by
  cases hb : I.bad with
  | false =>
    have := hI.calc_ok s hp hb
    rw [h] at this
    injection this with h1
    exact ⟨h1.symm, rfl⟩
  | true =>
    have := hI.calc_panic s hp hb
    rw [h] at this
    cases this

theorem InitLawful.cautious_cases {T : VarLen w} {I : Init w} (hI : InitLawful T I) {s : St} (hp : I.pre s) :
    (I.cautious s = .ok I.lay s ∧ I.bad = false) ∨ (I.cautious s = .panic .user s ∧ I.bad = true ∧ I.lay = none) := by
  cases hb : I.bad with
  | false => exact .inl ⟨hI.calc_ok s hp hb, rfl⟩
  | true => exact .inr ⟨hI.calc_panic s hp hb, rfl, hI.bad_lay hb⟩

theorem InitLawful.good {T : VarLen w} {I : Init w} (hI : InitLawful T I) {l : Layout w} (hl : I.lay = some l) : I.bad = false := by
  cases hb : I.bad with
  | false => rfl
  | true => rw [hI.bad_lay hb] at hl; cases hl

theorem FixedLen.init_lawful {R : RTy} (hR : R.Ok w) {img : Img} (hi : R.valid img = true) :
    InitLawful (FixedLen w R) (FixedLen.init w R img) where
  owns_mods := fun _ h => h
  mods_fp := fun _ h => h
  fp_exists := fun _ _ _ h => h.elim
  stable := fun _ _ _ _ => trivial
  calc_ok := fun _ _ _ => rfl
  calc_panic := fun _ _ h => nomatch h
  bad_lay := fun h => nomatch h
  drop_ok := fun s _ => ⟨_, rfl, Touch.logged _ _ _ _ _, fun _ h => h.elim, rfl, rfl⟩
  init_ok := by
    intro s p l v _ hl hv ha hal _
    cases hl; cases hv
    simp only [Layout.size, hR.sizeOf_toNat] at ha ⊢
    simp only [FixedLen, hR.alignOf_toNat] at hal
    have hlen := hR.valid_len _ hi
    rw [← hlen] at ha
    refine ⟨s.write p img, writeVal_ok ha hal, ?_, fun _ h => h.elim, ?_, by simp [FixedLen.init], by simp⟩
    · rw [← hlen]; exact Touch.write
    · refine ⟨img, rfl, rfl, ?_, hi⟩
      rw [← hlen]; exact takeV_viewAt_write ha
  init_panic := by intro s p l _ _ h; cases h

theorem FixedLen.cloner_lawful {R : RTy} (hR : R.Ok w) {c : CloneFn} (hc : c.Ok R) {src : Ptr} {img : Img} :
    InitLawful (FixedLen w R) (FixedLen.cloner w R c src img) where
  owns_mods := fun _ h => h.elim
  mods_fp := fun _ h => h.elim
  fp_exists := by rintro s b ⟨_, h⟩ rfl; exact h
  stable := by
    rintro s s' ⟨h, h2⟩ hs
    exact ⟨h.of_same hs rfl, by rw [hs _ rfl]; exact h2⟩
  calc_ok := fun _ _ _ => rfl
  calc_panic := fun _ _ h => nomatch h
  bad_lay := fun h => nomatch h
  drop_ok := fun s _ => ⟨s, rfl, Touch.refl _ _ _ _, fun _ h => h.elim, (List.append_nil _).symm, rfl⟩
  init_ok := by
    rintro s p l v ⟨⟨sa, sal, img', h0, h0', h1, h2⟩, _⟩ hl hv ha hal _
    cases hl; cases h0
    simp only [Layout.size, hR.sizeOf_toNat] at ha sa ⊢
    simp only [FixedLen, hR.alignOf_toNat] at hal sal
    subst h1
    simp only [FixedLen.cloner, Option.map_eq_some_iff] at hv
    obtain ⟨b, hb, rfl⟩ := hv
    have hbv := hc _ _ h2 hb
    have hlen := hR.valid_len _ hbv
    rw [← hlen] at ha
    refine ⟨s.write p b, ?_, ?_, fun _ h => h.elim, ?_, by simp [FixedLen.cloner], by simp⟩
    · simp only [FixedLen.cloner, bind_apply, readVal_ok sa sal h2, Res.bind_ok, runClone, hb, pure_apply]
      exact writeVal_ok ha hal
    · rw [← hlen]; exact Touch.write
    · refine ⟨b, rfl, rfl, ?_, hbv⟩
      rw [← hlen]; exact takeV_viewAt_write ha
  init_panic := by
    rintro s p l ⟨⟨sa, sal, img', h0, h0', h1, h2⟩, _⟩ hl hv ha hal _
    cases hl; cases h0
    simp only [Layout.size, hR.sizeOf_toNat] at sa ⊢
    simp only [FixedLen, hR.alignOf_toNat] at sal
    subst h1
    simp only [FixedLen.cloner, Option.map_eq_none_iff] at hv
    refine ⟨.user, s, ?_, Touch.refl _ _ _ _, fun _ h => h.elim, (List.append_nil _).symm, rfl⟩
    simp [FixedLen.cloner, readVal_ok sa sal h2, runClone, hv]

/-! ## `VCopier` -/
theorem Aligned.one (s : St) (p : Ptr) : Aligned s p 1 := Nat.mod_one _

theorem VCopier_lawful {T : VarLen w} (hT : Lawful T) {src : Ptr} {v : V} {l : Layout w} :
    InitLawful T (VCopier T src v l) where
  owns_mods := fun _ h => h.elim
  mods_fp := fun _ h => h.elim
  fp_exists := by rintro s b ⟨_, h⟩ rfl; exact h
  stable := by
    rintro s s' ⟨h, h2⟩ hs
    exact ⟨h.of_same hs rfl, by rw [hs _ rfl]; exact h2⟩
  calc_ok := by
    rintro s ⟨h, _⟩ _
    simp [VCopier, hT.calc_ok _ _ _ _ h]
  calc_panic := fun _ _ h => nomatch h
  bad_lay := fun h => nomatch h
  drop_ok := fun s _ => ⟨s, rfl, Touch.refl _ _ _ _, fun _ h => h.elim, (List.append_nil _).symm, rfl⟩
  init_ok := by
    rintro s p l' v' ⟨hv, _⟩ hl hvv ha hal hfp
    cases hl; cases hvv
    have hne : src.blk ≠ p.blk := fun h => hfp h.symm
    refine ⟨_, copyNonoverlapping_ok (Aligned.one _ _) (Aligned.one _ _) hv.acc ha (.inr (.inl hne)),
      ?_, fun _ h => h.elim, ?_, by simp [VCopier], by simp⟩
    · exact Touch.write.mono (.inr ⟨rfl, Nat.le_refl _, by simp⟩) (fun _ h => h)
    · refine hT.rep_ext _ _ _ _ hv.rep fun i hi => ?_
      rw [viewAt_write (by simpa using ha)]
      have := overwrite_in (viewAt s p) 0 i (takeV (viewAt s src) 0 l.size.toNat) (by simpa using hi)
      rw [Nat.zero_add] at this
      rw [this, List.getD_eq_getElem?_getD, takeV_getElem?]
      simp [hi]
  init_panic := by intro s p l' _ _ h; cases h

end Varlen
