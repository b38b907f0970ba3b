import Verif.Model.Struct
import Verif.Proofs.Array
namespace Varlen
variable {w : Nat}

/-- Byte range of a header field in the head (empty for tail fields). -/
def Fld.range : Fld w → Nat × Nat
  | .normal R off => (off, R.size)
  | .length R off => (off, R.size)
  | _ => (0, 0)

/-- A well-formed field of a head with given size and alignment: field types are ordinary types placed in bounds and aligned by
the compiler, varlen fields satisfy the `VarLen` contract. -/
def Fld.Ok (headSize headAlign : Nat) : Fld w → Prop
  | .normal R off => R.Ok w ∧ off + R.size ≤ headSize ∧ off % R.align = 0 ∧ R.align ∣ headAlign
  | .length R off => R.Ok w ∧ off + R.size ≤ headSize ∧ off % R.align = 0 ∧ R.align ∣ headAlign
  | .varlen T => Lawful T
  | .array R _ => R.Ok w

/-- What the compiler guarantees about the struct: field placement in the head. -/
structure StructOk (headSize headAlign : Nat) (fs : List (Fld w)) : Prop where
  head_pow2 : ∃ k, k < w ∧ headAlign = 2 ^ k
  head_lt : headSize < 2 ^ w
  flds : ∀ f ∈ fs, f.Ok headSize headAlign
  disjoint : fs.Pairwise fun a b =>
    a.range.2 = 0 ∨ b.range.2 = 0 ∨ a.range.1 + a.range.2 ≤ b.range.1 ∨ b.range.1 + b.range.2 ≤ a.range.1

theorem RepHdr.congr {o o' : View} : ∀ (fs : List (Fld w)) vs,
    (∀ f ∈ fs, ∀ i, i < f.range.2 → o (f.range.1 + i) = o' (f.range.1 + i)) → RepHdr fs vs o → RepHdr fs vs o' := by
  intro fs
  induction fs with
  | nil => intro vs _ h; cases vs <;> exact h
  | cons f fs ih =>
    intro vs hc h
    have hc' : ∀ f ∈ fs, ∀ i, i < f.range.2 → o (f.range.1 + i) = o' (f.range.1 + i) :=
      fun g hg => hc g (by simp [hg])
    have hf := hc f (by simp)
    cases vs with
    | nil => cases f <;> simp [RepHdr] at h
    | cons v vs =>
      cases f with
      | normal R off =>
        cases v <;> simp only [RepHdr] at h ⊢
        have e : takeV o off R.size = takeV o' off R.size := takeV_congr hf
        rw [← e]
        exact ⟨h.1, ih _ hc' h.2⟩
      | length R off =>
        cases v <;> simp only [RepHdr] at h ⊢
        have e : takeV o off R.size = takeV o' off R.size := takeV_congr hf
        rw [← e]
        exact ⟨h.1, ih _ hc' h.2⟩
      | varlen T => simp only [RepHdr] at h ⊢; exact ih _ hc' h
      | array R len => simp only [RepHdr] at h ⊢; exact ih _ hc' h

theorem lengthsOf_congr {o o' : View} (fs : List (Fld w))
    (hc : ∀ f ∈ fs, ∀ i, i < f.range.2 → o (f.range.1 + i) = o' (f.range.1 + i)) : lengthsOf fs o = lengthsOf fs o' := by
  unfold lengthsOf
  induction fs with
  | nil => rfl
  | cons f fs ih =>
    have ih := ih (fun g hg => hc g (by simp [hg]))
    have hf := hc f (by simp)
    cases f with
    | length R off =>
      have : takeV o off R.size = takeV o' off R.size := takeV_congr hf
      simp only [List.filterMap_cons, ih, this]
    | normal R off => simpa using ih
    | varlen T => simpa using ih
    | array R len => simpa using ih

section
variable {hs ha : Nat}

/-- Evaluating a length expression that returns. -/
theorem LenFn.eval_ok (len : LenFn w) {lens : List Img} (h : len.defd lens = true) (s : St) : len.eval lens s = .ok (len lens) s := by
  simp [LenFn.eval, h]
theorem LenFn.eval_panic (len : LenFn w) {lens : List Img} (h : len.defd lens = false) (s : St) : len.eval lens s = .panic .user s := by
  simp [LenFn.eval, h]

theorem RepTails.le {lens : List Img} {o : View} : ∀ (fs : List (Fld w)) vs ls cur fin, (∀ f ∈ fs, f.Ok hs ha) →
    RepTails lens fs vs ls cur fin o → cur ≤ fin := by
  intro fs
  induction fs with
  | nil => intro vs ls cur fin _ h; cases vs <;> cases ls <;> simp [RepTails] at h; omega
  | cons f fs ih =>
    intro vs ls cur fin hok h
    have hok' : ∀ f ∈ fs, f.Ok hs ha := fun g hg => hok g (by simp [hg])
    have hf := hok f (by simp)
    cases vs with
    | nil => cases f <;> simp [RepTails] at h
    | cons v vs =>
      cases f with
      | normal R off => simp only [RepTails] at h; exact ih _ _ _ _ hok' h
      | length R off => simp only [RepTails] at h; exact ih _ _ _ _ hok' h
      | varlen T =>
        rcases ls with _ | ⟨⟨o', l⟩, ls⟩
        · simp [RepTails] at h
        · simp only [RepTails] at h
          have := ih _ _ _ _ hok' h.2
          have := roundUpN_ge cur T.ALIGN.toNat hf.align_pow2.pos
          omega
      | array R len =>
        rcases ls with _ | ⟨⟨o', l⟩, ls⟩
        · simp [RepTails] at h
        · cases v <;> cases l <;> simp only [RepTails] at h
          have := ih _ _ _ _ hok' h.2
          have := roundUpN_ge cur R.align (RTy.Ok.align_pos hf)
          omega

theorem RepTails.congr {lens : List Img} {o o' : View} : ∀ (fs : List (Fld w)) vs ls cur fin, (∀ f ∈ fs, f.Ok hs ha) →
    (∀ i, cur ≤ i → i < fin → o i = o' i) → RepTails lens fs vs ls cur fin o → RepTails lens fs vs ls cur fin o' := by
  intro fs
  induction fs with
  | nil => intro vs ls cur fin _ _ h; cases vs <;> cases ls <;> simp [RepTails] at h ⊢; exact h
  | cons f fs ih =>
    intro vs ls cur fin hok hc h
    have hok' : ∀ f ∈ fs, f.Ok hs ha := fun g hg => hok g (by simp [hg])
    have hf := hok f (by simp)
    cases vs with
    | nil => cases f <;> simp [RepTails] at h
    | cons v vs =>
      cases f with
      | normal R off => simp only [RepTails] at h ⊢; exact ih _ _ _ _ hok' hc h
      | length R off => simp only [RepTails] at h ⊢; exact ih _ _ _ _ hok' hc h
      | varlen T =>
        rcases ls with _ | ⟨⟨o1, l⟩, ls⟩
        · simp [RepTails] at h
        · simp only [RepTails] at h ⊢
          have h1 := RepTails.le _ _ _ _ _ hok' h.2
          have h2 := roundUpN_ge cur T.ALIGN.toNat hf.align_pow2.pos
          refine ⟨⟨h.1.1, hf.rep_ext _ _ _ _ h.1.2 fun i hi => hc _ (by omega) (by omega)⟩,
            ih _ _ _ _ hok' (fun i hi hi' => hc i (by omega) hi') h.2⟩
      | array R len =>
        rcases ls with _ | ⟨⟨o1, l⟩, ls⟩
        · simp [RepTails] at h
        · cases v <;> cases l <;> simp only [RepTails] at h ⊢
          have h1 := RepTails.le _ _ _ _ _ hok' h.2
          have h2 := roundUpN_ge cur R.align (RTy.Ok.align_pos hf)
          refine ⟨⟨h.1.1, h.1.2.1, ?_, h.1.2.2.2⟩,
            ih _ _ _ _ hok' (fun i hi hi' => hc i (by omega) hi') h.2⟩
          rw [← h.1.2.2.1]
          exact elemsV_congr fun i hi => (hc _ (by omega) (by omega)).symm

theorem RepTails.unique {lens : List Img} {o : View} : ∀ (fs : List (Fld w)) vs ls cur fin vs' ls' fin', (∀ f ∈ fs, f.Ok hs ha) →
    RepHdr fs vs o → RepHdr fs vs' o →
    RepTails lens fs vs ls cur fin o → RepTails lens fs vs' ls' cur fin' o → vs = vs' ∧ ls = ls' ∧ fin = fin' := by
  intro fs
  induction fs with
  | nil =>
    intro vs ls cur fin vs' ls' fin' _ _ _ h h'
    cases vs <;> cases ls <;> simp [RepTails] at h
    cases vs' <;> cases ls' <;> simp [RepTails] at h'
    exact ⟨rfl, rfl, by omega⟩
  | cons f fs ih =>
    intro vs ls cur fin vs' ls' fin' hok hr hr' h h'
    have hok' : ∀ f ∈ fs, f.Ok hs ha := fun g hg => hok g (by simp [hg])
    have hf := hok f (by simp)
    cases vs with
    | nil => cases f <;> simp [RepTails] at h
    | cons v vs =>
    cases vs' with
    | nil => cases f <;> simp [RepTails] at h'
    | cons v' vs' =>
      cases f with
      | normal R off =>
        cases v <;> simp only [RepHdr] at hr
        cases v' <;> simp only [RepHdr] at hr'
        simp only [RepTails] at h h'
        obtain ⟨e1, e2, e3⟩ := ih _ _ _ _ _ _ _ hok' hr.2 hr'.2 h h'
        subst e1 e2 e3
        rw [← hr.1.1, ← hr'.1.1]; exact ⟨rfl, rfl, rfl⟩
      | length R off =>
        cases v <;> simp only [RepHdr] at hr
        cases v' <;> simp only [RepHdr] at hr'
        simp only [RepTails] at h h'
        obtain ⟨e1, e2, e3⟩ := ih _ _ _ _ _ _ _ hok' hr.2 hr'.2 h h'
        subst e1 e2 e3
        rw [← hr.1.1, ← hr'.1.1]; exact ⟨rfl, rfl, rfl⟩
      | varlen T =>
        simp only [RepHdr] at hr hr'
        rcases ls with _ | ⟨⟨o1, l⟩, ls⟩
        · simp [RepTails] at h
        rcases ls' with _ | ⟨⟨o1', l'⟩, ls'⟩
        · simp [RepTails] at h'
        simp only [RepTails] at h h'
        have e0 : o1 = o1' := BitVec.eq_of_toNat_eq (h.1.1.trans h'.1.1.symm)
        subst e0
        obtain ⟨e1, e2⟩ := hf.rep_unique _ _ _ _ _ h.1.2 h'.1.2
        subst e1 e2
        obtain ⟨e1, e2, e3⟩ := ih _ _ _ _ _ _ _ hok' hr hr' h.2 h'.2
        subst e1 e2 e3
        exact ⟨rfl, rfl, rfl⟩
      | array R len =>
        simp only [RepHdr] at hr hr'
        rcases ls with _ | ⟨⟨o1, l⟩, ls⟩
        · simp [RepTails] at h
        rcases ls' with _ | ⟨⟨o1', l'⟩, ls'⟩
        · simp [RepTails] at h'
        cases v <;> cases l <;> simp only [RepTails] at h
        cases v' <;> cases l' <;> simp only [RepTails] at h'
        have e0 : o1 = o1' := BitVec.eq_of_toNat_eq (h.1.1.trans h'.1.1.symm)
        subst e0
        have e1 := h.1.2.1.trans h'.1.2.1.symm
        subst e1
        have e2 := h.1.2.2.1.symm.trans h'.1.2.2.1
        subst e2
        obtain ⟨e1, e2, e3⟩ := ih _ _ _ _ _ _ _ hok' hr hr' h.2 h'.2
        subst e1 e2 e3
        exact ⟨rfl, rfl, rfl⟩

/-! ## `calculate_layout` -/

theorem readLengths_spec {s : St} {p : Ptr} (hacc : Acc s p hs) (hal : Aligned s p ha) : ∀ (fs : List (Fld w)) vs,
    (∀ f ∈ fs, f.Ok hs ha) → RepHdr fs vs (viewAt s p) →
    readLengths p fs s = .ok (lengthsOf fs (viewAt s p)) s := by
  intro fs
  induction fs with
  | nil => intro vs _ _; rfl
  | cons f fs ih =>
    intro vs hok h
    have hok' : ∀ f ∈ fs, f.Ok hs ha := fun g hg => hok g (by simp [hg])
    have hf := hok f (by simp)
    cases vs with
    | nil => cases f <;> simp [RepHdr] at h
    | cons v vs =>
      cases f with
      | normal R off => cases v <;> simp only [RepHdr] at h; simp [readLengths, lengthsOf, ih _ hok' h.2]
      | length R off =>
        cases v <;> simp only [RepHdr] at h
        obtain ⟨hR, h1, h2, h3⟩ := hf
        have hv : takeV (viewAt s (p.add off)) 0 R.size = takeV (viewAt s p) off R.size := by
          rw [viewAt_add, takeV_shift]; rfl
        have := readVal_ok (R := R) (hacc.sub h1) ((hal.of_dvd h3).add h2) (by rw [hv, h.1.1]; exact h.1.2)
        rw [hv] at this
        simp only [readLengths, bind_apply, this, Res.bind_ok, ih _ hok' h.2, pure_apply]
        rfl
      | varlen T => simp only [RepHdr] at h; simp [readLengths, lengthsOf, ih _ hok' h]
      | array R len => simp only [RepHdr] at h; simp [readLengths, lengthsOf, ih _ hok' h]

theorem catFieldsFast_spec {s : St} {p : Ptr} {lens : List Img} {fin : BitVec w} (hacc : Acc s p fin.toNat) :
    ∀ (fs : List (Fld w)) vs ls (cur : BitVec w), (∀ f ∈ fs, f.Ok hs ha) →
    (∀ a ∈ tailAligns fs, Aligned s p a.toNat) →
    RepTails lens fs vs ls cur.toNat fin.toNat (viewAt s p) →
    catFieldsFast p lens fs cur s = .ok (ls, fin) s := by
  intro fs
  induction fs with
  | nil =>
    intro vs ls cur _ _ h
    cases vs <;> cases ls <;> simp [RepTails] at h
    have : cur = fin := BitVec.eq_of_toNat_eq h
    subst this; rfl
  | cons f fs ih =>
    intro vs ls cur hok hal h
    have hok' : ∀ f ∈ fs, f.Ok hs ha := fun g hg => hok g (by simp [hg])
    have hf := hok f (by simp)
    cases vs with
    | nil => cases f <;> simp [RepTails] at h
    | cons v vs =>
      cases f with
      | normal R off => simp only [RepTails] at h; exact ih _ _ _ hok' hal h
      | length R off => simp only [RepTails] at h; exact ih _ _ _ hok' hal h
      | varlen T =>
        rcases ls with _ | ⟨⟨o1, l⟩, ls⟩
        · simp [RepTails] at h
        simp only [RepTails] at h
        obtain ⟨⟨h1, h2⟩, h3⟩ := h
        have hle := RepTails.le _ _ _ _ _ hok' h3
        have hp := Lawful.align_pow2 hf
        have ho : maskDown (cur + (T.ALIGN - 1)) T.ALIGN = o1 := by
          apply BitVec.eq_of_toNat_eq
          rw [maskDown_add_toNat hp (by rw [← h1]; exact o1.isLt), h1]
        have hal1 : Aligned s (p.add o1.toNat) T.ALIGN.toNat :=
          (hal T.ALIGN (by simp [tailAligns])).add (by rw [h1]; exact roundUpN_mod _ _)
        have hacc1 : Acc s (p.add o1.toNat) l.size.toNat := hacc.sub (by omega)
        have hval : Valid T s (p.add o1.toNat) v l := ⟨hacc1, hal1, by rw [viewAt_add]; exact h2⟩
        have hsz : (o1 + l.size).toNat = o1.toNat + l.size.toNat := by
          rw [BitVec.toNat_add, Nat.mod_eq_of_lt (by have := fin.isLt; omega)]
        have := ih vs ls (o1 + l.size) hok' (fun a ha => hal a (by simp [tailAligns, ha])) (by rw [hsz]; exact h3)
        simp only [catFieldsFast, catFieldFast, ho, bind_apply,
          mkRef_ok (hacc1.mono (Lawful.head_le hf _ _ _ h2)) (hal1.of_dvd (Lawful.head_align hf)), Res.bind_ok,
          Lawful.calc_ok hf _ _ _ _ hval, pure_apply, this]
      | array R len =>
        rcases ls with _ | ⟨⟨o1, l⟩, ls⟩
        · simp [RepTails] at h
        cases v <;> cases l <;> simp only [RepTails] at h
        rename_i xs n
        obtain ⟨⟨h1, h2, h4, h5, h6⟩, h3⟩ := h
        have hle := RepTails.le _ _ _ _ _ hok' h3
        have hlt : o1.toNat + n.toNat * R.size < 2 ^ w := by have := fin.isLt; omega
        have hsz : (BitVec.ofNat w (o1.toNat + n.toNat * R.size)).toNat = o1.toNat + n.toNat * R.size := by
          rw [BitVec.toNat_ofNat, Nat.mod_eq_of_lt hlt]
        have hc := catArrayFieldFast_eq (R := R) hf (n := n) (cur := cur) (o := o1) h1 hsz
        have := ih vs ls (BitVec.ofNat w (o1.toNat + n.toNat * R.size)) hok'
          (fun a ha => hal a (by simp [tailAligns, ha])) (by rw [hsz]; exact h3)
        simp only [catFieldsFast, bind_apply, len.eval_ok h6, Res.bind_ok, ← h2, hc, this, pure_apply]

/-! ## `vdrop` -/

/-- The header fields of `fs` lie in the head. -/
theorem Fld.Ok.range_le {f : Fld w} (h : f.Ok hs ha) (h0 : f.range.2 ≠ 0) : f.range.1 + f.range.2 ≤ hs := by
  cases f with
  | normal R off => exact h.2.1
  | length R off => exact h.2.1
  | varlen T => simp [Fld.range] at h0
  | array R len => simp [Fld.range] at h0

theorem vdropFields_spec {lens : List Img} {p : Ptr} {fin : Nat} :
    ∀ (fs : List (Fld w)) vs ls cur s, (∀ f ∈ fs, f.Ok hs ha) →
    (fs.Pairwise fun a b => a.range.2 = 0 ∨ b.range.2 = 0 ∨ a.range.1 + a.range.2 ≤ b.range.1 ∨
      b.range.1 + b.range.2 ≤ a.range.1) →
    Acc s p fin → Aligned s p ha → (∀ a ∈ tailAligns fs, Aligned s p a.toNat) → hs ≤ cur →
    RepHdr fs vs (viewAt s p) → RepTails lens fs vs ls cur fin (viewAt s p) →
    ∃ s', vdropFields p fs ls s = .ok () s' ∧ Touch s s' p fin noOwn ∧
      s'.log = s.log ++ fieldDrops fs vs ∧ s'.copied = s.copied := by
  intro fs
  induction fs with
  | nil =>
    intro vs ls cur s _ _ _ _ _ _ _ h
    cases vs <;> cases ls <;> simp [RepTails] at h
    exact ⟨s, rfl, Touch.refl _ _ _ _, by simp [fieldDrops], rfl⟩
  | cons f fs ih =>
    intro vs ls cur s hok hdj hacc hal halt hcur hr h
    have hok' : ∀ f ∈ fs, f.Ok hs ha := fun g hg => hok g (by simp [hg])
    have hf := hok f (by simp)
    obtain ⟨hdj1, hdj2⟩ := List.pairwise_cons.1 hdj
    cases vs with
    | nil => cases f <;> simp [RepTails] at h
    | cons v vs =>
      -- header fields: same argument for both kinds
      have hdr : ∀ (R : RTy) (off : Nat) (img : Img), f.range = (off, R.size) →
          (R.Ok w ∧ off + R.size ≤ hs ∧ off % R.align = 0 ∧ R.align ∣ ha) → v = .leaf img →
          takeV (viewAt s p) off R.size = img ∧ R.valid img = true →
          RepHdr fs vs (viewAt s p) → RepTails lens fs vs ls cur fin (viewAt s p) →
          (∀ a ∈ tailAligns fs, Aligned s p a.toNat) →
          ∃ s', (dropInPlace R (p.add off) >>= fun _ => vdropFields p fs ls) s = .ok () s' ∧ Touch s s' p fin noOwn ∧
            s'.log = s.log ++ (R.drops img ++ fieldDrops fs vs) ∧ s'.copied = s.copied := by
        intro R off img hrange hfo hvi hi hr2 ht2 halt2
        obtain ⟨hR, h1, h2, h3⟩ := hfo
        have hle := RepTails.le _ _ _ _ _ hok' ht2
        have hv : takeV (viewAt s (p.add off)) 0 R.size = img := by
          rw [viewAt_add, takeV_shift]; exact hi.1
        obtain ⟨s1, e1, e2, e3, e4⟩ := dropInPlace_ok (R := R) (hacc.sub (o := off) (by omega)) ((hal.of_dvd h3).add h2)
          (by rw [hv]; exact hi.2)
        rw [hv] at e3
        have hview : ∀ i, ¬ (off ≤ i ∧ i < off + R.size) → viewAt s p i = viewAt s1 p i := fun i hi =>
          (e2.view (q := p) (fun h => h) i (by simp; omega)).symm
        obtain ⟨s2, f1, f2, f3, f4⟩ := ih vs ls cur s1 hok' hdj2 (e2.acc (fun h => h) hacc)
          (e2.aligned (fun h => h) hal) (fun a ha => e2.aligned (fun h => h) (halt2 a ha)) hcur
          (RepHdr.congr _ _ (fun g hg i hi => hview _ (by
            have := hdj1 g hg
            rw [hrange] at this
            simp only at this
            omega)) hr2)
          (RepTails.congr _ _ _ _ _ hok' (fun i hi hi' => hview i (by omega)) ht2)
        refine ⟨s2, ?_, (e2.sub (by omega)).trans f2, ?_, f4.trans e4⟩
        · simp only [bind_apply, e1, Res.bind_ok, f1]
        · rw [f3, e3, List.append_assoc]
      cases f with
      | normal R off =>
        cases v <;> simp only [RepHdr] at hr
        exact hdr R off _ rfl hf rfl hr.1 hr.2 h halt
      | length R off =>
        cases v <;> simp only [RepHdr] at hr
        exact hdr R off _ rfl hf rfl hr.1 hr.2 h halt
      | varlen T =>
        simp only [RepHdr] at hr
        rcases ls with _ | ⟨⟨o1, l⟩, ls⟩
        · simp [RepTails] at h
        simp only [RepTails] at h
        obtain ⟨⟨h1, h2⟩, h3⟩ := h
        have hle := RepTails.le _ _ _ _ _ hok' h3
        have hge := roundUpN_ge cur T.ALIGN.toNat (Lawful.align_pow2 hf).pos
        have hal1 : Aligned s (p.add o1.toNat) T.ALIGN.toNat :=
          (halt T.ALIGN (by simp [tailAligns])).add (by rw [h1]; exact roundUpN_mod _ _)
        have hacc1 : Acc s (p.add o1.toNat) l.size.toNat := hacc.sub (by omega)
        have hval : Valid T s (p.add o1.toNat) v l := ⟨hacc1, hal1, by rw [viewAt_add]; exact h2⟩
        obtain ⟨s1, e1, e2, e3, e4⟩ := Lawful.vdrop_ok hf _ _ _ _ hval
        have hview : ∀ i, ¬ (o1.toNat ≤ i ∧ i < o1.toNat + l.size.toNat) → viewAt s p i = viewAt s1 p i := fun i hi =>
          (e2.view (q := p) (fun h => h) i (by simp; omega)).symm
        obtain ⟨s2, f1, f2, f3, f4⟩ := ih vs ls _ s1 hok' hdj2 (e2.acc (fun h => h) hacc)
          (e2.aligned (fun h => h) hal) (fun a ha => e2.aligned (fun h => h) (halt a (by simp [tailAligns, ha])))
          (by omega)
          (RepHdr.congr _ _ (fun g hg i hi => hview _ (by
            have := (hok' g hg).range_le (by omega)
            omega)) hr)
          (RepTails.congr _ _ _ _ _ hok' (fun i hi hi' => hview i (by omega)) h3)
        refine ⟨s2, ?_, Touch.trans (e2.sub (by omega)) f2, ?_, f4.trans e4⟩
        · simp only [vdropFields, vdropField, bind_apply,
            mkRef_ok (hacc1.mono (Lawful.head_le hf _ _ _ h2)) (hal1.of_dvd (Lawful.head_align hf)), e1, Res.bind_ok, f1]
        · rw [f3, e3, List.append_assoc]; rfl
      | array R len =>
        simp only [RepHdr] at hr
        rcases ls with _ | ⟨⟨o1, l⟩, ls⟩
        · simp [RepTails] at h
        cases v <;> cases l <;> simp only [RepTails] at h
        rename_i xs n
        obtain ⟨⟨h1, h2, h4, h5, h6⟩, h3⟩ := h
        have hle := RepTails.le _ _ _ _ _ hok' h3
        have hge := roundUpN_ge cur R.align (RTy.Ok.align_pos hf)
        have hal1 : Aligned s (p.add o1.toNat) R.align := by
          have := halt (R.alignOf w) (by simp [tailAligns])
          rw [RTy.Ok.alignOf_toNat hf] at this
          exact this.add (by rw [h1]; exact roundUpN_mod _ _)
        have hacc1 : Acc s (p.add o1.toNat) (n.toNat * R.size) := hacc.sub (by omega)
        have hv : elemsV (viewAt s (p.add o1.toNat)) 0 R.size n.toNat = xs := by
          rw [viewAt_add, elemsV_shift]; exact h4
        obtain ⟨s1, e1, e2, e3, e4⟩ := dropElems_spec hf n.toNat _ _ hacc1 hal1 (by rw [hv]; exact h5)
        rw [hv] at e3
        have hview : ∀ i, ¬ (o1.toNat ≤ i ∧ i < o1.toNat + n.toNat * R.size) → viewAt s p i = viewAt s1 p i := fun i hi =>
          (e2.view (q := p) (fun h => h) i (by simp; omega)).symm
        obtain ⟨s2, f1, f2, f3, f4⟩ := ih vs ls _ s1 hok' hdj2 (e2.acc (fun h => h) hacc)
          (e2.aligned (fun h => h) hal) (fun a ha => e2.aligned (fun h => h) (halt a (by simp [tailAligns, ha])))
          (by omega)
          (RepHdr.congr _ _ (fun g hg i hi => hview _ (by
            have := (hok' g hg).range_le (by omega)
            omega)) hr)
          (RepTails.congr _ _ _ _ _ hok' (fun i hi hi' => hview i (by omega)) h3)
        refine ⟨s2, ?_, Touch.trans (e2.sub (by omega)) f2, ?_, f4.trans e4⟩
        · simp only [vdropFields, dropArray, bind_apply, e1, Res.bind_ok, f1]
        · rw [f3, e3, List.append_assoc]; rfl

theorem fieldDrops_nil {lens : List Img} {o : View} : ∀ (fs : List (Fld w)) vs ls cur fin, (∀ f ∈ fs, f.Ok hs ha) →
    fs.any Fld.needsVdrop = false → RepTails lens fs vs ls cur fin o → fieldDrops fs vs = [] := by
  intro fs
  induction fs with
  | nil => intro vs ls cur fin _ _ _; simp [fieldDrops]
  | cons f fs ih =>
    intro vs ls cur fin hok hn h
    have hok' : ∀ f ∈ fs, f.Ok hs ha := fun g hg => hok g (by simp [hg])
    have hf := hok f (by simp)
    simp only [List.any_cons, Bool.or_eq_false_iff] at hn
    cases vs with
    | nil => simp [fieldDrops]
    | cons v vs =>
      cases f with
      | normal R off =>
        simp only [RepTails] at h
        cases v <;> simp only [fieldDrops]
        rw [ih _ _ _ _ hok' hn.2 h]; simp [RTy.drops, show R.needsDrop = false from hn.1]
      | length R off =>
        simp only [RepTails] at h
        cases v <;> simp only [fieldDrops]
        rw [ih _ _ _ _ hok' hn.2 h]; simp [RTy.drops, show R.needsDrop = false from hn.1]
      | varlen T =>
        rcases ls with _ | ⟨⟨o1, l⟩, ls⟩
        · simp [RepTails] at h
        simp only [RepTails] at h
        simp only [fieldDrops]
        rw [ih _ _ _ _ hok' hn.2 h.2, Lawful.no_vdrop hf hn.1 _ _ _ h.1.2]; rfl
      | array R len =>
        rcases ls with _ | ⟨⟨o1, l⟩, ls⟩
        · simp [RepTails] at h
        cases v <;> cases l <;> simp only [RepTails] at h
        simp only [fieldDrops]
        rw [ih _ _ _ _ hok' hn.2 h.2]
        simp [RTy.drops, show R.needsDrop = false from hn.1]

end

/-! ## Structs and tuples satisfy the `VarLen` contract -/

theorem tailAligns_pow2 {hs ha : Nat} : ∀ (fs : List (Fld w)), (∀ f ∈ fs, f.Ok hs ha) → ∀ a ∈ tailAligns fs, IsPow2 a := by
  intro fs
  induction fs with
  | nil => intro _ a h; simp [tailAligns] at h
  | cons f fs ih =>
    intro hok a h
    have ih := ih (fun g hg => hok g (by simp [hg])) a
    have hf := hok f (by simp)
    cases f with
    | normal R off => exact ih h
    | length R off => exact ih h
    | varlen T =>
      simp only [tailAligns, List.mem_cons] at h
      rcases h with rfl | h
      · exact Lawful.align_pow2 hf
      · exact ih h
    | array R len =>
      simp only [tailAligns, List.mem_cons] at h
      rcases h with rfl | h
      · exact RTy.Ok.pow2 hf
      · exact ih h

/-- The contract for any aggregate whose `ALIGN` is a power of two divisible by the head's and all tail fields' alignments, with `vdrop` equal to the field-wise drop whenever something needs dropping. -/
theorem agg_lawful {hs ha : Nat} {fs : List (Fld w)} (hok : StructOk hs ha fs) {A : BitVec w} {nv hnd : Bool} (hA : IsPow2 A)
    (hha : ha ∣ A.toNat) (hta : ∀ a ∈ tailAligns fs, a.toNat ∣ A.toNat) (hnv : nv = fs.any Fld.needsVdrop)
    {vd : Ptr → Layout w → M Unit} (hvd : ∀ p l, vd p l = aggVdrop fs p l ∨ (nv = false ∧ vd p l = pure ())) :
    Lawful { headSize := hs, headAlign := ha, ALIGN := A, NEEDS_VDROP := nv, headNeedsDrop := hnd,
             calculateLayout := aggCalc hs fs, vdrop := vd, Rep := aggRep hs fs, drops := aggDrops fs } where
  align_pow2 := hA
  head_align := hha
  rep_ext := by
    rintro v l o o' ⟨vs, ls, size, rfl, rfl, hr, ht⟩ h
    simp only [Layout.size] at h
    have hle := RepTails.le _ _ _ _ _ hok.flds ht
    have hag : ∀ f ∈ fs, ∀ i, i < f.range.2 → o (f.range.1 + i) = o' (f.range.1 + i) := by
      intro f hf i hi
      have := (hok.flds f hf).range_le (by omega)
      exact h _ (by omega)
    refine ⟨vs, ls, size, rfl, rfl, RepHdr.congr _ _ hag hr, ?_⟩
    rw [← lengthsOf_congr fs hag]
    exact RepTails.congr _ _ _ _ _ hok.flds (fun i _ hi => h i hi) ht
  rep_unique := by
    rintro v l o v' l' ⟨vs, ls, size, rfl, rfl, hr, ht⟩ ⟨vs', ls', size', rfl, rfl, hr', ht'⟩
    obtain ⟨rfl, rfl, e⟩ := RepTails.unique _ _ _ _ _ _ _ _ hok.flds hr hr' ht ht'
    have := BitVec.eq_of_toNat_eq e
    subst this; exact ⟨rfl, rfl⟩
  head_le := by
    rintro v l o ⟨vs, ls, size, rfl, rfl, hr, ht⟩
    exact RepTails.le _ _ _ _ _ hok.flds ht
  calc_ok := by
    rintro s p v l ⟨hacc, hal, vs, ls, size, rfl, rfl, hr, ht⟩
    have hle := RepTails.le _ _ _ _ _ hok.flds ht
    have h1 := readLengths_spec (hacc.mono hle) (hal.of_dvd hha) fs vs hok.flds hr
    have hcur : (BitVec.ofNat w hs).toNat = hs := by rw [BitVec.toNat_ofNat, Nat.mod_eq_of_lt hok.head_lt]
    have h2 := catFieldsFast_spec (cur := BitVec.ofNat w hs) hacc fs vs ls hok.flds (fun a ha' => hal.of_dvd (hta a ha'))
      (by rw [hcur]; exact ht)
    simp only [aggCalc, bind_apply, h1, Res.bind_ok, h2, pure_apply]
    rfl
  vdrop_ok := by
    rintro s p v l ⟨hacc, hal, vs, ls, size, rfl, rfl, hr, ht⟩
    rcases hvd p (.fields size ls) with hvd | ⟨hn, hvd⟩
    · obtain ⟨s', h⟩ := vdropFields_spec fs vs ls _ s hok.flds hok.disjoint hacc (hal.of_dvd hha)
        (fun a ha' => hal.of_dvd (hta a ha')) (Nat.le_refl _) hr ht
      exact ⟨s', by simp only [hvd]; exact h⟩
    · refine ⟨s, by simp only [hvd]; rfl, Touch.refl _ _ _ _, ?_, rfl⟩
      simp only [aggDrops]
      rw [fieldDrops_nil fs vs ls _ _ hok.flds (by rw [← hnv]; exact hn) ht]; simp
  no_vdrop := by
    rintro hn v l o ⟨vs, ls, size, rfl, rfl, hr, ht⟩
    exact fieldDrops_nil fs vs ls _ _ hok.flds (by rw [← hnv]; exact hn) ht

theorem Struct.aligns {hs ha : Nat} {fs : List (Fld w)} (hok : StructOk hs ha fs) :
    IsPow2 (Struct w hs ha fs).ALIGN ∧ ha ∣ (Struct w hs ha fs).ALIGN.toNat ∧
    ∀ a ∈ tailAligns fs, a.toNat ∣ (Struct w hs ha fs).ALIGN.toNat := by
  obtain ⟨k, hk, hka⟩ := hok.head_pow2
  have hlt : ha < 2 ^ w := by rw [hka]; exact Nat.pow_lt_pow_right (by omega) hk
  have hto : (BitVec.ofNat w ha).toNat = ha := by rw [BitVec.toNat_ofNat, Nat.mod_eq_of_lt hlt]
  obtain ⟨h1, h2⟩ := arrayMax_pow2 (l := BitVec.ofNat w ha :: tailAligns fs) (by simp) (by
    intro a h
    rcases List.mem_cons.1 h with rfl | h
    · exact ⟨k, hk, by rw [hto, hka]⟩
    · exact tailAligns_pow2 fs hok.flds a h)
  refine ⟨h1, ?_, fun a h => h2 a (by simp [h])⟩
  have := h2 (BitVec.ofNat w ha) (by simp)
  rwa [hto] at this

theorem Struct.lawful {hs ha : Nat} {fs : List (Fld w)} (hok : StructOk hs ha fs) : Lawful (Struct w hs ha fs) := by
  obtain ⟨h1, h2, h3⟩ := Struct.aligns hok
  exact agg_lawful hok h1 h2 h3 rfl (fun p l => .inl rfl)

theorem tailAligns_map (Ts : List (VarLen w)) : tailAligns (Ts.map .varlen) = Ts.map (·.ALIGN) := by
  induction Ts with
  | nil => rfl
  | cons T Ts ih => simp [tailAligns, ih]

theorem needs_map (Ts : List (VarLen w)) : (Ts.map Fld.varlen).any Fld.needsVdrop = Ts.any (·.NEEDS_VDROP) := by
  induction Ts with
  | nil => rfl
  | cons T Ts ih => simp [Fld.needsVdrop, Function.comp_def]

theorem Tuple.structOk (hw : 0 < w) {Ts : List (VarLen w)} (hT : ∀ T ∈ Ts, Lawful T) : StructOk 0 1 (Ts.map Fld.varlen) where
  head_pow2 := ⟨0, hw, rfl⟩
  head_lt := Nat.two_pow_pos w
  flds := by
    intro f hf
    obtain ⟨T, hT', rfl⟩ := List.mem_map.1 hf
    exact hT T hT'
  disjoint := by
    rw [List.pairwise_map]
    apply List.pairwise_of_forall
    intro a b; left; rfl

theorem Tuple.aligns {Ts : List (VarLen w)} (hne : Ts ≠ []) (hT : ∀ T ∈ Ts, Lawful T) :
    IsPow2 (Tuple w Ts).ALIGN ∧ ∀ T ∈ Ts, T.ALIGN.toNat ∣ (Tuple w Ts).ALIGN.toNat := by
  obtain ⟨h1, h2⟩ := arrayMax_pow2 (l := Ts.map (·.ALIGN)) (by simpa using hne) (by
    intro a h
    obtain ⟨T, hT', rfl⟩ := List.mem_map.1 h
    exact (hT T hT').align_pow2)
  exact ⟨h1, fun T h => h2 _ (List.mem_map.2 ⟨T, h, rfl⟩)⟩

theorem Tuple.lawful {Ts : List (VarLen w)} (hne : Ts ≠ []) (hT : ∀ T ∈ Ts, Lawful T) : Lawful (Tuple w Ts) := by
  obtain ⟨h1, h2⟩ := Tuple.aligns hne hT
  refine agg_lawful (Tuple.structOk h1.wpos hT) h1 (Nat.one_dvd _) ?_ (needs_map Ts).symm ?_
  · rw [tailAligns_map]
    intro a ha
    obtain ⟨T, hT', rfl⟩ := List.mem_map.1 ha
    exact h2 T hT'
  · intro p l
    by_cases h : Ts.any (·.NEEDS_VDROP) = false
    · right; exact ⟨h, by simp [h]⟩
    · left; simp [h]

end Varlen
