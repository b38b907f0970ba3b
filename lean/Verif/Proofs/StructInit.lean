import Verif.Proofs.Struct
namespace Varlen
variable {w : Nat}

/-! ## Initializers of structs and tuples -/

/-- A well-formed field initializer: header values are values of their type, field initializers satisfy their contract. -/
def FI.Ok (headSize headAlign : Nat) (f : FI w) : Prop :=
  f.fld.Ok headSize headAlign ∧
  match f with
  | .normal R _ img => R.valid img = true
  | .length R _ img => R.valid img = true
  | .varlen T I => InitLawful T I
  | .array R _ I => ArrInitLawful R I

theorem FI.owns_mods {hs ha : Nat} {f : FI w} (h : f.Ok hs ha) {b : Nat} (hb : f.owns b) : f.mods b := by
  cases f with
  | varlen T I => exact InitLawful.owns_mods h.2 b hb
  | normal => exact hb.elim
  | length => exact hb.elim
  | array => exact hb.elim

theorem FI.mods_fp {hs ha : Nat} {f : FI w} (h : f.Ok hs ha) {b : Nat} (hb : f.mods b) : f.fp b := by
  cases f with
  | varlen T I => exact InitLawful.mods_fp h.2 b hb
  | normal => exact hb.elim
  | length => exact hb.elim
  | array => exact hb.elim

theorem FI.owns_fp {hs ha : Nat} {f : FI w} (h : f.Ok hs ha) {b : Nat} (hb : f.owns b) : f.fp b := FI.mods_fp h (FI.owns_mods h hb)

theorem FI.fp_exists {hs ha : Nat} {f : FI w} (h : f.Ok hs ha) {s : St} (hp : f.pre s) {b : Nat} (hb : f.fp b) :
    s.blk b ≠ none := by
  cases f with
  | varlen T I => exact InitLawful.fp_exists h.2 s b hp hb
  | array R len I => exact ArrInitLawful.fp_exists h.2 s b hp hb
  | normal => exact hb.elim
  | length => exact hb.elim

theorem FI.stable {hs ha : Nat} {f : FI w} (h : f.Ok hs ha) {s s' : St} (hp : f.pre s) (hs : Same s s' f.fp) : f.pre s' := by
  cases f with
  | varlen T I => exact InitLawful.stable h.2 s s' hp hs
  | array R len I => exact ArrInitLawful.stable h.2 s s' hp hs
  | normal => trivial
  | length => trivial

theorem badFields_lay {lens : List Img} {hs ha : Nat} : ∀ (fis : List (FI w)) cur, (∀ f ∈ fis, f.Ok hs ha) →
    badFields lens fis cur = true → layFields lens fis cur = none := by
  intro fis
  induction fis with
  | nil => intro cur _ h; cases h
  | cons f fis ih =>
    intro cur hok
    have ih := fun cur => ih cur (fun g hg => hok g (by simp [hg]))
    have hf := hok f (by simp)
    cases f with
    | normal R off img => exact ih cur
    | length R off img => exact ih cur
    | varlen T I =>
      simp only [layFields, badFields]
      cases h1 : checkedAdd cur (T.ALIGN - 1) with
      | none => intro h; cases h
      | some o =>
        simp only
        cases hb : I.bad with
        | true => intro _; rw [InitLawful.bad_lay hf.2 hb]
        | false =>
          simp only [Bool.false_eq_true, if_false]
          cases h2 : I.lay with
          | none => intro h; cases h
          | some l =>
            simp only
            cases h3 : checkedAdd (maskDown o T.ALIGN) l.size with
            | none => intro h; cases h
            | some sz => intro h; simp only; rw [ih sz h]
    | array R len I =>
      simp only [layFields, badFields]
      cases hd : len.defd lens with
      | false => intro _; rfl
      | true =>
        simp only [if_true]
        cases h1 : catArrayFieldCautious R (len lens) cur with
        | none => intro h; cases h
        | some x =>
          obtain ⟨o, n, sz⟩ := x
          intro h
          simp only at h ⊢
          rw [ih sz h]

theorem catFieldsCautious_spec {lens : List Img} {hs ha : Nat} : ∀ (fis : List (FI w)) cur s, (∀ f ∈ fis, f.Ok hs ha) →
    (∀ f ∈ fis, f.pre s) →
    catFieldsCautious lens fis cur s = bif badFields lens fis cur then .panic .user s else .ok (layFields lens fis cur) s := by
  intro fis
  induction fis with
  | nil => intro cur s _ _; rfl
  | cons f fis ih =>
    intro cur s hok hp
    have ih := fun cur => ih cur s (fun g hg => hok g (by simp [hg])) (fun g hg => hp g (by simp [hg]))
    have hf := hok f (by simp)
    have hpf := hp f (by simp)
    cases f with
    | normal R off img => exact ih cur
    | length R off img => exact ih cur
    | varlen T I =>
      simp only [catFieldsCautious, layFields, badFields, catFieldCautious]
      cases h1 : checkedAdd cur (T.ALIGN - 1) with
      | none => rfl
      | some o =>
        cases hb : I.bad with
        | true =>
          have hc := InitLawful.calc_panic hf.2 s hpf hb
          simp only [bind_apply, hc, Res.bind_panic, if_true, cond_true]
        | false =>
        have hc := InitLawful.calc_ok hf.2 s hpf hb
        simp only [bind_apply, hc, Res.bind_ok, Bool.false_eq_true, if_false]
        cases h2 : I.lay with
        | none => rfl
        | some l =>
          simp only
          cases h3 : checkedAdd (maskDown o T.ALIGN) l.size with
          | none => rfl
          | some sz =>
            simp only [pure_apply, Res.bind_ok, bind_apply, ih sz]
            cases badFields lens fis sz with
            | true => rfl
            | false =>
              cases layFields lens fis sz with
              | none => rfl
              | some x => rfl
    | array R len I =>
      simp only [catFieldsCautious, layFields, badFields, bind_apply]
      cases hd : len.defd lens with
      | false => rw [len.eval_panic hd]; rfl
      | true =>
      simp only [len.eval_ok hd, Res.bind_ok, if_true]
      cases h1 : catArrayFieldCautious R (len lens) cur with
      | none => rfl
      | some x =>
        obtain ⟨o, n, sz⟩ := x
        simp only [bind_apply, ih sz]
        cases badFields lens fis sz with
        | true => rfl
        | false =>
          cases layFields lens fis sz with
          | none => rfl
          | some x => rfl

/-- One `cat_field_cautious` step is exact. -/
theorem catField_some {A cur o sz l : BitVec w} (hA : IsPow2 A) (h1 : checkedAdd cur (A - 1) = some o)
    (h2 : checkedAdd (maskDown o A) l = some sz) :
    (maskDown o A).toNat = roundUpN cur.toNat A.toNat ∧ sz.toNat = (maskDown o A).toNat + l.toNat := by
  rw [checkedAdd_eq_some, hA.sub_one] at h1
  rw [checkedAdd_eq_some] at h2
  exact ⟨by rw [maskDown_toNat hA, h1]; rfl, h2⟩

theorem layFields_varlen {lens : List Img} {T : VarLen w} (hA : IsPow2 T.ALIGN) {I : Init w} {fis : List (FI w)} {cur : BitVec w}
    {ls fin} (h : layFields lens (.varlen T I :: fis) cur = some (ls, fin)) :
    ∃ o l sz ls', ls = (o, l) :: ls' ∧ I.lay = some l ∧ o.toNat = roundUpN cur.toNat T.ALIGN.toNat ∧
      sz.toNat = o.toNat + l.size.toNat ∧ layFields lens fis sz = some (ls', fin) := by
  simp only [layFields] at h
  cases h1 : checkedAdd cur (T.ALIGN - 1) with
  | none => rw [h1] at h; cases h
  | some o =>
    rw [h1] at h
    cases h2 : I.lay with
    | none => rw [h2] at h; cases h
    | some l =>
      rw [h2] at h
      simp only at h
      cases h3 : checkedAdd (maskDown o T.ALIGN) l.size with
      | none => rw [h3] at h; cases h
      | some sz =>
        rw [h3] at h
        simp only at h
        cases h4 : layFields lens fis sz with
        | none => rw [h4] at h; cases h
        | some x =>
          obtain ⟨ls', fin'⟩ := x
          rw [h4] at h
          simp only [Option.some.injEq, Prod.mk.injEq] at h
          obtain ⟨rfl, rfl⟩ := h
          obtain ⟨e1, e2⟩ := catField_some hA h1 h3
          exact ⟨_, l, sz, ls', rfl, rfl, e1, e2, h4⟩

theorem layFields_array {lens : List Img} {R : RTy} (hR : R.Ok w) {len : LenFn w} {I : ArrInit} {fis : List (FI w)}
    {cur : BitVec w} {ls fin} (h : layFields lens (.array R len I :: fis) cur = some (ls, fin)) :
    ∃ o sz ls', ls = (o, .len (len lens)) :: ls' ∧ o.toNat = roundUpN cur.toNat R.align ∧
      sz.toNat = o.toNat + (len lens).toNat * R.size ∧ layFields lens fis sz = some (ls', fin) ∧ len.defd lens = true := by
  simp only [layFields] at h
  cases hd : len.defd lens with
  | false => rw [hd] at h; cases h
  | true =>
  rw [hd, if_pos rfl] at h
  cases h1 : catArrayFieldCautious R (len lens) cur with
  | none => rw [h1] at h; cases h
  | some x =>
    obtain ⟨o, n, sz⟩ := x
    rw [h1] at h
    simp only at h
    cases h4 : layFields lens fis sz with
    | none => rw [h4] at h; cases h
    | some x =>
      obtain ⟨ls', fin'⟩ := x
      rw [h4] at h
      simp only [Option.some.injEq, Prod.mk.injEq] at h
      obtain ⟨rfl, rfl⟩ := h
      obtain ⟨rfl, e1, e2⟩ := (catArrayFieldCautious_eq_some hR).1 h1
      exact ⟨o, sz, ls', rfl, e1, e2, h4, rfl⟩

theorem layFields_le {lens : List Img} {hs ha : Nat} : ∀ (fis : List (FI w)) (cur : BitVec w) ls fin, (∀ f ∈ fis, f.Ok hs ha) →
    layFields lens fis cur = some (ls, fin) → cur.toNat ≤ fin.toNat := by
  intro fis
  induction fis with
  | nil => intro cur ls fin _ h; simp only [layFields, Option.some.injEq, Prod.mk.injEq] at h; rw [h.2]; exact Nat.le_refl _
  | cons f fis ih =>
    intro cur ls fin hok h
    have ih := fun cur ls => ih cur ls fin (fun g hg => hok g (by simp [hg]))
    have hf := hok f (by simp)
    cases f with
    | normal R off img => exact ih _ _ h
    | length R off img => exact ih _ _ h
    | varlen T I =>
      have hA : IsPow2 T.ALIGN := Lawful.align_pow2 hf.1
      obtain ⟨o, l, sz, ls', rfl, h2, h3, h4, h5⟩ := layFields_varlen hA h
      have := ih _ _ h5
      have := roundUpN_ge cur.toNat T.ALIGN.toNat hA.pos
      omega
    | array R len I =>
      have hR : R.Ok w := hf.1
      obtain ⟨o, sz, ls', rfl, h3, h4, h5, hdef⟩ := layFields_array hR h
      have := ih _ _ h5
      have := roundUpN_ge cur.toNat R.align hR.align_pos
      omega

/-- The owned sources of a list of field initializers. -/
def ownsAll (fis : List (FI w)) (b : Nat) : Prop := ∃ f ∈ fis, f.owns b

theorem ownsAll_cons (f : FI w) (fis : List (FI w)) (b : Nat) : ownsAll (f :: fis) b ↔ f.owns b ∨ ownsAll fis b := by
  simp [ownsAll]

/-- The blocks changed by dropping a list of field initializers. -/
def modsAll (fis : List (FI w)) (b : Nat) : Prop := ∃ f ∈ fis, f.mods b

theorem modsAll_cons (f : FI w) (fis : List (FI w)) (b : Nat) : modsAll (f :: fis) b ↔ f.mods b ∨ modsAll fis b := by
  simp [modsAll]

theorem ownsAll.mods {hs ha : Nat} {fis : List (FI w)} (hok : ∀ f ∈ fis, f.Ok hs ha) {b : Nat} (h : ownsAll fis b) : modsAll fis b := by
  obtain ⟨f, h1, h2⟩ := h; exact ⟨f, h1, FI.owns_mods (hok f h1) h2⟩

/-- No field initializer depends on what dropping another one changes. -/
abbrev Apart (fis : List (FI w)) : Prop := fis.Pairwise fun a b => ∀ x, (a.mods x → ¬ b.fp x) ∧ (b.mods x → ¬ a.fp x)

theorem Apart.reverse {fis : List (FI w)} (h : Apart fis) : Apart fis.reverse := by
  unfold Apart at h ⊢
  rw [List.pairwise_reverse]
  exact h.imp fun h x => ⟨(h x).2, (h x).1⟩

theorem FI.drop_ok {hs ha : Nat} {f : FI w} (h : f.Ok hs ha) {s : St} (hp : f.pre s) :
    ∃ s', f.dropI s = .ok () s' ∧ Touch s s' ⟨0, 0⟩ 0 f.mods ∧ (∀ b, f.owns b → ∃ B, s'.blk b = some B ∧ B.live = false) ∧
      s'.log = s.log ++ f.owes ∧ s'.copied = s.copied := by
  cases f with
  | varlen T I => exact InitLawful.drop_ok h.2 s hp
  | array R len I =>
    obtain ⟨s', h1, h2, h3, h4⟩ := ArrInitLawful.drop_ok h.2 s hp
    exact ⟨s', h1, h2, fun _ h => h.elim, h3, h4⟩
  | normal => exact ⟨_, rfl, Touch.logged _ _ _ _ _, fun _ h => h.elim, rfl, rfl⟩
  | length => exact ⟨_, rfl, Touch.logged _ _ _ _ _, fun _ h => h.elim, rfl, rfl⟩

/-- Dead blocks stay dead. -/
theorem Touch.dead {s s' : St} {p n own b} (h : Touch s s' p n own) (ho : ¬ own b) (hd : ∃ B, s.blk b = some B ∧ B.live = false) :
    ∃ B, s'.blk b = some B ∧ B.live = false := by
  obtain ⟨B, h1, h2⟩ := hd
  obtain ⟨d, h3, _⟩ := h.blk b ho B h1
  exact ⟨_, h3, h2⟩

/-- Dropping field initializers. -/
theorem dropFIs_spec {hs ha : Nat} : ∀ (fis : List (FI w)) s, (∀ f ∈ fis, f.Ok hs ha) → (∀ f ∈ fis, f.pre s) → Apart fis →
    ∃ s', dropFIs fis s = .ok () s' ∧ Touch s s' ⟨0, 0⟩ 0 (modsAll fis) ∧
      (∀ b, ownsAll fis b → ∃ B, s'.blk b = some B ∧ B.live = false) ∧
      s'.log = s.log ++ fis.flatMap FI.owes ∧ s'.copied = s.copied := by
  intro fis
  induction fis with
  | nil => intro s _ _ _; exact ⟨s, rfl, Touch.refl _ _ _ _, by simp [ownsAll], by simp, rfl⟩
  | cons f fis ih =>
    intro s hok hp hpw
    obtain ⟨hpw1, hpw2⟩ := List.pairwise_cons.1 hpw
    have hok' : ∀ f ∈ fis, f.Ok hs ha := fun g hg => hok g (by simp [hg])
    obtain ⟨s1, e1, e2, e3, e4, e5⟩ := FI.drop_ok (hok f (by simp)) (hp f (by simp))
    have hp1 : ∀ g ∈ fis, g.pre s1 := by
      intro g hg
      refine FI.stable (hok' g hg) (hp g (by simp [hg])) fun b hb => ?_
      have hne := FI.fp_exists (hok' g hg) (hp g (by simp [hg])) hb
      refine e2.same (on := fun x => x = b) ?_ ?_ b rfl
      · rintro _ rfl; exact fun hm => (hpw1 g hg _).1 hm hb
      · rintro rfl; exact hne rfl
    obtain ⟨s2, f1, f2, f3, f4, f5⟩ := ih s1 hok' hp1 hpw2
    refine ⟨s2, by simp only [dropFIs, bind_apply, e1, Res.bind_ok, f1], ?_, ?_, by rw [f4, e4]; simp, f5.trans e5⟩
    · exact (e2.mono (.inl rfl) fun b hb => (modsAll_cons _ _ _).2 (.inl hb)).trans
        (f2.mono (.inl rfl) fun b hb => (modsAll_cons _ _ _).2 (.inr hb))
    · intro b hb
      rcases (ownsAll_cons _ _ _).1 hb with hb | hb
      · refine f2.dead ?_ (e3 b hb)
        rintro ⟨g, hg, hgb⟩
        exact (hpw1 g hg b).1 (FI.owns_mods (hok f (by simp)) hb) (FI.mods_fp (hok' g hg) hgb)
      · exact f3 b hb

/-- Unwinding out of a struct literal. -/
theorem unwindInit_spec {hs ha : Nat} (tup : Bool) (done : List (RTy × Img)) (fis : List (FI w)) (s : St) (hok : ∀ f ∈ fis, f.Ok hs ha)
    (hp : ∀ f ∈ fis, f.pre s) (hpw : Apart fis) :
    ∃ s', unwindInit tup done fis s = .ok () s' ∧ Touch s s' ⟨0, 0⟩ 0 (modsAll fis) ∧
      (∀ b, ownsAll fis b → ∃ B, s'.blk b = some B ∧ B.live = false) ∧
      s'.log = s.log ++ (doneDrops done ++ (if tup then fis.reverse else fis).flatMap FI.owes) ∧ s'.copied = s.copied := by
  have hp1 : ∀ f ∈ fis, f.pre (s.logged (doneDrops done)) := fun f hf =>
    FI.stable (hok f hf) (hp f hf) (fun b _ => by simp)
  have hmem : ∀ f, f ∈ (if tup then fis.reverse else fis) ↔ f ∈ fis := by
    intro f; cases tup <;> simp
  have hmods : modsAll (if tup then fis.reverse else fis) = modsAll fis := by
    funext b; apply propext; simp only [modsAll, hmem]
  have howns : ownsAll (if tup then fis.reverse else fis) = ownsAll fis := by
    funext b; apply propext; simp only [ownsAll, hmem]
  obtain ⟨s', e1, e2, e3, e4, e5⟩ := dropFIs_spec (if tup then fis.reverse else fis) (s.logged (doneDrops done))
    (fun f hf => hok f ((hmem f).1 hf)) (fun f hf => hp1 f ((hmem f).1 hf)) (by cases tup; exact hpw; exact Apart.reverse hpw)
  rw [hmods] at e2
  rw [howns] at e3
  refine ⟨s', by simp only [unwindInit, bind_apply, emit_apply, Res.bind_ok, e1], (Touch.logged s _ _ _ _).trans e2, e3, ?_, by simpa using e5⟩
  rw [e4, St.logged_log, List.append_assoc]

/-- What initialising the tail fields achieves. -/
def TailsPost (tup : Bool) (done : List (RTy × Img)) (lens : List Img) (p : Ptr) (fis : List (FI w)) (cur : Nat)
    (ls : List (BitVec w × Layout w)) (fin : Nat) (s : St) : Prop :=
  match valFields lens fis with
  | some vs => ∃ s', initTails tup p done fis ls s = .ok () s' ∧
      Touch s s' (p.add cur) (fin - cur) (ownsAll fis) ∧
      (∀ b, ownsAll fis b → ∃ B, s'.blk b = some B ∧ B.live = false) ∧
      RepTails lens (fis.map FI.fld) vs ls cur fin (viewAt s' p) ∧ s'.log = s.log ++ leftFields lens fis ∧ s'.copied = s.copied
  | none => ∃ m s', initTails tup p done fis ls s = .panic m s' ∧
      Touch s s' (p.add cur) (fin - cur) (modsAll fis) ∧
      (∀ b, ownsAll fis b → ∃ B, s'.blk b = some B ∧ B.live = false) ∧
      s'.log = s.log ++ lostFields tup lens done fis ∧ s'.copied = s.copied

/-- Header fields are skipped. -/
theorem TailsPost.skip {tup : Bool} {done done' : List (RTy × Img)} {lens : List Img} {p : Ptr} {f : FI w} {fis : List (FI w)} {cur : Nat} {ls fin s} (img : Img)
    (hno : ∀ b, ¬ f.owns b) (hnm : ∀ b, ¬ f.mods b) (hv : valFields lens (f :: fis) = (valFields lens fis).map (.leaf img :: ·))
    (hini : initTails tup p done (f :: fis) ls = initTails tup p done' fis ls)
    (hleft : leftFields lens (f :: fis) = leftFields lens fis) (hlost : lostFields tup lens done (f :: fis) = lostFields tup lens done' fis)
    (hrep : ∀ vs o, RepTails lens ((f :: fis).map FI.fld) (.leaf img :: vs) ls cur fin o ↔
          RepTails lens (fis.map FI.fld) vs ls cur fin o)
    (ih : TailsPost tup done' lens p fis cur ls fin s) : TailsPost tup done lens p (f :: fis) cur ls fin s := by
  have hown : ownsAll (f :: fis) = ownsAll fis := by
    funext b; apply propext; rw [ownsAll_cons]; simp [hno b]
  have hmod : modsAll (f :: fis) = modsAll fis := by
    funext b; apply propext; rw [modsAll_cons]; simp [hnm b]
  unfold TailsPost at ih ⊢
  rw [hown, hmod, hv, hini, hleft, hlost]
  cases hvf : valFields lens fis with
  | none => rw [hvf] at ih; exact ih
  | some vs =>
    rw [hvf] at ih
    simp only [Option.map_some, hrep]
    exact ih

/-- A tail field is initialised, then the rest. `n` is the number of bytes of the field. -/
theorem TailsPost.step {tup : Bool} {done : List (RTy × Img)} {lens : List Img} {hs ha : Nat} {p : Ptr} {f : FI w} {fis : List (FI w)} {cur cur' o n fin : Nat}
    {ol : BitVec w × Layout w} {ls s s1} {v : V} {ev : List Event}
    (hok : ∀ g ∈ f :: fis, g.Ok hs ha)
    (h1 : cur ≤ o) (h2 : o + n = cur') (h3 : cur' ≤ fin) (hfp : ∀ g ∈ f :: fis, ¬ g.fp p.blk)
    (hpw : ∀ g ∈ fis, ∀ x, (f.mods x → ¬ g.fp x) ∧ (g.mods x → ¬ f.fp x))
    (hlive : ∀ b, f.owns b → ∃ B, s1.blk b = some B ∧ B.live = false)
    (ht : Touch s s1 (p.add o) n f.owns) (hlog : s1.log = s.log ++ ev) (hcop : s1.copied = s.copied)
    (hini : initTails tup p done (f :: fis) (ol :: ls) s = initTails tup p done fis ls s1)
    (hval : valFields lens (f :: fis) = (valFields lens fis).map (v :: ·))
    (hleft : leftFields lens (f :: fis) = ev ++ leftFields lens fis) (hlost : lostFields tup lens done (f :: fis) = ev ++ lostFields tup lens done fis)
    (hrep : ∀ o' vs, (∀ i, i < n → o' (o + i) = viewAt s1 p (o + i)) →
      RepTails lens (fis.map FI.fld) vs ls cur' fin o' →
      RepTails lens ((f :: fis).map FI.fld) (v :: vs) (ol :: ls) cur fin o')
    (ih : TailsPost tup done lens p fis cur' ls fin s1) : TailsPost tup done lens p (f :: fis) cur (ol :: ls) fin s := by
  have hok' : ∀ g ∈ fis, g.Ok hs ha := fun g hg => hok g (by simp [hg])
  have hnof : ∀ b, f.owns b → ¬ modsAll fis b := by
    rintro b hb ⟨g, hg, hgb⟩
    exact (hpw g hg b).1 (FI.owns_mods (hok f (by simp)) hb) (FI.mods_fp (hok' g hg) hgb)
  unfold TailsPost at ih ⊢
  rw [hval, hini, hleft, hlost]
  cases hvf : valFields lens fis with
  | none =>
    rw [hvf] at ih
    obtain ⟨m, s2, e1, e2, e3, e4, e5⟩ := ih
    have ht1 : Touch s s1 (p.add cur) (fin - cur) (modsAll (f :: fis)) :=
      ht.mono (.inr ⟨rfl, by simp; omega, by simp; omega⟩) (fun b hb => (modsAll_cons _ _ _).2 (.inl (FI.owns_mods (hok f (by simp)) hb)))
    refine ⟨m, s2, e1, ht1.trans
      (e2.mono (.inr ⟨rfl, by simp; omega, by simp; omega⟩) (fun b hb => (modsAll_cons _ _ _).2 (.inr hb))), ?_, by rw [e4, hlog, List.append_assoc], e5.trans hcop⟩
    intro b hb
    rcases (ownsAll_cons _ _ _).1 hb with hb | hb
    · exact e2.dead (hnof b hb) (hlive b hb)
    · exact e3 b hb
  | some vs =>
    rw [hvf] at ih
    obtain ⟨s2, e1, e2, e3, e4, e5, e6⟩ := ih
    have ht1 : Touch s s1 (p.add cur) (fin - cur) (ownsAll (f :: fis)) :=
      ht.mono (.inr ⟨rfl, by simp; omega, by simp; omega⟩) (fun b hb => (ownsAll_cons _ _ _).2 (.inl hb))
    refine ⟨s2, e1, ht1.trans
      (e2.mono (.inr ⟨rfl, by simp; omega, by simp; omega⟩) (fun b hb => (ownsAll_cons _ _ _).2 (.inr hb))), ?_, ?_, by rw [e5, hlog, List.append_assoc], e6.trans hcop⟩
    · intro b hb
      rcases (ownsAll_cons _ _ _).1 hb with hb | hb
      · exact e2.dead (fun ho => hnof b hb (ownsAll.mods hok' ho)) (hlive b hb)
      · exact e3 b hb
    · refine hrep _ _ (fun i hi => ?_) e4
      refine e2.view (q := p) ?_ (o + i) (.inr (.inl ?_))
      · rintro ⟨g, hg, hgb⟩
        exact hfp g (by simp [hg]) (FI.owns_fp (hok g (by simp [hg])) hgb)
      · simp; omega

/-- Initialising a tail field panics. -/
theorem TailsPost.stop {tup : Bool} {done : List (RTy × Img)} {lens : List Img} {hs ha : Nat} {p : Ptr} {f : FI w} {fis : List (FI w)} {cur o n fin : Nat}
    {ol : BitVec w × Layout w} {ls s s1} {m : PanicMsg} {ev : List Event} {x : M Unit}
    (hok : ∀ g ∈ f :: fis, g.Ok hs ha) (hp : ∀ g ∈ fis, g.pre s) (hpw : ∀ g ∈ fis, ∀ x, (f.mods x → ¬ g.fp x) ∧ (g.mods x → ¬ f.fp x))
    (hpw2 : Apart fis) (hfp : ∀ g ∈ f :: fis, ¬ g.fp p.blk)
    (h1 : cur ≤ o) (h3 : o + n ≤ fin)
    (hlive : ∀ b, f.owns b → ∃ B, s1.blk b = some B ∧ B.live = false)
    (ht : Touch s s1 (p.add o) n f.mods) (hlog : s1.log = s.log ++ ev) (hcop : s1.copied = s.copied)
    (hx : x s = .panic m s1)
    (hini : initTails tup p done (f :: fis) (ol :: ls) = (do onUnwind x (unwindInit tup done fis); initTails tup p done fis ls))
    (hval : valFields lens (f :: fis) = none)
    (hlost : lostFields tup lens done (f :: fis) = ev ++ doneDrops done ++ (if tup then fis.reverse else fis).flatMap FI.owes) :
    TailsPost tup done lens p (f :: fis) cur (ol :: ls) fin s := by
  have hok' : ∀ g ∈ fis, g.Ok hs ha := fun g hg => hok g (by simp [hg])
  have hp1 : ∀ g ∈ fis, g.pre s1 := by
    intro g hg
    exact FI.stable (hok' g hg) (hp g hg) (ht.same (fun b hb ho => (hpw g hg b).1 ho hb) (hfp g (by simp [hg])))
  obtain ⟨s2, e1, e2, e3, e4, e5⟩ := unwindInit_spec tup done fis s1 hok' hp1 hpw2
  unfold TailsPost
  rw [hval]
  refine ⟨m, s2, ?_, ?_, ?_, ?_, e5.trans hcop⟩
  · rw [hini]; simp only [bind_apply, onUnwind_panic hx e1, Res.bind_panic]
  · have ht1 : Touch s s1 (p.add cur) (fin - cur) (modsAll (f :: fis)) :=
      ht.mono (.inr ⟨rfl, by simp; omega, by simp; omega⟩) (fun b hb => (modsAll_cons _ _ _).2 (.inl hb))
    exact ht1.trans
      (e2.mono (.inl rfl) (fun b hb => (modsAll_cons _ _ _).2 (.inr hb)))
  · intro b hb
    rcases (ownsAll_cons _ _ _).1 hb with hb | hb
    · refine e2.dead ?_ (hlive b hb)
      rintro ⟨g, hg, hgb⟩
      exact (hpw g hg b).1 (FI.owns_mods (hok f (by simp)) hb) (FI.mods_fp (hok' g hg) hgb)
    · exact e3 b hb
  · rw [e4, hlog, hlost]; simp [List.append_assoc]

/-- Initialising the tail fields. -/
theorem initTails_spec {tup : Bool} {lens : List Img} {hs ha : Nat} {p : Ptr} :
    ∀ (fis : List (FI w)) (done : List (RTy × Img)) (cur : BitVec w) ls (fin : BitVec w) s, (∀ f ∈ fis, f.Ok hs ha) →
    layFields lens fis cur = some (ls, fin) → (∀ f ∈ fis, f.pre s) →
    Apart fis → Acc s p fin.toNat →
    (∀ a ∈ tailAligns (fis.map FI.fld), Aligned s p a.toNat) → (∀ f ∈ fis, ¬ f.fp p.blk) →
    TailsPost tup done lens p fis cur.toNat ls fin.toNat s := by
  intro fis
  induction fis with
  | nil =>
    intro done cur ls fin s _ h _ _ _ _ _
    simp only [layFields, Option.some.injEq, Prod.mk.injEq] at h
    obtain ⟨rfl, rfl⟩ := h
    exact ⟨s, rfl, Touch.refl _ _ _ _, by simp [ownsAll], rfl, (List.append_nil _).symm, rfl⟩
  | cons f fis ih =>
    intro done cur ls fin s hok h hp hpw hacc hal hfp
    have hok' : ∀ f ∈ fis, f.Ok hs ha := fun g hg => hok g (by simp [hg])
    have hf := hok f (by simp)
    have hpf := hp f (by simp)
    have hpr : ∀ g ∈ fis, g.pre s := fun g hg => hp g (by simp [hg])
    have hfpf := hfp f (by simp)
    obtain ⟨hpw1, hpw2⟩ := List.pairwise_cons.1 hpw
    have hnp : ¬ f.owns p.blk := fun h => hfpf (FI.owns_fp hf h)
    -- the remaining initializers are not disturbed
    have rest : ∀ (cur' : BitVec w) ls' s1 (o n : Nat), layFields lens fis cur' = some (ls', fin) →
        Touch s s1 (p.add o) n f.owns → (∀ a ∈ tailAligns (fis.map FI.fld), Aligned s p a.toNat) →
        TailsPost tup done lens p fis cur'.toNat ls' fin.toNat s1 := by
      intro cur' ls' s1 o n h' ht hal'
      refine ih done cur' ls' fin s1 hok' h' ?_ hpw2 (ht.acc hnp hacc) (fun a ha' => ht.aligned hnp (hal' a ha')) (fun g hg => hfp g (by simp [hg]))
      intro g hg
      exact FI.stable (hok' g hg) (hp g (by simp [hg]))
        (ht.same (fun b hb ho => (hpw1 g hg b).1 (FI.owns_mods hf ho) hb) (hfp g (by simp [hg])))
    cases f with
    | normal R off img =>
      refine TailsPost.skip img (fun _ h => h) (fun _ h => h) rfl rfl rfl rfl (fun _ _ => Iff.rfl) (ih _ cur ls fin s hok' h hpr hpw2 hacc hal (fun g hg => hfp g (by simp [hg])))
    | length R off img =>
      refine TailsPost.skip img (fun _ h => h) (fun _ h => h) rfl rfl rfl rfl (fun _ _ => Iff.rfl) (ih _ cur ls fin s hok' h hpr hpw2 hacc hal (fun g hg => hfp g (by simp [hg])))
    | varlen T I =>
      have hT : Lawful T := hf.1
      have hI : InitLawful T I := hf.2
      obtain ⟨o, l, sz, ls', rfl, h2, h3, h4, h5⟩ := layFields_varlen hT.align_pow2 h
      have hge := roundUpN_ge cur.toNat T.ALIGN.toNat hT.align_pow2.pos
      have hle := layFields_le fis _ _ _ hok' h5
      have ha1 : Acc s (p.add o.toNat) l.size.toNat := hacc.sub (by omega)
      have hal1 : Aligned s (p.add o.toNat) T.ALIGN.toNat :=
        (hal T.ALIGN (by simp [tailAligns, FI.fld])).add (by rw [h3]; exact roundUpN_mod _ _)
      have hal' : ∀ a ∈ tailAligns (fis.map FI.fld), Aligned s p a.toNat := fun a ha' => hal a (by simp [tailAligns, FI.fld, ha'])
      cases hv : I.val with
      | none =>
        obtain ⟨m, s1, e1, e2, e3, e4, e5⟩ := hI.init_panic s (p.add o.toNat) l hpf h2 hv ha1 hal1 hfpf
        exact TailsPost.stop (hs := hs) (ha := ha) (o := o.toNat) (n := l.size.toNat) (m := m) (x := initField I p o l) (ev := I.lost) hok hpr hpw1 hpw2 hfp
          (by omega) (by omega) e3 e2 e4 e5 e1 rfl (by simp [valFields, hv]) (by simp only [lostFields, hv])
      | some v =>
        obtain ⟨s1, e1, e2, e3, e4, e5, e6⟩ := hI.init_ok s (p.add o.toNat) l v hpf h2 hv ha1 hal1 hfpf
        refine TailsPost.step hok (o := o.toNat) (n := l.size.toNat) (cur' := sz.toNat) (v := v) (by omega) h4.symm hle hfp hpw1 e3 e2 e5 e6 ?_ (by simp [valFields, hv]) rfl (by simp only [lostFields, hv]) ?_ (rest sz ls' s1 _ _ h5 e2 hal')
        · simp only [initTails, bind_apply, onUnwind_ok (show initField I p o l s = .ok () s1 from e1), Res.bind_ok]
        · intro o' vs hag hr
          simp only [List.map_cons, FI.fld, RepTails]
          refine ⟨⟨h3, hT.rep_ext _ _ _ _ e4 fun i hi => ?_⟩, by rw [← h4]; exact hr⟩
          rw [viewAt_add]; exact (hag i hi).symm
    | array R len I =>
      have hR : R.Ok w := hf.1
      have hI : ArrInitLawful R I := hf.2
      obtain ⟨o, sz, ls', rfl, h3, h4, h5, hdef⟩ := layFields_array hR h
      have hge := roundUpN_ge cur.toNat R.align hR.align_pos
      have hle := layFields_le fis _ _ _ hok' h5
      have ha1 : Acc s (p.add o.toNat) ((len lens).toNat * R.size) := hacc.sub (by omega)
      have hal1 : Aligned s (p.add o.toNat) R.align := by
        have := hal (R.alignOf w) (by simp [tailAligns, FI.fld])
        rw [hR.alignOf_toNat] at this
        exact this.add (by rw [h3]; exact roundUpN_mod _ _)
      have hal' : ∀ a ∈ tailAligns (fis.map FI.fld), Aligned s p a.toNat := fun a ha' => hal a (by simp [tailAligns, FI.fld, ha'])
      cases hv : I.vals (len lens).toNat with
      | none =>
        obtain ⟨m, s1, e1, e2, e3, e4⟩ := hI.run_panic s (p.add o.toNat) _ hpf hv ha1 hal1 hfpf
        refine TailsPost.stop (hs := hs) (ha := ha) (o := o.toNat) (n := (len lens).toNat * R.size) (m := m) (x := initArray R I p o (len lens)) (ev := I.lost (len lens).toNat) hok hpr hpw1 hpw2 hfp
          (by omega) (by omega) (fun _ h => h.elim) e2 e3 e4 ?_ rfl (by simp [valFields, hv]) (by simp only [lostFields, hv])
        simp only [initArray, refArray, bind_apply, mkRef_ok ha1 hal1, pure_apply, Res.bind_ok, e1]
      | some xs =>
        obtain ⟨s1, e1, e2, e4, e5, e6⟩ := hI.run_ok s (p.add o.toNat) _ xs hpf hv ha1 hal1 hfpf
        refine TailsPost.step hok (o := o.toNat) (n := (len lens).toNat * R.size) (cur' := sz.toNat) (v := .arr xs) (by omega) h4.symm hle hfp hpw1 (fun _ h => h.elim) e2 e5 e6 ?_ (by simp [valFields, hv]) rfl (by simp only [lostFields, hv]) ?_ (rest sz ls' s1 _ _ h5 e2 hal')
        · have e : initArray R I p o (len lens) s = .ok () s1 := by
            simp only [initArray, refArray, bind_apply, mkRef_ok ha1 hal1, pure_apply, Res.bind_ok, e1]
          simp only [initTails, bind_apply, onUnwind_ok e, Res.bind_ok]
        · intro o' vs hag hr
          simp only [List.map_cons, FI.fld, RepTails]
          refine ⟨⟨h3, trivial, ?_, (hI.vals_ok _ _ hv).2, hdef⟩, by rw [← h4]; exact hr⟩
          rw [← e4, viewAt_add, elemsV_shift]
          exact elemsV_congr fun i hi => hag i hi

/-! ## The head -/

/-- The header values of a view agreeing with the head image. -/
theorem hdrView_out {hs ha : Nat} : ∀ (fis : List (FI w)) i, (∀ f ∈ fis, f.Ok hs ha) →
    (∀ f ∈ fis, f.fld.range.2 = 0 ∨ i < f.fld.range.1 ∨ f.fld.range.1 + f.fld.range.2 ≤ i) → hdrView fis i = none := by
  intro fis
  induction fis with
  | nil => intro i _ _; rfl
  | cons f fis ih =>
    intro i hok h
    have ih := ih i (fun g hg => hok g (by simp [hg])) (fun g hg => h g (by simp [hg]))
    have hf := hok f (by simp)
    have h := h f (by simp)
    cases f with
    | normal R off img =>
      have hl := RTy.Ok.valid_len hf.1.1 _ hf.2
      simp only [FI.fld, Fld.range] at h
      simp only [hdrView]; rw [overwrite_out _ _ _ _ (by omega), ih]
    | length R off img =>
      have hl := RTy.Ok.valid_len hf.1.1 _ hf.2
      simp only [FI.fld, Fld.range] at h
      simp only [hdrView]; rw [overwrite_out _ _ _ _ (by omega), ih]
    | varlen T I => exact ih
    | array R len I => exact ih

/-- A header field's value is found in the head image. -/
theorem hdrView_spec {hs ha : Nat} {lens : List Img} : ∀ (fis : List (FI w)) vs (o : View), (∀ f ∈ fis, f.Ok hs ha) →
    ((fis.map FI.fld).Pairwise fun a b => a.range.2 = 0 ∨ b.range.2 = 0 ∨ a.range.1 + a.range.2 ≤ b.range.1 ∨
      b.range.1 + b.range.2 ≤ a.range.1) →
    valFields lens fis = some vs →
    (∀ f ∈ fis, ∀ i, i < f.fld.range.2 → o (f.fld.range.1 + i) = hdrView fis (f.fld.range.1 + i)) →
    RepHdr (fis.map FI.fld) vs o ∧ lengthsOf (fis.map FI.fld) o = initLengths fis := by
  intro fis
  induction fis with
  | nil => intro vs o _ _ h _; cases h; exact ⟨trivial, rfl⟩
  | cons f fis ih =>
    intro vs o hok hdj hval hag
    have hok' : ∀ f ∈ fis, f.Ok hs ha := fun g hg => hok g (by simp [hg])
    have hf := hok f (by simp)
    rw [List.map_cons, List.pairwise_cons] at hdj
    obtain ⟨hdj1, hdj2⟩ := hdj
    have hout : ∀ (off : Nat) (img : Img), f.fld.range = (off, img.length) → ∀ g ∈ fis, ∀ i, i < g.fld.range.2 →
        overwrite (hdrView fis) off img (g.fld.range.1 + i) = hdrView fis (g.fld.range.1 + i) := by
      intro off img hr g hg i hi
      have := hdj1 g.fld (List.mem_map.2 ⟨g, hg, rfl⟩)
      rw [hr] at this
      simp only at this
      exact overwrite_out _ _ _ _ (by omega)
    have hin : ∀ (off : Nat) (img : Img), (∀ i, i < img.length → o (off + i) = overwrite (hdrView fis) off img (off + i)) →
        takeV o off img.length = img := by
      intro off img h
      rw [takeV_congr h, takeV_overwrite]
    cases f with
    | normal R off img =>
      have hl := RTy.Ok.valid_len hf.1.1 _ hf.2
      simp only [valFields, Option.map_eq_some_iff] at hval
      obtain ⟨vs', hv', rfl⟩ := hval
      obtain ⟨h1, h2⟩ := ih vs' o hok' hdj2 hv' (fun g hg i hi => by
        rw [hag g (by simp [hg]) i hi]; exact hout off img (by simp [FI.fld, Fld.range, hl]) g hg i hi)
      have h3 := hin off img (fun i hi => hag _ (List.mem_cons_self ..) i (by simp only [FI.fld, Fld.range]; omega))
      rw [hl] at h3
      exact ⟨⟨⟨h3, hf.2⟩, h1⟩, h2⟩
    | length R off img =>
      have hl := RTy.Ok.valid_len hf.1.1 _ hf.2
      simp only [valFields, Option.map_eq_some_iff] at hval
      obtain ⟨vs', hv', rfl⟩ := hval
      obtain ⟨h1, h2⟩ := ih vs' o hok' hdj2 hv' (fun g hg i hi => by
        rw [hag g (by simp [hg]) i hi]; exact hout off img (by simp [FI.fld, Fld.range, hl]) g hg i hi)
      have h3 := hin off img (fun i hi => hag _ (List.mem_cons_self ..) i (by simp only [FI.fld, Fld.range]; omega))
      rw [hl] at h3
      refine ⟨⟨⟨h3, hf.2⟩, h1⟩, ?_⟩
      simp only [lengthsOf, initLengths, List.map_cons, FI.fld, List.filterMap_cons] at h2 ⊢
      rw [h3, h2]
    | varlen T I =>
      simp only [valFields, Option.bind_eq_some_iff, Option.map_eq_some_iff] at hval
      obtain ⟨v, _, vs', hv', rfl⟩ := hval
      obtain ⟨h1, h2⟩ := ih vs' o hok' hdj2 hv' (fun g hg i hi => hag g (by simp [hg]) i hi)
      exact ⟨h1, h2⟩
    | array R len I =>
      simp only [valFields, Option.bind_eq_some_iff, Option.map_eq_some_iff] at hval
      obtain ⟨v, _, vs', hv', rfl⟩ := hval
      obtain ⟨h1, h2⟩ := ih vs' o hok' hdj2 hv' (fun g hg i hi => hag g (by simp [hg]) i hi)
      exact ⟨h1, h2⟩

/-! ## The contract -/

theorem aggInitializer_lawful {tup : Bool} {hs ha : Nat} {fis : List (FI w)} {T : VarLen w} (hok : StructOk hs ha (fis.map FI.fld))
    (hf : ∀ f ∈ fis, f.Ok hs ha) (hrep : T.Rep = aggRep hs (fis.map FI.fld))
    (hha : ha ∣ T.ALIGN.toNat) (hta : ∀ a ∈ tailAligns (fis.map FI.fld), a.toNat ∣ T.ALIGN.toNat) :
    InitLawful T (aggInitializer tup hs ha fis) where
  owns_mods := by
    rintro b ⟨f, h1, h2⟩; exact ⟨f, h1, FI.owns_mods (hf f h1) h2⟩
  mods_fp := by
    rintro b ⟨f, h1, h2⟩; exact ⟨f, h1, FI.mods_fp (hf f h1) h2⟩
  fp_exists := by
    rintro s b ⟨h, _⟩ ⟨f, h1, h2⟩; exact FI.fp_exists (hf f h1) (h f h1) h2
  stable := by
    rintro s s' ⟨h, hpw⟩ hsame
    exact ⟨fun f hf' => FI.stable (hf f hf') (h f hf') (hsame.mono fun b hb => ⟨f, hf', hb⟩), hpw⟩
  calc_ok := by
    rintro s ⟨h, hpw⟩ hb
    simp only [aggInitializer] at hb
    simp only [aggInitializer, aggCautious, bind_apply, catFieldsCautious_spec fis _ s hf h, hb, cond_false, Res.bind_ok]
    cases layFields (initLengths fis) fis (BitVec.ofNat w hs) with
    | none => rfl
    | some x => rfl
  calc_panic := by
    rintro s ⟨h, hpw⟩ hb
    simp only [aggInitializer] at hb
    simp only [aggInitializer, aggCautious, bind_apply, catFieldsCautious_spec fis _ s hf h, hb, cond_true, Res.bind_panic]
  bad_lay := by
    intro hb
    simp only [aggInitializer] at hb ⊢
    rw [badFields_lay fis _ hf hb]; rfl
  drop_ok := fun s hp => dropFIs_spec fis s hf hp.1 hp.2
  init_ok := by
    rintro s p l v ⟨hp, hpw⟩ hl hv hacc hal hfp
    simp only [aggInitializer, Option.map_eq_some_iff] at hl hv
    obtain ⟨⟨ls, fin⟩, hl, rfl⟩ := hl
    obtain ⟨vs, hv, rfl⟩ := hv
    simp only [Layout.size] at hacc ⊢
    have hcur : (BitVec.ofNat w hs).toNat = hs := by rw [BitVec.toNat_ofNat, Nat.mod_eq_of_lt hok.head_lt]
    have hle := layFields_le fis _ _ _ hf hl
    rw [hcur] at hle
    have hno : ¬ ownsAll fis p.blk := by
      rintro ⟨f, h1, h2⟩; exact hfp ⟨f, h1, FI.owns_fp (hf f h1) h2⟩
    have ht := initTails_spec (tup := tup) (p := p) fis [] _ ls fin s hf hl hp hpw hacc (fun a ha' => hal.of_dvd (hta a ha'))
      (fun f h1 h2 => hfp ⟨f, h1, h2⟩)
    rw [hcur] at ht
    unfold TailsPost at ht
    rw [hv] at ht
    obtain ⟨s1, e1, e2, e3, e4, e5, e6⟩ := ht
    have hacc1 : Acc s1 p (takeV (hdrView fis) 0 hs).length := by
      rw [takeV_length]; exact e2.acc hno (hacc.mono hle)
    have hal1 : Aligned s1 p ha := e2.aligned hno (hal.of_dvd hha)
    generalize hs2 : s1.write p (takeV (hdrView fis) 0 hs) = s2
    have tw : Touch s1 s2 p hs noOwn := by
      have := Touch.write (s := s1) (p := p) (img := takeV (hdrView fis) 0 hs) (own := noOwn)
      rw [takeV_length, hs2] at this; exact this
    have hview : viewAt s2 p = overwrite (viewAt s1 p) 0 (takeV (hdrView fis) 0 hs) := by
      rw [← hs2]; exact viewAt_write hacc1
    have hhd : ∀ i, i < hs → viewAt s2 p i = hdrView fis i := by
      intro i hi
      rw [hview]
      have := overwrite_in (viewAt s1 p) 0 i (takeV (hdrView fis) 0 hs) (by simpa using hi)
      rw [Nat.zero_add] at this
      rw [this, List.getD_eq_getElem?_getD, takeV_getElem?]
      simp [hi]
    have htl : ∀ i, hs ≤ i → viewAt s2 p i = viewAt s1 p i := by
      intro i hi
      rw [hview]; exact overwrite_out _ _ _ _ (by simp; omega)
    obtain ⟨hr1, hr2⟩ := hdrView_spec (lens := initLengths fis) fis vs (viewAt s2 p) hf hok.disjoint hv (fun f hf' i hi =>
      hhd _ (by have := (hf f hf').1.range_le (by omega); omega))
    refine ⟨s2, ?_, ?_, ?_, ?_, ?_, ?_⟩
    · simp only [aggInitializer, aggInit, bind_apply, e1, Res.bind_ok, checkAlign_ok hal1, writeBytes_ok hacc1, hs2]
    · refine Touch.trans (e2.mono (.inr ⟨rfl, by simp, by simp; omega⟩) (fun _ h => h)) (tw.mono (.inr ⟨rfl, Nat.le_refl _, by omega⟩) (fun _ h => h.elim))
    · intro b hb
      obtain ⟨B, g1, g2⟩ := e3 b hb
      obtain ⟨d, g3, _⟩ := tw.blk b (fun h => h) B g1
      exact ⟨_, g3, g2⟩
    · rw [hrep]
      refine ⟨vs, ls, fin, rfl, rfl, hr1, ?_⟩
      rw [hr2]
      exact RepTails.congr _ _ _ _ _ hok.flds (fun i hi _ => (htl i hi).symm) e4
    · rw [← hs2, St.write_log]; exact e5
    · rw [← hs2]; simpa using e6
  init_panic := by
    rintro s p l ⟨hp, hpw⟩ hl hv hacc hal hfp
    simp only [aggInitializer, Option.map_eq_some_iff, Option.map_eq_none_iff] at hl hv
    obtain ⟨⟨ls, fin⟩, hl, rfl⟩ := hl
    simp only [Layout.size] at hacc ⊢
    have hcur : (BitVec.ofNat w hs).toNat = hs := by rw [BitVec.toNat_ofNat, Nat.mod_eq_of_lt hok.head_lt]
    have hle := layFields_le fis _ _ _ hf hl
    rw [hcur] at hle
    have ht := initTails_spec (tup := tup) (p := p) fis [] _ ls fin s hf hl hp hpw hacc (fun a ha' => hal.of_dvd (hta a ha'))
      (fun f h1 h2 => hfp ⟨f, h1, h2⟩)
    rw [hcur] at ht
    unfold TailsPost at ht
    rw [hv] at ht
    obtain ⟨m, s1, e1, e2, e3, e4, e5⟩ := ht
    refine ⟨m, s1, ?_, e2.mono (.inr ⟨rfl, by simp, by simp; omega⟩) (fun _ h => h), e3, e4, e5⟩
    simp only [aggInitializer, aggInit, bind_apply, e1, Res.bind_panic]

theorem Struct.init_lawful {hs ha : Nat} {fis : List (FI w)} (hok : StructOk hs ha (fis.map FI.fld))
    (hf : ∀ f ∈ fis, f.Ok hs ha) : InitLawful (Struct w hs ha (fis.map FI.fld)) (Struct.init hs ha fis) := by
  obtain ⟨_, h2, h3⟩ := Struct.aligns hok
  exact aggInitializer_lawful hok hf rfl h2 h3

theorem Tuple.init_lawful {fis : List (VarLen w × Init w)} (hne : fis ≠ []) (hT : ∀ f ∈ fis, Lawful f.1)
    (hI : ∀ f ∈ fis, InitLawful f.1 f.2) : InitLawful (Tuple w (fis.map (·.1))) (Tuple.init fis) := by
  have hT' : ∀ T ∈ fis.map (·.1), Lawful T := by
    intro T h; obtain ⟨f, h1, rfl⟩ := List.mem_map.1 h; exact hT f h1
  obtain ⟨h1, h2⟩ := Tuple.aligns (by simpa using hne) hT'
  have hmap : (fis.map fun (T, I) => FI.varlen T I).map FI.fld = (fis.map (·.1)).map Fld.varlen := by
    simp [List.map_map, Function.comp_def, FI.fld]
  refine aggInitializer_lawful (T := Tuple w (fis.map (·.1))) (by rw [hmap]; exact Tuple.structOk h1.wpos hT') ?_ (by rw [hmap]; rfl)
    (Nat.one_dvd _) ?_
  · intro f hf
    obtain ⟨⟨T, I⟩, hx, rfl⟩ := List.mem_map.1 hf
    exact ⟨hT _ hx, hI _ hx⟩
  · rw [hmap, tailAligns_map]
    intro a ha
    obtain ⟨T, hT', rfl⟩ := List.mem_map.1 ha
    exact h2 T hT'

end Varlen
