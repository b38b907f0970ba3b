import Verif.Proofs.StructSet
import Verif.Proofs.LibType
import Verif.Proofs.Clone
/-! # Access to the fields of structs and tuples, per field index -/
namespace Varlen
variable {w : Nat}

theorem LayOk.descs_fld {lens : List Img} : ∀ (fs : List (Fld w)) ls cur fin, LayOk lens fs ls cur fin → (descs fs ls).map (·.fld) = fs := by
  intro fs
  induction fs with
  | nil => intro ls cur fin h; cases ls <;> simp [descs]
  | cons f fs ih =>
    intro ls cur fin h
    cases f with
    | normal R off => simp only [descs, List.map_cons, ih _ _ _ h]
    | length R off => simp only [descs, List.map_cons, ih _ _ _ h]
    | varlen T =>
      rcases ls with _ | ⟨⟨o1, l⟩, ls⟩
      · exact h.elim
      · simp only [descs, List.map_cons, ih _ _ _ h.2]
    | array R len =>
      rcases ls with _ | ⟨⟨o1, l⟩, ls⟩
      · exact h.elim
      · cases l <;> simp only [LayOk] at h
        simp only [descs, List.map_cons, ih _ _ _ h.2]

theorem agg_accessIx {hs ha : Nat} {fs : List (Fld w)} (hok : StructOk hs ha fs) {T : VarLen w} (hha : ha ∣ T.ALIGN.toNat)
    (hta : ∀ a ∈ tailAligns fs, a.toNat ∣ T.ALIGN.toNat) (hrep : T.Rep = aggRep hs fs) (hcalc : T.calculateLayout = aggCalc hs fs) (hT : Lawful T)
    {s : St} {p : Ptr} {v : V} {l : Layout w} (h : Valid T s p v l) :
    ∃ vs rs shapes, v = .node vs ∧ aggRefs hs fs p s = .ok rs s ∧ aggMuts hs fs p s = .ok ((fs.map Fld.mutable).zip rs) s ∧ Access T fs s p vs l rs shapes := by
  have hc := hT.calc_ok s p v l h
  rw [hcalc] at hc
  obtain ⟨hacc, hal, hr⟩ := h
  rw [hrep] at hr
  obtain ⟨vs, ls, size, rfl, rfl, hr1, hr2⟩ := hr
  obtain ⟨a1, a2, a3, a4, a5, a6, a7⟩ := agg_access hok hha hta hacc hal hr1 hr2
  have hfld := LayOk.descs_fld fs ls _ _ ((rep_iff fs vs ls hs size.toNat).1 ⟨hr1, hr2⟩).1
  have href : aggRefs hs fs p s = .ok ((descs fs ls).map (·.ref p)) s := by
    simp only [aggRefs, bind_apply, hc, Res.bind_ok, a1]
  have hix : ∀ (i : Nat) f r sh, fs[i]? = some f → ((descs fs ls).map (·.ref p))[i]? = some r → ((descs fs ls).map (·.shape))[i]? = some sh →
      ∃ d, (descs fs ls)[i]? = some d ∧ d.fld = f ∧ d.ref p = r ∧ d.shape = sh := by
    intro i f r sh h1 h2 h3
    simp only [List.getElem?_map, Option.map_eq_some_iff] at h2 h3
    obtain ⟨d, hd, rfl⟩ := h2
    obtain ⟨d', hd', rfl⟩ := h3
    rw [hd] at hd'; cases hd'
    rw [← hfld, List.getElem?_map, hd] at h1
    simp only [Option.map_some, Option.some.injEq] at h1
    exact ⟨d, hd, h1, rfl, rfl⟩
  refine ⟨vs, _, (descs fs ls).map (·.shape), rfl, href, by simp only [aggMuts, bind_apply, href, Res.bind_ok, pure_apply],
    ⟨by simpa using a4, by omega, by simpa using a4, ?_, ?_, ?_, ?_⟩⟩
  · intro i f r v sh h1 h2 h3 h4
    obtain ⟨d, hd, rfl, rfl, rfl⟩ := hix i f r sh h1 h2 h4
    exact a5 i d v hd h3
  · intro i f r sh h1 h2 h4
    obtain ⟨d, hd, rfl, rfl, rfl⟩ := hix i f r sh h1 h2 h4
    rw [Desc.ref_ptr]
    refine ⟨rfl, ?_⟩
    have h := (a6 d (List.mem_of_getElem? hd)).2
    have : (Layout.fields size ls).size.toNat = size.toNat := rfl
    simp only [Ptr.add, this, Desc.size] at h ⊢
    omega
  · intro i j f f' r r' sh sh' hij h1 h1' h2 h2' h4 h4'
    obtain ⟨d, hd, rfl, rfl, rfl⟩ := hix i f r sh h1 h2 h4
    obtain ⟨d', hd', rfl, rfl, rfl⟩ := hix j f' r' sh' h1' h2' h4'
    rw [Desc.ref_ptr, Desc.ref_ptr]
    obtain ⟨hi1, hi2⟩ := List.getElem?_eq_some_iff.1 hd
    obtain ⟨hj1, hj2⟩ := List.getElem?_eq_some_iff.1 hd'
    have hdj : Disj d d' ∨ Disj d' d := by
      rw [← hi2, ← hj2]
      rcases Nat.lt_or_gt_of_ne hij with h | h
      · left; exact List.pairwise_iff_getElem.1 a2 _ _ _ _ h
      · right; exact List.pairwise_iff_getElem.1 a2 _ _ _ _ h
    simp only [Disj, Desc.size, Ptr.add] at hdj ⊢
    omega
  · intro i f r sh v' s' h1 h2 h4 hm ht hsee
    obtain ⟨d, hd, rfl, rfl, rfl⟩ := hix i f r sh h1 h2 h4
    rw [Desc.ref_ptr] at ht
    have hrep' := a7 i d v' s' hd (by intro R off h; rw [h] at hm; cases hm) ht hsee
    have hacc' : Acc s' p size.toNat := ht.acc (fun h => h) hacc
    have hal' : Aligned s' p T.ALIGN.toNat := ht.aligned (fun h => h) hal
    refine ⟨⟨hacc', hal', by rw [hrep]; exact hrep'⟩, ?_⟩
    obtain ⟨vs', ls', size', e1, e2, r1, r2⟩ := hrep'
    cases e1
    cases e2
    obtain ⟨b1, b2, b3, b4, b5, b6, b7⟩ := agg_access hok hha hta hacc' hal' r1 r2
    intro j f' r' v'' sh' hji h1' h2' h3' h4'
    obtain ⟨d', hd', rfl, rfl, rfl⟩ := hix j f' r' sh' h1' h2' h4'
    refine b5 j d' v'' hd' ?_
    rw [List.getElem?_set, if_neg (by omega)]
    exact h3'

theorem Struct.accessIx {hs ha : Nat} {fs : List (Fld w)} (hok : StructOk hs ha fs) {s : St} {p : Ptr} {v : V} {l : Layout w} (h : Valid (Struct w hs ha fs) s p v l) :
    ∃ vs rs shapes, v = .node vs ∧ aggRefs hs fs p s = .ok rs s ∧ aggMuts hs fs p s = .ok ((fs.map Fld.mutable).zip rs) s ∧ Access (Struct w hs ha fs) fs s p vs l rs shapes := by
  obtain ⟨_, h2, h3⟩ := Struct.aligns hok
  exact agg_accessIx hok h2 h3 rfl rfl (Struct.lawful hok) h

theorem Tuple.accessIx {Ts : List (VarLen w)} (hne : Ts ≠ []) (hT : ∀ T ∈ Ts, Lawful T) {s : St} {p : Ptr} {v : V} {l : Layout w} (h : Valid (Tuple w Ts) s p v l) :
    ∃ vs rs shapes, v = .node vs ∧ aggRefs 0 (Ts.map .varlen) p s = .ok rs s ∧ aggMuts 0 (Ts.map .varlen) p s = .ok (((Ts.map .varlen).map Fld.mutable).zip rs) s ∧
      Access (Tuple w Ts) (Ts.map .varlen) s p vs l rs shapes := by
  obtain ⟨h1, h2⟩ := Tuple.aligns hne hT
  refine agg_accessIx (Tuple.structOk h1.wpos hT) (Nat.one_dvd _) ?_ rfl rfl (Tuple.lawful hne hT) h
  rw [tailAligns_map]
  intro a ha
  obtain ⟨T, hT', rfl⟩ := List.mem_map.1 ha
  exact h2 T hT'

end Varlen

namespace Varlen
variable {w : Nat}

theorem LayOk.array_len {lens : List Img} : ∀ (fs : List (Fld w)) ls cur fin, LayOk lens fs ls cur fin → ∀ d ∈ descs fs ls, ∀ R len, d.fld = .array R len → d.shape = .len (len lens) := by
  intro fs
  induction fs with
  | nil => intro ls cur fin h d hd; cases ls <;> simp [descs] at hd
  | cons f fs ih =>
    intro ls cur fin h d hd R len hf
    cases f with
    | normal R' off =>
      simp only [descs, List.mem_cons] at hd
      rcases hd with rfl | hd
      · cases hf
      · exact ih _ _ _ h d hd R len hf
    | length R' off =>
      simp only [descs, List.mem_cons] at hd
      rcases hd with rfl | hd
      · cases hf
      · exact ih _ _ _ h d hd R len hf
    | varlen T =>
      rcases ls with _ | ⟨⟨o1, l⟩, ls⟩
      · exact h.elim
      · simp only [descs, List.mem_cons] at hd
        rcases hd with rfl | hd
        · cases hf
        · exact ih _ _ _ h.2 d hd R len hf
    | array R' len' =>
      rcases ls with _ | ⟨⟨o1, l⟩, ls⟩
      · exact h.elim
      · cases l <;> simp only [LayOk] at h
        simp only [descs, List.mem_cons] at hd
        rcases hd with rfl | hd
        · cases hf
          simp [h.1.2]
        · exact ih _ _ _ h.2 d hd R len hf

theorem arrayLens_eq_iff (fs : List (Fld w)) (a b : List Img) : arrayLens fs a = arrayLens fs b ↔ ∀ R len, Fld.array R len ∈ fs → len a = len b := by
  unfold arrayLens
  induction fs with
  | nil => simp
  | cons f fs ih =>
    cases f with
    | normal R off => simpa using ih
    | length R off => simpa using ih
    | varlen T => simpa using ih
    | array R len =>
      simp only [List.filterMap_cons, List.cons.injEq, List.mem_cons, Fld.array.injEq]
      rw [ih]
      constructor
      · rintro ⟨h1, h2⟩ R' len' (⟨rfl, rfl⟩ | h)
        · exact h1
        · exact h2 _ _ h
      · intro h
        exact ⟨h R len (.inl ⟨rfl, rfl⟩), fun R' len' hm => h R' len' (.inr hm)⟩

/-- The lengths of the array slices are those computed from the layout controllers. -/
theorem Struct.slice_len {hs ha : Nat} {fs : List (Fld w)} (hok : StructOk hs ha fs) {s : St} {p : Ptr} {v : V} {l : Layout w} (h : Valid (Struct w hs ha fs) s p v l)
    {rs : List FRef} (hr : aggRefs hs fs p s = .ok rs s) {i : Nat} {R : RTy} {len : LenFn w} (hi : fs[i]? = some (.array R len)) :
    ∃ sl, rs[i]? = some (.slice sl) ∧ sl.len = (len (lengthsOf fs (viewAt s p))).toNat := by
  have hc := (Struct.lawful hok).calc_ok s p v l h
  obtain ⟨_, h2, h3⟩ := Struct.aligns hok
  obtain ⟨hacc, hal, vs, ls, size, rfl, rfl, hr1, hr2⟩ := h
  obtain ⟨a1, _⟩ := agg_access hok h2 h3 hacc hal hr1 hr2
  have hlay := ((rep_iff fs vs ls hs size.toNat).1 ⟨hr1, hr2⟩).1
  have hfld := LayOk.descs_fld fs ls _ _ hlay
  have hc' : aggCalc hs fs p s = .ok (.fields size ls) s := hc
  simp only [aggRefs, bind_apply, hc', Res.bind_ok, a1] at hr
  cases hr
  rw [← hfld, List.getElem?_map, Option.map_eq_some_iff] at hi
  obtain ⟨d, hd, hdf⟩ := hi
  have hsh := LayOk.array_len fs ls _ _ hlay d (List.mem_of_getElem? hd) R len hdf
  refine ⟨⟨p.add d.off, (len (lengthsOf fs (viewAt s p))).toNat⟩, ?_, rfl⟩
  rw [List.getElem?_map, hd]
  simp only [Option.map_some, Desc.ref, hdf, hsh]

theorem valFields_get {lens : List Img} : ∀ (fis : List (FI w)) vs, valFields lens fis = some vs → vs.length = fis.length ∧
    ∀ (i : Nat) fi v, fis[i]? = some fi → vs[i]? = some v →
      (∀ R off img, fi = .normal R off img → v = .leaf img) ∧ (∀ R off img, fi = .length R off img → v = .leaf img) ∧
      (∀ T I, fi = .varlen T I → I.val = some v) ∧ (∀ R len I, fi = .array R len I → ∃ xs, v = .arr xs ∧ I.vals (len lens).toNat = some xs) := by
  intro fis
  induction fis with
  | nil => intro vs h; simp only [valFields, Option.some.injEq] at h; subst h; simp
  | cons f fis ih =>
    intro vs h
    have step : ∀ v0 vs0, vs = v0 :: vs0 → valFields lens fis = some vs0 →
        ((∀ R off img, f = .normal R off img → v0 = .leaf img) ∧ (∀ R off img, f = .length R off img → v0 = .leaf img) ∧
        (∀ T I, f = .varlen T I → I.val = some v0) ∧ (∀ R len I, f = .array R len I → ∃ xs, v0 = .arr xs ∧ I.vals (len lens).toNat = some xs)) →
        vs.length = (f :: fis).length ∧ ∀ (i : Nat) fi v, (f :: fis)[i]? = some fi → vs[i]? = some v →
      (∀ R off img, fi = .normal R off img → v = .leaf img) ∧ (∀ R off img, fi = .length R off img → v = .leaf img) ∧
      (∀ T I, fi = .varlen T I → I.val = some v) ∧ (∀ R len I, fi = .array R len I → ∃ xs, v = .arr xs ∧ I.vals (len lens).toNat = some xs) := by
      rintro v0 vs0 rfl hv h0
      obtain ⟨i1, i2⟩ := ih vs0 hv
      refine ⟨by simp [i1], fun i fi v h1 h2 => ?_⟩
      cases i with
      | zero =>
        simp only [List.getElem?_cons_zero, Option.some.injEq] at h1 h2
        subst h1 h2
        exact h0
      | succ i => exact i2 i fi v (by simpa using h1) (by simpa using h2)
    cases f with
    | normal R off img =>
      simp only [valFields, Option.map_eq_some_iff] at h
      obtain ⟨vs0, h1, rfl⟩ := h
      refine step _ _ rfl h1 ⟨?_, ?_, ?_, ?_⟩
      · rintro _ _ _ ⟨⟩; rfl
      · rintro _ _ _ ⟨⟩
      · rintro _ _ ⟨⟩
      · rintro _ _ _ ⟨⟩
    | length R off img =>
      simp only [valFields, Option.map_eq_some_iff] at h
      obtain ⟨vs0, h1, rfl⟩ := h
      refine step _ _ rfl h1 ⟨?_, ?_, ?_, ?_⟩
      · rintro _ _ _ ⟨⟩
      · rintro _ _ _ ⟨⟩; rfl
      · rintro _ _ ⟨⟩
      · rintro _ _ _ ⟨⟩
    | varlen T I =>
      simp only [valFields, Option.bind_eq_some_iff, Option.map_eq_some_iff] at h
      obtain ⟨v0, h0, vs0, h1, rfl⟩ := h
      refine step _ _ rfl h1 ⟨?_, ?_, ?_, ?_⟩
      · rintro _ _ _ ⟨⟩
      · rintro _ _ _ ⟨⟩
      · rintro _ _ ⟨⟩; exact h0
      · rintro _ _ _ ⟨⟩
    | array R len I =>
      simp only [valFields, Option.bind_eq_some_iff, Option.map_eq_some_iff] at h
      obtain ⟨v0, h0, vs0, h1, rfl⟩ := h
      refine step _ _ rfl h1 ⟨?_, ?_, ?_, ?_⟩
      · rintro _ _ _ ⟨⟩
      · rintro _ _ _ ⟨⟩
      · rintro _ _ ⟨⟩
      · rintro _ _ _ ⟨⟩; exact ⟨_, rfl, h0⟩

theorem lengthsOf_repHdr {o : View} : ∀ (fs : List (Fld w)) vs, RepHdr fs vs o → (lengthsOf fs o).map V.leaf =
    (fs.zip vs).filterMap fun x => match x.1 with | .length _ _ => some x.2 | _ => none := by
  intro fs
  induction fs with
  | nil => intro vs _; rfl
  | cons f fs ih =>
    intro vs h
    unfold lengthsOf at ih ⊢
    cases vs with
    | nil => cases f <;> exact h.elim
    | cons v vs =>
      cases f with
      | normal R off =>
        cases v with
        | leaf img => simpa using ih vs h.2
        | arr xs => exact h.elim
        | node xs => exact h.elim
      | length R off =>
        cases v with
        | leaf img => simp [ih vs h.2, h.1.1]
        | arr xs => exact h.elim
        | node xs => exact h.elim
      | varlen T => simpa using ih vs h
      | array R len => simpa using ih vs h

theorem setCtl_other : ∀ (fs : List (Fld w)) vs new (i : Nat) f, fs[i]? = some f → (∀ R off, f ≠ .length R off) → (setCtl fs vs new)[i]? = vs[i]? := by
  intro fs
  induction fs with
  | nil => intro vs new i f h; simp at h
  | cons g fs ih =>
    intro vs new i f h hf
    cases vs with
    | nil => cases g <;> simp [setCtl]
    | cons v vs =>
      cases i with
      | zero =>
        simp only [List.getElem?_cons_zero, Option.some.injEq] at h
        subst h
        cases g with
        | length R off => exact absurd rfl (hf R off)
        | normal R off => simp [setCtl]
        | varlen T => simp [setCtl]
        | array R len => simp [setCtl]
      | succ i =>
        have h' : fs[i]? = some f := by simpa using h
        cases g with
        | length R off =>
          cases new with
          | nil => simp [setCtl, ih vs [] i f h' hf]
          | cons x xs => simp [setCtl, ih vs xs i f h' hf]
        | normal R off => simp [setCtl, ih vs new i f h' hf]
        | varlen T => simp [setCtl, ih vs new i f h' hf]
        | array R len => simp [setCtl, ih vs new i f h' hf]

theorem controllerDrops_zip : ∀ (fs : List (Fld w)) (xs : List Img), controllerDrops fs xs = ((ctlTys fs).zip xs).flatMap fun x => x.1.drops x.2 := by
  intro fs
  induction fs with
  | nil => intro xs; simp [controllerDrops, ctlTys]
  | cons f fs ih =>
    intro xs
    cases f with
    | length R off => cases xs <;> simp [controllerDrops, ctlTys, ih]
    | normal R off => simp [controllerDrops, ctlTys, ih]
    | varlen T => simp [controllerDrops, ctlTys, ih]
    | array R len => simp [controllerDrops, ctlTys, ih]

end Varlen
