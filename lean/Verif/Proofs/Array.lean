import Verif.Proofs.ArrayInit
namespace Varlen
variable {w : Nat}

/-! ## Layout arithmetic -/

/-- The cautious computation is exact … -/
theorem catArrayFieldCautious_eq_some {R : RTy} (hR : R.Ok w) {n cur o m sz : BitVec w} :
    catArrayFieldCautious R n cur = some (o, m, sz) ↔
      m = n ∧ o.toNat = roundUpN cur.toNat R.align ∧ sz.toNat = o.toNat + n.toNat * R.size := by
  have hp := hR.pow2
  have hap := hR.align_pos
  unfold catArrayFieldCautious
  simp only [Option.bind_eq_bind, Option.bind_eq_some_iff, checkedAdd_eq_some, checkedMul_eq_some,
    Option.some.injEq, Prod.mk.injEq, hR.sizeOf_toNat, hp.sub_one, hR.alignOf_toNat]
  constructor
  · rintro ⟨a, ha, b, hb, c, hc, h1, h2, h3⟩
    subst h1 h2 h3
    refine ⟨rfl, ?_, ?_⟩
    · rw [maskDown_toNat hp, hR.alignOf_toNat, ha]; rfl
    · rw [hc, hb, Nat.mul_comm]
  · rintro ⟨h1, h2, h3⟩
    subst h1
    have hlt : roundUpN cur.toNat (R.alignOf w).toNat < 2 ^ w := by
      rw [hR.alignOf_toNat, ← h2]; exact o.isLt
    have hlt' := (roundUpN_lt_two_pow hp).1 hlt
    rw [hR.alignOf_toNat] at hlt'
    have hmul : m.toNat * R.size < 2 ^ w := by have := sz.isLt; omega
    have ho : maskDown (cur + (R.alignOf w - 1)) (R.alignOf w) = o := by
      apply BitVec.eq_of_toNat_eq
      rw [maskDown_add_toNat hp hlt, hR.alignOf_toNat, h2]
    refine ⟨cur + (R.alignOf w - 1), ?_, BitVec.ofNat w (m.toNat * R.size), ?_, sz, ?_, ?_, rfl, rfl⟩
    · rw [BitVec.toNat_add, hp.sub_one, hR.alignOf_toNat, Nat.mod_eq_of_lt hlt']
    · rw [BitVec.toNat_ofNat, Nat.mod_eq_of_lt hmul, Nat.mul_comm]
    · rw [h3, ho, BitVec.toNat_ofNat, Nat.mod_eq_of_lt hmul]
    · exact ho

theorem catArrayFieldCautious_isSome {R : RTy} (hR : R.Ok w) {n cur : BitVec w} :
    (catArrayFieldCautious R n cur).isSome ↔ roundUpN cur.toNat R.align + n.toNat * R.size < 2 ^ w := by
  constructor
  · intro h
    obtain ⟨⟨o, m, sz⟩, h⟩ := Option.isSome_iff_exists.1 h
    obtain ⟨_, h1, h2⟩ := (catArrayFieldCautious_eq_some hR).1 h
    have := sz.isLt; omega
  · intro h
    rw [(catArrayFieldCautious_eq_some hR (o := BitVec.ofNat w (roundUpN cur.toNat R.align)) (m := n)
      (sz := BitVec.ofNat w (roundUpN cur.toNat R.align + n.toNat * R.size))).2]
    · rfl
    · refine ⟨rfl, ?_, ?_⟩
      · rw [BitVec.toNat_ofNat, Nat.mod_eq_of_lt (by omega)]
      · rw [BitVec.toNat_ofNat, BitVec.toNat_ofNat, Nat.mod_eq_of_lt h, Nat.mod_eq_of_lt (by omega)]

/-- … and fails exactly on overflow. -/
theorem catArrayFieldCautious_eq_none {R : RTy} (hR : R.Ok w) {n cur : BitVec w} :
    catArrayFieldCautious R n cur = none ↔ 2 ^ w ≤ roundUpN cur.toNat R.align + n.toNat * R.size := by
  rw [← Option.not_isSome_iff_eq_none, catArrayFieldCautious_isSome hR]; omega

/-- The wrapping computation is exact whenever the exact result fits. -/
theorem catArrayFieldFast_eq {R : RTy} (hR : R.Ok w) {n cur o sz : BitVec w}
    (ho : o.toNat = roundUpN cur.toNat R.align) (hs : sz.toNat = o.toNat + n.toNat * R.size) :
    catArrayFieldFast R n cur = (o, n, sz) := by
  have hp := hR.pow2
  have hlt : roundUpN cur.toNat (R.alignOf w).toNat < 2 ^ w := by
    rw [hR.alignOf_toNat, ← ho]; exact o.isLt
  have hoo : maskDown (cur + (R.alignOf w - 1)) (R.alignOf w) = o := by
    apply BitVec.eq_of_toNat_eq
    rw [maskDown_add_toNat hp hlt, hR.alignOf_toNat, ho]
  unfold catArrayFieldFast
  simp only [hoo, Prod.mk.injEq, true_and]
  apply BitVec.eq_of_toNat_eq
  have := sz.isLt
  rw [BitVec.toNat_add, BitVec.toNat_mul, hR.sizeOf_toNat, Nat.mul_comm, Nat.mod_eq_of_lt (a := n.toNat * R.size) (by omega),
    Nat.mod_eq_of_lt (by omega), hs]

theorem pow2_dvd_of_le {a b : BitVec w} (ha : IsPow2 a) (hb : IsPow2 b) (h : a.toNat ≤ b.toNat) : a.toNat ∣ b.toNat := by
  obtain ⟨k, _, hk⟩ := ha
  obtain ⟨m, _, hm⟩ := hb
  rw [hk, hm] at h ⊢
  exact Nat.pow_dvd_pow 2 ((Nat.pow_le_pow_iff_right (a := 2) (by omega)).1 h)

/-- `array_max` returns the maximum: an element (if non-empty) that bounds all others. -/
theorem arrayMax_spec (l : List (BitVec w)) :
    (l ≠ [] → arrayMax l ∈ l) ∧ ∀ a ∈ l, a.toNat ≤ (arrayMax l).toNat := by
  unfold arrayMax
  have key : ∀ (l : List (BitVec w)) (r : BitVec w),
      (l.foldl (fun r v => if r > v then r else v) r = r ∨ l.foldl (fun r v => if r > v then r else v) r ∈ l) ∧
      r.toNat ≤ (l.foldl (fun r v => if r > v then r else v) r).toNat ∧
      ∀ a ∈ l, a.toNat ≤ (l.foldl (fun r v => if r > v then r else v) r).toNat := by
    intro l
    induction l with
    | nil => intro r; simp
    | cons x l ih =>
      intro r
      obtain ⟨h1, h2, h3⟩ := ih (if r > x then r else x)
      simp only [List.foldl_cons]
      generalize hm : l.foldl (fun r v => if r > v then r else v) (if r > x then r else x) = m at *
      have hge : r.toNat ≤ (if r > x then r else x).toNat ∧ x.toNat ≤ (if r > x then r else x).toNat := by
        split
        · rename_i h; have := BitVec.lt_def.1 h; omega
        · rename_i h; have : ¬ x.toNat < r.toNat := fun h' => h (BitVec.lt_def.2 h'); omega
      refine ⟨?_, by omega, ?_⟩
      · rcases h1 with h1 | h1
        · split at h1
          · exact .inl h1
          · right; rw [h1]; simp
        · right; simp [h1]
      · intro a ha
        rcases List.mem_cons.1 ha with rfl | ha
        · omega
        · exact h3 a ha
  obtain ⟨h1, h2, h3⟩ := key l 0
  refine ⟨fun hne => ?_, h3⟩
  rcases h1 with h1 | h1
  · -- the fold stays at 0: then every element is 0 and the last one is returned
    cases l with
    | nil => exact absurd rfl hne
    | cons x l =>
      have hx : x.toNat ≤ 0 := by have := h3 x (by simp); rw [h1] at this; simpa using this
      have : x = 0 := BitVec.eq_of_toNat_eq (by simpa using hx)
      rw [h1, this]; simp
  · exact h1

theorem arrayMax_pow2 {l : List (BitVec w)} (hne : l ≠ []) (h : ∀ a ∈ l, IsPow2 a) :
    IsPow2 (arrayMax l) ∧ ∀ a ∈ l, a.toNat ∣ (arrayMax l).toNat := by
  obtain ⟨h1, h2⟩ := arrayMax_spec l
  have hp := h _ (h1 hne)
  exact ⟨hp, fun a ha => pow2_dvd_of_le (h a ha) hp (h2 a ha)⟩

/-! ## Length types -/
theorem LenTy.Ok.ty {L : LenTy} (h : L.Ok w) : L.ty.Ok w where
  align_pow2 := h.align_pow2
  dvd := h.dvd
  size_lt := h.size_lt
  valid_len := by intro img hv; simp only [LenTy.ty, Bool.and_eq_true, beq_iff_eq] at hv; exact hv.1

theorem encLE_length (k n : Nat) : (encLE k n).length = k := by
  induction k generalizing n with
  | zero => rfl
  | succ k ih => simp [encLE, ih]

theorem encLE_valid (L : LenTy) (n : Nat) : L.ty.valid (encLE L.bytes n) = true := by
  simp only [LenTy.ty, Bool.and_eq_true, beq_iff_eq, encLE_length, true_and]
  generalize L.bytes = k
  induction k generalizing n with
  | zero => rfl
  | succ k ih => simp [encLE, ih]

theorem decLE_encLE (k n : Nat) : decLE (encLE k n) = n % 2 ^ (8 * k) := by
  induction k generalizing n with
  | zero => simp [encLE, decLE, Nat.mod_one]
  | succ k ih =>
    simp only [encLE, decLE, ih, Option.getD_some, BitVec.toNat_ofNat]
    rw [show 2 ^ (8 * (k + 1)) = 2 ^ 8 * 2 ^ (8 * k) by rw [← Nat.pow_add]; congr 1; omega,
      Nat.mod_mul]

theorem decLE_lt {img : Img} : decLE img < 2 ^ (8 * img.length) := by
  induction img with
  | nil => simp [decLE]
  | cons b bs ih =>
    have hb := (b.getD 0).isLt
    simp only [decLE, List.length_cons]
    rw [show 2 ^ (8 * (bs.length + 1)) = 2 ^ 8 * 2 ^ (8 * bs.length) by rw [← Nat.pow_add]; congr 1; omega]
    omega

/-- `from_usize` succeeds exactly when the value is representable, and round-trips. -/
theorem LenTy.fromUsize_spec {L : LenTy} (hL : L.Ok w) (x : BitVec w) :
    (L.fromUsize x = none ↔ 2 ^ (8 * L.bytes) ≤ x.toNat) ∧
    ∀ img, L.fromUsize x = some img → L.ty.valid img = true ∧ decLE img = x.toNat ∧ L.asUsize w img = x := by
  have key : x.toNat < 2 ^ (8 * L.bytes) → L.ty.valid (encLE L.bytes x.toNat) = true ∧
      decLE (encLE L.bytes x.toNat) = x.toNat ∧ L.asUsize w (encLE L.bytes x.toNat) = x := by
    intro h
    have hd : decLE (encLE L.bytes x.toNat) = x.toNat := by rw [decLE_encLE, Nat.mod_eq_of_lt h]
    exact ⟨encLE_valid _ _, hd, by unfold LenTy.asUsize; rw [hd]; simp⟩
  unfold LenTy.fromUsize
  cases hu : L.isUsize
  · simp only [Bool.false_eq_true, if_false]
    split
    · rename_i h
      refine ⟨by simp; omega, ?_⟩
      intro img hi; cases hi; exact key h
    · exact ⟨by simp; omega, by intro img hi; cases hi⟩
  · simp only [if_true]
    have := hL.usize hu
    have hlt : x.toNat < 2 ^ (8 * L.bytes) := by rw [this]; exact x.isLt
    refine ⟨by simp; omega, ?_⟩
    intro img hi; cases hi; exact key hlt

/-! ## `Array` -/
section array
variable {R : RTy} {L : LenTy} (hR : R.Ok w) (hL : L.Ok w)
include hR hL

theorem Array.align_spec : IsPow2 (Array w R L).ALIGN ∧ L.align ∣ (Array w R L).ALIGN.toNat ∧ R.align ∣ (Array w R L).ALIGN.toNat := by
  have := arrayMax_pow2 (l := [L.ty.alignOf w, R.alignOf w]) (by simp) (by
    intro a ha
    simp only [List.mem_cons, List.not_mem_nil, or_false] at ha
    rcases ha with rfl | rfl
    · exact hL.ty.pow2
    · exact hR.pow2)
  refine ⟨this.1, ?_, ?_⟩
  · have := this.2 (L.ty.alignOf w) (by simp); rwa [hL.ty.alignOf_toNat] at this
  · have := this.2 (R.alignOf w) (by simp); rwa [hR.alignOf_toNat] at this

theorem Array.calc_ok {s : St} {p : Ptr} {v l} (h : Valid (Array w R L) s p v l) :
    Array.calculateLayout R L p s = .ok l s := by
  obtain ⟨ha, hal, off, n, size, xs, rfl, rfl, hv, hn, ho, hs, hx, hxv⟩ := h
  have hge := roundUpN_ge L.bytes R.align hR.align_pos
  have hal' : Aligned s p L.ty.align := hal.of_dvd (Array.align_spec hR hL).2.1
  have ha' : Acc s p L.ty.size := ha.mono (by simp only [Layout.size, LenTy.ty]; omega)
  have hf := catArrayFieldFast_eq hR (n := n) (cur := L.ty.sizeOf w) (o := off) (sz := size)
    (by rw [hL.ty.sizeOf_toNat]; exact ho) hs
  unfold Array.calculateLayout
  simp only [bind_apply, readVal_ok ha' hal' hv, Res.bind_ok]
  change Res.ok _ _ = _
  have : L.asUsize w (takeV (viewAt s p) 0 L.ty.size) = n := hn.symm
  rw [this, hf]

theorem Array.lawful : Lawful (Array w R L) where
  align_pow2 := (Array.align_spec hR hL).1
  head_align := (Array.align_spec hR hL).2.1
  rep_ext := by
    rintro v l o o' ⟨off, n, size, xs, rfl, rfl, hv, hn, ho, hs, hx, hxv⟩ h
    simp only [Layout.size] at h
    have hge := roundUpN_ge L.bytes R.align hR.align_pos
    have e1 : takeV o' 0 L.bytes = takeV o 0 L.bytes := takeV_congr fun i hi => (h _ (by omega)).symm
    have e2 : elemsV o' off.toNat R.size n.toNat = elemsV o off.toNat R.size n.toNat :=
      elemsV_congr fun i hi => (h _ (by omega)).symm
    exact ⟨off, n, size, xs, rfl, rfl, by rw [e1]; exact hv, by rw [e1]; exact hn, ho, hs, by rw [e2]; exact hx, hxv⟩
  rep_unique := by
    rintro v l o v' l' ⟨off, n, size, xs, rfl, rfl, hv, hn, ho, hs, hx, hxv⟩
      ⟨off', n', size', xs', rfl, rfl, hv', hn', ho', hs', hx', hxv'⟩
    have e1 : off = off' := BitVec.eq_of_toNat_eq (by rw [ho, ho'])
    have e2 : n = n' := by rw [hn, hn']
    subst e1 e2
    have e3 : size = size' := BitVec.eq_of_toNat_eq (by rw [hs, hs'])
    subst e3
    rw [← hx, ← hx']; exact ⟨rfl, rfl⟩
  head_le := by
    rintro v l o ⟨off, n, size, xs, rfl, rfl, hv, hn, ho, hs, hx, hxv⟩
    have hge := roundUpN_ge L.bytes R.align hR.align_pos
    simp only [Array, Layout.size]; omega
  calc_ok := fun s p v l h => Array.calc_ok hR hL h
  vdrop_ok := by
    rintro s p v l ⟨ha, hal, off, n, size, xs, rfl, rfl, hv, hn, ho, hs, hx, hxv⟩
    simp only [Layout.size] at ha ⊢
    have hal' : Aligned s (p.add off.toNat) R.align :=
      (hal.of_dvd (Array.align_spec hR hL).2.2).add (by rw [ho]; exact roundUpN_mod _ _)
    have hview : elemsV (viewAt s (p.add off.toNat)) 0 R.size n.toNat = xs := by
      rw [viewAt_add, elemsV_shift]; simpa using hx
    obtain ⟨s', h1, h2, h3, h4⟩ := dropElems_spec hR n.toNat (p.add off.toNat) s (ha.sub (by omega)) hal'
      (by rw [hview]; exact hxv)
    refine ⟨s', h1, h2.mono (.inr ⟨rfl, by simp, by simp; omega⟩) (fun _ h => h), ?_, h4⟩
    rw [h3, hview]; rfl
  no_vdrop := by
    rintro h v l o ⟨off, n, size, xs, rfl, rfl, hv, hn, ho, hs, hx, hxv⟩
    simp only [Array] at h ⊢
    simp [RTy.drops, h]

theorem SizedInit.cautious_eq {len : Img} {l : Layout w} : SizedInit.cautious w R L len = some l ↔
    ∃ off size : BitVec w, l = .array off (L.asUsize w len) size ∧ off.toNat = roundUpN L.bytes R.align ∧
      size.toNat = off.toNat + (L.asUsize w len).toNat * R.size := by
  unfold SizedInit.cautious
  rw [Option.map_eq_some_iff]
  constructor
  · rintro ⟨⟨o, n, sz⟩, h, rfl⟩
    obtain ⟨rfl, h2, h3⟩ := (catArrayFieldCautious_eq_some hR).1 h
    rw [hL.ty.sizeOf_toNat] at h2
    exact ⟨o, sz, rfl, h2, h3⟩
  · rintro ⟨off, size, rfl, h2, h3⟩
    refine ⟨(off, _, size), (catArrayFieldCautious_eq_some hR).2 ⟨rfl, ?_, h3⟩, rfl⟩
    rw [hL.ty.sizeOf_toNat]; exact h2

theorem SizedInit.cautious_none {len : Img} : SizedInit.cautious w R L len = none ↔
    2 ^ w ≤ roundUpN L.bytes R.align + (L.asUsize w len).toNat * R.size := by
  unfold SizedInit.cautious
  rw [Option.map_eq_none_iff, catArrayFieldCautious_eq_none hR, hL.ty.sizeOf_toNat]; rfl

theorem SizedInit_lawful {len : Img} (hlen : L.ty.valid len = true) {I : ArrInit} (hI : ArrInitLawful R I) :
    InitLawful (Array w R L) (SizedInit w R L len I) where
  owns_mods := fun _ h => h.elim
  mods_fp := fun _ h => h.elim
  fp_exists := hI.fp_exists
  stable := hI.stable
  calc_ok := fun _ _ _ => rfl
  calc_panic := fun _ _ h => nomatch h
  bad_lay := fun h => nomatch h
  drop_ok := by
    intro s hp
    obtain ⟨s', h1, h2, h3, h4⟩ := hI.drop_ok s hp
    exact ⟨s', h1, h2, fun _ h => h.elim, h3, h4⟩
  init_ok := by
    intro s p l v hp hl hv ha hal hfp
    obtain ⟨off, size, rfl, ho, hs⟩ := (SizedInit.cautious_eq hR hL).1 hl
    simp only [SizedInit, Option.map_eq_some_iff] at hv
    obtain ⟨xs, hxs, rfl⟩ := hv
    simp only [Layout.size] at ha ⊢
    have hge := roundUpN_ge L.bytes R.align hR.align_pos
    have hal' : Aligned s (p.add off.toNat) R.align :=
      (hal.of_dvd (Array.align_spec hR hL).2.2).add (by rw [ho]; exact roundUpN_mod _ _)
    have halL : Aligned s p L.ty.align := hal.of_dvd (Array.align_spec hR hL).2.1
    have ha' : Acc s (p.add off.toNat) ((L.asUsize w len).toNat * R.size) := ha.sub (by omega)
    obtain ⟨s1, h1, h2, h3, h4, h5⟩ := hI.run_ok s (p.add off.toNat) _ xs hp hxs ha' hal' hfp
    have hll : len.length = L.bytes := hL.ty.valid_len _ hlen
    have haL : Acc s1 p len.length := h2.acc (fun h => h) (ha.mono (by omega))
    have ht2 : Touch s1 (s1.write p len) p len.length noOwn := Touch.write
    refine ⟨s1.write p len, ?_, ?_, fun _ h => h.elim, ?_, by rw [St.write_log]; exact h4, by simpa using h5⟩
    · simp only [SizedInit, initArray, refArray, bind_apply, mkRef_ok ha' hal', Res.bind_ok, pure_apply, h1]
      exact writeVal_ok haL (h2.aligned (fun h => h) halL)
    · exact (h2.sub (m := size.toNat) (by omega)).trans (ht2.prefix (by omega))
    · have e1 : takeV (viewAt (s1.write p len) p) 0 L.bytes = len := by
        rw [← hll]; exact takeV_viewAt_write haL
      refine ⟨off, L.asUsize w len, size, xs, rfl, rfl, by rw [e1]; exact hlen, by rw [e1], ho, hs, ?_, (hI.vals_ok _ _ hxs).2⟩
      rw [← h3, viewAt_add, elemsV_shift, Nat.add_zero]
      apply elemsV_congr
      intro i hi
      exact ht2.view (fun h => h) (off.toNat + i) (by omega)
  init_panic := by
    intro s p l hp hl hv ha hal hfp
    obtain ⟨off, size, rfl, ho, hs⟩ := (SizedInit.cautious_eq hR hL).1 hl
    simp only [SizedInit, Option.map_eq_none_iff] at hv
    simp only [Layout.size] at ha ⊢
    have hal' : Aligned s (p.add off.toNat) R.align :=
      (hal.of_dvd (Array.align_spec hR hL).2.2).add (by rw [ho]; exact roundUpN_mod _ _)
    have ha' : Acc s (p.add off.toNat) ((L.asUsize w len).toNat * R.size) := ha.sub (by omega)
    obtain ⟨m, s1, h1, h2, h3, h4⟩ := hI.run_panic s (p.add off.toNat) _ hp hv ha' hal' hfp
    refine ⟨m, s1, ?_, h2.mono (.inr ⟨rfl, by simp, by simp; omega⟩) (fun _ h => h), fun _ h => h.elim, h3, h4⟩
    simp only [SizedInit, initArray, refArray, bind_apply, mkRef_ok ha' hal', Res.bind_ok, pure_apply, h1, Res.bind_panic]

/-- `deref` of a valid array is the slice of its elements. -/
theorem Array.deref_spec {s : St} {p : Ptr} {xs : List Img} {l : Layout w} (h : Valid (Array w R L) s p (.arr xs) l) :
    ∃ sl, Array.deref w R L p s = .ok sl s ∧ sl.len = xs.length ∧ Slice.read R sl s = .ok xs s ∧
      sl.ptr.blk = p.blk ∧ p.off + L.bytes ≤ sl.ptr.off ∧
      sl.ptr.off + sl.len * R.size = p.off + l.size.toNat ∧ Acc s sl.ptr (sl.len * R.size) ∧ Aligned s sl.ptr R.align ∧
      elemsV (viewAt s sl.ptr) 0 R.size sl.len = xs ∧ (∀ x ∈ xs, R.valid x = true) := by
  have hc := Array.calc_ok hR hL h
  obtain ⟨ha, hal, off, n, size, ys, hy, rfl, hv, hn, ho, hs, hx, hxv⟩ := h
  cases hy
  simp only [Layout.size] at ha ⊢
  have hge := roundUpN_ge L.bytes R.align hR.align_pos
  have hal' : Aligned s (p.add off.toNat) R.align :=
      (hal.of_dvd (Array.align_spec hR hL).2.2).add (by rw [ho]; exact roundUpN_mod _ _)
  have ha' : Acc s (p.add off.toNat) (n.toNat * R.size) := ha.sub (by omega)
  have hview : elemsV (viewAt s (p.add off.toNat)) 0 R.size n.toNat = xs := by
    rw [viewAt_add, elemsV_shift]; simpa using hx
  refine ⟨⟨p.add off.toNat, n.toNat⟩, ?_, ?_, ?_, rfl, ?_, ?_, ha', hal', hview, hxv⟩
  · simp only [Array.deref, bind_apply, hc, Res.bind_ok, refArray, mkRef_ok ha' hal', pure_apply]
  · rw [← hx]; simp
  · unfold Slice.read
    rw [readElems_spec hR _ _ _ ha' hal' (by rw [hview]; exact hxv), hview]
  · simp; omega
  · simp; omega

end array

end Varlen
