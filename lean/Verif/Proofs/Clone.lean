import Verif.Proofs.StructSet
namespace Varlen
variable {w : Nat}

theorem FixedLen.vclone_lawful {R : RTy} (hR : R.Ok w) {c : CloneFn} (hc : c.Ok R) :
    VCloneLawful (FixedLen w R) (FixedLen.vclone w R c) where
  ok := by
    intro s p v l h hb
    obtain ⟨img, rfl, rfl, h3, h4⟩ := h.rep
    exact ⟨FixedLen.cloner w R c p img, rfl, FixedLen.cloner_lawful hR hc, ⟨h, hb⟩, rfl, fun _ h => h, fun _ h => h, rfl, rfl, rfl, rfl⟩

theorem Array.vclone_lawful {R : RTy} {L : LenTy} (hR : R.Ok w) (hL : L.Ok w) {c : CloneFn} (hc : c.Ok R) :
    VCloneLawful (Array w R L) (Array.vcloneI w R L c) where
  ok := by
    intro s p v l h hb
    have hd : ∃ xs, v = .arr xs := by obtain ⟨off, n, size, xs, rfl, _⟩ := h.rep; exact ⟨xs, rfl⟩
    obtain ⟨xs, rfl⟩ := hd
    obtain ⟨sl, e1, e2, e3, e4, e5, e6, e7, e8, e9, e10⟩ := Array.deref_spec hR hL h
    obtain ⟨hacc, hal, off, n, size, xs', hv, rfl, g1, g2, g3, g4, g5, g6⟩ := h
    cases hv
    have hge := roundUpN_ge L.bytes R.align hR.align_pos
    have hrd : Array.lenShort L p s = .ok (takeV (viewAt s p) 0 L.bytes) s :=
      readVal_ok (R := L.ty) (hacc.mono (by simp only [Layout.size, LenTy.ty]; omega)) (hal.of_dvd (Array.align_spec hR hL).2.1) g1
    have hlen : (L.asUsize w (takeV (viewAt s p) 0 L.bytes)).toNat = xs.length := by
      rw [← g2, ← g5]; simp [elemsV]
    refine ⟨SizedInit w R L (takeV (viewAt s p) 0 L.bytes) (CloneFrom R c sl.ptr xs), ?_,
      SizedInit_lawful hR hL g1 (CloneFrom_lawful hR hc g6), ?_, ?_, fun _ h => h, ?_, ?_, rfl, rfl, rfl⟩
    · simp only [Array.vcloneI, Array.vclone, bind_apply, hrd, Res.bind_ok, e1, pure_apply]
    · exact ⟨by rw [← e2]; exact e7, e8, by rw [← e2]; exact e9, g6, by rw [e4]; exact hb⟩
    · exact (SizedInit.cautious_eq hR hL).2 ⟨off, size, by rw [← g2], g3, by rw [← g2]; exact g4⟩
    · intro b hb'
      exact hb'.trans e4
    · simp only [SizedInit, CloneFrom, Array.vcloneI, hlen, if_true]

theorem layFields_of_LayOk {lens : List Img} : ∀ (ts : List (VarLen w × Init w)) (ls : List (BitVec w × Layout w)) (cur fin : BitVec w),
    (∀ t ∈ ts, Lawful t.1) → LayOk lens (ts.map fun t => Fld.varlen t.1) ls cur.toNat fin.toNat →
    (∀ (i : Nat) t x, ts[i]? = some t → ls[i]? = some x → t.2.lay = some x.2) →
    layFields lens (ts.map fun (T, I) => .varlen T I) cur = some (ls, fin) := by
  intro ts
  induction ts with
  | nil =>
    intro ls cur fin _ h _
    cases ls with
    | nil => simp only [List.map_nil, LayOk] at h; rw [BitVec.eq_of_toNat_eq h]; rfl
    | cons => exact h.elim
  | cons t ts ih =>
    intro ls cur fin hT h hl
    obtain ⟨T, I⟩ := t
    rcases ls with _ | ⟨⟨o, l⟩, ls⟩
    · exact h.elim
    · simp only [List.map_cons, LayOk] at h
      have hTl : Lawful T := hT (T, I) (by simp)
      have hlay : I.lay = some l := hl 0 _ _ rfl rfl
      have hle : o.toNat + l.size.toNat ≤ fin.toNat := LayOk.le (hs := 0) (ha := 1) _ _ _ _ (by
        intro f hf; obtain ⟨t, ht, rfl⟩ := List.mem_map.1 hf; exact hT t (by simp [ht])) h.2
      have hsz : (o + l.size).toNat = o.toNat + l.size.toNat := by
        rw [BitVec.toNat_add, Nat.mod_eq_of_lt (by have := fin.isLt; omega)]
      have ih := ih ls (o + l.size) fin (fun t ht => hT t (by simp [ht])) (by rw [hsz]; exact h.2)
        (fun i t x h1 h2 => hl (i + 1) t x (by simpa using h1) (by simpa using h2))
      have hlt : roundUpN cur.toNat T.ALIGN.toNat < 2 ^ w := by rw [← h.1]; exact o.isLt
      have h1 : checkedAdd cur (T.ALIGN - 1) = some (cur + (T.ALIGN - 1)) := by
        rw [checkedAdd_eq_some, BitVec.toNat_add, hTl.align_pow2.sub_one]
        exact Nat.mod_eq_of_lt ((roundUpN_lt_two_pow hTl.align_pow2).1 hlt)
      have h2 : maskDown (cur + (T.ALIGN - 1)) T.ALIGN = o :=
        BitVec.eq_of_toNat_eq (by rw [maskDown_add_toNat hTl.align_pow2 hlt, h.1])
      have h3 : checkedAdd o l.size = some (o + l.size) := by rw [checkedAdd_eq_some, hsz]
      simp only [List.map_cons, layFields]
      rw [h1]
      simp only [hlay, h2]
      rw [h3]
      simp only [ih]

/-- Cloning the fields one by one. -/
theorem cloneFields_spec {s : St} {p : Ptr} (hb : s.blk p.blk ≠ none) :
    ∀ (ts : List (VarLen w × VClone w)) (ls : List (BitVec w × Layout w)) (vs : List V), (∀ t ∈ ts, Lawful t.1) →
    (∀ t ∈ ts, VCloneLawful t.1 t.2) → ls.length = ts.length → vs.length = ts.length →
    (∀ (i : Nat) t x v, ts[i]? = some t → ls[i]? = some x → vs[i]? = some v → Valid t.1 s (p.add x.1.toNat) v x.2) →
    ∃ is : List (VarLen w × Init w), cloneFields ts (ls.map fun x => .field (p.add x.1.toNat)) vs s = .ok is s ∧
      is.map (·.1) = ts.map (·.1) ∧ (∀ t ∈ is, InitLawful t.1 t.2) ∧ (∀ t ∈ is, t.2.pre s) ∧
      (∀ (i : Nat) t x, is[i]? = some t → ls[i]? = some x → t.2.lay = some x.2) ∧ (∀ t ∈ is, ∀ b, ¬ t.2.mods b) ∧
      (∀ t ∈ is, ∀ b, t.2.fp b → b = p.blk) ∧
      (∀ lens, valFields lens (is.map fun (T, I) => FI.varlen T I) = cloneVs ts vs) ∧ (∀ t ∈ is, t.2.Borrows) := by
  intro ts
  induction ts with
  | nil =>
    intro ls vs _ _ h1 h2 _
    cases ls <;> simp at h1
    cases vs <;> simp at h2
    exact ⟨[], rfl, rfl, by simp, by simp, by simp, by simp, by simp, fun _ => rfl, by simp⟩
  | cons t ts ih =>
    intro ls vs hT hC h1 h2 hv
    obtain ⟨T, C⟩ := t
    rcases ls with _ | ⟨⟨o, l⟩, ls⟩
    · simp at h1
    rcases vs with _ | ⟨v, vs⟩
    · simp at h2
    have hval := hv 0 _ _ _ rfl rfl rfl
    obtain ⟨I, e1, e2, e3, e4, e5, e6, e7, e8⟩ := (hC (T, C) (by simp)).ok s _ v l hval hb
    obtain ⟨is, f1, f2, f3, f4, f5, f6, f7, f8, f9⟩ := ih ls vs (fun t h => hT t (by simp [h])) (fun t h => hC t (by simp [h]))
      (by simpa using h1) (by simpa using h2) (fun i t x v a b c => hv (i + 1) t x v (by simpa using a) (by simpa using b) (by simpa using c))
    refine ⟨(T, I) :: is, ?_, by simp [f2], ?_, ?_, ?_, ?_, ?_, ?_, ?_⟩
    · simp only at e1
      simp only [List.map_cons, cloneFields, bind_apply, e1, Res.bind_ok, f1, pure_apply]
    · intro t ht; rcases List.mem_cons.1 ht with rfl | ht
      · exact e2
      · exact f3 t ht
    · intro t ht; rcases List.mem_cons.1 ht with rfl | ht
      · exact e3
      · exact f4 t ht
    · intro i t x hi hx
      cases i with
      | zero => simp at hi hx; subst hi hx; exact e4
      | succ i => exact f5 i t x (by simpa using hi) (by simpa using hx)
    · intro t ht; rcases List.mem_cons.1 ht with rfl | ht
      · exact e5
      · exact f6 t ht
    · intro t ht; rcases List.mem_cons.1 ht with rfl | ht
      · exact e6
      · exact f7 t ht
    · intro lens
      simp only [List.map_cons, valFields, cloneVs, e7, f8 lens]
    · intro t ht; rcases List.mem_cons.1 ht with rfl | ht
      · exact e8
      · exact f9 t ht

theorem borrows_fields {is : List (VarLen w × Init w)} (h : ∀ t ∈ is, t.2.Borrows) (lens : List Img) :
    (is.map fun (T, I) => FI.varlen T I).flatMap FI.owes = [] ∧ leftFields lens (is.map fun (T, I) => FI.varlen T I) = [] ∧
    lostFields true lens [] (is.map fun (T, I) => FI.varlen T I) = [] := by
  induction is with
  | nil => exact ⟨rfl, rfl, rfl⟩
  | cons t ts ih =>
    obtain ⟨T, I⟩ := t
    obtain ⟨h1, h2, h3⟩ := h (T, I) (by simp)
    obtain ⟨i1, i2, i3⟩ := ih fun t ht => h t (by simp [ht])
    simp only at h1 h2 h3
    refine ⟨by simp only [List.map_cons, List.flatMap_cons, FI.owes, h1, i1, List.append_nil], by simp only [List.map_cons, leftFields, h2, i2, List.append_nil], ?_⟩
    simp only [List.map_cons, lostFields]
    split
    · simp only [h2, i3, List.append_nil]
    · have : (ts.map fun (T, I) => FI.varlen T I).reverse.flatMap FI.owes = [] :=
        List.flatMap_eq_nil_iff.2 fun f hf => List.flatMap_eq_nil_iff.1 i1 f (List.mem_reverse.1 hf)
      rw [h3, if_pos trivial, this]
      rfl

theorem descs_varlen (ts : List (VarLen w)) : ∀ (ls : List (BitVec w × Layout w)), ls.length = ts.length →
    ∀ (i : Nat) T x, ts[i]? = some T → ls[i]? = some x → (descs (ts.map Fld.varlen) ls)[i]? = some ⟨.varlen T, x.1.toNat, x.2⟩ := by
  induction ts with
  | nil => intro ls _ i T x h; simp at h
  | cons T ts ih =>
    intro ls hl i U x h1 h2
    rcases ls with _ | ⟨⟨o, l⟩, ls⟩
    · simp at hl
    cases i with
    | zero => simp at h1 h2; subst h1 h2; rfl
    | succ i => simpa [descs] using ih ls (by simpa using hl) i U x (by simpa using h1) (by simpa using h2)

theorem descs_varlen_ref (p : Ptr) (ts : List (VarLen w)) : ∀ (ls : List (BitVec w × Layout w)), ls.length = ts.length →
    (descs (ts.map Fld.varlen) ls).map (·.ref p) = ls.map fun x => FRef.field (p.add x.1.toNat) := by
  induction ts with
  | nil => intro ls h; cases ls <;> simp at h; rfl
  | cons T ts ih =>
    intro ls hl
    rcases ls with _ | ⟨⟨o, l⟩, ls⟩
    · simp at hl
    simp only [List.map_cons, descs, ih ls (by simpa using hl)]; rfl

theorem LayOk.length_varlen {lens : List Img} (ts : List (VarLen w)) : ∀ (ls : List (BitVec w × Layout w)) cur fin,
    LayOk lens (ts.map Fld.varlen) ls cur fin → ls.length = ts.length := by
  induction ts with
  | nil => intro ls cur fin h; cases ls <;> simp [LayOk] at h; rfl
  | cons T ts ih =>
    intro ls cur fin h
    rcases ls with _ | ⟨⟨o, l⟩, ls⟩
    · exact h.elim
    · simp [ih _ _ _ h.2]

theorem initLengths_varlen (is : List (VarLen w × Init w)) : initLengths (is.map fun (T, I) => FI.varlen T I) = [] := by
  unfold initLengths
  induction is with
  | nil => rfl
  | cons t ts ih => simp

theorem lengthsOf_varlen (ts : List (VarLen w)) (o : View) : lengthsOf (ts.map Fld.varlen) o = [] := by
  unfold lengthsOf
  induction ts with
  | nil => rfl
  | cons t ts ih => simp

theorem Tuple.vclone_lawful {ts : List (VarLen w × VClone w)} (hne : ts ≠ []) (hT : ∀ t ∈ ts, Lawful t.1)
    (hC : ∀ t ∈ ts, VCloneLawful t.1 t.2) : VCloneLawful (Tuple w (ts.map (·.1))) (Tuple.vclone ts) where
  ok := by
    intro s p v l h hb
    have hT' : ∀ T ∈ ts.map (·.1), Lawful T := by
      intro T h; obtain ⟨f, h1, rfl⟩ := List.mem_map.1 h; exact hT f h1
    have hlaw := Tuple.lawful (Ts := ts.map (·.1)) (by simpa using hne) hT'
    have hcalc := hlaw.calc_ok s p v l h
    obtain ⟨hacc, hal, vs, ls, size, rfl, rfl, hr, ht⟩ := h
    have hmap : (ts.map fun t => Fld.varlen t.1) = (ts.map (·.1)).map Fld.varlen := by simp [List.map_map, Function.comp_def]
    obtain ⟨hA1, hA2⟩ := Tuple.aligns (Ts := ts.map (·.1)) (by simpa using hne) hT'
    have hsok := Tuple.structOk hA1.wpos hT'
    obtain ⟨a1, a2, a3, a4, a5, a6, a7⟩ := agg_access hsok (Nat.one_dvd _) (by
      rw [tailAligns_map]; intro a ha; obtain ⟨T, hT', rfl⟩ := List.mem_map.1 ha; exact hA2 T hT') hacc hal hr ht
    obtain ⟨hlay, hrel⟩ := (rep_iff _ vs ls 0 size.toNat).1 ⟨hr, ht⟩
    have hll := LayOk.length_varlen _ ls _ _ hlay
    rw [descs_varlen_ref p _ ls hll] at a1
    obtain ⟨is, f1, f2, f3, f4, f5, f6, f7, f8, f9⟩ := cloneFields_spec (p := p) hb ts ls vs hT hC (by simpa using hll)
      (by rw [← a3, a4]; simp) (by
        intro i t x v h1 h2 h3
        have := a5 i _ v (descs_varlen (ts.map (·.1)) ls hll i t.1 x (by simp [h1]) h2) h3
        exact this)
    have hisne : is ≠ [] := by
      intro h
      rw [h] at f2
      exact hne (by simpa using f2.symm)
    have hTi : ∀ t ∈ is, Lawful t.1 := by
      intro t ht
      have : t.1 ∈ is.map (·.1) := List.mem_map.2 ⟨t, ht, rfl⟩
      rw [f2] at this; exact hT' _ this
    refine ⟨Tuple.init is, ?_, ?_, ?_, ?_, ?_, ?_, ?_, borrows_fields f9 _⟩
    · have hcalc' : aggCalc 0 ((ts.map (·.1)).map Fld.varlen) p s = .ok (.fields size ls) s := hcalc
      simp only [Tuple.vclone, aggRefs, hmap, bind_apply, hcalc', Res.bind_ok, a1, f1, pure_apply]
    · rw [← f2]; exact Tuple.init_lawful hisne hTi f3
    · refine ⟨?_, ?_⟩
      · intro f hf
        obtain ⟨t, ht, rfl⟩ := List.mem_map.1 hf
        exact f4 t ht
      · rw [List.pairwise_map]
        rw [List.pairwise_iff_forall_sublist]
        intro a b hab x
        exact ⟨fun hx => absurd hx (f6 a (hab.subset (by simp)) x), fun hx => absurd hx (f6 b (hab.subset (by simp)) x)⟩
    · have hz : (BitVec.ofNat w 0).toNat = 0 := by simp
      have hm2 : (is.map fun t => Fld.varlen t.1) = (ts.map (·.1)).map Fld.varlen := by
        rw [← f2]; simp [List.map_map, Function.comp_def]
      have := layFields_of_LayOk (lens := []) is ls (BitVec.ofNat w 0) size hTi (by
        rw [hz, hm2]; rw [lengthsOf_varlen] at hlay; exact hlay) f5
      simp only [Tuple.init, aggInitializer, initLengths_varlen, this, Option.map_some]
    · rintro b ⟨f, hf, hfb⟩
      obtain ⟨t, ht, rfl⟩ := List.mem_map.1 hf
      exact f6 t ht b hfb
    · rintro b ⟨f, hf, hfb⟩
      obtain ⟨t, ht, rfl⟩ := List.mem_map.1 hf
      exact f7 t ht b hfb
    · simp only [Tuple.init, aggInitializer, f8, Tuple.vclone]

end Varlen
