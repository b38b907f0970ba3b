import Verif.Proofs.SeqExtend
/-! # Sequences of zero-sized elements, unchecked indexing -/
namespace Varlen
variable {w : Nat} {T : VarLen w}

/-- A never-allocated sequence. -/
structure Unallocated (T : VarLen w) (q : SeqS w) : Prop where
  ptr : q.ptr = dangling T
  occ : q.occ = 0
  cap : q.cap = 0

theorem viewAt_dangling (s : St) : viewAt s (dangling T) = fun _ => none := by
  funext i; simp [viewAt, dangling, St.blk]

theorem addr_dangling (s : St) : s.addr (dangling T) = T.headAlign := by
  simp [St.addr, dangling, St.blk]

/-- One push of a zero-sized value. -/
theorem Seq.push_zero (hT : Lawful T) (hal : T.headAlign = T.ALIGN.toNat) (A : Allocator) {s : St} {q : SeqS w} (hq : Unallocated T q) {I : Init w} (hI : InitLawful T I)
    (hpre : I.pre s) {l : Layout w} {v : V} (hl : I.lay = some l) (hz : l.size.toNat = 0) (hv : I.val = some v) :
    ∃ s', Seq.push A false T I (s, q) = .ok () (s', { q with len := q.len + 1 }) ∧ Touch s s' (dangling T) 0 I.owns ∧ T.Rep v l (fun _ => none) ∧
      s'.log = s.log ++ I.left ∧ s'.copied = s.copied := by
  have hap := hT.align_pow2.pos
  have hsub : (T.ALIGN - 1).toNat = T.ALIGN.toNat - 1 := hT.align_pow2.sub_one
  have hfp : ¬ I.fp (dangling T).blk := fun h => hI.fp_exists s _ hpre h rfl
  obtain ⟨s', e1, e2, e3, e4, e5, e6⟩ := hI.init_ok s (dangling T) l v hpre hl hv (by rw [hz]; exact .inl rfl) (by simp [Aligned, addr_dangling, hal]) hfp
  rw [hz] at e2
  rw [viewAt_dangling] at e4
  refine ⟨s', ?_, e2, e4, e5, e6⟩
  have hadd : checkedAdd l.size (T.ALIGN - 1) = some (l.size + (T.ALIGN - 1)) := by
    cases h : checkedAdd l.size (T.ALIGN - 1) with
    | none => rw [checkedAdd_eq_none, hsub, hz] at h; have := T.ALIGN.isLt; omega
    | some x =>
      have := checkedAdd_eq_some.1 h
      congr 1
      apply BitVec.eq_of_toNat_eq
      rw [BitVec.toNat_add, ← this, Nat.mod_eq_of_lt x.isLt]
  have hdiv : (l.size + (T.ALIGN - 1)) / T.ALIGN = 0 := by
    apply BitVec.eq_of_toNat_eq
    have := checkedAdd_eq_some.1 hadd
    rw [BitVec.toNat_udiv, this, hsub, hz]
    simp only [Nat.zero_add, BitVec.ofNat_eq_ofNat, BitVec.toNat_ofNat, Nat.zero_mod]
    rw [Nat.div_eq_zero_iff]; omega
  have hadd2 : checkedAdd (0 : BitVec w) 0 = some 0 := by
    cases h : checkedAdd (0 : BitVec w) 0 with
    | none => rw [checkedAdd_eq_none] at h; have := Nat.two_pow_pos w; simp at h
    | some x =>
      have := checkedAdd_eq_some.1 h
      congr 1
      apply BitVec.eq_of_toNat_eq
      simpa using this
  have hd : (dangling T).add 0 = dangling T := rfl
  unfold Seq.push Seq.tryPush
  have hc := hI.calc_some hpre hl
  obtain ⟨qp, ql, qo, qc⟩ := q
  obtain ⟨h1, h2, h3⟩ := hq
  simp only at h1 h2 h3
  subst h1 h2 h3
  simp only [bind_apply, liftQ_apply, onUnwind_ok hc, Res.bind_ok, hadd, getQ_apply, hdiv, hadd2]
  simp [pure_apply, Res.bind_ok, getQ_apply, liftQ_apply, markOffsetValid, putQ_apply, hd, e1]

/-- One push of a zero-sized value, checked indexing: setting the index bit is out of bounds. -/
theorem Seq.push_zero_checked (hT : Lawful T) {I : Init w} (hI : InitLawful T I) (A : Allocator) {s : St} {q : SeqS w} (hq : Unallocated T q)
    (hpre : I.pre s) {l : Layout w} (hl : I.lay = some l) (hz : l.size.toNat = 0) : Seq.push A true T I (s, q) = .ub .outOfBounds := by
  have hap := hT.align_pow2.pos
  have hsub : (T.ALIGN - 1).toNat = T.ALIGN.toNat - 1 := hT.align_pow2.sub_one
  have hadd : checkedAdd l.size (T.ALIGN - 1) = some (l.size + (T.ALIGN - 1)) := by
    cases h : checkedAdd l.size (T.ALIGN - 1) with
    | none => rw [checkedAdd_eq_none, hsub, hz] at h; have := T.ALIGN.isLt; omega
    | some x =>
      have := checkedAdd_eq_some.1 h
      congr 1
      apply BitVec.eq_of_toNat_eq
      rw [BitVec.toNat_add, ← this, Nat.mod_eq_of_lt x.isLt]
  have hdiv : (l.size + (T.ALIGN - 1)) / T.ALIGN = 0 := by
    apply BitVec.eq_of_toNat_eq
    have := checkedAdd_eq_some.1 hadd
    rw [BitVec.toNat_udiv, this, hsub, hz]
    simp only [Nat.zero_add, BitVec.ofNat_eq_ofNat, BitVec.toNat_ofNat, Nat.zero_mod]
    rw [Nat.div_eq_zero_iff]; omega
  have hadd2 : checkedAdd (0 : BitVec w) 0 = some 0 := by
    cases h : checkedAdd (0 : BitVec w) 0 with
    | none => rw [checkedAdd_eq_none] at h; have := Nat.two_pow_pos w; simp at h
    | some x =>
      have := checkedAdd_eq_some.1 h
      congr 1
      apply BitVec.eq_of_toNat_eq
      simpa using this
  have hmark : markOffsetValid true T.ALIGN (dangling T) 0 (0 : BitVec w) s = .ub .outOfBounds := by
    have hacc : ¬ Acc s (dangling T) 1 := by
      simp [Acc, dangling, St.blk]
    have h1 : Aligned s (dangling T) 1 := Aligned.one _ _
    have hd : (dangling T).add ((0 : BitVec w) * T.ALIGN + 0 / 8).toNat = dangling T := by simp [Ptr.add]
    unfold markOffsetValid
    simp only [if_true, hd, bind_apply, readVal, u8Ty, checkAlign_ok h1, Res.bind_ok, readBytes, checkAcc, hacc]
    rfl
  unfold Seq.push Seq.tryPush
  have hc := hI.calc_some hpre hl
  obtain ⟨qp, ql, qo, qc⟩ := q
  obtain ⟨h1, h2, h3⟩ := hq
  simp only at h1 h2 h3
  subst h1 h2 h3
  simp only [bind_apply, liftQ_apply, onUnwind_ok hc, Res.bind_ok, hadd, getQ_apply, hdiv, hadd2]
  simp only [BitVec.ofNat_eq_ofNat] at hmark
  simp [pure_apply, Res.bind_ok, getQ_apply, liftQ_apply, hmark, Res.bind_ub]

/-- The items of an `extend` with zero-sized values. -/
structure ZeroItems (T : VarLen w) (is : List (Init w)) (s : St) : Prop where
  each : ∀ I ∈ is, InitLawful T I ∧ I.pre s ∧ (∃ l, I.lay = some l ∧ l.size.toNat = 0) ∧ I.val ≠ none
  apart : is.Pairwise fun I J => ∀ b, I.mods b → ¬ J.fp b

theorem Seq.extend_zero (hT : Lawful T) (hal : T.headAlign = T.ALIGN.toNat) (A : Allocator) {own : Bool} : ∀ {is : List (Init w)} {s : St} {q : SeqS w}, Unallocated T q → ZeroItems T is s →
    ∃ s', Seq.extend A false T own is (s, q) = .ok () (s', { q with len := q.len + BitVec.ofNat w is.length }) ∧ s'.blocks.length = s.blocks.length ∧ s'.log = s.log ++ is.flatMap (·.left) ∧
      (∀ b, (∀ I ∈ is, ¬ I.owns b) → s'.blk b = s.blk b) ∧ (∀ I ∈ is, ∀ v, I.val = some v → ∃ l, T.Rep v l (fun _ => none) ∧ l.size.toNat = 0)
  | [], s, q, _, _ => ⟨s, by simp [Seq.extend, pure_apply], rfl, by simp, fun _ _ => rfl, by simp⟩
  | I :: is, s, q, hq, ha => by
    obtain ⟨hI, hpre, ⟨l, hl, hz⟩, hv⟩ := ha.each I (by simp)
    obtain ⟨v, hv⟩ := Option.ne_none_iff_exists'.1 hv
    obtain ⟨s1, e1, e2, e3, e4, e5⟩ := Seq.push_zero hT hal A hq hI hpre hl hz hv
    have hap := List.pairwise_cons.1 ha.apart
    have hsame : ∀ b, ¬ I.owns b → s1.blk b = s.blk b := by
      intro b hb
      cases hB : s.blk b with
      | none =>
        cases b with
        | zero => rfl
        | succ b =>
          simp only [St.blk, List.getElem?_eq_none_iff] at hB ⊢
          rw [e2.len]; exact hB
      | some B =>
        obtain ⟨d, h1, h2⟩ := e2.blk b hb B hB
        rw [h1]
        have : d = B.data := funext fun i => h2 i (by omega)
        rw [this]
    have ha' : ZeroItems T is s1 := by
      refine ⟨fun J hJ => ?_, hap.2⟩
      obtain ⟨k1, k2, k3, k4⟩ := ha.each J (by simp [hJ])
      exact ⟨k1, k1.stable s s1 k2 (fun b hb => hsame b fun ho => hap.1 J hJ b (hI.owns_mods _ ho) hb), k3, k4⟩
    obtain ⟨s2, f1, f2, f3, f4, f5⟩ := Seq.extend_zero hT hal A (own := own) (q := { q with len := q.len + 1 }) ⟨hq.ptr, hq.occ, hq.cap⟩ ha'
    refine ⟨s2, ?_, by rw [f2, e2.len], by rw [f3, e4]; simp, fun b hb => ?_, ?_⟩
    · simp only [Seq.extend, bind_apply, onUnwind_ok e1, Res.bind_ok, f1]
      congr 3
      apply BitVec.eq_of_toNat_eq
      simp only [List.length_cons, BitVec.toNat_add, BitVec.toNat_ofNat, Nat.add_mod_mod, BitVec.ofNat_eq_ofNat, Nat.mod_add_mod]
      congr 1
      omega
    · rw [f4 b fun J hJ => hb J (by simp [hJ]), hsame b (hb I (by simp))]
    · intro J hJ v' hv'
      simp only [List.mem_cons] at hJ
      rcases hJ with rfl | hJ
      · rw [hv] at hv'; cases hv'
        exact ⟨l, e3, hz⟩
      · exact f5 J hJ v' hv'

theorem Iter.take_zero (hT : Lawful T) (hal : T.headAlign = T.ALIGN.toNat) {v : V} {l : Layout w} (hr : T.Rep v l (fun _ => none)) (hz : l.size.toNat = 0) (s : St) :
    ∀ (k : Nat) (n : BitVec w), ∃ it, Iter.take T k ⟨dangling T, n⟩ s = .ok (List.replicate (min k n.toNat) (dangling T), it) s := by
  have hvalid : Valid T s (dangling T) v l := ⟨by rw [hz]; exact .inl rfl, by simp [Aligned, addr_dangling, hal], by rwa [viewAt_dangling]⟩
  have hh := hT.head_le _ _ _ hr
  have hap := hT.align_pow2.pos
  have hround : (roundUpFast l.size T.ALIGN).toNat = 0 := by
    have h0 : l.size = 0 := BitVec.eq_of_toNat_eq (by simpa using hz)
    unfold roundUpFast
    rw [h0]
    have hsub : (T.ALIGN - 1).toNat = T.ALIGN.toNat - 1 := hT.align_pow2.sub_one
    rw [BitVec.ofNat_eq_ofNat, BitVec.zero_add, maskDown_toNat hT.align_pow2, hsub]
    rw [Nat.div_eq_zero_iff.2 (.inr (by omega))]
    simp
  intro k
  induction k with
  | zero => intro n; exact ⟨⟨dangling T, n⟩, by simp [Iter.take, pure_apply]⟩
  | succ k ih =>
    intro n
    by_cases hn : n.toNat = 0
    · refine ⟨⟨dangling T, n⟩, ?_⟩
      simp [Iter.take, Iter.next, hn, bind_apply, pure_apply]
    · have hn1 : (n - 1).toNat = n.toNat - 1 := by
        rw [BitVec.toNat_sub]
        have h1 : (1 : BitVec w).toNat = 1 % 2 ^ w := by simp
        have hlt := n.isLt
        have : 1 % 2 ^ w = 1 := Nat.mod_eq_of_lt (by omega)
        rw [h1, this, show 2 ^ w - 1 + n.toNat = (n.toNat - 1) + 2 ^ w by omega, Nat.add_mod_right, Nat.mod_eq_of_lt (by omega)]
      obtain ⟨it, e⟩ := ih (n - 1)
      refine ⟨it, ?_⟩
      have hnext : Iter.next T ⟨dangling T, n⟩ s = .ok (some (dangling T), ⟨dangling T, n - 1⟩) s := by
        have h1 : Aligned s (dangling T) T.headAlign := by simp [Aligned, addr_dangling]
        have h2 : Acc s (dangling T) T.headSize := .inl (by omega)
        have e1 : checkAlign (dangling T) T.headAlign s = .ok () s := by simp [checkAlign, h1]
        have e2 : checkAcc (dangling T) T.headSize s = .ok () s := by simp [checkAcc, h2]
        unfold Iter.next
        simp only [show n.toNat > 0 by omega, if_true, bind_apply, derefBox, mkRef, e1, e2, Res.bind_ok, pure_apply, hT.calc_ok _ _ _ _ hvalid, hround]
        rfl
      have hmin : min (k + 1) n.toNat = min k (n - 1).toNat + 1 := by rw [hn1]; omega
      simp only [Iter.take, bind_apply, hnext, Res.bind_ok, e, pure_apply, hmin, List.replicate_succ]

theorem Iter.take_zero_nil (T : VarLen w) (k : Nat) {it : IterS w} (hn : it.len.toNat = 0) (s : St) : Iter.take T k it s = .ok ([], it) s := by
  cases k with
  | zero => rfl
  | succ k => simp [Iter.take, Iter.next, hn, bind_apply, pure_apply]

end Varlen
