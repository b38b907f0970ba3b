import Verif.Proofs.Seq
/-! # `Seq::push` -/
namespace Varlen
variable {w : Nat}

/-- What a push that is not refused does to the storage (`need` is the number of offsets needed, `own` the blocks the initializer
changes, `ev` the destructor effects). -/
structure Pushed (T : VarLen w) (chk : Bool) (own : Nat → Prop) (ev : List Event) (s s' : St) (q q' : SeqS w) (need : Nat) : Prop where
  cap : q'.cap.toNat = if need ≤ q.cap.toNat then q.cap.toNat else growCap T.ALIGN.toNat q.cap.toNat need
  ptr : need ≤ q.cap.toNat → q'.ptr = q.ptr
  fresh : ¬ need ≤ q.cap.toNat → s.blk q'.ptr.blk = none
  freed : ¬ need ≤ q.cap.toNat → q.cap.toNat ≠ 0 → ∃ B, s'.blk q.ptr.blk = some B ∧ B.live = false
  log : s'.log = s.log ++ ev
  copied : s'.copied = s.copied + if need ≤ q.cap.toNat then 0 else storageSize chk T.ALIGN.toNat q.cap.toNat
  frame : ∀ b B, s.blk b = some B → b ≠ q.ptr.blk → ¬ own b → s'.blk b = some B
  bits : chk = true → ∀ i, i / 8 < bitmaskBytes chk q'.cap.toNat → bitAt s' q'.ptr (q'.cap.toNat * T.ALIGN.toNat) i =
    ((decide (i / 8 < bitmaskBytes chk q.cap.toNat) && bitAt s q.ptr (q.cap.toNat * T.ALIGN.toNat) i) || decide (i = q.occ.toNat))
  size : s'.blocks.length = s.blocks.length + if need ≤ q.cap.toNat then 0 else 1

@[simp] theorem liftQ_apply {α : Type} (x : M α) (s : St) (q : SeqS w) : liftQ x (s, q) =
    match x s with
    | .ok a s' => .ok a (s', q)
    | .panic m s' => .panic m (s', q)
    | .ub k => .ub k := rfl
@[simp] theorem getQ_apply (s : St) (q : SeqS w) : getQ (s, q) = .ok q (s, q) := rfl
@[simp] theorem putQ_apply (s : St) (q q' : SeqS w) : putQ q' (s, q) = .ok () (s, q') := rfl

section
variable {T : VarLen w} (hT : Lawful T) (hw : 8 ≤ w) {chk : Bool}
include hT hw

/-- The reservation step of `try_push`. -/
theorem reserve_spec (A : Allocator) {s : St} {q : SeqS w} {es} (h : SeqInv T chk s q es) {occPlus : BitVec w} (hpos : 0 < occPlus.toNat) :
    (¬ occPlus.toNat ≤ q.cap.toNat ∧ mustRealloc A chk q.ptr q.cap occPlus T.ALIGN s = .panic .layoutOverflow s) ∨
    (occPlus.toNat ≤ q.cap.toNat) ∨
    (¬ occPlus.toNat ≤ q.cap.toNat ∧ ∃ p' cap' s', mustRealloc A chk q.ptr q.cap occPlus T.ALIGN s = .ok (p', cap') s' ∧
      cap'.toNat = growCap T.ALIGN.toNat q.cap.toNat occPlus.toNat ∧ Grown T chk s s' q.ptr p' q.cap.toNat cap'.toNat ∧
      SeqInv T chk s' { q with ptr := p', cap := cap' } es ∧
      (∀ i, i / 8 < bitmaskBytes chk cap'.toNat → bitAt s' p' (cap'.toNat * T.ALIGN.toNat) i =
        (decide (i / 8 < bitmaskBytes chk q.cap.toNat) && bitAt s q.ptr (q.cap.toNat * T.ALIGN.toNat) i))) := by
  by_cases hn : occPlus.toNat ≤ q.cap.toNat
  · exact .inr (.inl hn)
  · unfold mustRealloc
    rcases tryRealloc_spec hT hw A chk h.store hpos with e | ⟨p', cap', s', e, e1, e2, e3⟩
    · exact .inl ⟨hn, by simp [e]⟩
    · have hge : occPlus.toNat ≤ cap'.toNat := by rw [e1]; unfold growCap; omega
      obtain ⟨g1, g2, g3⟩ := h.grow hT e2 e3 (by omega) (by omega)
      refine .inr (.inr ⟨hn, p', cap', s', by simp [e], e1, e2, g1, fun i hi => ?_⟩)
      by_cases hi' : i / 8 < bitmaskBytes chk q.cap.toNat
      · simp [hi', g2 i hi']
      · simp [hi', g3 i (by omega) hi]

/-- The last two steps of a push: mark the offset and initialize. -/
theorem fill_spec {s : St} {q : SeqS w} {es} (h : SeqInv T chk s q es) {I : Init w} (hI : InitLawful T I) (hpre : I.pre s) (hfp : ¬ I.fp q.ptr.blk)
    {l : Layout w} (hl : I.lay = some l) (hsz : 0 < l.size.toNat) (hfit : q.occ.toNat + units T.ALIGN.toNat l.size.toNat ≤ q.cap.toNat) :
    ∃ s1, markOffsetValid chk T.ALIGN q.ptr q.cap q.occ s = .ok () s1 ∧
    ((∃ v, I.val = some v ∧ ∃ s', I.initTo (q.ptr.add (q.occ * T.ALIGN).toNat) l s1 = .ok () s' ∧
      SeqInv T chk s' { q with occ := q.occ + BitVec.ofNat w (units T.ALIGN.toNat l.size.toNat), len := q.len + 1 } (es ++ [⟨q.occ.toNat, v, l⟩]) ∧
      Pushed T chk I.owns I.left s s' q q (q.occ.toNat + units T.ALIGN.toNat l.size.toNat) ∧
      (∀ b, I.owns b → ∃ B, s'.blk b = some B ∧ B.live = false)) ∨
     (I.val = none ∧ ∃ m s', I.initTo (q.ptr.add (q.occ * T.ALIGN).toNat) l s1 = .panic m s' ∧ SeqInv T chk s' q es ∧
      Pushed T chk I.mods I.lost s s' q q (q.occ.toNat + units T.ALIGN.toNat l.size.toNat) ∧
      (∀ b, I.owns b → ∃ B, s'.blk b = some B ∧ B.live = false))) := by
  have hap := hT.align_pow2.pos
  have hup := units_pos hap hsz
  have hum := units_mul_ge hap l.size.toNat
  have hm := Nat.mul_le_mul_right T.ALIGN.toNat hfit
  rw [Nat.add_mul] at hm
  have hcap0 : q.cap.toNat ≠ 0 := by omega
  obtain ⟨hcb, hcb2⟩ := h.cap_bytes hT
  obtain ⟨s1, e1, h1, e2, e3, e4, e5⟩ := h.mark hT hw (off := q.occ) (by omega)
  have e6 : s1.blocks.length = s.blocks.length := blocks_length_eq fun b => by
    by_cases hb : b = q.ptr.blk
    · subst hb
      obtain ⟨_, B1, hB1, _⟩ := h1.store.owns hcap0
      obtain ⟨_, B0, hB0, _⟩ := h.store.owns hcap0
      rw [hB1, hB0]; simp
    · rw [e4 b hb]
  have hom : (q.occ * T.ALIGN).toNat = q.occ.toNat * T.ALIGN.toNat := by
    rw [BitVec.toNat_mul, Nat.mod_eq_of_lt]; omega
  have hpre1 : I.pre s1 := hI.stable _ _ hpre (fun b hb => e4 b (fun h => hfp (h ▸ hb)))
  have howns : ¬ I.owns q.ptr.blk := fun h => hfp (hI.owns_fp _ h)
  have hsz2 : storageSize chk T.ALIGN.toNat q.cap.toNat ≥ q.cap.toNat * T.ALIGN.toNat := storageSize_ge ..
  have hacc : Acc s1 (q.ptr.add (q.occ.toNat * T.ALIGN.toNat)) l.size.toNat := (h1.store.owns hcap0).acc.sub (by omega)
  have hal : Aligned s1 (q.ptr.add (q.occ.toNat * T.ALIGN.toNat)) T.ALIGN.toNat := (h1.store.aligned hcap0).add (by simp)
  rw [hom]
  have hmods : ¬ I.mods q.ptr.blk := fun h => hfp (hI.mods_fp _ h)
  have pushed : ∀ own ev s', ¬ own q.ptr.blk → Touch s1 s' (q.ptr.add (q.occ.toNat * T.ALIGN.toNat)) l.size.toNat own → s'.log = s1.log ++ ev → s'.copied = s1.copied →
      SeqInv T chk s' q es ∧ (∀ k, viewAt s' q.ptr (q.cap.toNat * T.ALIGN.toNat + k) = viewAt s1 q.ptr (q.cap.toNat * T.ALIGN.toNat + k)) ∧
      Pushed T chk own ev s s' q q (q.occ.toNat + units T.ALIGN.toNat l.size.toNat) := by
    intro own ev s' how ht hlog hcop
    obtain ⟨k1, k2⟩ := h1.frame hT ht how (.inr (by simp only [Ptr.add_off]; omega))
    refine ⟨k1, k2, by simp [hfit], fun _ => rfl, fun h => absurd hfit h, fun h => absurd hfit h, by rw [hlog, e2], by simp [hfit, hcop, e3], ?_, ?_, by simp [hfit, ht.len, e6]⟩
    · intro b B hB hb ho
      rw [ht.blk_eq ho (by simpa using hb), e4 b hb, hB]
    · intro hc i hi
      rw [bitAt_congr (k2 _), e5 hc i hi]
      simp [hi]
  refine ⟨s1, e1, ?_⟩
  cases hv : I.val with
  | some v =>
    obtain ⟨s', f1, f2, f3, f4, f5, f6⟩ := hI.init_ok s1 _ l v hpre1 hl hv hacc hal (by simpa using hfp)
    obtain ⟨k1, k2, k3⟩ := pushed _ _ s' howns f2 f5 f6
    refine .inl ⟨v, rfl, s', f1, ?_, k3, f3⟩
    have hocc : (q.occ + BitVec.ofNat w (units T.ALIGN.toNat l.size.toNat)).toNat = q.occ.toNat + units T.ALIGN.toNat l.size.toNat := by
      have := q.cap.isLt
      rw [BitVec.toNat_add, BitVec.toNat_ofNat, Nat.add_mod_mod, Nat.mod_eq_of_lt]; omega
    have hpk : Packed T.ALIGN.toNat 0 (es ++ [⟨q.occ.toNat, v, l⟩]) (q.occ.toNat + units T.ALIGN.toNat l.size.toNat) :=
      h.packed.append ⟨rfl, hsz, rfl⟩
    have hlen := hpk.length_le hap
    rw [List.length_append, List.length_singleton] at hlen
    refine ⟨k1.store, k1.dang, ?_, by simpa only [hocc] using hpk, by simpa only [hocc] using hfit, ?_, ?_⟩
    · have := q.cap.isLt
      have h1' : (1 : BitVec w).toNat = 1 := ofNat_toNat_small hw (n := 1) (by omega)
      simp only [BitVec.toNat_add, h1', h.len, List.length_append, List.length_singleton]
      rw [Nat.mod_eq_of_lt]; omega
    · intro e he
      rcases List.mem_append.1 he with he | he
      · exact k1.valid e he
      · rw [List.mem_singleton] at he
        subst he
        exact ⟨f2.acc (by simpa using howns) hacc, f2.aligned (by simpa using howns) hal, f4⟩
    · intro hc e he
      rcases List.mem_append.1 he with he | he
      · exact k1.marked hc e he
      · rw [List.mem_singleton] at he
        subst he
        subst hc
        rw [k3.bits rfl _ (bit_div_lt (show q.occ.toNat < q.cap.toNat by omega))]; simp
  | none =>
    obtain ⟨m, s', f1, f2, f5, f3, f4⟩ := hI.init_panic s1 _ l hpre1 hl hv hacc hal (by simpa using hfp)
    obtain ⟨k1, k2, k3⟩ := pushed _ _ s' hmods f2 f3 f4
    exact .inr ⟨rfl, m, s', f1, k1, k3, f5⟩

/-- Complete behaviour of `push` for an element of non-zero size. -/
theorem Seq.push_spec (A : Allocator) {s : St} {q : SeqS w} {es} (h : SeqInv T chk s q es) {I : Init w} (hI : InitLawful T I) (hpre : I.pre s)
    (hfp : ¬ I.fp q.ptr.blk) (hsz : ∀ l, I.lay = some l → 0 < l.size.toNat) :
    (∃ s', Seq.push A chk T I (s, q) = .panic (bif I.bad then .user else .layoutOverflow) (s', q) ∧ Dropped I s s' ∧
      ∀ l, I.lay = some l → q.cap.toNat < q.occ.toNat + units T.ALIGN.toNat l.size.toNat) ∨
    ∃ l, I.lay = some l ∧
     ((∃ v, I.val = some v ∧ ∃ s' q', Seq.push A chk T I (s, q) = .ok () (s', q') ∧
        SeqInv T chk s' q' (es ++ [⟨q.occ.toNat, v, l⟩]) ∧
        Pushed T chk I.owns I.left s s' q q' (q.occ.toNat + units T.ALIGN.toNat l.size.toNat) ∧
        q'.occ.toNat = q.occ.toNat + units T.ALIGN.toNat l.size.toNat ∧
        (∀ b, I.owns b → ∃ B, s'.blk b = some B ∧ B.live = false)) ∨
      (I.val = none ∧ ∃ m s' q', Seq.push A chk T I (s, q) = .panic m (s', q') ∧ SeqInv T chk s' q' es ∧ q'.occ = q.occ ∧ q'.len = q.len ∧
        Pushed T chk I.mods I.lost s s' q q' (q.occ.toNat + units T.ALIGN.toNat l.size.toNat) ∧
        (∀ b, I.owns b → ∃ B, s'.blk b = some B ∧ B.live = false))) := by
  have hap := hT.align_pow2.pos
  obtain ⟨sd, hd1, hd2⟩ := hI.dropped hpre
  unfold Seq.push Seq.tryPush
  cases hl : I.lay with
  | none =>
    left
    cases hb : I.bad with
    | true => exact ⟨sd, by simp [onUnwind_panic (hI.calc_panic s hpre hb) hd1], hd2, by simp⟩
    | false => exact ⟨sd, by simp [onUnwind_ok (hI.calc_ok s hpre hb), hl, hd1], hd2, by simp⟩
  | some l =>
    have hgood := hI.good hl
    have hc := hI.calc_some hpre hl
    have hszl := hsz l hl
    have hsub : (T.ALIGN - 1).toNat = T.ALIGN.toNat - 1 := hT.align_pow2.sub_one
    simp only [bind_apply, liftQ_apply, onUnwind_ok hc, Res.bind_ok, hgood, cond_false]
    cases hadd : checkedAdd l.size (T.ALIGN - 1) with
    | none =>
      left
      refine ⟨sd, by simp [hd1], hd2, ?_⟩
      rintro l' ⟨⟩
      rw [checkedAdd_eq_none, hsub] at hadd
      -- the element alone is larger than the address space
      obtain ⟨hcb, _⟩ := h.cap_bytes hT
      have := units_mul_ge hap l.size.toNat
      refine Nat.lt_of_not_le fun hcon => ?_
      have h2 := Nat.mul_le_mul_right T.ALIGN.toNat (show units T.ALIGN.toNat l.size.toNat ≤ q.cap.toNat by omega)
      have hfits := h.store.fits
      have := storageSize_ge chk T.ALIGN.toNat q.cap.toNat
      have := isizeMax_lt (hT.align_pow2.wpos)
      omega
    | some x =>
      have hx := checkedAdd_eq_some.1 hadd
      rw [hsub] at hx
      have hu : (x / T.ALIGN).toNat = units T.ALIGN.toNat l.size.toNat := by rw [BitVec.toNat_udiv]; unfold units; rw [← hx]
      simp only [bind_apply, getQ_apply, Res.bind_ok]
      cases hadd2 : checkedAdd q.occ (x / T.ALIGN) with
      | none =>
        left
        refine ⟨sd, by simp [hd1], hd2, ?_⟩
        rintro l' ⟨⟩
        rw [checkedAdd_eq_none, hu] at hadd2
        have := q.cap.isLt
        omega
      | some op =>
        have hop := checkedAdd_eq_some.1 hadd2
        rw [hu] at hop
        have hope : op = q.occ + BitVec.ofNat w (units T.ALIGN.toNat l.size.toNat) := by
          apply BitVec.eq_of_toNat_eq
          rw [BitVec.toNat_add, BitVec.toNat_ofNat, Nat.add_mod_mod, ← hop, Nat.mod_eq_of_lt op.isLt]
        have hup := units_pos hap hszl
        simp only [bind_apply]
        rcases reserve_spec hT hw A h (occPlus := op) (by omega) with ⟨r1, r2⟩ | r1 | ⟨r1, p', cap', s', r2, r3, r4, r5, r6⟩
        · left
          rw [if_pos (by omega)]
          refine ⟨sd, by simp [onUnwind_panic r2 hd1], hd2, ?_⟩
          rintro l' ⟨⟩
          omega
        · right
          refine ⟨l, rfl, ?_⟩
          rw [if_neg (by omega)]
          simp only [pure_apply, bind_apply, Res.bind_ok, getQ_apply, liftQ_apply]
          obtain ⟨s1, f1, f2⟩ := fill_spec hT hw h hI hpre hfp hl hszl (by omega)
          simp only [f1, Res.bind_ok, bind_apply, liftQ_apply]
          rcases f2 with ⟨v, hv, s', g1, g2, g3, g4⟩ | ⟨hv, m, s', g1, g2, g3, g4⟩
          · left
            refine ⟨v, hv, s', { q with occ := op, len := q.len + 1 }, ?_, by rw [hope]; exact g2, ?_, hop, g4⟩
            · rw [g1]; rfl
            · exact ⟨g3.cap, g3.ptr, g3.fresh, g3.freed, g3.log, g3.copied, g3.frame, g3.bits, g3.size⟩
          · right
            refine ⟨hv, m, s', q, by rw [g1]; rfl, g2, rfl, rfl, g3, g4⟩
        · right
          refine ⟨l, rfl, ?_⟩
          rw [if_pos (by omega)]
          simp only [pure_apply, bind_apply, Res.bind_ok, getQ_apply, liftQ_apply, onUnwind_ok r2, putQ_apply]
          have hmods : ¬ I.mods q.ptr.blk := fun h => hfp (hI.mods_fp _ h)
          have howns : ¬ I.owns q.ptr.blk := fun h => hfp (hI.owns_fp _ h)
          have hfresh : ∀ b, I.fp b → b ≠ p'.blk := by
            rintro b hb rfl; exact hI.fp_exists s _ hpre hb r4.fresh
          have hpre' : I.pre s' := by
            refine hI.stable _ _ hpre fun b hb => ?_
            have := hI.fp_exists s b hpre hb
            obtain ⟨B, hB⟩ := Option.ne_none_iff_exists'.1 this
            rw [hB]; exact r4.frame b B hB (fun _ he => hfp (he ▸ hb))
          obtain ⟨s1, f1, f2⟩ := fill_spec hT hw r5 hI hpre' (fun hb => hfresh _ hb rfl) hl hszl
            (show q.occ.toNat + units T.ALIGN.toNat l.size.toNat ≤ cap'.toNat by rw [r3]; unfold growCap; omega)
          simp only at f1 f2
          simp only [f1, Res.bind_ok, bind_apply, liftQ_apply]
          have hneed : ¬ q.occ.toNat + units T.ALIGN.toNat l.size.toNat ≤ q.cap.toNat := by omega
          have hneed' : q.occ.toNat + units T.ALIGN.toNat l.size.toNat ≤ cap'.toNat := by rw [r3]; unfold growCap; omega
          have conv : ∀ (own : Nat → Prop) (ev : List Event), ¬ own q.ptr.blk → ∀ (s'' : St) (q'' : SeqS w), q''.ptr = p' → q''.cap = cap' →
              Pushed T chk own ev s' s'' { q with ptr := p', cap := cap' } { q with ptr := p', cap := cap' } (q.occ.toNat + units T.ALIGN.toNat l.size.toNat) →
              Pushed T chk own ev s s'' q q'' (q.occ.toNat + units T.ALIGN.toNat l.size.toNat) := by
            intro own ev how s'' q'' hp hcp g
            refine ⟨by rw [if_neg hneed, hcp, r3, hop], fun h => absurd h hneed, fun _ => by rw [hp]; exact r4.fresh, ?_, by rw [g.log, r4.log], ?_, ?_, ?_, by rw [g.size, if_pos (by simpa using hneed'), if_neg hneed, r4.size]⟩
            · intro _ hc0
              obtain ⟨B, hB, hB'⟩ := r4.freed hc0
              refine ⟨B, g.frame _ B hB ?_ how, hB'⟩
              intro heq
              obtain ⟨_, B0, hB0, _⟩ := h.store.owns hc0
              rw [heq] at hB0
              rw [r4.fresh] at hB0; cases hB0
            · rw [g.copied, if_pos (by simpa using hneed'), if_neg hneed, r4.copied]; omega
            · intro b B hB hb ho
              refine g.frame b B (r4.frame b B hB (fun _ => hb)) ?_ ho
              rintro rfl
              exact absurd r4.fresh (by simp [hB])
            · intro hc i hi
              rw [hp, hcp]
              rw [hcp] at hi
              rw [g.bits hc i hi, r6 i hi]
              simp [hi]
          rcases f2 with ⟨v, hv, s'', g1, g2, g3, g4⟩ | ⟨hv, m, s'', g1, g2, g3, g4⟩
          · left
            refine ⟨v, hv, s'', { q with ptr := p', cap := cap', occ := op, len := q.len + 1 }, ?_, by rw [hope]; exact g2, conv _ _ howns _ _ rfl rfl g3, hop, g4⟩
            rw [g1]; rfl
          · right
            exact ⟨hv, m, s'', { q with ptr := p', cap := cap' }, by rw [g1]; rfl, g2, rfl, rfl, conv _ _ hmods _ _ rfl rfl g3, g4⟩

omit hT hw in
/-- The bitmask stays exact. -/
theorem Clean.push {s s' : St} {q q' : SeqS w} {es es'} (hc : Clean T chk s q es) {own ev need}
    (hp : Pushed T chk own ev s s' q q' need) (he : (es' = es ∧ q'.occ = q.occ) ∨ ∃ v l, es' = es ++ [⟨q.occ.toNat, v, l⟩]) :
    Clean T chk s' q' es' := by
  intro i hi hb
  cases hchk : chk with
  | false => subst hchk; simp [bitmaskBytes] at hi
  | true =>
    rw [hp.bits hchk i hi] at hb
    simp only [Bool.or_eq_true, Bool.and_eq_true, decide_eq_true_eq] at hb
    rcases hb with ⟨hb1, hb2⟩ | hb
    · rcases hc i hb1 hb2 with h1 | ⟨e, he1, he2⟩
      · rcases he with ⟨rfl, h2⟩ | ⟨v, l, rfl⟩
        · left; rw [h2]; exact h1
        · right; exact ⟨_, List.mem_append_right _ (List.mem_singleton.2 rfl), h1.symm⟩
      · right
        refine ⟨e, ?_, he2⟩
        rcases he with ⟨rfl, h2⟩ | ⟨v, l, rfl⟩
        · exact he1
        · exact List.mem_append_left _ he1
    · rcases he with ⟨rfl, h2⟩ | ⟨v, l, rfl⟩
      · left; rw [h2]; exact hb
      · right; exact ⟨_, List.mem_append_right _ (List.mem_singleton.2 rfl), hb.symm⟩

end
end Varlen
