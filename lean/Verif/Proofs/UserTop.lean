import Verif.Proofs.UserLeaf
import Verif.Proofs.SeqHist
/-!
# Proofs: constructions with user code
-/
namespace Varlen.Eff
variable {w : Nat}

section
variable {U : World} {T : VarLen w} {I : Init w} {Out : V → List Event → Prop} {Lost Owes : List Event → Prop} (h : InitOk U T I Out Lost Owes)
include h

/-- The drop of the initializer, in place of the construction. -/
theorem drop_after {s : St} {prot : Nat → Prop} (hU : U.ok s prot) (hfp : ∀ b, I.fp b → prot b) (hpre : I.pre s) :
    ∃ s' es, I.dropI s = .ok () s' ∧ Owes es ∧ After U I prot prot I.mods s s' es := by
  obtain ⟨s', es, e1, e2, e3, e4⟩ := h.drop_ok s prot hU hfp hpre
  exact ⟨s', es, e1, e4, e2.ok, fun b hb ho _ => e2.same hb ho (.inl rfl), e3, e2.log⟩

end

/-! ## Fresh allocations -/

theorem onUnwind_panicM {α : Type} (m : PanicMsg) (c : M Unit) (s : St) : onUnwind (panicM m : M α) c s = (c s).bind fun _ s' => .panic m s' := rfl

/-- What `VBox::new` does with an initializer that reports its layout as `I` does. -/
theorem new_shape (A : Allocator) {T : VarLen w} {I : Init w} (hI : Frame I) {s : St} (hp : I.pre s) :
    (∃ m, ∀ X : Init w, X.cautious = I.cautious → VBox.new A T X s = (X.dropI s).bind fun _ s' => .panic m s') ∨
    (∃ l, I.lay = some l ∧ fromSizeAlign w l.size.toNat T.ALIGN.toNat = true ∧ ((l.size.toNat = 0 ∧ VBox.new A T I s = .ub .allocZero) ∨
      (l.size.toNat ≠ 0 ∧ pick w A s l.size.toNat T.ALIGN.toNat = none ∧ VBox.new A T I s = .ub .nullPtr))) ∨
    (∃ l base, I.lay = some l ∧ fromSizeAlign w l.size.toNat T.ALIGN.toNat = true ∧ base % T.ALIGN.toNat = 0 ∧ ∀ X : Init w, X.cautious = I.cautious →
      VBox.new A T X s = (X.initTo ⟨s.next, 0⟩ l (s.push ⟨base, l.size.toNat, T.ALIGN.toNat, true, fun _ => none⟩)).bind fun _ => do
        let q ← derefBox T ⟨s.next, 0⟩
        let l' ← T.calculateLayout q
        if l'.size = l.size then pure ⟨s.next, 0⟩ else panicM .assertFailed) := by
  cases hl : I.lay with
  | none =>
    refine .inl ?_
    cases hb : I.bad with
    | true => exact ⟨.user, fun X hX => by simp only [VBox.new, bind_apply, hX, onUnwind, hI.calc_panic s hp hb]; cases X.dropI s <;> rfl⟩
    | false => exact ⟨.layoutOverflow, fun X hX => by simp only [VBox.new, bind_apply, hX, onUnwind_ok (hI.calc_ok s hp hb), hl, Res.bind_ok]; rfl⟩
  | some l =>
    have hb : I.bad = false := by
      cases hb : I.bad with
      | false => rfl
      | true => rw [hI.bad_lay hb] at hl; cases hl
    by_cases hf : fromSizeAlign w l.size.toNat T.ALIGN.toNat = true
    · by_cases h0 : l.size.toNat = 0
      · refine .inr (.inl ⟨l, rfl, hf, .inl ⟨h0, ?_⟩⟩)
        simp only [VBox.new, bind_apply, onUnwind_ok (hI.calc_ok s hp hb), hl, Res.bind_ok, hf, if_true]
        simp only [allocM, h0, if_true]; rfl
      · cases hpk : pick w A s l.size.toNat T.ALIGN.toNat with
        | none =>
          refine .inr (.inl ⟨l, rfl, hf, .inr ⟨h0, hpk, ?_⟩⟩)
          simp only [VBox.new, bind_apply, onUnwind_ok (hI.calc_ok s hp hb), hl, Res.bind_ok, hf, if_true, allocM, h0, if_false, reduceCtorEq, hpk]; rfl
        | some base =>
          refine .inr (.inr ⟨l, base, rfl, hf, (pick_some hpk).2.1, fun X hX => ?_⟩)
          simp only [VBox.new, bind_apply, hX, onUnwind_ok (hI.calc_ok s hp hb), hl, Res.bind_ok, hf, if_true, allocM, h0, if_false, reduceCtorEq, hpk]
    · exact .inl ⟨.layoutOverflow, fun X hX => by simp only [VBox.new, bind_apply, hX, onUnwind_ok (hI.calc_ok s hp hb), hl, Res.bind_ok, hf]; rfl⟩

theorem newIn_shape (A : Allocator) {T : VarLen w} {I : Init w} (hI : Frame I) {s : St} (hp : I.pre s) :
    (∃ m, ∀ X : Init w, X.cautious = I.cautious → Owned.newIn A T X s = (X.dropI s).bind fun _ s' => .panic m s') ∨
    (∃ l base, I.lay = some l ∧ fromSizeAlign w l.size.toNat T.ALIGN.toNat = true ∧ base % T.ALIGN.toNat = 0 ∧ ∀ X : Init w, X.cautious = I.cautious →
      Owned.newIn A T X s = (X.initTo ⟨s.next, 0⟩ l (s.push ⟨base, l.size.toNat, T.ALIGN.toNat, true, fun _ => none⟩)).bind fun _ => pure ⟨s.next, 0⟩) := by
  cases hl : I.lay with
  | none =>
    refine .inl ?_
    cases hb : I.bad with
    | true => exact ⟨.user, fun X hX => by simp only [Owned.newIn, bind_apply, hX, onUnwind, hI.calc_panic s hp hb]; cases X.dropI s <;> rfl⟩
    | false => exact ⟨.unwrapNone, fun X hX => by simp only [Owned.newIn, bind_apply, hX, onUnwind_ok (hI.calc_ok s hp hb), hl, Res.bind_ok]; rfl⟩
  | some l =>
    have hb : I.bad = false := by
      cases hb : I.bad with
      | false => rfl
      | true => rw [hI.bad_lay hb] at hl; cases hl
    by_cases hf : fromSizeAlign w l.size.toNat T.ALIGN.toNat = true
    · cases hpk : pick w A s l.size.toNat T.ALIGN.toNat with
      | none =>
        refine .inl ⟨.oom, fun X hX => ?_⟩
        simp only [Owned.newIn, bind_apply, hX, onUnwind_ok (hI.calc_ok s hp hb), hl, Res.bind_ok, hf, if_true]
        simp only [onUnwind, bumpAlloc, hf, reduceCtorEq, if_false, hpk]
        cases X.dropI s <;> rfl
      | some base =>
        refine .inr ⟨l, base, rfl, hf, (pick_some hpk).2.1, fun X hX => ?_⟩
        have hba : bumpAlloc w A l.size.toNat T.ALIGN.toNat s = .ok ⟨s.next, 0⟩ (s.push ⟨base, l.size.toNat, T.ALIGN.toNat, true, fun _ => none⟩) := by
          simp [bumpAlloc, hpk, hf]
        simp only [Owned.newIn, bind_apply, hX, onUnwind_ok (hI.calc_ok s hp hb), hl, Res.bind_ok, hf, if_true, onUnwind_ok hba]
    · exact .inl ⟨.unwrapNone, fun X hX => by simp only [Owned.newIn, bind_apply, hX, onUnwind_ok (hI.calc_ok s hp hb), hl, Res.bind_ok, hf]; rfl⟩

/-- Initializing a new block. -/
theorem fresh_after {U : World} {T : VarLen w} {I : Init w} {Out : V → List Event → Prop} {Lost Owes : List Event → Prop} (h : InitOk U T I Out Lost Owes)
    {s : St} {prot : Nat → Prop} (hU : U.ok s prot) (hfp : ∀ b, I.fp b → prot b) (hpre : I.pre s)
    {l : Layout w} (hl : I.lay = some l) {base : Nat} (hb : base % T.ALIGN.toNat = 0) (hfit : fromSizeAlign w l.size.toNat T.ALIGN.toNat = true) :
    (∃ v es s', I.initTo ⟨s.next, 0⟩ l (s.push ⟨base, l.size.toNat, T.ALIGN.toNat, true, fun _ => none⟩) = .ok () s' ∧ Out v es ∧ BoxHas T s' ⟨s.next, 0⟩ v l ∧
        After U I prot (fun b => prot b ∨ b = s.next) I.owns s s' es) ∨
      (∃ m es s', I.initTo ⟨s.next, 0⟩ l (s.push ⟨base, l.size.toNat, T.ALIGN.toNat, true, fun _ => none⟩) = .panic m s' ∧ Lost es ∧
        After U I prot (fun b => prot b ∨ b = s.next) I.mods s s' es) := by
  have hF := h.frame
  have hnf : ¬ I.fp s.next := fun hc => hF.fp_exists s _ hpre hc s.blk_next
  have hpre1 : I.pre (s.push ⟨base, l.size.toNat, T.ALIGN.toNat, true, fun _ => none⟩) := hF.stable _ _ hpre fun b hb => by
    rw [St.blk_push, if_neg]; rintro rfl; exact hnf hb
  have hU1 := U.grow s prot ⟨base, l.size.toNat, T.ALIGN.toNat, true, fun _ => none⟩ hU
  have hacc : Acc (s.push ⟨base, l.size.toNat, T.ALIGN.toNat, true, fun _ => none⟩) ⟨s.next, 0⟩ l.size.toNat := .inr ⟨_, by rw [St.blk_push, if_pos rfl], rfl, by simp⟩
  have hal : Aligned (s.push ⟨base, l.size.toNat, T.ALIGN.toNat, true, fun _ => none⟩) ⟨s.next, 0⟩ T.ALIGN.toNat := by unfold Aligned St.addr; simp [St.blk_push, hb]
  have hkeep : ∀ own s' es, Wrote U (fun b => prot b ∨ b = s.next) (s.push ⟨base, l.size.toNat, T.ALIGN.toNat, true, fun _ => none⟩) s' ⟨s.next, 0⟩ l.size.toNat own es →
      (∀ b, I.owns b → ∃ B, s'.blk b = some B ∧ B.live = false) → After U I prot (fun b => prot b ∨ b = s.next) own s s' es := by
    intro own s' es hw hf
    refine ⟨hw.ok, fun b hb ho hn => ?_, hf, by simpa using hw.log⟩
    have hne : b ≠ s.next := by rintro rfl; exact hn s.blk_next
    rw [hw.same (.inl hb) ho (.inr hne), St.blk_push, if_neg hne]
  rcases h.init_ok _ _ ⟨s.next, 0⟩ l hU1 (fun b hb => .inl (hfp b hb)) (.inr rfl) hpre1 hl hacc hal hnf with ⟨s', v, es, e1, e2, e3, e4, e5⟩ | ⟨m, s', es, e1, e2, e3, e4⟩
  · have how : ¬ I.owns s.next := fun h => hnf (hF.mods_fp _ (hF.owns_mods _ h))
    refine .inl ⟨v, es, s', e1, e5, ⟨⟨e2.acc (.inr rfl) how hacc, e2.aligned (.inr rfl) how hal, e4⟩, ⟨rfl, ?_⟩, hfit⟩, hkeep _ _ _ e2 e3⟩
    obtain ⟨d, h5, _⟩ := e2.blk s.next (.inr rfl) how _ (by rw [St.blk_push, if_pos rfl])
    exact ⟨_, h5, rfl, rfl, rfl⟩
  · exact .inr ⟨m, es, s', e1, e4, hkeep _ _ _ e2 e3⟩

/-- `VBox::new`: undefined only where it is for pure initializers (a zero size, a failing allocator). -/
theorem VBox.new_made (A : Allocator) {U : World} {T : VarLen w} (hT : Lawful T) {I : Init w} {Out : V → List Event → Prop} {Lost Owes : List Event → Prop} (h : InitOk U T I Out Lost Owes)
    {s : St} {prot : Nat → Prop} (hU : U.ok s prot) (hfp : ∀ b, I.fp b → prot b) (hpre : I.pre s) :
    (∃ l, I.lay = some l ∧ fromSizeAlign w l.size.toNat T.ALIGN.toNat = true ∧
      ((l.size.toNat = 0 ∧ VBox.new A T I s = .ub .allocZero) ∨ (l.size.toNat ≠ 0 ∧ pick w A s l.size.toNat T.ALIGN.toNat = none ∧ VBox.new A T I s = .ub .nullPtr))) ∨
    MadeWith U prot T I Out Lost Owes s (VBox.new A T I s) := by
  rcases new_shape A h.frame hpre with ⟨m, h1⟩ | h1 | ⟨l, base, hl, hf, hb, h1⟩
  · obtain ⟨s', es, e1, e2, e3⟩ := drop_after h hU hfp hpre
    rw [h1 I rfl, e1]
    exact .inr (.refused e2 e3)
  · exact .inl h1
  · rw [h1 I rfl]
    right
    rcases fresh_after h hU hfp hpre hl hb hf with ⟨v, es, s', e1, e2, e3, e4⟩ | ⟨m, es, s', e1, e2, e3⟩
    · rw [e1, Res.bind_ok]
      simp only [bind_apply, derefBox_ok hT e3.valid, Res.bind_ok, hT.calc_ok _ _ _ _ e3.valid, if_true, pure_apply]
      exact .made (by exact s.blk_next) e3 hl e2 e4
    · rw [e1]
      exact .panicked hl e2 e3

/-- `Owned::new_in`. -/
theorem Owned.newIn_made (A : Allocator) {U : World} {T : VarLen w} {I : Init w} {Out : V → List Event → Prop} {Lost Owes : List Event → Prop} (h : InitOk U T I Out Lost Owes)
    {s : St} {prot : Nat → Prop} (hU : U.ok s prot) (hfp : ∀ b, I.fp b → prot b) (hpre : I.pre s) : MadeWith U prot T I Out Lost Owes s (Owned.newIn A T I s) := by
  rcases newIn_shape A h.frame hpre with ⟨m, h1⟩ | ⟨l, base, hl, hf, hb, h1⟩
  · obtain ⟨s', es, e1, e2, e3⟩ := drop_after h hU hfp hpre
    rw [h1 I rfl, e1]
    exact .refused e2 e3
  · rw [h1 I rfl]
    rcases fresh_after h hU hfp hpre hl hb hf with ⟨v, es, s', e1, e2, e3, e4⟩ | ⟨m, es, s', e1, e2, e3⟩
    · rw [e1]
      exact .made (by exact s.blk_next) e3 hl e2 e4
    · rw [e1]
      exact .panicked hl e2 e3

/-! ## Sequences -/

/-- What `push` does with an initializer that reports its layout as `I` does: refuse, or call `initialize` on a new slot. -/
theorem push_shape (A : Allocator) {T : VarLen w} (hT : Lawful T) (hw : 8 ≤ w) {chk : Bool} {s : St} {q : SeqS w} {es} (h : SeqInv T chk s q es) {I : Init w} (hI : Frame I) (hpre : I.pre s)
    (hfp : ¬ I.fp q.ptr.blk) (hsz : ∀ l, I.lay = some l → 0 < l.size.toNat) :
    (∃ m, ∀ (X : Init w) s', X.cautious = I.cautious → X.dropI s = .ok () s' → Seq.push A chk T X (s, q) = .panic m (s', q)) ∨
    (∃ s1 q1 q2 p l, I.lay = some l ∧ I.pre s1 ∧ Acc s1 p l.size.toNat ∧ Aligned s1 p T.ALIGN.toNat ∧ p.blk = q1.ptr.blk ∧ q2.ptr = q1.ptr ∧ ¬ I.fp q1.ptr.blk ∧
      ((q.occ.toNat + units T.ALIGN.toNat l.size.toNat ≤ q.cap.toNat ∧ q.cap.toNat ≠ 0 ∧ q1.ptr = q.ptr ∧ ∀ b, b ≠ q.ptr.blk → s1.blk b = s.blk b) ∨
       (q1.ptr.blk = s.next ∧ ∀ b, b ≠ s.next → (q.cap.toNat ≠ 0 → b ≠ q.ptr.blk) → s1.blk b = s.blk b)) ∧
      s1.blocks.length = s.blocks.length + (if q1.ptr.blk = s.next then 1 else 0) ∧
      ∀ X : Init w, X.cautious = I.cautious → Seq.push A chk T X (s, q) =
        match X.initTo p l s1 with
        | .ok _ s' => .ok () (s', q2)
        | .panic m s' => .panic m (s', q1)
        | .ub k => .ub k) := by
  have hap := hT.align_pow2.pos
  unfold Seq.push Seq.tryPush
  cases hl : I.lay with
  | none =>
    left
    cases hb : I.bad with
    | true => exact ⟨.user, fun X s' hX hd => by simp [hX, onUnwind_panic (hI.calc_panic s hpre hb) hd]⟩
    | false => exact ⟨.layoutOverflow, fun X s' hX hd => by simp [hX, onUnwind_ok (hI.calc_ok s hpre hb), hl, hd]⟩
  | some l =>
    have hgood : I.bad = false := by
      cases hb : I.bad with
      | false => rfl
      | true => rw [hI.bad_lay hb] at hl; cases hl
    have hc := hI.calc_ok s hpre hgood
    rw [hl] at hc
    have hszl := hsz l hl
    have hsub : (T.ALIGN - 1).toNat = T.ALIGN.toNat - 1 := hT.align_pow2.sub_one
    cases hadd : checkedAdd l.size (T.ALIGN - 1) with
    | none => exact .inl ⟨.layoutOverflow, fun X s' hX hd => by
      simp only [bind_apply, liftQ_apply, hX, onUnwind_ok hc, Res.bind_ok, hadd]; simp [hd]⟩
    | some x =>
      have hx := checkedAdd_eq_some.1 hadd
      rw [hsub] at hx
      have hu : (x / T.ALIGN).toNat = units T.ALIGN.toNat l.size.toNat := by rw [BitVec.toNat_udiv]; unfold units; rw [← hx]
      cases hadd2 : checkedAdd q.occ (x / T.ALIGN) with
      | none => exact .inl ⟨.layoutOverflow, fun X s' hX hd => by
        simp only [bind_apply, liftQ_apply, hX, onUnwind_ok hc, Res.bind_ok, hadd, getQ_apply, hadd2]; simp [hd]⟩
      | some op =>
        have hop := checkedAdd_eq_some.1 hadd2
        rw [hu] at hop
        have hup := units_pos hap hszl
        have hum := units_mul_ge hap l.size.toNat
        -- the slot, in a sequence with enough capacity
        have slot : ∀ {s0 : St} {q0 : SeqS w}, SeqInv T chk s0 q0 es → q0.occ = q.occ → op.toNat ≤ q0.cap.toNat →
            ∃ s1, markOffsetValid chk T.ALIGN q0.ptr q0.cap q0.occ s0 = .ok () s1 ∧ (∀ b, b ≠ q0.ptr.blk → s1.blk b = s0.blk b) ∧ s1.blocks.length = s0.blocks.length ∧
              Acc s1 (q0.ptr.add (q0.occ * T.ALIGN).toNat) l.size.toNat ∧ Aligned s1 (q0.ptr.add (q0.occ * T.ALIGN).toNat) T.ALIGN.toNat := by
          intro s0 q0 h0 ho hle
          have hcap0 : q0.cap.toNat ≠ 0 := by omega
          obtain ⟨s1, e1, h1, _, _, e4, _⟩ := h0.mark hT hw (off := q0.occ) (by rw [ho]; omega)
          obtain ⟨hcb, hcb2⟩ := h0.cap_bytes hT
          have hm := Nat.mul_le_mul_right T.ALIGN.toNat hle
          rw [hop, Nat.add_mul] at hm
          have hom : (q0.occ * T.ALIGN).toNat = q0.occ.toNat * T.ALIGN.toNat := by
            rw [BitVec.toNat_mul, Nat.mod_eq_of_lt]; rw [ho]; omega
          have hsz2 : storageSize chk T.ALIGN.toNat q0.cap.toNat ≥ q0.cap.toNat * T.ALIGN.toNat := storageSize_ge ..
          rw [hom]
          refine ⟨s1, e1, e4, blocks_length_eq fun b => ?_, (h1.store.owns hcap0).acc.sub (by rw [ho]; omega), (h1.store.aligned hcap0).add (by simp)⟩
          by_cases hb : b = q0.ptr.blk
          · subst hb
            obtain ⟨_, B1, hB1, _⟩ := h1.store.owns hcap0
            obtain ⟨_, B0, hB0, _⟩ := h0.store.owns hcap0
            rw [hB1, hB0]; simp
          · rw [e4 b hb]
        rcases reserve_spec hT hw A h (occPlus := op) (by omega) with ⟨r1, r2⟩ | r1 | ⟨r1, p', cap', s', r2, r3, r4, r5, r6⟩
        · refine .inl ⟨.layoutOverflow, fun X s' hX hd => ?_⟩
          simp only [bind_apply, liftQ_apply, hX, onUnwind_ok hc, Res.bind_ok, hadd, getQ_apply, hadd2]
          rw [if_pos (by omega)]
          simp [onUnwind_panic r2 hd]
        · right
          obtain ⟨s1, f1, f2, f3, f4, f5⟩ := slot h rfl r1
          have hne : q.ptr.blk ≠ s.next := by
            intro hc'
            obtain ⟨_, B0, hB0, _⟩ := h.store.owns (show q.cap.toNat ≠ 0 by omega)
            rw [hc', St.blk_next] at hB0; cases hB0
          refine ⟨s1, q, { q with occ := op, len := q.len + 1 }, _, l, rfl, hI.stable _ _ hpre (fun b hb => f2 b (fun h => hfp (h ▸ hb))), f4, f5, rfl, rfl, hfp,
            .inl ⟨by omega, by omega, rfl, f2⟩, by rw [if_neg hne]; exact f3, fun X hX => ?_⟩
          simp only [bind_apply, liftQ_apply, hX, onUnwind_ok hc, Res.bind_ok, hadd, getQ_apply, hadd2]
          rw [if_neg (by omega)]
          simp only [pure_apply, bind_apply, Res.bind_ok, getQ_apply, liftQ_apply, f1]
          cases X.initTo (q.ptr.add (q.occ * T.ALIGN).toNat) l s1 <;> rfl
        · right
          have hge : op.toNat ≤ cap'.toNat := by rw [r3]; unfold growCap; omega
          obtain ⟨s1, f1, f2, f3, f4, f5⟩ := slot r5 rfl hge
          simp only at f1 f2 f4 f5
          have hnext : p'.blk = s.next := by
            obtain ⟨_, B, hB, _⟩ := r4.owns
            have h1 := St.blk_eq_none.1 r4.fresh
            have h2 : ¬ (p'.blk = 0 ∨ s'.blocks.length < p'.blk) := fun hc' => by rw [St.blk_eq_none.2 hc'] at hB; cases hB
            rw [r4.size] at h2
            unfold St.next
            omega
          have hfr : ∀ b, b ≠ s.next → (q.cap.toNat ≠ 0 → b ≠ q.ptr.blk) → s'.blk b = s.blk b := by
            intro b hb hbq
            cases hB : s.blk b with
            | some B => exact r4.frame b B hB hbq
            | none =>
              rw [St.blk_eq_none] at hB ⊢
              rw [r4.size]
              unfold St.next at hb
              omega
          have hfr1 : ∀ b, b ≠ s.next → (q.cap.toNat ≠ 0 → b ≠ q.ptr.blk) → s1.blk b = s.blk b := fun b hb hbq => by
            rw [f2 b (by rw [hnext]; exact hb), hfr b hb hbq]
          have hnfp : ∀ b, I.fp b → b ≠ s.next := by
            rintro b hb rfl; exact hI.fp_exists s _ hpre hb s.blk_next
          refine ⟨s1, { q with ptr := p', cap := cap' }, { q with ptr := p', cap := cap', occ := op, len := q.len + 1 }, _, l, rfl,
            hI.stable _ _ hpre (fun b hb => hfr1 b (hnfp b hb) (fun _ h => hfp (h ▸ hb))), f4, f5, rfl, rfl, fun hb => hnfp _ hb hnext,
            .inr ⟨hnext, hfr1⟩, by simp only [hnext, if_true]; rw [f3, r4.size], fun X hX => ?_⟩
          simp only [bind_apply, liftQ_apply, hX, onUnwind_ok hc, Res.bind_ok, hadd, getQ_apply, hadd2]
          rw [if_pos (by omega)]
          simp only [pure_apply, bind_apply, Res.bind_ok, getQ_apply, liftQ_apply, onUnwind_ok r2, putQ_apply, f1]
          cases X.initTo (p'.add (q.occ * T.ALIGN).toNat) l s1 <;> rfl

/-- `Seq::push`. -/
theorem Seq.push_pushed (A : Allocator) {U : World} {T : VarLen w} (hT : LibType T) (hw : 8 ≤ w) {chk : Bool} {I : Init w} {Out : V → List Event → Prop} {Lost Owes : List Event → Prop}
    (hS : InitOk U T I Out Lost Owes) {s : St} {q : SeqS w} {h : List (BitVec w × V)} {m : Nat} {t : Bool}
    (hh : Hist T chk s q h m t) {prot : Nat → Prop} (hU : U.ok s prot) (hq : q.cap ≠ 0 → prot q.ptr.blk) (hfp : ∀ b, I.fp b → prot b) (hpre : I.pre s) (hap : ¬ I.fp q.ptr.blk)
    (hsz : ∀ l, I.lay = some l → 0 < l.size.toNat) : PushedTo U prot T chk I Out Lost Owes s q h t (Seq.push A chk T I (s, q)) := by
  have hF := hS.frame
  obtain ⟨es, hi⟩ := hh.inv hT.lawful hw
  have hq' : q.cap.toNat ≠ 0 → prot q.ptr.blk := fun h => hq fun hc => h (by rw [hc]; simp)
  have hq0 : q.cap.toNat = 0 → q.ptr.blk = 0 := fun h0 => by rw [hi.inv.dang h0]; rfl
  rcases push_shape A hT.lawful hw hi.inv hF hpre hap hsz with ⟨msg, h1⟩ | ⟨s1, q1, q2, p, l, hl, hpre1, hacc, hal, hpb, hq12, hnf, hblk, hlen, h1⟩
  · obtain ⟨s', es, e1, e2, e3⟩ := drop_after hS hU hfp hpre
    rw [h1 I s' rfl e1]
    refine .refused e2 (hh.other ?_) e3
    rintro b rfl
    by_cases hc : q.cap.toNat = 0
    · rw [hq0 hc]; rfl
    · refine e3.keep _ (hq' hc) (fun hm => hap (hF.mods_fp _ hm)) ?_
      obtain ⟨_, B0, hB0, _⟩ := hi.inv.store.owns hc
      rw [hB0]; simp
  · have hU1 : U.ok s1 (fun b => prot b ∨ b = q1.ptr.blk) := by
      rcases hblk with ⟨_, hc, hp1, hf⟩ | ⟨hn, hf⟩
      · have hne : q1.ptr.blk ≠ s.next := by
          intro hc'
          obtain ⟨_, B0, hB0, _⟩ := hi.inv.store.owns hc
          rw [← hp1, hc', St.blk_next] at hB0; cases hB0
        rw [if_neg hne] at hlen
        have heq : (fun b => prot b ∨ b = q1.ptr.blk) = prot := funext fun b => propext ⟨fun h => h.elim id (fun h => by rw [h, hp1]; exact hq' hc), .inl⟩
        rw [heq]
        exact U.stable _ _ _ hU hlen fun b hb => hf b (fun h => hb (h ▸ hq' hc))
      · rw [if_pos hn] at hlen
        rw [hn]
        refine U.stable _ _ _ (U.grow s prot ⟨0, 0, 0, true, fun _ => none⟩ hU) (by rw [hlen]; simp [St.push]) fun b hb => ?_
        rw [St.blk_push, if_neg (fun h => hb (.inr h))]
        exact hf b (fun h => hb (.inr h)) (fun hc h => hb (.inl (h ▸ hq' hc)))
    have hfp1 : ∀ b, I.fp b → prot b ∨ b = q1.ptr.blk := fun b hb => .inl (hfp b hb)
    obtain ⟨J, hJ, hr⟩ := (hS.sim hT).run s1 _ p l hU1 hfp1 (.inr hpb) hl
    have hr := hr s1 (.refl _ _)
    have hlaw := hJ.lib.lib.2
    have hpJ : J.pre s := by rw [hJ.pre]; exact hpre
    have hpJ1 : J.pre s1 := by rw [hJ.pre]; exact hpre1
    have hfJ : ¬ J.fp q.ptr.blk := by rw [hJ.fp]; exact hap
    have hfJ1 : ¬ J.fp p.blk := by rw [hJ.fp, hpb]; exact hnf
    have hlJ : J.lay = some l := by rw [hJ.lay]; exact hl
    have hzJ : ∀ l, J.lay = some l → 0 < l.size.toNat := by rw [hJ.lay]; exact hsz
    have harg : PushArg T J s q := ⟨hlaw, hpJ, hfJ, hzJ⟩
    have hsp := Seq.push_spec hT.lawful hw A hi.inv hlaw hpJ hfJ hzJ
    have hown : ∀ b, I.owns b → prot b := fun b hb => hfp b (hF.mods_fp b (hF.owns_mods b hb))
    cases hv : J.val with
    | some v =>
      obtain ⟨sP, e2, _⟩ := hlaw.init_ok s1 p l v hpJ1 hlJ hv hacc hal hfJ1
      rw [e2] at hr
      obtain ⟨s', e1, e4, e3, e5, _⟩ := hr
      have hout := e5 _ _ _ hS
      simp only [if_true, hv] at hout
      have hPJ : Seq.push A chk T J (s, q) = .ok () (sP, q2) := by rw [h1 J hJ.cautious, e2]
      have hHJ := hh.push A harg hv hPJ
      rw [h1 I rfl, e1]
      rw [hPJ] at hsp
      rcases hsp with ⟨_, h2, _⟩ | ⟨l', _, ⟨v', hv', sP', q', f1, f2, f3, f4, f5⟩ | ⟨hv', _⟩⟩
      · cases h2
      · cases f1
        refine .pushed hout (hHJ.other ?_) ⟨by rw [hq12]; exact e4, fun b hb ho hn => ?_, fun b hb => ?_, by rw [← e3.log, f3.log]⟩
        · rintro b rfl
          exact (e3.same _ (.inr (by rw [hq12]))).symm
        · cases hB : s.blk b with
          | none => exact absurd hB hn
          | some B => rw [← e3.same b (.inl hb.1)]; exact f3.frame b B hB hb.2 (by rw [hJ.owns]; exact ho)
        · rw [← e3.same b (.inl (hown b hb))]; exact f5 b (by rw [hJ.owns]; exact hb)
      · rw [hv] at hv'; cases hv'
    | none =>
      obtain ⟨msg, sP, e2, _⟩ := hlaw.init_panic s1 p l hpJ1 hlJ hv hacc hal hfJ1
      rw [e2] at hr
      obtain ⟨s', e1, e4, e3, e5, _⟩ := hr
      have hout := e5 _ _ _ hS
      simp only [if_true, hv] at hout
      have hPJ : Seq.push A chk T J (s, q) = .panic msg (sP, q1) := by rw [h1 J hJ.cautious, e2]
      have hHJ := hh.pushPanic A harg hPJ
      rw [h1 I rfl, e1]
      rw [hPJ] at hsp
      rcases hsp with ⟨sP', h2, h3, h4⟩ | ⟨l', _, ⟨v', hv', _⟩ | ⟨hv', msg', sP', q', f1, f2, f3, f4, f5, f6⟩⟩
      · cases h2
        rcases hblk with ⟨hle, _⟩ | ⟨hn, _⟩
        · exact absurd (h4 l hlJ) (by omega)
        · by_cases hc : q.cap.toNat = 0
          · rw [hq0 hc] at hn; unfold St.next at hn; omega
          · obtain ⟨_, B0, hB0, _⟩ := hi.inv.store.owns hc
            rw [hn, St.blk_next] at hB0; cases hB0
      · rw [hv] at hv'; cases hv'
      · cases f1
        refine .panicked hout (hHJ.other ?_) ⟨e4, fun b hb ho hn => ?_, fun b hb => ?_, by rw [← e3.log, f5.log]⟩
        · rintro b rfl
          exact (e3.same _ (.inr rfl)).symm
        · cases hB : s.blk b with
          | none => exact absurd hB hn
          | some B => rw [← e3.same b (.inl hb.1)]; exact f5.frame b B hB hb.2 (by rw [hJ.mods]; exact ho)
        · rw [← e3.same b (.inl (hown b hb))]; exact f6 b (by rw [hJ.owns]; exact hb)

end Varlen.Eff
