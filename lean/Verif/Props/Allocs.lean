import Verif.Spec.Allocs
import Verif.Props.Clone
import Verif.Props.Seq
import Verif.Props.SeqDemo
/-! # C66: how many allocations the library makes -/
namespace Varlen
variable {w : Nat}

/-- Memories with blocks of the same names have made the same number of allocations. -/
theorem made_eq_of_names {s s' : St} (h : ∀ b, s'.blk b = none ↔ s.blk b = none) : s'.made = s.made := by
  have key : ∀ (s : St) (b : Nat), s.blk (b + 1) = none ↔ s.made ≤ b := fun s b => by simp [St.blk, St.made]
  have h1 := (key s' s.made).1 ((h _).2 ((key s s.made).2 (Nat.le_refl _)))
  have h2 := (key s s'.made).1 ((h _).1 ((key s' s'.made).2 (Nat.le_refl _)))
  omega

theorem Dropped.made {I : Init w} {s s' : St} (h : Dropped I s s') : s'.made = s.made := h.size

theorem made_push (s : St) (B : Block) : (s.push B).made = s.made + 1 := by simp [St.push, St.made]

/-- Initializing a fresh block allocates nothing more. -/
theorem init_fresh_made {T : VarLen w} {I : Init w} (hI : InitLawful T I) {s : St} (hp : I.pre s) {l : Layout w} (hl : I.lay = some l) {base : Nat} (hb : base % T.ALIGN.toNat = 0) :
    (∀ s', I.initTo ⟨s.next, 0⟩ l (s.push ⟨base, l.size.toNat, T.ALIGN.toNat, true, fun _ => none⟩) = .ok () s' → s'.made = s.made + 1) ∧
    (∀ m s', I.initTo ⟨s.next, 0⟩ l (s.push ⟨base, l.size.toNat, T.ALIGN.toNat, true, fun _ => none⟩) = .panic m s' → s'.made = s.made + 1) := by
  have h1 : I.pre (s.push ⟨base, l.size.toNat, T.ALIGN.toNat, true, fun _ => none⟩) := hI.stable _ _ hp fun b hb => by
    have : b ≠ s.next := by rintro rfl; exact hI.fp_exists s _ hp hb s.blk_next
    rw [St.blk_push, if_neg this]
  have h4 : ¬ I.fp s.next := fun h => hI.fp_exists s _ hp h s.blk_next
  have h2 : Acc (s.push ⟨base, l.size.toNat, T.ALIGN.toNat, true, fun _ => none⟩) ⟨s.next, 0⟩ l.size.toNat := .inr ⟨_, by rw [St.blk_push, if_pos rfl], rfl, by simp⟩
  have h3 : Aligned (s.push ⟨base, l.size.toNat, T.ALIGN.toNat, true, fun _ => none⟩) ⟨s.next, 0⟩ T.ALIGN.toNat := by
    unfold Aligned St.addr; simp [St.blk_push, hb]
  cases hv : I.val with
  | some v =>
    obtain ⟨s1, e1, e2, _⟩ := hI.init_ok _ _ l v h1 hl hv h2 h3 h4
    rw [e1]
    exact ⟨fun s' e => by cases e; have := e2.len; simp only [St.made, St.push] at this ⊢; simpa using this, fun m s' e => by cases e⟩
  | none =>
    obtain ⟨m1, s1, e1, e2, _⟩ := hI.init_panic _ _ l h1 hl hv h2 h3 h4
    rw [e1]
    exact ⟨fun s' e => by (cases e), fun m s' e => by cases e; have := e2.len; simp only [St.made, St.push] at this ⊢; simpa using this⟩

/-- `VBox::new` makes exactly one allocation, however many fields the object has and however deeply they are nested; if it panics, at most one, and none if the initializer reports that it cannot be built. -/
theorem C66_vbox_new (A : Allocator) {T : VarLen w} {I : Init w} (h : LibInit T I) {s : St} (hp : I.pre s) :
    (∀ p s', VBox.new A T I s = .ok p s' → s'.made = s.made + 1) ∧
    (∀ m s', VBox.new A T I s = .panic m s' → s'.made ≤ s.made + 1 ∧ ((∀ l, I.cautious s ≠ .ok (some l) s) → s'.made = s.made)) := by
  obtain ⟨hT, hI⟩ := h.lib
  have hs := VBox.new_spec A hT.lawful hI hp
  cases hl : I.lay with
  | none =>
    rw [hl] at hs
    obtain ⟨s1, e1, hd⟩ := hs
    rw [e1]
    refine ⟨fun p s' e => (by cases e), fun m s' e => ?_⟩
    cases e
    have := hd.made
    exact ⟨by omega, fun _ => this⟩
  | some l =>
    have hc := hI.calc_some hp hl
    by_cases hf : fromSizeAlign w l.size.toNat T.ALIGN.toNat = true
    · have hn : (∀ l, I.cautious s ≠ .ok (some l) s) → False := fun hn => hn l hc
      unfold VBox.new
      simp only [bind_apply, onUnwind_ok hc, Res.bind_ok, hf, if_true, allocM]
      by_cases h0 : l.size.toNat = 0
      · simp only [h0, if_true, Res.bind_ub]
        exact ⟨fun p s' e => (by cases e), fun m s' e => (by cases e)⟩
      simp only [h0, if_false, reduceCtorEq]
      cases hpk : pick w A s l.size.toNat T.ALIGN.toNat with
      | none => exact ⟨fun p s' e => (by cases e), fun m s' e => (by cases e)⟩
      | some base =>
        obtain ⟨k1, k2⟩ := init_fresh_made hI hp hl (pick_some hpk).2.1
        obtain ⟨j1, j2⟩ := init_fresh hT.lawful hI hp hl (pick_some hpk).2.1 hf
        simp only [Res.bind_ok, bind_apply]
        cases hv : I.val with
        | some v =>
          obtain ⟨s1, e1, e2, _⟩ := j1 v hv
          rw [e1]
          simp only [Res.bind_ok, bind_apply, derefBox_ok hT.lawful e2.valid, hT.lawful.calc_ok _ _ _ _ e2.valid, if_true, pure_apply]
          exact ⟨fun p s' e => (by cases e; exact k1 _ e1), fun m s' e => (by cases e)⟩
        | none =>
          obtain ⟨m1, s1, e1, _⟩ := j2 hv
          rw [e1]
          simp only [Res.bind_panic]
          exact ⟨fun p s' e => (by cases e), fun m s' e => (by cases e; exact ⟨by rw [k2 _ _ e1]; omega, fun hn' => (hn hn').elim⟩)⟩
    · rw [hl] at hs
      simp only [hf] at hs
      obtain ⟨s1, e1, hd⟩ := hs
      rw [e1]
      refine ⟨fun p s' e => (by cases e), fun m s' e => ?_⟩
      cases e
      have := hd.made
      exact ⟨by omega, fun _ => this⟩

/-- The same for `Owned::new_in`: one allocation in the arena. -/
theorem C66_owned_new_in (A : Allocator) {T : VarLen w} {I : Init w} (h : LibInit T I) {s : St} (hp : I.pre s) :
    (∀ p s', Owned.newIn A T I s = .ok p s' → s'.made = s.made + 1) ∧
    (∀ m s', Owned.newIn A T I s = .panic m s' → s'.made ≤ s.made + 1 ∧ ((∀ l, I.cautious s ≠ .ok (some l) s) → s'.made = s.made)) := by
  obtain ⟨hT, hI⟩ := h.lib
  have hs := Owned.newIn_spec A hT.lawful hI hp
  cases hl : I.lay with
  | none =>
    rw [hl] at hs
    obtain ⟨s1, e1, hd⟩ := hs
    rw [e1]
    refine ⟨fun p s' e => (by cases e), fun m s' e => ?_⟩
    cases e
    have := hd.made
    exact ⟨by omega, fun _ => this⟩
  | some l =>
    have hc := hI.calc_some hp hl
    have hn : (∀ l, I.cautious s ≠ .ok (some l) s) → False := fun hn => hn l hc
    by_cases hf : fromSizeAlign w l.size.toNat T.ALIGN.toNat = true
    · cases hpk : pick w A s l.size.toNat T.ALIGN.toNat with
      | none =>
        rw [hl] at hs
        simp only [hf, if_true, hpk] at hs
        obtain ⟨s1, e1, hd⟩ := hs
        rw [e1]
        refine ⟨fun p s' e => (by cases e), fun m s' e => ?_⟩
        cases e
        have := hd.made
        exact ⟨by omega, fun _ => this⟩
      | some base =>
        have hba : bumpAlloc w A l.size.toNat T.ALIGN.toNat s = .ok ⟨s.next, 0⟩ (s.push ⟨base, l.size.toNat, T.ALIGN.toNat, true, fun _ => none⟩) := by
          simp [bumpAlloc, hpk, hf]
        unfold Owned.newIn
        simp only [bind_apply, onUnwind_ok hc, Res.bind_ok, hf, if_true, onUnwind_ok hba]
        obtain ⟨k1, k2⟩ := init_fresh_made hI hp hl (pick_some hpk).2.1
        obtain ⟨j1, j2⟩ := init_fresh hT.lawful hI hp hl (pick_some hpk).2.1 hf
        cases hv : I.val with
        | some v =>
          obtain ⟨s1, e1, _⟩ := j1 v hv
          rw [e1]
          exact ⟨fun p s' e => (by cases e; exact k1 _ e1), fun m s' e => (by cases e)⟩
        | none =>
          obtain ⟨m1, s1, e1, _⟩ := j2 hv
          rw [e1]
          exact ⟨fun p s' e => (by cases e), fun m s' e => (by cases e; exact ⟨by rw [k2 _ _ e1]; omega, fun hn' => (hn hn').elim⟩)⟩
    · rw [hl] at hs
      simp only [hf] at hs
      obtain ⟨s1, e1, hd⟩ := hs
      rw [e1]
      refine ⟨fun p s' e => (by cases e), fun m s' e => ?_⟩
      cases e
      have := hd.made
      exact ⟨by omega, fun _ => this⟩

/-- Cloning a box makes one allocation. -/
theorem C66_clone (A : Allocator) {T : VarLen w} {C : VClone w} (h : LibClone T C) {s s' : St} {p d : Ptr} {v : V} {l : Layout w} (hv : BoxHas T s p v l)
    (e : VBox.clone A T C p v s = .ok d s') : s'.made = s.made + 1 := by
  obtain ⟨hT, hC⟩ := h.lib
  obtain ⟨I, e1, hI, hpre, _⟩ := hC.ok s p v l hv.valid hv.blk
  unfold VBox.clone at e
  simp only [bind_apply, derefBox_ok hT.lawful hv.valid, Res.bind_ok, e1] at e
  exact (C66_vbox_new A (.user hT hI) hpre).1 _ _ e

/-- Dropping a box or an owned value allocates nothing. -/
theorem C66_drop {T : VarLen w} (hT : LibType T) {s : St} {p : Ptr} {v : V} {l : Layout w} :
    (BoxHas T s p v l → ∃ s', VBox.drop T p s = .ok () s' ∧ s'.made = s.made) ∧ (Valid T s p v l → ∃ s', Owned.drop T p s = .ok () s' ∧ s'.made = s.made) := by
  refine ⟨fun h => ?_, fun h => ?_⟩
  · obtain ⟨s', e1, _, _, e2, B, e3, _⟩ := VBox.drop_spec hT.lawful h
    refine ⟨s', e1, made_eq_of_names fun b => ?_⟩
    by_cases hb : b = p.blk
    · subst hb
      simp [e3, h.blk]
    · rw [e2 b hb]
  · obtain ⟨s', e1, e2, _⟩ := Owned.drop_spec hT.lawful h
    exact ⟨s', e1, e2.len⟩

section
variable {T : VarLen w} {chk : Bool} {s : St} {q : SeqS w} {h : List (BitVec w × V)} {m : Nat} {t : Bool}

theorem SeqInv.names {es es' : List (Elem w)} {s' : St} {q' : SeqS w} (i : SeqInv T chk s q es) (i' : SeqInv T chk s' q' es') (hp : q'.ptr = q.ptr) (hc : q'.cap = q.cap)
    (hb : ∀ b, b ≠ q.ptr.blk → s'.blk b = s.blk b) : s'.made = s.made := by
  refine made_eq_of_names fun b => ?_
  by_cases h : b = q.ptr.blk
  · subst h
    by_cases h0 : q.cap.toNat = 0
    · rw [i.dang h0]
      simp [dangling, St.blk]
    · obtain ⟨_, B, hB, _⟩ := i.store.owns h0
      obtain ⟨_, B', hB', _⟩ := i'.store.owns (by rw [hc]; exact h0)
      rw [hp] at hB'
      simp [hB, hB']
  · rw [hb b h]

/-- Taking the elements out of a sequence, dropping any number of them, and dropping the sequence allocate nothing. -/
theorem C66_seq_drop (hT : LibType T) (hw : 8 ≤ w) (hh : Hist T chk s q h m t) :
    (∃ s' q', Seq.drop chk T (s, q) = .ok () (s', q') ∧ s'.made = s.made) ∧
    ∀ k, ∃ it q1 ps it', Seq.takeElems chk T (s, q) = .ok it (s, q1) ∧ Iter.take T k it s = .ok (ps, it') s ∧
      ∃ s3 s4, dropEach T ps s = .ok () s3 ∧ OwnedElems.drop T it' s3 = .ok () s4 ∧ s4.made = s.made := by
  obtain ⟨es, i1, _⟩ := hh.inv hT.lawful hw
  refine ⟨?_, fun k => ?_⟩
  · obtain ⟨s', q', e, _, _, h2, h3⟩ := Seq.drop_spec hT.lawful hw i1
    refine ⟨s', q', e, made_eq_of_names fun b => ?_⟩
    by_cases hb : b = q.ptr.blk
    · subst hb
      by_cases hc : q.cap.toNat = 0
      · rw [i1.dang hc]
        simp [dangling, St.blk]
      · obtain ⟨B, hB, _⟩ := h3 hc
        obtain ⟨_, B', hB', _⟩ := i1.store.owns hc
        simp [hB, hB']
    · rw [h2 b hb]
  · obtain ⟨it, q1, e1, _, _, e4, ps, it', e2, _, e3⟩ := C28_drain hT hw hh k
    obtain ⟨s3, s4, s5, f1, f2, f3, f5, f4, _⟩ := e3 ps [] [] (by simp)
    refine ⟨it, q1, ps, it', e1, e2, s3, s4, f1, f2, ?_⟩
    cases f3
    obtain ⟨es', i2, _⟩ := f5.inv hT.lawful hw
    rw [Seq.takeElems_spec hw] at e1
    cases e1
    exact i1.names i2 rfl rfl f4

/-- A push that fits allocates nothing, one that does not makes one allocation. -/
theorem C66_push (hT : LibType T) (hw : 8 ≤ w) (hh : Hist T chk s q h m t) (A : Allocator) {I : Init w} (ha : PushArg T I s q) {s' : St} {q' : SeqS w}
    (e : Seq.push A chk T I (s, q) = .ok () (s', q')) :
    s'.made = s.made + if (Seq.offset q').toNat ≤ (Seq.capacityInOffsets q).toNat then 0 else 1 := by
  obtain ⟨es, i1, rfl, i3, i4⟩ := hh.inv hT.lawful hw
  rcases Seq.push_spec hT.lawful hw A i1 ha.lawful ha.pre ha.apart ha.nonzero with ⟨s0, e', hd, hn⟩ | ⟨l, hl, ⟨v', hv', s'', q'', e', k1, k2, k3, k4⟩ | ⟨hv', m', s'', q'', e', k⟩⟩
  · rw [e'] at e; cases e
  · rw [e'] at e
    cases e
    have := k2.size
    rw [← k3] at this
    exact this
  · rw [e'] at e; cases e

/-- One more allocation at least doubles the capacity. -/
theorem Pushed.growth {own : Nat → Prop} {ev : List Event} {s s' : St} {q q' : SeqS w} {need n : Nat} (k : Pushed T chk own ev s s' q q' need)
    (hn : n = 0 ∨ 2 ^ (n - 1) * ceilDiv 32 T.ALIGN.toNat ≤ q.cap.toNat) :
    n + (s'.made - s.made) = 0 ∨ 2 ^ (n + (s'.made - s.made) - 1) * ceilDiv 32 T.ALIGN.toNat ≤ q'.cap.toNat := by
  have hs := k.size
  have hc := k.cap
  have e : s'.made - s.made = if need ≤ q.cap.toNat then 0 else 1 := by simp only [St.made]; omega
  rw [e]
  by_cases hle : need ≤ q.cap.toNat
  · rw [if_pos hle] at hc ⊢
    rw [hc]
    simpa using hn
  · rw [if_neg hle] at hc ⊢
    right
    have hg : ceilDiv 32 T.ALIGN.toNat ≤ q'.cap.toNat ∧ 2 * q.cap.toNat ≤ q'.cap.toNat := by
      rw [hc]
      unfold growCap ceilDiv
      omega
    rcases hn with rfl | hn
    · simpa using hg.1
    · cases n with
      | zero => simpa using hg.1
      | succ n =>
        simp only [Nat.add_sub_cancel] at hn ⊢
        rw [Nat.pow_succ, Nat.mul_comm (2 ^ n) 2, Nat.mul_assoc]
        omega

/-- Over any history, the `n` allocations made for a sequence are few: with `n ≥ 1` the capacity is at least `2 ^ (n - 1) * ⌈32 / ALIGN⌉` offsets, so `n ≤ 1 + log₂(capacity / ⌈32 / ALIGN⌉)`. -/
theorem C66_growths (hT : LibType T) (hw : 8 ≤ w) {n : Nat} (hg : Growths T chk s q n) :
    n = 0 ∨ 2 ^ (n - 1) * ceilDiv 32 T.ALIGN.toNat ≤ (Seq.capacityInOffsets q).toNat := by
  simp only [Seq.capacityInOffsets]
  induction hg with
  | new s => exact .inl rfl
  | push A _ hh ha e ih =>
    obtain ⟨es, i1, rfl, i3, i4⟩ := hh.inv hT.lawful hw
    rcases Seq.push_spec hT.lawful hw A i1 ha.lawful ha.pre ha.apart ha.nonzero with ⟨s0, e', hd, hn⟩ | ⟨l, hl, ⟨v', hv', s'', q'', e', k1, k2, k3, k4⟩ | ⟨hv', m', s'', q'', e', k⟩⟩
    · rw [e'] at e; cases e
    · rw [e'] at e
      cases e
      exact k2.growth ih
    · rw [e'] at e; cases e
  | pushPanic A _ hh ha e ih =>
    obtain ⟨es, i1, rfl, i3, i4⟩ := hh.inv hT.lawful hw
    rcases Seq.push_spec hT.lawful hw A i1 ha.lawful ha.pre ha.apart ha.nonzero with ⟨s0, e', hd, hn⟩ | ⟨l, hl, ⟨v', hv', s'', q'', e', k1, k2, k3, k4⟩ | ⟨hv', m', s'', q'', e', _, _, _, k, _⟩⟩
    · rw [e'] at e
      cases e
      rw [hd.made]
      simpa using ih
    · rw [e'] at e; cases e
    · rw [e'] at e
      cases e
      exact k.growth ih
  | takeElems _ hh e ih =>
    rw [Seq.takeElems_spec hw] at e
    cases e
    simpa using ih
  | other _ _ ih => exact ih

/-- `Growths` counts the allocations of every history: each `Hist` has a count. -/
theorem growths_total (hh : Hist T chk s q h m t) : ∃ n, Growths T chk s q n := by
  obtain ⟨U, hh⟩ := hh
  induction hh with
  | new s => exact ⟨_, .new s⟩
  | push A hh ha hv e ih => obtain ⟨n, ih⟩ := ih; exact ⟨_, .push A ih ⟨_, hh⟩ ha e⟩
  | pushPanic A hh ha e _ ih => obtain ⟨n, ih⟩ := ih; exact ⟨_, .pushPanic A ih ⟨_, hh⟩ ha e⟩
  | pushRefused A hh ha e _ ih => obtain ⟨n, ih⟩ := ih; exact ⟨_, .pushPanic A ih ⟨_, hh⟩ ha e⟩
  | drain k hh h1 h2 h3 h4 h5 h6 ih =>
    obtain ⟨n, ih⟩ := ih
    exact ⟨_, .other (.takeElems ih ⟨_, hh⟩ h1) ⟨_, hh.drain k h1 h2 h3 h4 h5 h6⟩⟩
  | forget hh h1 ih => obtain ⟨n, ih⟩ := ih; exact ⟨_, .takeElems ih ⟨_, hh⟩ h1⟩
  | lent hh h1 h2 ih => obtain ⟨n, ih⟩ := ih; exact ⟨_, .other ih ⟨_, hh.lent h1 h2⟩⟩
  | modify hh h1 h2 h3 h4 ih => obtain ⟨n, ih⟩ := ih; exact ⟨_, .other ih ⟨_, hh.modify h1 h2 h3 h4⟩⟩
  | other hh hs ih => obtain ⟨n, ih⟩ := ih; exact ⟨_, .other ih ⟨_, hh.other hs⟩⟩

end

namespace Demo
/-- After a third push, which does not fit. -/
def σG : St × SeqS 64 := Demo.after (pushD [5, 6, 7, 8, 9, 10, 11]) σ2

theorem growths1 : ∃ n, Growths ArrT true σ1.1 σ1.2 n ∧ n = 1 := by
  have e1 := run_unit (pushD [1, 2, 3]) (st0, Seq.new ArrT) (by decide +kernel)
  exact ⟨_, Growths.push alloc (Growths.new st0) (Hist.new st0) (arr_pushArg _ _ _ (by decide +kernel)) e1, by decide +kernel⟩

theorem growths2 : ∃ n, Growths ArrT true σ2.1 σ2.2 n ∧ n = 1 := by
  obtain ⟨n, g1, hn⟩ := growths1
  obtain ⟨m, U⟩ := hist1U
  have e2 := run_unit (pushD [4]) σ1 (by decide +kernel)
  refine ⟨_, Growths.push alloc g1 ⟨_, U⟩ (arr_pushArg _ _ _ (by decide +kernel)) e2, ?_⟩
  rw [hn]
  show 1 + (St.made σ2.1 - St.made σ1.1) = 1
  decide +kernel

/-- Three pushes, two of which grow the sequence: two allocations, and a capacity of 16 = 2 ^ (2 - 1) * ⌈32 / 4⌉ offsets, the least that `C66_growths` allows. -/
example : (∃ n, Growths ArrT true σG.1 σG.2 n ∧ n = 2) ∧ Seq.capacityInOffsets σG.2 = 16 ∧ ceilDiv 32 ArrT.ALIGN.toNat = 8 := by
  refine ⟨?_, by decide +kernel, by decide +kernel⟩
  obtain ⟨n, g2, hn⟩ := growths2
  obtain ⟨m', h2⟩ := hist2
  have e3 := run_unit (pushD [5, 6, 7, 8, 9, 10, 11]) σ2 (by decide +kernel)
  refine ⟨_, Growths.push alloc g2 h2 (arr_pushArg _ _ _ (by decide +kernel)) e3, ?_⟩
  rw [hn]
  show 1 + (St.made σG.1 - St.made σ2.1) = 2
  decide +kernel

/-- A box of the demo struct, which has three variable-length parts, is built with one allocation. -/
example : ∃ p s', VBox.new alloc S (sInit 7 3 [1, 2] [10, 11, 12] [5]) st0 = .ok p s' ∧ s'.made = st0.made + 1 := by
  obtain ⟨p, s', e⟩ := box_struct
  exact ⟨p, s', e, (C66_vbox_new alloc (sInit_lib 7 3 [1, 2] [10, 11, 12] [5]) (sInit_pre ..)).1 _ _ e⟩
end Demo
end Varlen
