import Verif.Spec.SeqExtend
import Verif.Proofs.SeqHist
/-! # More consequences of histories: `extend`, and the unused part of the bitmask -/
namespace Varlen
variable {w : Nat} {T : VarLen w} (hT : Lawful T) (hw : 8 ≤ w) {chk : Bool}

/-- Bits beyond the capacity are clear. -/
def HighClear (T : VarLen w) (chk : Bool) (s : St) (q : SeqS w) : Prop :=
  ∀ i, i / 8 < bitmaskBytes chk q.cap.toNat → q.cap.toNat ≤ i → bitAt s q.ptr (q.cap.toNat * T.ALIGN.toNat) i = false

include hT hw in
theorem Hist.high {s q h m t} (hh : Hist T chk s q h m t) : HighClear T chk s q := by
  obtain ⟨U, hh⟩ := hh
  obtain ⟨es, _, hb⟩ := hh.inv hT hw
  intro i hi hc
  cases hchk : chk with
  | false => subst hchk; simp [bitmaskBytes] at hi
  | true =>
    refine Bool.eq_false_iff.2 fun h => ?_
    obtain ⟨o, h1, rfl⟩ := (hb.bits hchk i hi).1 h
    have := hb.bound o h1
    omega

/-- A suitable argument stays suitable when another item is pushed first, or fails to be pushed. -/
theorem PushArg.after {s s' : St} {q q' : SeqS w} {I J : Init w} {own : Nat → Prop} {need} (hJ : PushArg T J s q) {ev} (hI : ∀ b, own b → I.mods b)
    (hp : Pushed T chk own ev s s' q q' need) (hIJ : ∀ b, I.mods b → ¬ J.fp b) : PushArg T J s' q' := by
  refine ⟨hJ.lawful, hJ.lawful.stable s s' hJ.pre ?_, ?_, hJ.nonzero⟩
  · intro b hb
    cases hB : s.blk b with
    | none => exact absurd hB (hJ.lawful.fp_exists s b hJ.pre hb)
    | some B => exact hp.frame b B hB (fun h => hJ.apart (h ▸ hb)) (fun h => hIJ b (hI _ h) hb)
  · intro hb
    by_cases hn : need ≤ q.cap.toNat
    · rw [hp.ptr hn] at hb
      exact hJ.apart hb
    · exact hJ.lawful.fp_exists s _ hJ.pre hb (hp.fresh hn)

theorem PushArg.after_dropped {s s' : St} {q : SeqS w} {I J : Init w} (hJ : PushArg T J s q) (hp : Dropped I s s') (hIJ : ∀ b, I.mods b → ¬ J.fp b) : PushArg T J s' q :=
  ⟨hJ.lawful, hJ.lawful.stable s s' hJ.pre fun b hb => hp.frame b fun h => hIJ b h hb, hJ.apart, hJ.nonzero⟩

theorem dropInits_spec : ∀ (is : List (Init w)) (s : St), (∀ I ∈ is, InitLawful T I ∧ I.pre s) → (is.Pairwise fun I J => ∀ b, I.mods b → ¬ J.fp b) →
    ∃ s', dropInits is s = .ok () s' ∧ (∀ b, (∀ I ∈ is, ¬ I.mods b) → s'.blk b = s.blk b) ∧ (∀ I ∈ is, ∀ b, I.owns b → ∃ B, s'.blk b = some B ∧ B.live = false) ∧
      s'.log = s.log ++ is.flatMap (·.owes) ∧ s'.copied = s.copied
  | [], s, _, _ => ⟨s, rfl, fun _ _ => rfl, by simp, by simp, rfl⟩
  | I :: is, s, h, hap => by
    obtain ⟨hap1, hap2⟩ := List.pairwise_cons.1 hap
    obtain ⟨hI, hpre⟩ := h I (by simp)
    obtain ⟨s1, e1, d1⟩ := hI.dropped hpre
    obtain ⟨s2, e2, f2, g2, l2, c2⟩ := dropInits_spec is s1 (fun J hJ => ⟨(h J (by simp [hJ])).1, (h J (by simp [hJ])).1.stable s s1 (h J (by simp [hJ])).2
      fun b hb => d1.frame b fun hm => hap1 J hJ b hm hb⟩) hap2
    refine ⟨s2, by simp [dropInits, e1, e2], fun b hb => ?_, fun J hJ b hb => ?_, by rw [l2, d1.log]; simp, by rw [c2, d1.copied]⟩
    · rw [f2 b fun J hJ => hb J (by simp [hJ]), d1.frame b (hb I (by simp))]
    · rcases List.mem_cons.1 hJ with rfl | hJ
      · rw [f2 b fun K hK hm => hap1 K hK b (hI.owns_mods b hb) ((h K (by simp [hK])).1.mods_fp b hm)]
        exact d1.freed b hb
      · exact g2 J hJ b hb

include hT hw in
/-- One push, as a step of a history. -/
theorem Hist.push_cases {s q h m t} (hh : Hist T chk s q h m t) (A : Allocator) {I : Init w} (ha : PushArg T I s q) :
    (∃ v s' q' need, Seq.push A chk T I (s, q) = .ok () (s', q') ∧ I.val = some v ∧
      Hist T chk s' q' (h ++ [(Seq.offset q, v)]) (m + (s'.copied - s.copied)) t ∧ Pushed T chk I.owns I.left s s' q q' need ∧
      (∀ b, I.owns b → ∃ B, s'.blk b = some B ∧ B.live = false)) ∨
    (∃ msg s' q', Seq.push A chk T I (s, q) = .panic msg (s', q') ∧ Hist T chk s' q' h (m + (s'.copied - s.copied)) t ∧
      ((Dropped I s s' ∧ q' = q) ∨ (I.val = none ∧ ∃ need, Pushed T chk I.mods I.lost s s' q q' need)) ∧
      (∀ b, I.owns b → ∃ B, s'.blk b = some B ∧ B.live = false)) := by
  obtain ⟨es, i⟩ := hh.inv hT hw
  rcases Seq.push_spec hT hw A i.inv ha.lawful ha.pre ha.apart ha.nonzero with ⟨s0, e, hd, _⟩ | ⟨l, hl, ⟨v, hv, s', q', e, k1, k2, k3, k4⟩ | ⟨hv, msg, s', q', e, k1, k2, k3, k4, k5⟩⟩
  · exact .inr ⟨_, _, _, e, hh.pushPanic A ha e, .inl ⟨hd, rfl⟩, hd.freed⟩
  · exact .inl ⟨v, s', q', _, e, hv, hh.push A ha hv e, k2, k4⟩
  · exact .inr ⟨_, _, _, e, hh.pushPanic A ha e, .inr ⟨hv, _, k4⟩, k5⟩

/-- Existing memory outside the storage of the sequence and not owned by the items is unchanged. -/
def ExtFrame (is : List (Init w)) (s s' : St) (q : SeqS w) : Prop :=
  ∀ b B, s.blk b = some B → b ≠ q.ptr.blk → (∀ I ∈ is, ¬ I.mods b) → s'.blk b = some B

theorem ptr_ne_of_pushed {s s' : St} {q q' : SeqS w} {own : Nat → Prop} {ev need} (hp : Pushed T chk own ev s s' q q' need) {b B} (hb : s.blk b = some B) (hne : b ≠ q.ptr.blk) :
    b ≠ q'.ptr.blk := by
  by_cases hn : need ≤ q.cap.toNat
  · rw [hp.ptr hn]; exact hne
  · intro h
    have := hp.fresh hn
    rw [← h, hb] at this
    cases this

include hT hw in
theorem Hist.extend_spec (A : Allocator) (own : Bool) : ∀ (is : List (Init w)) {s q h m t}, Hist T chk s q h m t → ExtendArg T is s q →
    (∃ s' q' h' m', Seq.extend A chk T own is (s, q) = .ok () (s', q') ∧ h'.map (fun e => some e.2) = is.map (·.val) ∧ Hist T chk s' q' (h ++ h') m' t ∧
      s'.log = s.log ++ is.flatMap (·.left) ∧ ExtFrame is s s' q ∧ (∀ I ∈ is, ∀ b, I.owns b → ∃ B, s'.blk b = some B ∧ B.live = false)) ∨
    (∃ n I ev msg s' q' h' m', Seq.extend A chk T own is (s, q) = .panic msg (s', q') ∧ is[n]? = some I ∧ h'.map (fun e => some e.2) = (is.take n).map (·.val) ∧
      Hist T chk s' q' (h ++ h') m' t ∧ (ev = I.owes ∨ I.val = none ∧ ev = I.lost) ∧
      s'.log = s.log ++ (is.take n).flatMap (·.left) ++ ev ++ (if own then (is.drop (n + 1)).flatMap (·.owes) else []) ∧ ExtFrame is s s' q ∧
      (∀ J ∈ if own then is else is.take (n + 1), ∀ b, J.owns b → ∃ B, s'.blk b = some B ∧ B.live = false))
  | [], s, q, h, m, t, hh, _ => .inl ⟨s, q, [], m, rfl, rfl, by simpa using hh, by simp, fun _ _ h _ _ => h, by simp⟩
  | I :: is, s, q, h, m, t, hh, ha => by
    have hap := List.pairwise_cons.1 ha.apart
    have hI := (ha.each I (by simp))
    -- a block freed by the first item is not touched by the others
    have keep : ∀ b, I.owns b → ∀ J ∈ is, ¬ J.mods b := fun b hb J hJ hm => hap.1 J hJ b (hI.lawful.owns_mods b hb) ((ha.each J (by simp [hJ])).lawful.mods_fp b hm)
    rcases hh.push_cases hT hw A hI with ⟨v, s', q', need, e, hv, hh', hp, hfr⟩ | ⟨msg, s', q', e, hh', hev, hfr⟩
    · have ha' : ExtendArg T is s' q' :=
        ⟨fun J hJ => (ha.each J (by simp [hJ])).after (fun b h => hI.lawful.owns_mods b h) hp (hap.1 J hJ), hap.2⟩
      have hstep : Seq.extend A chk T own (I :: is) (s, q) = Seq.extend A chk T own is (s', q') := by
        simp only [Seq.extend, bind_apply, onUnwind_ok e, Res.bind_ok]
      have hframe : ∀ {s2}, ExtFrame is s' s2 q' → ExtFrame (I :: is) s s2 q := by
        intro s2 hf b B hB hne hno
        exact hf b B (hp.frame b B hB hne fun h => hno I (by simp) (hI.lawful.owns_mods b h)) (ptr_ne_of_pushed hp hB hne) fun J hJ => hno J (by simp [hJ])
      have hfreed : ∀ {s2}, ExtFrame is s' s2 q' → ∀ b, I.owns b → ∃ B, s2.blk b = some B ∧ B.live = false := by
        intro s2 hf b hb
        obtain ⟨B, hB, hl⟩ := hfr b hb
        refine ⟨B, hf b B hB ?_ (keep b hb), hl⟩
        have hfp := hI.lawful.owns_fp b hb
        cases hB0 : s.blk b with
        | none => exact absurd hB0 (hI.lawful.fp_exists s b hI.pre hfp)
        | some B0 => exact ptr_ne_of_pushed hp hB0 fun h => hI.apart (h ▸ hfp)
      rcases Hist.extend_spec A own is hh' ha' with ⟨s2, q2, h2, m2, e2, hm2, hh2, hl2, hf2, hd2⟩ | ⟨n, K, ev, msg, s2, q2, h2, m2, e2, hn, hm2, hh2, hev2, hl2, hf2, hd2⟩
      · refine .inl ⟨s2, q2, (Seq.offset q, v) :: h2, m2, by rw [hstep, e2], by simp [hm2, hv], by simpa using hh2, by rw [hl2, hp.log]; simp, hframe hf2, fun J hJ b hb => ?_⟩
        rcases List.mem_cons.1 hJ with rfl | hJ
        · exact hfreed hf2 b hb
        · exact hd2 J hJ b hb
      · refine .inr ⟨n + 1, K, ev, msg, s2, q2, (Seq.offset q, v) :: h2, m2, by rw [hstep, e2], by simpa using hn, by simp [hm2, hv], by simpa using hh2, hev2,
          by rw [hl2, hp.log]; simp, hframe hf2, fun J hJ b hb => ?_⟩
        by_cases hJI : J = I
        · subst hJI; exact hfreed hf2 b hb
        · refine hd2 J ?_ b hb
          cases own <;> simp [hJI] at hJ ⊢ <;> exact hJ
    · -- the remaining items after the failed push
      have hrest : ∀ J ∈ is, PushArg T J s' q' := by
        intro J hJ
        rcases hev with ⟨hd, rfl⟩ | ⟨_, need, hp⟩
        · exact (ha.each J (by simp [hJ])).after_dropped hd (hap.1 J hJ)
        · exact (ha.each J (by simp [hJ])).after (fun b h => h) hp (hap.1 J hJ)
      have hframe1 : ExtFrame (I :: is) s s' q := by
        intro b B hB hne hno
        rcases hev with ⟨hd, rfl⟩ | ⟨_, need, hp⟩
        · rw [hd.frame b (hno I (by simp)), hB]
        · exact hp.frame b B hB hne (hno I (by simp))
      obtain ⟨ev, hev1, hlog1⟩ : ∃ ev, (ev = I.owes ∨ I.val = none ∧ ev = I.lost) ∧ s'.log = s.log ++ ev := by
        rcases hev with ⟨hd, _⟩ | ⟨hv, need, hp⟩
        · exact ⟨_, .inl rfl, hd.log⟩
        · exact ⟨_, .inr ⟨hv, rfl⟩, hp.log⟩
      cases own with
      | false =>
        refine .inr ⟨0, I, ev, msg, s', q', [], _, ?_, rfl, rfl, by simpa using hh', hev1, by rw [hlog1]; simp, hframe1, ?_⟩
        · have hu : onUnwind (Seq.push A chk T I) (if false = true then liftQ (dropInits is) else pure ()) (s, q) = .panic msg (s', q') :=
            onUnwind_panic e (by simp [pure_apply])
          simp only [Seq.extend, bind_apply]
          simpa using congrArg (fun r => r.bind fun _ => Seq.extend A chk T false is) hu
        · intro J hJ b hb
          simp at hJ
          subst hJ
          exact hfr b hb
      | true =>
        obtain ⟨s2, d1, d2, d3, d4, d5⟩ := dropInits_spec is s' (fun J hJ => ⟨(hrest J hJ).lawful, (hrest J hJ).pre⟩) hap.2
        have hh2 := hh'.other (s' := s2) fun b hb => by
          subst hb
          exact d2 _ fun J hJ hm => (hrest J hJ).apart ((hrest J hJ).lawful.mods_fp _ hm)
        refine .inr ⟨0, I, ev, msg, s2, q', [], _, ?_, rfl, rfl, by simpa using hh2, hev1, by rw [d4, hlog1]; simp, ?_, ?_⟩
        · have hu : onUnwind (Seq.push A chk T I) (if true = true then liftQ (dropInits is) else pure ()) (s, q) = .panic msg (s2, q') :=
            onUnwind_panic e (by simp [liftQ_apply, d1])
          simp only [Seq.extend, bind_apply]
          simpa using congrArg (fun r => r.bind fun _ => Seq.extend A chk T true is) hu
        · intro b B hB hne hno
          rw [d2 b fun J hJ => hno J (by simp [hJ])]
          exact hframe1 b B hB hne hno
        · intro J hJ b hb
          simp only [if_true] at hJ
          rcases List.mem_cons.1 hJ with rfl | hJ
          · rw [d2 b (keep b hb)]
            exact hfr b hb
          · exact d3 J hJ b hb

end Varlen
