import Verif.Spec.Containers
import Verif.Props.UserDrop
/-! # Values that own containers -/
namespace Varlen.UD
open Eff (World Ran Wrote)
open DP (Group Fate Plan Plans)
variable {w : Nat}

section
variable {kind : Kind w} {val : Ctr w → List V}

theorem Owns.append {xs xs' : List (RTy × Img)} {cs cs' : List (Ctr w)} {ys ys' : List (RTy × Img)} (h : Owns kind val xs cs ys) (h' : Owns kind val xs' cs' ys') : Owns kind val (xs ++ xs') (cs ++ cs') (ys ++ ys') := by
  induction h with
  | nil => exact h'
  | empty h1 h2 _ ih => exact .empty h1 h2 ih
  | ctr h1 h2 h3 _ ih => rw [List.append_assoc]; exact .ctr h1 h2 h3 ih
  | plain h1 _ ih => exact .plain h1 ih

theorem owns_cons {x : RTy × Img} {xs : List (RTy × Img)} {cs : List (Ctr w)} {ys : List (RTy × Img)} (h : Owns kind val (x :: xs) cs ys) :
    ∃ cs1 ys1 cs2 ys2, cs = cs1 ++ cs2 ∧ ys = ys1 ++ ys2 ∧ Owns kind val [x] cs1 ys1 ∧ Owns kind val xs cs2 ys2 := by
  cases h with
  | empty h1 h2 h3 => exact ⟨[], [], _, _, rfl, rfl, .empty h1 h2 .nil, h3⟩
  | @ctr R dec x c gss _ ys0 cs0 h1 h2 h3 h4 => exact ⟨[c], gss.flatten.flatten, _, _, rfl, rfl, by simpa using Owns.ctr h1 h2 h3 .nil, h4⟩
  | @plain R x _ ys0 cs0 h1 h2 => exact ⟨[], [(R, x)], _, _, rfl, rfl, .plain h1 .nil, h2⟩

theorem owns_perm {xs xs' : List (RTy × Img)} (hp : xs.Perm xs') : ∀ {cs ys}, Owns kind val xs cs ys → ∃ cs' ys', Owns kind val xs' cs' ys' ∧ cs.Perm cs' ∧ ys.Perm ys' := by
  induction hp with
  | nil => intro cs ys h; exact ⟨cs, ys, h, .refl _, .refl _⟩
  | cons x _ ih =>
    intro cs ys h
    obtain ⟨p1, y1, p2, y2, rfl, rfl, h1, h2⟩ := owns_cons h
    obtain ⟨p2', y2', h3, h4, h5⟩ := ih h2
    exact ⟨_, _, h1.append h3, .append_left _ h4, .append_left _ h5⟩
  | swap x y l =>
    intro cs ys h
    obtain ⟨p1, y1, p2, y2, rfl, rfl, h1, h2⟩ := owns_cons h
    obtain ⟨p3, y3, p4, y4, rfl, rfl, h3, h4⟩ := owns_cons h2
    refine ⟨_, _, h3.append (h1.append h4), ?_, ?_⟩
    · rw [← List.append_assoc, ← List.append_assoc]; exact List.perm_append_comm.append_right _
    · rw [← List.append_assoc, ← List.append_assoc]; exact List.perm_append_comm.append_right _
  | trans _ _ ih1 ih2 =>
    intro cs ys h
    obtain ⟨p1, y1, h1, h2, h3⟩ := ih1 h
    obtain ⟨p2, y2, h4, h5, h6⟩ := ih2 h1
    exact ⟨_, _, h4, h2.trans h5, h3.trans h6⟩

theorem owns_lib (hk : KindOk kind) {xs : List (RTy × Img)} {cs : List (Ctr w)} {ys : List (RTy × Img)} (h : Owns kind val xs cs ys) : ∀ c ∈ cs, LibT c.ty := by
  induction h with
  | nil => intro c hc; cases hc
  | empty _ _ _ ih => exact ih
  | ctr h1 h2 _ _ ih =>
    intro c hc
    rcases List.mem_cons.1 hc with rfl | hc
    · exact hk.lib h1 h2
    · exact ih c hc
  | plain _ _ ih => exact ih

theorem Ctr.blocks_none {T : Ty w} {chk : Bool} {q : SeqS w} (hc : Seq.capacityInOffsets q = 0) : (Ctr.seq T chk q).blocks = [] := if_pos hc
theorem Ctr.blocks_some {T : Ty w} {chk : Bool} {q : SeqS w} (hc : Seq.capacityInOffsets q ≠ 0) : (Ctr.seq T chk q).blocks = [q.ptr.blk] := if_neg hc

/-- A container stays as it is while its memory does. -/
theorem Ctr.Has.same {c : Ctr w} {s s' : St} {vs : List V} (hw : 8 ≤ w) (hT : LibT c.ty) (h : c.Has s vs) (hs : ∀ b ∈ c.blocks, s'.blk b = s.blk b) : c.Has s' vs := by
  cases c with
  | box T p =>
    obtain ⟨v, l, h1, h2⟩ := h
    exact ⟨v, l, h1, h2.of_same (on := fun b => b = p.blk) (fun b e => by subst e; exact hs _ (by simp [Ctr.blocks])) rfl⟩
  | seq T chk q =>
    obtain ⟨h, m, t, ⟨U, h1⟩, h2⟩ := h
    refine ⟨h, m, t, ⟨U, .other h1 fun b hb => ?_⟩, h2⟩
    subst hb
    by_cases hc : Seq.capacityInOffsets q = 0
    · have hh : Hist T.base.T chk s q h m t := ⟨U, h1⟩
      obtain ⟨es, i1, _⟩ := hh.inv hT.ulaw.law.law hw
      have hc' : q.cap = 0 := hc
      rw [i1.dang (by rw [hc']; simp)]
      rfl
    · exact hs _ (by rw [Ctr.blocks_some hc]; simp)

section
variable {W : Owner} {d : Dtor} {E : Effects} {prot : Nat → Prop} {rest : List (RTy × Img)}

/-- Dropping a container. -/
theorem Ctr.drop_ends {c : Ctr w} (hw : 8 ≤ w) (hT : LibT c.ty) (hd : DtorOk W d E) {s : St} {vs : List V} (h : c.Has s vs) {gss : List (List Group)} (hg : Plans c.ty.base vs gss) (hp : ∀ b ∈ c.blocks, prot b)
    (hU : (W.owing (gss.flatten.flatten ++ rest)).ok s prot) :
    ∃ s' es f lost, c.drop d s = f.res s' ∧ RunEnds E gss.flatten es f lost ∧ (W.owing (lost ++ rest)).ok s' prot ∧ s'.log = s.log ++ es ∧ (∀ b, prot b → b ∉ c.blocks → s'.blk b = s.blk b) ∧
      ∀ b ∈ c.blocks, ∃ B, s'.blk b = some B ∧ (B.live = false ↔ f = .done) := by
  cases c with
  | box T p =>
    obtain ⟨v, l, rfl, h2⟩ := h
    cases hg with
    | @cons _ gs _ _ g1 g2 =>
      cases g2
      simp only [List.flatten_cons, List.flatten_nil, List.append_nil] at hU ⊢
      obtain ⟨s', es, f, lost, e1, e2, e3, e4, e5, e6, e7⟩ := C79_box_drop hT hd h2 g1 (hp p.blk (by simp [Ctr.blocks])) hU
      refine ⟨s', es, f, lost, e1, e2, e3, e4, fun b hb hn => e5 b hb (by simpa [Ctr.blocks] using hn), fun b hb => ?_⟩
      obtain rfl : b = p.blk := by simpa [Ctr.blocks] using hb
      by_cases hf : f = .done
      · obtain ⟨B, hB, hl⟩ := e6 hf
        exact ⟨B, hB, ⟨fun _ => hf, fun _ => hl⟩⟩
      · obtain ⟨_, B, hB, hl, _⟩ := e7 hf
        exact ⟨B, hB, ⟨fun h => (by rw [hl] at h; cases h), fun h => absurd h hf⟩⟩
  | seq T chk q =>
    obtain ⟨h, m, t, h1, rfl⟩ := h
    obtain ⟨s', q', es, f, lost, e1, e2, e3, e4, e5, e6⟩ := C79_seq_drop hT hw hd h1 hg (fun hc => hp q.ptr.blk (by rw [Ctr.blocks_some hc]; simp)) hU
    refine ⟨s', es, f, lost, ?_, e2, e3, e4, fun b hb hn => ?_, fun b hb => ?_⟩
    · cases f <;> (simp only [Ctr.drop]; rw [show Seq.drop d chk T (s, q) = _ from e1]; rfl)
    · by_cases hb' : b = q.ptr.blk
      · subst hb'
        by_cases hc : Seq.capacityInOffsets q = 0
        · obtain ⟨es, i1, _⟩ := h1.inv hT.ulaw.law.law hw
          have hc' : q.cap = 0 := hc
          rw [i1.dang (by rw [hc']; simp)]
          rfl
        · exact absurd (by rw [Ctr.blocks_some hc]; simp) hn
      · exact e5 b hb hb'
    · by_cases hc : Seq.capacityInOffsets q = 0
      · rw [Ctr.blocks_none hc] at hb; cases hb
      · obtain rfl : b = q.ptr.blk := by rw [Ctr.blocks_some hc] at hb; simpa using hb
        by_cases hf : f = .done
        · obtain ⟨B, hB, hl⟩ := (e6 hc).1 hf
          exact ⟨B, hB, ⟨fun _ => hf, fun _ => hl⟩⟩
        · obtain ⟨B, hB, hl⟩ := (e6 hc).2 hf
          exact ⟨B, hB, ⟨fun h => (by rw [hl] at h; cases h), fun h => absurd h hf⟩⟩

theorem groupEnds_calm (hc : Calm E) {u : Bool} {g : Group} {es : List Event} {f : Fate} {lost : List (RTy × Img)} (h : GroupEnds E u g es f lost) : u = false → f = .done := by
  induction h with
  | done => intro _; rfl
  | panicked => intro h; cases h
  | plain _ _ ih => exact ih
  | calm _ _ _ ih => exact ih
  | first q1 q2 _ _ => cases hc _ _ _ _ q1 q2
  | second q1 q2 => intro h; cases h
  | dead q1 q2 => cases hc _ _ _ _ q1 q2

theorem runEnds_calm (hc : Calm E) {gs : List Group} {es : List Event} {f : Fate} {lost : List (RTy × Img)} (h : RunEnds E gs es f lost) : f = .done := by
  induction h with
  | nil => rfl
  | cons _ _ ih => exact ih
  | stop q1 q2 => exact groupEnds_calm hc q1 rfl

theorem Owner.MayLeak.all {W : Owner} (h : W.MayLeak) {s : St} : ∀ {xs ys : List (RTy × Img)}, (W.owing (xs ++ ys)).ok s prot → (W.owing ys).ok s prot
  | [], _, hU => hU
  | _ :: _, _, hU => Owner.MayLeak.all h (h _ _ _ _ hU)
end

/-- The owner of containers. -/
def Owner.ctrs (W : Owner) (strict : Bool) (all : List Nat) (hk : KindOk kind) (val : Ctr w → List V) : Owner where
  owing := fun xs => {
    ok := CtrsOk kind val strict W all xs
    stable := fun s s' prot h hl hb => by
      obtain ⟨cs, ys, h1, h2, h3, h4, h5⟩ := h
      refine ⟨cs, ys, h1, fun c hc => ⟨(h2 c hc).1.same hk.width (owns_lib hk h1 c hc) fun b hbc => hb b (h4 b ((h2 c hc).2 b hbc)).1, (h2 c hc).2⟩, h3, fun b hba => ?_,
        (W.owing ys).stable _ _ _ h5 hl fun b hn => hb b fun hp => hn (.inl hp)⟩
      obtain ⟨hn, B, hB, hlv⟩ := h4 b hba
      exact ⟨hn, B, by rw [hb b hn]; exact hB, hlv⟩
    grow := fun s prot B0 h => by
      obtain ⟨cs, ys, h1, h2, h3, h4, h5⟩ := h
      have hne : ∀ b ∈ all, b ≠ s.next := by
        rintro b hb rfl
        obtain ⟨_, B, hB, _⟩ := h4 _ hb
        rw [s.blk_next] at hB; cases hB
      refine ⟨cs, ys, h1, fun c hc => ⟨(h2 c hc).1.same hk.width (owns_lib hk h1 c hc) fun b hbc => by rw [St.blk_push, if_neg (hne _ ((h2 c hc).2 b hbc))], (h2 c hc).2⟩, h3, fun b hba => ?_, ?_⟩
      · obtain ⟨hn, B, hB, hlv⟩ := h4 b hba
        exact ⟨fun h => h.elim hn (hne b hba), B, by rw [St.blk_push, if_neg (hne b hba)]; exact hB, hlv⟩
      · have := (W.owing ys).grow s _ B0 h5
        have e : (fun b => (prot b ∨ b = s.next) ∨ b ∈ all) = (fun b => (prot b ∨ b ∈ all) ∨ b = s.next) := by
          funext b
          apply propext
          constructor
          · rintro ((h | h) | h)
            · exact .inl (.inl h)
            · exact .inr h
            · exact .inl (.inr h)
          · rintro ((h | h) | h)
            · exact .inl (.inl h)
            · exact .inr h
            · exact .inl (.inr h)
        rw [e]; exact this }
  perm := fun hp h => by
    obtain ⟨cs, ys, h1, h2, h3, h4, h5⟩ := h
    obtain ⟨cs', ys', g1, g2, g3⟩ := owns_perm hp h1
    refine ⟨cs', ys', g1, fun c hc => h2 c (g2.mem_iff.2 hc), ((g2.flatMap_right _).nodup_iff).1 h3, fun b hb => ?_, W.perm g3 h5⟩
    obtain ⟨hn, B, hB, hl⟩ := h4 b hb
    exact ⟨hn, B, hB, fun hs h => ((g2.flatMap_right _).mem_iff).1 (hl hs h)⟩
  skip := fun {R x xs s prot} hn h => by
    obtain ⟨cs, ys, h1, h2, h3, h4, h5⟩ := h
    cases h1 with
    | empty g1 _ _ => rw [hk.drop g1] at hn; cases hn
    | ctr g1 _ _ _ => rw [hk.drop g1] at hn; cases hn
    | plain g1 g2 => exact ⟨cs, _, g2, h2, h3, h4, W.skip hn h5⟩

theorem ctrs_mayLeak {W : Owner} (hW : W.MayLeak) (hk : KindOk kind) (all : List Nat) : (W.ctrs false all hk val).MayLeak := by
  intro x xs s prot h
  obtain ⟨cs, ys, h1, h2, h3, h4, h5⟩ := h
  obtain ⟨c1, y1, c2, y2, rfl, rfl, g1, g2⟩ := owns_cons h1
  rw [List.flatMap_append] at h3
  refine ⟨c2, y2, g2, fun c hc => h2 c (by simp [hc]), (List.nodup_append.1 h3).2.1, fun b hb => ?_, hW.all h5⟩
  obtain ⟨hn, B, hB, _⟩ := h4 b hb
  exact ⟨hn, B, hB, fun h => by cases h⟩

/-- Destructors of containers keep the contract. -/
theorem ctrDtor_ok {W : Owner} {d : Dtor} {E : Effects} (hd : DtorOk W d E) {strict : Bool} (h1 : strict = true → Calm E) (h0 : strict = false → W.MayLeak) (all : List Nat) (hk : KindOk kind) :
    DtorOk (W.ctrs strict all hk val) (ctrDtor kind d) (CtrEffects kind val E) := by
  intro R x rest s prot hn hv hU
  obtain ⟨cs, ys, o1, o2, o3, o4, o5⟩ := hU
  cases o1 with
  | empty g1 g2 g3 =>
    refine ⟨.done, s, [], ?_, ⟨⟨cs, ys, g3, o2, o3, o4, o5⟩, fun _ _ => rfl, by simp⟩, ?_⟩
    · simp only [ctrDtor, g1, g2]; rfl
    · simp [CtrEffects, g1, g2]
  | @plain _ _ _ ys _ g1 g2 =>
    obtain ⟨f, s', es, e1, e2, e3⟩ := hd R x ys s _ hn hv o5
    refine ⟨f, s', es, ?_, ⟨⟨cs, ys, g2, fun c hc => ⟨(o2 c hc).1.same hk.width (owns_lib hk g2 c hc) fun b hb => e2.keep b (.inr ((o2 c hc).2 b hb)), (o2 c hc).2⟩, o3, fun b hb => ?_, e2.ok⟩,
      fun b hb => e2.keep b (.inl hb), e2.log⟩, ?_⟩
    · simp only [ctrDtor, g1]; exact e1
    · rw [e2.keep b (.inr hb)]; exact o4 b hb
    · simpa [CtrEffects, g1] using e3
  | @ctr _ dec _ c gss _ ys cs g1 g2 g3 g4 =>
    obtain ⟨hc1, hc2⟩ := o2 c (by simp)
    obtain ⟨s', es, f, lost, e1, e2, e3, e4, e5, e6⟩ := Ctr.drop_ends hk.width (hk.lib g1 g2) hd hc1 g3 (fun b hb => .inr (hc2 b hb)) o5
    rw [List.flatMap_cons, List.nodup_append] at o3
    have hne : ∀ c' ∈ cs, ∀ b ∈ c'.blocks, b ∉ c.blocks := fun c' hc' b hb hb' => o3.2.2 b hb' b (List.mem_flatMap.2 ⟨c', hc', hb⟩) rfl
    have hys : (W.owing ys).ok s' (fun b => prot b ∨ b ∈ all) := by
      cases strict with
      | true =>
        have := runEnds_done e2 (runEnds_calm (h1 rfl) e2)
        subst this
        exact e3
      | false => exact (h0 rfl).all e3
    refine ⟨f, s', es, ?_, ⟨⟨cs, ys, g4, fun c' hc' => ?_, o3.2.1, fun b hb => ?_, hys⟩, fun b hb => e5 b (.inl hb) fun hbc => (o4 b (hc2 b hbc)).1 hb, e4⟩, ?_⟩
    · simp only [ctrDtor, g1, g2, e1]; cases f <;> rfl
    · obtain ⟨k1, k2⟩ := o2 c' (by simp [hc'])
      exact ⟨k1.same hk.width (owns_lib hk g4 c' hc') fun b hb => e5 b (.inr (k2 b hb)) (hne c' hc' b hb), k2⟩
    · obtain ⟨hn', B, hB, hl⟩ := o4 b hb
      refine ⟨hn', ?_⟩
      by_cases hbc : b ∈ c.blocks
      · obtain ⟨B', hB', hlv⟩ := e6 b hbc
        refine ⟨B', hB', fun hs h => ?_⟩
        rw [hlv.2 (runEnds_calm (h1 hs) e2)] at h
        cases h
      · refine ⟨B, by rw [e5 b (.inr hb) hbc]; exact hB, fun hs h => ?_⟩
        have := hl hs h
        rw [List.flatMap_cons, List.mem_append] at this
        exact this.resolve_left hbc
    · simp only [CtrEffects, g1, g2]
      exact ⟨gss, lost, g3, e2⟩

/-- `alls`: the blocks of the containers, level by level, outermost first; `W` is about what the innermost values own. -/
def Owner.nestC (W : Owner) (strict : Bool) (hk : KindOk kind) (val : Ctr w → List V) : (alls : List (List Nat)) → Owner
  | [] => W
  | all :: alls => (W.nestC strict hk val alls).ctrs strict all hk val

theorem ctrs_calm {E : Effects} (hc : Calm E) : ∀ n, Calm (CtrsEffects kind val E n)
  | 0 => hc
  | n + 1 => by
    intro R x es f hn h
    simp only [CtrsEffects, CtrEffects] at h
    split at h
    · exact ctrs_calm hc n R x es f hn h
    · split at h
      · exact h.2
      · obtain ⟨gss, lost, _, h⟩ := h
        exact runEnds_calm (ctrs_calm hc n) h
end

end Varlen.UD
