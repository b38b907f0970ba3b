import Verif.Proofs.UserDrop
/-! # Values that own boxes -/
namespace Varlen.UD
open Eff (World Ran Wrote)
open DP (Group Fate)
variable {w : Nat}

section
variable {isBox : RTy → Bool} {dec : Img → Option Ptr} {T : Ty w} {val : Ptr → V}

theorem Holds.append {xs xs' : List (RTy × Img)} {ps ps' : List Ptr} {ys ys' : List (RTy × Img)} (h : Holds isBox dec T val xs ps ys) (h' : Holds isBox dec T val xs' ps' ys') :
    Holds isBox dec T val (xs ++ xs') (ps ++ ps') (ys ++ ys') := by
  induction h with
  | nil => exact h'
  | empty h1 h2 _ ih => exact .empty h1 h2 ih
  | box h1 h2 h3 _ ih => rw [List.append_assoc]; exact .box h1 h2 h3 ih
  | plain h1 _ ih => exact .plain h1 ih

theorem holds_cons {x : RTy × Img} {xs : List (RTy × Img)} {ps : List Ptr} {ys : List (RTy × Img)} (h : Holds isBox dec T val (x :: xs) ps ys) :
    ∃ ps1 ys1 ps2 ys2, ps = ps1 ++ ps2 ∧ ys = ys1 ++ ys2 ∧ Holds isBox dec T val [x] ps1 ys1 ∧ Holds isBox dec T val xs ps2 ys2 := by
  cases h with
  | empty h1 h2 h3 => exact ⟨[], [], _, _, rfl, rfl, .empty h1 h2 .nil, h3⟩
  | @box R x p gs _ ys0 ps0 h1 h2 h3 h4 => exact ⟨[p], gs.flatten, _, _, rfl, rfl, by simpa using Holds.box h1 h2 h3 .nil, h4⟩
  | @plain R x _ ys0 ps0 h1 h2 => exact ⟨[], [(R, x)], _, _, rfl, rfl, .plain h1 .nil, h2⟩

theorem holds_perm {xs xs' : List (RTy × Img)} (hp : xs.Perm xs') : ∀ {ps ys}, Holds isBox dec T val xs ps ys →
    ∃ ps' ys', Holds isBox dec T val xs' ps' ys' ∧ ps.Perm ps' ∧ ys.Perm ys' := by
  induction hp with
  | nil => intro ps ys h; exact ⟨ps, ys, h, .refl _, .refl _⟩
  | cons x _ ih =>
    intro ps ys h
    obtain ⟨p1, y1, p2, y2, rfl, rfl, h1, h2⟩ := holds_cons h
    obtain ⟨p2', y2', h3, h4, h5⟩ := ih h2
    exact ⟨_, _, h1.append h3, .append_left _ h4, .append_left _ h5⟩
  | swap x y l =>
    intro ps ys h
    obtain ⟨p1, y1, p2, y2, rfl, rfl, h1, h2⟩ := holds_cons h
    obtain ⟨p3, y3, p4, y4, rfl, rfl, h3, h4⟩ := holds_cons h2
    refine ⟨_, _, h3.append (h1.append h4), ?_, ?_⟩
    · rw [← List.append_assoc, ← List.append_assoc]; exact List.perm_append_comm.append_right _
    · rw [← List.append_assoc, ← List.append_assoc]; exact List.perm_append_comm.append_right _
  | trans _ _ ih1 ih2 =>
    intro ps ys h
    obtain ⟨p1, y1, h1, h2, h3⟩ := ih1 h
    obtain ⟨p2, y2, h4, h5, h6⟩ := ih2 h1
    exact ⟨_, _, h4, h2.trans h5, h3.trans h6⟩

variable (W : Owner) (all : List Nat)

/-- The owner of boxes. -/
def Owner.boxes (isBox : RTy → Bool) (dec : Img → Option Ptr) (T : Ty w) (val : Ptr → V) (hbox : ∀ R, isBox R = true → R.needsDrop = true) : Owner where
  owing := fun xs => {
    ok := BoxesOk isBox dec T val W all xs
    stable := fun s s' prot h hl hb => by
      obtain ⟨ps, ys, h1, h2, h3, h4, h5⟩ := h
      refine ⟨ps, ys, h1, fun p hp => ?_, h3, fun b hba => ?_, (W.owing ys).stable _ _ _ h5 hl fun b hn => hb b fun hp => hn (.inl hp)⟩
      · obtain ⟨⟨l, hbx⟩, ha⟩ := h2 p hp
        exact ⟨⟨l, hbx.of_same (on := fun b => b = p.blk) (fun b e => by subst e; exact hb _ (h4 _ ha).1) rfl⟩, ha⟩
      · obtain ⟨hn, B, hB, hlv⟩ := h4 b hba
        exact ⟨hn, B, by rw [hb b hn]; exact hB, hlv⟩
    grow := fun s prot B0 h => by
      obtain ⟨ps, ys, h1, h2, h3, h4, h5⟩ := h
      have hne : ∀ b ∈ all, b ≠ s.next := by
        rintro b hb rfl
        obtain ⟨_, B, hB, _⟩ := h4 _ hb
        rw [s.blk_next] at hB; cases hB
      refine ⟨ps, ys, h1, fun p hp => ?_, h3, fun b hba => ?_, ?_⟩
      · obtain ⟨⟨l, hbx⟩, ha⟩ := h2 p hp
        exact ⟨⟨l, hbx.of_same (on := fun b => b = p.blk) (fun b e => by subst e; rw [St.blk_push, if_neg (hne _ ha)]) rfl⟩, ha⟩
      · obtain ⟨hn, B, hB, hlv⟩ := h4 b hba
        exact ⟨fun h => h.elim hn (hne b hba), B, by rw [St.blk_push, if_neg (hne b hba)]; exact hB, hlv⟩
      · have := (W.owing ys).grow s _ B0 h5
        have e : (fun b => (prot b ∨ b = s.next) ∨ b ∈ all) = (fun b => (prot b ∨ b ∈ all) ∨ b = s.next) := by
          funext b
          apply propext
          constructor
          · rintro ((h | h) | h)
            · exact .inl (.inl h)
            · exact .inr h
            · exact .inl (.inr h)
          · rintro ((h | h) | h)
            · exact .inl (.inl h)
            · exact .inr h
            · exact .inl (.inr h)
        rw [e]; exact this }
  perm := fun hp h => by
    obtain ⟨ps, ys, h1, h2, h3, h4, h5⟩ := h
    obtain ⟨ps', ys', g1, g2, g3⟩ := holds_perm hp h1
    refine ⟨ps', ys', g1, fun p hp => h2 p (g2.mem_iff.2 hp), ((g2.map (·.blk)).nodup_iff).1 h3, fun b hb => ?_, W.perm g3 h5⟩
    obtain ⟨hn, B, hB, hl⟩ := h4 b hb
    refine ⟨hn, B, hB, fun h => ?_⟩
    obtain ⟨p, hp, e⟩ := hl h
    exact ⟨p, g2.mem_iff.1 hp, e⟩
  skip := fun {R x xs s prot} hn h => by
    obtain ⟨ps, ys, h1, h2, h3, h4, h5⟩ := h
    cases h1 with
    | empty g1 _ _ => rw [hbox R g1] at hn; cases hn
    | box g1 _ _ _ => rw [hbox R g1] at hn; cases hn
    | plain g1 g2 => exact ⟨ps, _, g2, h2, h3, h4, W.skip hn h5⟩

theorem boxDtor_ok (hT : LibT T) (hbox : ∀ R, isBox R = true → R.needsDrop = true) {d : Dtor} {E : Effects} (hd : DtorOk W d E)
    (hcalm : ∀ R x es f, R.needsDrop = true → E R x es f → f = .done) :
    DtorOk (W.boxes all isBox dec T val hbox) (boxDtor isBox dec T d) (BoxEffects isBox dec T val E) := by
  intro R x rest s prot hn hv hU
  obtain ⟨ps, ys, h1, h2, h3, h4, h5⟩ := hU
  cases h1 with
  | empty g1 g2 g3 =>
    refine ⟨.done, s, [], ?_, ⟨⟨ps, ys, g3, h2, h3, h4, h5⟩, fun _ _ => rfl, by simp⟩, ?_⟩
    · simp only [boxDtor, if_pos g1, g2]; rfl
    · simp [BoxEffects, g1, g2]
  | @plain _ _ _ ys _ g1 g2 =>
    obtain ⟨f, s', es, e1, e2, e3⟩ := hd R x ys s _ hn hv h5
    refine ⟨f, s', es, ?_, ⟨⟨ps, ys, g2, fun p hp => ?_, h3, fun b hb => ?_, e2.ok⟩, fun b hb => e2.keep b (.inl hb), e2.log⟩, ?_⟩
    · simp only [boxDtor, g1, Bool.false_eq_true, if_false]; exact e1
    · obtain ⟨⟨l, hbx⟩, ha⟩ := h2 p hp
      exact ⟨⟨l, hbx.of_same (on := fun b => b = p.blk) (fun b e => by subst e; exact e2.keep _ (.inr ha)) rfl⟩, ha⟩
    · rw [e2.keep b (.inr hb)]; exact h4 b hb
    · simpa [BoxEffects, g1] using e3
  | @box _ _ p gs _ ys ps g1 g2 g3 g4 =>
    obtain ⟨⟨l, hbx⟩, hpa⟩ := h2 p (by simp)
    rw [← g3.eq] at h5
    obtain ⟨s', es, f, lost, e1, e2, e3, e4, e5, e6, _⟩ := VBox.drop_ends hT.ulaw hd hbx (.inr hpa) h5
    have hdone : ∀ {u : Bool} {g : Group} {es f lost}, GroupEnds E u g es f lost → u = false → f = .done := by
      intro u g es f lost h
      induction h with
      | done => intro _; rfl
      | panicked => intro h; cases h
      | plain _ _ ih => exact ih
      | calm _ _ _ ih => exact ih
      | first q1 q2 _ _ => cases hcalm _ _ _ _ q1 q2
      | second q1 q2 => intro h; cases h
      | dead q1 q2 => cases hcalm _ _ _ _ q1 q2
    have hrun : ∀ {gs : List Group} {es f lost}, RunEnds E gs es f lost → f = .done := by
      intro gs es f lost h
      induction h with
      | nil => rfl
      | cons _ _ ih => exact ih
      | stop q1 q2 => exact hdone q1 rfl
    obtain rfl := hrun e2
    obtain rfl := runEnds_done e2 rfl
    rw [List.map_cons, List.nodup_cons] at h3
    have hne : ∀ q ∈ ps, q.blk ≠ p.blk := fun q hq e => h3.1 (List.mem_map.2 ⟨q, hq, e⟩)
    refine ⟨.done, s', es, ?_, ⟨⟨ps, ys, g4, fun q hq => ?_, h3.2, fun b hb => ?_, e3⟩, fun b hb => e5 b (.inl hb) ?_, e4⟩, ?_⟩
    · unfold boxDtor; rw [if_pos g1, g2]; simp only [e1]; rfl
    · obtain ⟨⟨l, hbx⟩, ha⟩ := h2 q (by simp [hq])
      exact ⟨⟨l, hbx.of_same (on := fun b => b = q.blk) (fun b e => by subst e; exact e5 _ (.inr ha) (hne q hq)) rfl⟩, ha⟩
    · obtain ⟨hn', B, hB, hl⟩ := h4 b hb
      refine ⟨hn', ?_⟩
      by_cases he : b = p.blk
      · obtain ⟨B', hB', hlv⟩ := e6 rfl
        exact ⟨B', by rw [he]; exact hB', fun h => by rw [hlv] at h; cases h⟩
      · refine ⟨B, by rw [e5 b (.inr hb) he]; exact hB, fun h => ?_⟩
        obtain ⟨q, hq, e⟩ := hl h
        rcases List.mem_cons.1 hq with rfl | hq
        · exact absurd e.symm he
        · exact ⟨q, hq, e⟩
    · rintro rfl; exact (h4 _ hpa).1 hb
    · unfold BoxEffects; rw [if_pos g1, g2]
      exact ⟨rfl, gs, g3, by rw [← g3.eq]; exact e2⟩
end

end Varlen.UD
