import Verif.Proofs.ArenaOps
/-!
# Proofs: `Owned::new_in` and `VBox::new` in packed memory
-/
namespace Varlen.Arena
variable {w : Nat} {ρ : Place} {s m : St}

theorem onUnwind_congr {α : Type} {x y : M α} {c : M Unit} {s : St} (h : x s = y s) : onUnwind x c s = onUnwind y c s := by
  unfold onUnwind; rw [h]

/-- What comes before the allocation. -/
theorem cautious_sim {T : VarLen w} {I' I : Init w} (h : Packed ρ s m) (law : InitLawful T I') (pre : I'.pre s) (hI : Placed ρ I' I) :
    (onUnwind I'.cautious I'.dropI s = .ok I'.lay s ∧ ∃ m1, I.cautious m = .ok I'.lay m1 ∧ onUnwind I.cautious I.dropI m = .ok I'.lay m1 ∧ Packed ρ s m1) ∨
    (∃ e s1 m1, onUnwind I'.cautious I'.dropI s = .panic e s1 ∧ onUnwind I.cautious I.dropI m = .panic e m1 ∧ Packed ρ s1 m1) := by
  cases hb : I'.bad with
  | false =>
    have h1 := hI.sim.cautious.run s m h
    rw [law.calc_ok s pre hb] at h1
    obtain ⟨a, m1, e1, e2, rfl⟩ := h1
    exact .inl ⟨onUnwind_ok (law.calc_ok s pre hb), m1, e1, onUnwind_ok e1, e2⟩
  | true =>
    obtain ⟨sd, d1, _⟩ := law.dropped pre
    have hx := onUnwind_panic (law.calc_panic s pre hb) d1
    have h1 := (hI.sim.cautious.onUnwind hI.sim.drop).run s m h
    rw [hx] at h1
    obtain ⟨m1, e1, e2⟩ := h1
    exact .inr ⟨_, sd, m1, hx, e1, e2⟩

/-- How an allocating operation ends. -/
def Ends (ρ : Place) (s : St) (hp : Prop) (t : Option (Ptr × Nat)) (r' r : Res St Ptr) : Prop :=
  match r' with
  | .ub _ => True
  | .ok p' s' => ∃ q m' n, r = .ok q m' ∧ p' = ⟨s.next, 0⟩ ∧ Packed (ρ.put s.next q n hp) s' m' ∧ Takes ρ (ρ.put s.next q n hp) t
  | .panic e s' => ∃ m' ρ', r = .panic e m' ∧ Packed ρ' s' m' ∧ ρ.Agree ρ' (fun b => s.blk b ≠ none) ∧ Takes ρ ρ' t

theorem Ends.of_sim {hp : Prop} {t : Option (Ptr × Nat)} {x' x : M Ptr} {s0 s1 m1 : St} (h : Packed ρ s1 m1) (hx : Sim ρ (fun _ _ => False) x' x) : Ends ρ s0 hp t (x' s1) (x m1) := by
  have h1 := hx.run s1 m1 h
  cases hr : x' s1 with
  | ub k => trivial
  | ok a s2 => rw [hr] at h1; obtain ⟨_, _, _, _, f⟩ := h1; exact f.elim
  | panic e s2 => rw [hr] at h1; obtain ⟨m2, e1, e2⟩ := h1; exact ⟨m2, ρ, e1, e2, fun _ _ => ⟨rfl, .rfl⟩, takes_self _ _⟩

theorem newIn_sim {T : VarLen w} {I' I : Init w} {r : Option Ptr} (h : Packed ρ s m) (law : InitLawful T I') (pre : I'.pre s) (hI : Placed ρ I' I)
    (vac : ∀ l m1 q, I.cautious m = .ok (some l) m1 → r = some q → Vacant w ρ m1 q l.size.toNat T.ALIGN.toNat) :
    ∃ A, Ends ρ s False (r.bind fun q => I'.lay.map fun l => (q, l.size.toNat)) (Owned.newIn A T I' s) (newIn r T I m) ∧ ∀ p s', Owned.newIn A T I' s = .ok p s' → ∃ q m', r = some q ∧ newIn r T I m = .ok q m' := by
  rcases cautious_sim h law pre hI with ⟨e1, m1, c1, e2, h1⟩ | ⟨e, s1, m1, e1, e2, h1⟩
  · cases hl : I'.lay with
    | none =>
      refine ⟨fun _ _ _ => none, ?_, ?_⟩
      · unfold Owned.newIn newIn
        rw [bind_apply, bind_apply, e1, e2, hl]
        exact Ends.of_sim h1 ((Sim.panic _).onUnwind hI.sim.drop)
      · intro p s'
        unfold Owned.newIn
        rw [bind_apply, e1, hl]
        obtain ⟨sd, d1, _⟩ := law.dropped pre
        rw [Res.bind_ok]
        simp only [onUnwind_panic (x := (panicM .unwrapNone : M Ptr)) rfl d1]
        intro hc; cases hc
    | some l =>
      rw [hl] at e1 e2 c1
      by_cases hf : fromSizeAlign w l.size.toNat T.ALIGN.toNat = true
      · cases hr : r with
        | none =>
          have hb : bumpAlloc w (fun _ _ _ => none) l.size.toNat T.ALIGN.toNat s = (panicM .oom : M Ptr) s := by
            unfold bumpAlloc pick; rw [if_neg (by simp [hf])]; rfl
          have hb' : bumpAt w none l.size.toNat T.ALIGN.toNat m1 = (panicM .oom : M Ptr) m1 := by
            unfold bumpAt; rw [if_neg (by simp [hf])]; rfl
          have hx : Owned.newIn (fun _ _ _ => none) T I' s = (onUnwind (panicM .oom) I'.dropI s).bind fun p => (do I'.initTo p l; pure p : M Ptr) := by
            unfold Owned.newIn
            rw [bind_apply, e1, Res.bind_ok]
            simp only [hf, if_true]
            rw [bind_apply, onUnwind_congr hb]
          have hy : newIn none T I m = (onUnwind (panicM .oom) I.dropI m1).bind fun p => (do I.initTo p l; pure p : M Ptr) := by
            unfold newIn
            rw [bind_apply, e2, Res.bind_ok]
            simp only [hf, if_true]
            rw [bind_apply, onUnwind_congr hb']
          refine ⟨fun _ _ _ => none, ?_, ?_⟩
          · rw [hx, hy]
            exact Ends.of_sim (x' := onUnwind (panicM .oom) I'.dropI >>= _) (x := onUnwind (panicM .oom) I.dropI >>= _) h1 (Sim.bind (R := fun _ _ => False) ((Sim.panic _).onUnwind hI.sim.drop) fun _ _ f => f.elim)
          · intro p s'
            obtain ⟨sd, d1, _⟩ := law.dropped pre
            rw [hx, onUnwind_panic (x := (panicM .oom : M Ptr)) rfl d1]
            intro hc; cases hc
        | some q =>
          have v := vac l m1 q c1 hr
          have h2 := h1.bump v
          have hleg := h1.legal v
          have hb : bumpAlloc w (fun _ _ _ => some (m1.addr q)) l.size.toNat T.ALIGN.toNat s = .ok ⟨s.next, 0⟩ (s.push ⟨m1.addr q, l.size.toNat, T.ALIGN.toNat, true, fun _ => none⟩) := by
            unfold bumpAlloc pick; rw [if_neg (by simp [hf])]; simp only [if_pos hleg]
          have hb' : bumpAt w (some q) l.size.toNat T.ALIGN.toNat m1 = .ok q (m1.write q (List.replicate l.size.toNat none)) := by
            unfold bumpAt; rw [if_neg (by simp [hf])]
          have hx : Owned.newIn (fun _ _ _ => some (m1.addr q)) T I' s = (do I'.initTo ⟨s.next, 0⟩ l; pure ⟨s.next, 0⟩ : M Ptr) (s.push ⟨m1.addr q, l.size.toNat, T.ALIGN.toNat, true, fun _ => none⟩) := by
            unfold Owned.newIn
            rw [bind_apply, e1, Res.bind_ok]
            simp only [hf, if_true]
            rw [bind_apply, onUnwind_ok hb, Res.bind_ok]
          have hy : newIn (some q) T I m = (do I.initTo q l; pure q : M Ptr) (m1.write q (List.replicate l.size.toNat none)) := by
            unfold newIn
            rw [bind_apply, e2, Res.bind_ok]
            simp only [hf, if_true]
            rw [bind_apply, onUnwind_ok hb', Res.bind_ok]
          have hag := ρ.put_agree s q l.size.toNat False
          have hs : Sim (ρ.put s.next q l.size.toNat False) (fun a' a => a' = ⟨s.next, 0⟩ ∧ a = q) (do I'.initTo ⟨s.next, 0⟩ l; pure ⟨s.next, 0⟩ : M Ptr) (do I.initTo q l; pure q : M Ptr) := by
            refine Sim.bindEq ?_ fun _ => .pure ⟨rfl, rfl⟩
            have := (hI.mono (hag.mono fun b hb => law.fp_exists s b pre hb)).sim.initTo ⟨s.next, 0⟩ l
            rw [Place.put_ptr] at this
            exact this
          have h3 := hs.run _ _ h2
          refine ⟨fun _ _ _ => some (m1.addr q), ?_, ?_⟩
          · rw [hx, hy]
            cases hr : (do I'.initTo ⟨s.next, 0⟩ l; pure ⟨s.next, 0⟩ : M Ptr) (s.push ⟨m1.addr q, l.size.toNat, T.ALIGN.toNat, true, fun _ => none⟩) with
            | ub k => trivial
            | ok a s' =>
              rw [hr] at h3
              obtain ⟨b, m', f1, f2, f3, f4⟩ := h3
              subst f4
              exact ⟨b, m', _, f1, f3, f2, ρ.put_takes _ _ _ _ (.inl rfl)⟩
            | panic e s' =>
              rw [hr] at h3
              obtain ⟨m', f1, f2⟩ := h3
              exact ⟨m', _, f1, f2, hag, ρ.put_takes _ _ _ _ (.inl rfl)⟩
          · intro p s' hc
            rw [hx] at hc
            rw [hc] at h3
            obtain ⟨b, m', f1, _, _, f4⟩ := h3
            subst f4
            exact ⟨b, m', rfl, by rw [hy]; exact f1⟩
      · refine ⟨fun _ _ _ => none, ?_, ?_⟩
        · unfold Owned.newIn newIn
          rw [bind_apply, bind_apply, e1, e2, Res.bind_ok, Res.bind_ok]
          simp only [hf]
          exact Ends.of_sim h1 ((Sim.panic _).onUnwind hI.sim.drop)
        · intro p s'
          unfold Owned.newIn
          obtain ⟨sd, d1, _⟩ := law.dropped pre
          rw [bind_apply, e1, Res.bind_ok]
          simp only [hf]
          rw [if_neg (by simp), onUnwind_panic (x := (panicM .unwrapNone : M Ptr)) rfl d1]
          intro hc; cases hc
  · refine ⟨fun _ _ _ => none, ?_, ?_⟩
    · unfold Owned.newIn newIn
      rw [bind_apply, bind_apply, e1, e2]
      exact ⟨m1, ρ, rfl, h1, fun _ _ => ⟨rfl, .rfl⟩, takes_self _ _⟩
    · intro p s'
      unfold Owned.newIn
      rw [bind_apply, e1]
      intro hc; cases hc

theorem boxNew_sim {T : VarLen w} (hT : Reloc T) {I' I : Init w} (A : Allocator) (h : Packed ρ s m) (law : InitLawful T I') (pre : I'.pre s) (hI : Placed ρ I' I) :
    (∃ k, VBox.new A T I m = .ub k ∧ (k = .nullPtr ∨ k = .allocZero)) ∨
    ∃ A', Ends ρ s True none (VBox.new A' T I' s) (VBox.new A T I m) ∧ (∀ l, I'.lay = some l → fromSizeAlign w l.size.toNat T.ALIGN.toNat = true → l.size.toNat ≠ 0 ∧ ∃ base, pick w A' s l.size.toNat T.ALIGN.toNat = some base) := by
  rcases cautious_sim h law pre hI with ⟨e1, m1, c1, e2, h1⟩ | ⟨e, s1, m1, e1, e2, h1⟩
  · cases hl : I'.lay with
    | none =>
      refine .inr ⟨fun _ _ _ => none, ?_, fun l e => by cases e⟩
      unfold VBox.new
      rw [bind_apply, bind_apply, e1, e2, hl]
      exact Ends.of_sim h1 ((Sim.panic _).onUnwind hI.sim.drop)
    | some l =>
      rw [hl] at e1 e2 c1
      by_cases hf : fromSizeAlign w l.size.toNat T.ALIGN.toNat = true
      · by_cases h0 : l.size.toNat = 0
        · left
          refine ⟨.allocZero, ?_, .inr rfl⟩
          unfold VBox.new
          rw [bind_apply, e2, Res.bind_ok]
          simp only [hf, if_true]
          rw [bind_apply]
          unfold allocM
          rw [if_pos h0]; rfl
        · cases hp : pick w A m1 l.size.toNat T.ALIGN.toNat with
          | none =>
            left
            refine ⟨.nullPtr, ?_, .inl rfl⟩
            unfold VBox.new
            rw [bind_apply, e2, Res.bind_ok]
            simp only [hf, if_true]
            rw [bind_apply]
            unfold allocM
            rw [if_neg h0, if_neg (by simp [hf]), hp]; rfl
          | some base =>
            have hleg := pick_some hp
            have h2 := h1.alloc hleg
            have hp' : pick w (fun _ _ _ => some base) s l.size.toNat T.ALIGN.toNat = some base := by
              unfold pick; simp only [if_pos (h1.legal_of hleg)]
            have hb : allocM w (fun _ _ _ => some base) l.size.toNat T.ALIGN.toNat s = .ok (some ⟨s.next, 0⟩) (s.push ⟨base, l.size.toNat, T.ALIGN.toNat, true, fun _ => none⟩) := by
              unfold allocM; rw [if_neg h0, if_neg (by simp [hf]), hp']
            have hb' : allocM w A l.size.toNat T.ALIGN.toNat m1 = .ok (some ⟨m1.next, 0⟩) (m1.push ⟨base, l.size.toNat, T.ALIGN.toNat, true, fun _ => none⟩) := by
              unfold allocM; rw [if_neg h0, if_neg (by simp [hf]), hp]
            have hx : VBox.new (fun _ _ _ => some base) T I' s = (do I'.initTo ⟨s.next, 0⟩ l; let q ← derefBox T ⟨s.next, 0⟩; let l' ← T.calculateLayout q; if l'.size = l.size then pure ⟨s.next, 0⟩ else panicM .assertFailed : M Ptr)
                (s.push ⟨base, l.size.toNat, T.ALIGN.toNat, true, fun _ => none⟩) := by
              unfold VBox.new
              rw [bind_apply, e1, Res.bind_ok]
              simp only [hf, if_true]
              rw [bind_apply, hb, Res.bind_ok]
            have hy : VBox.new A T I m = (do I.initTo ⟨m1.next, 0⟩ l; let q ← derefBox T ⟨m1.next, 0⟩; let l' ← T.calculateLayout q; if l'.size = l.size then pure ⟨m1.next, 0⟩ else panicM .assertFailed : M Ptr)
                (m1.push ⟨base, l.size.toNat, T.ALIGN.toNat, true, fun _ => none⟩) := by
              unfold VBox.new
              rw [bind_apply, e2, Res.bind_ok]
              simp only [hf, if_true]
              rw [bind_apply, hb', Res.bind_ok]
            have hag := ρ.put_agree s ⟨m1.next, 0⟩ l.size.toNat True
            have hs : Sim (ρ.put s.next ⟨m1.next, 0⟩ l.size.toNat True) (fun a' a => a' = ⟨s.next, 0⟩ ∧ a = ⟨m1.next, 0⟩)
                (do I'.initTo ⟨s.next, 0⟩ l; let q ← derefBox T ⟨s.next, 0⟩; let l' ← T.calculateLayout q; if l'.size = l.size then pure ⟨s.next, 0⟩ else panicM .assertFailed : M Ptr)
                (do I.initTo ⟨m1.next, 0⟩ l; let q ← derefBox T ⟨m1.next, 0⟩; let l' ← T.calculateLayout q; if l'.size = l.size then pure ⟨m1.next, 0⟩ else panicM .assertFailed : M Ptr) := by
              have g1 := (hI.mono (hag.mono fun b hb => law.fp_exists s b pre hb)).sim.initTo ⟨s.next, 0⟩ l
              have g2 := sim_derefBox (ρ := ρ.put s.next ⟨m1.next, 0⟩ l.size.toNat True) T ⟨s.next, 0⟩
              have g3 := hT.calculateLayout (ρ.put s.next ⟨m1.next, 0⟩ l.size.toNat True) ⟨s.next, 0⟩
              rw [Place.put_ptr] at g1 g2 g3
              exact g1.bindEq fun _ => g2.bind fun _ _ e => by
                rw [e.1, e.2]
                exact g3.bindEq fun _ => .ite (fun _ => .pure ⟨rfl, rfl⟩) fun _ => .panic _
            have h3 := hs.run _ _ h2
            rw [← hx, ← hy] at h3
            refine .inr ⟨fun _ _ _ => some base, ?_, fun l' e _ => by cases e; exact ⟨h0, base, hp'⟩⟩
            cases hr : VBox.new (fun _ _ _ => some base) T I' s with
            | ub k => trivial
            | ok a s' =>
              rw [hr] at h3
              obtain ⟨b, m', f1, f2, f3, f4⟩ := h3
              subst f4
              exact ⟨_, m', _, f1, f3, f2, ρ.put_takes _ _ _ _ (.inr fun hc => (h1.chunks _ hc).1 (St.blk_next m1))⟩
            | panic e s' =>
              rw [hr] at h3
              obtain ⟨m', f1, f2⟩ := h3
              exact ⟨m', _, f1, f2, hag, ρ.put_takes _ _ _ _ (.inr fun hc => (h1.chunks _ hc).1 (St.blk_next m1))⟩
      · refine .inr ⟨fun _ _ _ => none, ?_, fun l' e hf' => by cases e; exact absurd hf' hf⟩
        unfold VBox.new
        rw [bind_apply, bind_apply, e1, e2, Res.bind_ok, Res.bind_ok]
        simp only [hf]
        exact Ends.of_sim h1 ((Sim.panic _).onUnwind hI.sim.drop)
  · refine .inr ⟨fun _ _ _ => none, ?_, fun l hl => ?_⟩
    · unfold VBox.new
      rw [bind_apply, bind_apply, e1, e2]
      exact ⟨m1, ρ, rfl, h1, fun _ _ => ⟨rfl, .rfl⟩, takes_self _ _⟩
    · cases hb : I'.bad with
      | true => rw [law.bad_lay hb] at hl; cases hl
      | false => rw [onUnwind_ok (law.calc_ok s pre hb)] at e1; cases e1

end Varlen.Arena
