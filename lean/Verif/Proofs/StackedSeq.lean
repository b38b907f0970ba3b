import Verif.Model.StackedSeq
import Verif.Proofs.StackedDrop
/-! # Sequences and construction in Stacked Borrows -/
namespace Varlen.SB
variable {w : Nat}

theorem Elems.le {T : Ty w} : ∀ {es : List (Nat × Layout w)} {cur fin : Nat}, Elems T es cur fin → cur ≤ fin
  | [], _, _, h => h
  | (lo, l) :: es, _, _, h => by have := Elems.le h.2.2; have := h.1; omega

theorem Elems.lays {T : Ty w} : ∀ {es : List (Nat × Layout w)} {cur fin : Nat}, Elems T es cur fin → ∀ e ∈ es, cur ≤ e.1 ∧ e.1 + e.2.size.toNat ≤ fin ∧ Lays T e.2
  | [], _, _, _, e, he => by cases he
  | (lo, l) :: es, cur, fin, h, e, he => by
    rcases List.mem_cons.1 he with rfl | he
    · exact ⟨h.1, Elems.le h.2.2, h.2.1⟩
    · obtain ⟨h1, h2, h3⟩ := Elems.lays h.2.2 e he
      have := h.1
      exact ⟨by omega, h2, h3⟩

theorem tyOk_head_le {T : Ty w} (h : TyOk T) {l : Layout w} (hl : Lays T l) : T.sem.headSize ≤ l.size.toNat := by
  obtain ⟨v, o, hl⟩ := hl
  exact h.lib.lawful.head_le _ _ _ hl

theorem pres_read (t lo n : Nat) : Pres (read t lo n) := by
  constructor
  intro σ r σ' h b x hb
  rw [read] at h
  split at h
  · rename_i σ1 e
    cases h
    exact update_bottom (fun b st st' h hb => readStack_bottom h hb) e hb
  · cases h

theorem pres_write (t lo n : Nat) : Pres (write t lo n) := by
  constructor
  intro σ r σ' h b x hb
  rw [write] at h
  split at h
  · rename_i σ1 e
    cases h
    exact update_bottom (fun b st st' h hb => writeStack_bottom h hb) e hb
  · cases h

theorem write_full {σ : Stacks} {t lo n : Nat} (hσ : σ.Ok) (h : CanWrite σ t lo n) :
    ∃ σ', write t lo n σ = .ok ((), σ') ∧ σ'.Ok ∧ CanWrite σ' t lo n ∧ ∀ x, ¬ (lo ≤ x ∧ x < lo + n) → σ'.stack x = σ.stack x := by
  have key : ∀ x, lo ≤ x → x < lo + n → ∃ st', writeStack t (σ.stack x) = some st' ∧ HasW t st' ∧ (∀ j ∈ st', j ∈ σ.stack x) := fun x h1 h2 => by
    obtain ⟨i, hi, h3, h4⟩ := h x h1 h2
    exact writeStack_some ⟨i, hi, h3, writes_iff.2 h4⟩
  have hu := update_some (σ := σ) (lo := lo) (n := n) (f := writeStack t) fun x h1 h2 => (key x h1 h2).imp fun _ h => h.1
  refine ⟨_, by rw [write, hu], fun x i hi => ?_, fun x h1 h2 => ?_, fun x hx => by simp only [if_neg hx]⟩
  · simp only at hi ⊢
    split at hi
    · rename_i hx
      obtain ⟨st, e, _, hm⟩ := key x hx.1 hx.2
      rw [e] at hi
      exact hσ x i (hm i hi)
    · exact hσ x i hi
  · obtain ⟨st, e, hw, _⟩ := key x h1 h2
    simp only [if_pos (And.intro h1 h2), e, Option.getD_some]
    exact hw.imp fun i hi => ⟨hi.1, hi.2.1, writes_iff.1 hi.2.2⟩

theorem read_full {σ : Stacks} {t lo n : Nat} (hσ : σ.Ok) (h : CanRead σ t lo n) :
    ∃ σ', read t lo n σ = .ok ((), σ') ∧ σ'.Ok ∧ (CanWrite σ t lo n → CanWrite σ' t lo n) ∧ ∀ x, ¬ (lo ≤ x ∧ x < lo + n) → σ'.stack x = σ.stack x := by
  have key := fun x (h1 : lo ≤ x) (h2 : x < lo + n) => readStack_some (h x h1 h2)
  have hu := update_some (σ := σ) (lo := lo) (n := n) (f := readStack t) fun x h1 h2 => (key x h1 h2).imp fun _ h => h.1
  refine ⟨_, by rw [read, hu], fun x i hi => ?_, fun hw x h1 h2 => ?_, fun x hx => by simp only [if_neg hx]⟩
  · simp only at hi ⊢
    split at hi
    · rename_i hx
      obtain ⟨st, e, _, hm, _⟩ := key x hx.1 hx.2
      rw [e] at hi
      obtain ⟨j, hj, e'⟩ := hm i hi
      have := hσ x j hj
      omega
    · exact hσ x i hi
  · obtain ⟨st, e, _, _, hw'⟩ := key x h1 h2
    obtain ⟨i, hi, hi1, hi2⟩ := hw x h1 h2
    simp only [if_pos (And.intro h1 h2), e, Option.getD_some]
    exact (hw' ⟨i, hi, hi1, writes_iff.2 hi2⟩).imp fun i hi => ⟨hi.1, hi.2.1, writes_iff.1 hi.2.2⟩

theorem Allocated.of {α : Type} {m : S α} (hp : Pres m) {σ σ' : Stacks} {r : α} (e : m σ = .ok (r, σ')) {t lo n : Nat} (h : Allocated σ t lo n) : Allocated σ' t lo n :=
  fun x h1 h2 => hp.keeps σ r σ' e t x (h x h1 h2)

theorem Allocated.sub {σ : Stacks} {t lo n lo' n' : Nat} (h : Allocated σ t lo n) (h1 : lo ≤ lo') (h2 : lo' + n' ≤ lo + n) : Allocated σ t lo' n' := fun x h3 h4 => h x (by omega) (by omega)

theorem Allocated.keep {σ σ' : Stacks} {t lo n : Nat} (h : Allocated σ t lo n) (k : Keep σ σ') : Allocated σ' t lo n := fun x h1 h2 => keep_bottom k (h x h1 h2)

theorem clean_frame {σ σ' : Stacks} {t lo n lo' n' : Nat} (h : Clean σ t lo n) (hd : lo + n ≤ lo') (f : ∀ x, ¬ (lo' ≤ x ∧ x < lo' + n') → σ'.stack x = σ.stack x) : Clean σ' t lo n :=
  fun x h1 h2 => by rw [f x (by omega)]; exact h x h1 h2

theorem canWrite_frame {σ σ' : Stacks} {t lo n lo' n' : Nat} (h : CanWrite σ t lo n) (hd : lo + n ≤ lo') (f : ∀ x, ¬ (lo' ≤ x ∧ x < lo' + n') → σ'.stack x = σ.stack x) : CanWrite σ' t lo n :=
  fun x h1 h2 => by rw [f x (by omega)]; exact h x h1 h2

/-! ## Iterators -/

/-- What is true of the bytes before `fin` stays true: for references that are not changed by adding shared items, and that are elsewhere. -/
structure Local (σ σ' : Stacks) (fin : Nat) : Prop where
  clean : ∀ t lo n, lo + n ≤ fin → Clean σ t lo n → Clean σ' t lo n
  write : ∀ t lo n, lo + n ≤ fin → CanWrite σ t lo n → CanWrite σ' t lo n

theorem Local.refl (σ : Stacks) (fin : Nat) : Local σ σ fin := ⟨fun _ _ _ _ h => h, fun _ _ _ _ h => h⟩
theorem Local.trans {σ σ' σ'' : Stacks} {fin fin' : Nat} (h : Local σ σ' fin) (h' : Local σ' σ'' fin') (hf : fin ≤ fin') : Local σ σ'' fin :=
  ⟨fun t lo n hl hc => h'.clean t lo n (by omega) (h.clean t lo n hl hc), fun t lo n hl hc => h'.write t lo n (by omega) (h.write t lo n hl hc)⟩
theorem Local.keep {σ σ' : Stacks} (k : Keep σ σ') (fin : Nat) : Local σ σ' fin := ⟨fun _ _ _ _ h => h.keep k, fun _ _ _ _ h => h.keep k⟩
theorem Local.frame {σ σ' : Stacks} {lo' n' : Nat} (f : ∀ x, ¬ (lo' ≤ x ∧ x < lo' + n') → σ'.stack x = σ.stack x) : Local σ σ' lo' :=
  ⟨fun _ _ _ hl h => clean_frame h hl f, fun _ _ _ hl h => canWrite_frame h hl f⟩

theorem iterNext_does {T : Ty w} (hT : TyOk T) {t lo : Nat} {l : Layout w} (hl : Lays T l) {σ : Stacks} (hσ : σ.Ok) {n : Nat} (ha : Allocated σ t 0 n) (hn : lo + l.size.toNat ≤ n) :
    (Headless T → ∃ r σ', iterNext T t lo l σ = .ok (r, σ') ∧ σ'.Ok ∧ Allocated σ' t 0 n ∧ Local σ σ' lo ∧ Clean σ' r lo T.sem.headSize) ∧ (¬ Headless T → iterNext T t lo l σ = .error .ub) := by
  have hh := tyOk_head_le hT hl
  obtain ⟨σ1, e1, o1, _, _, c1, f1, _⟩ := retag_shr hσ (ha.sub (lo' := lo) (n' := T.sem.headSize) (by omega) (by omega)).canWrite.canRead
  have h := calcTy_does hT σ.next lo l σ1 hl o1 c1
  rw [iterNext, bind_ok e1]
  refine ⟨fun hH => ?_, fun hH => bind_error (h.2 hH)⟩
  obtain ⟨r, σ2, e2, k2⟩ := h.1 hH
  refine ⟨_, σ2, bind_ok e2, k2.ok, (ha.of (.retag ..) e1).keep k2, (Local.frame f1).trans (.keep k2 lo) (Nat.le_refl _), c1.keep k2⟩

theorem iterMutNext_does {U : Unpins w} {T : Ty w} (hT : TyOk T) {t lo : Nat} {l : Layout w} (hl : Lays T l) {σ : Stacks} (hσ : σ.Ok) {n : Nat} (ha : Allocated σ t 0 n) (hn : lo + l.size.toNat ≤ n) :
    (Headless T → ∃ r σ', iterMutNext U T t lo l σ = .ok (r, σ') ∧ σ'.Ok ∧ Allocated σ' t 0 n ∧ Local σ σ' lo ∧ CanWrite σ' r lo T.sem.headSize) ∧ (¬ Headless T → iterMutNext U T t lo l σ = .error .ub) := by
  have hh := tyOk_head_le hT hl
  obtain ⟨σ1, e1, o1, _, _, c1, _, f1, _⟩ := retag_mut (u := U.ty T) hσ (ha.sub (lo' := lo) (n' := T.sem.headSize) (by omega) (by omega)).canWrite
  obtain ⟨σ2, e2, o2, _, _, c2, f2, w2⟩ := retag_shr o1 c1.canRead
  have h := calcTy_does hT σ1.next lo l σ2 hl o2 c2
  rw [iterMutNext, bind_ok e1, bind_ok e2]
  refine ⟨fun hH => ?_, fun hH => bind_error (h.2 hH)⟩
  obtain ⟨r, σ3, e3, k3⟩ := h.1 hH
  refine ⟨_, σ3, bind_ok e3, k3.ok, ((ha.of (.retag ..) e1).of (.retag ..) e2).keep k3, ((Local.frame f1).trans (Local.frame f2) (Nat.le_refl _)).trans (.keep k3 lo) (Nat.le_refl _), (w2 c1).keep k3⟩

/-- All items. -/
theorem iterAll_does {T : Ty w} {next : (lo : Nat) → Layout w → S Nat} {Q : Stacks → Nat → Nat → Prop} {t n : Nat} {c : Prop}
    (hQ : ∀ σ σ' r lo fin, Local σ σ' fin → lo + T.sem.headSize ≤ fin → Q σ r lo → Q σ' r lo) (hhead : ∀ l, Lays T l → T.sem.headSize ≤ l.size.toNat)
    (hnext : ∀ lo l σ, Lays T l → σ.Ok → Allocated σ t 0 n → lo + l.size.toNat ≤ n →
      (c → ∃ r σ', next lo l σ = .ok (r, σ') ∧ σ'.Ok ∧ Allocated σ' t 0 n ∧ Local σ σ' lo ∧ Q σ' r lo) ∧ (¬ c → next lo l σ = .error .ub)) :
    ∀ (es : List (Nat × Layout w)) {cur : Nat} {σ : Stacks}, Elems T es cur n → σ.Ok → Allocated σ t 0 n →
    ((c ∨ es = []) → ∃ rs σ', iterAll next es σ = .ok (rs, σ') ∧ σ'.Ok ∧ Allocated σ' t 0 n ∧ Local σ σ' cur ∧ rs.length = es.length ∧
      ∀ (i : Nat) (r : Nat) (e : Nat × Layout w), rs[i]? = some r → es[i]? = some e → Q σ' r e.1) ∧
    (¬ (c ∨ es = []) → iterAll next es σ = .error .ub)
  | [], cur, σ, _, hσ, ha => ⟨fun _ => ⟨[], σ, rfl, hσ, ha, .refl .., rfl, fun i r e h => by simp at h⟩, fun h => (h (.inr rfl)).elim⟩
  | (lo, l) :: es, cur, σ, he, hσ, ha => by
    obtain ⟨h1, h2, h3⟩ := he
    have hle := Elems.le h3
    have hx := hnext lo l σ h2 hσ ha hle
    rw [iterAll]
    refine ⟨fun hc => ?_, fun hc => bind_error (hx.2 fun h => hc (.inl h))⟩
    have hc : c := by
      rcases hc with h | h
      · exact h
      · cases h
    obtain ⟨r, σ1, e1, o1, a1, l1, q1⟩ := hx.1 hc
    obtain ⟨rs, σ2, e2, o2, a2, l2, n2, q2⟩ := (iterAll_does hQ hhead hnext es h3 o1 a1).1 (.inl hc)
    rw [bind_ok e1, bind_ok e2]
    refine ⟨_, σ2, rfl, o2, a2, ?_, by simp [n2], fun i r' e' hr he' => ?_⟩
    · have := l1.trans l2 (by omega)
      exact ⟨fun t lo n hl => this.clean t lo n (by omega), fun t lo n hl => this.write t lo n (by omega)⟩
    · cases i with
      | zero =>
        simp at hr he'
        subst hr he'
        have := hhead l h2
        exact hQ σ1 σ2 r lo (lo + l.size.toNat) l2 (by omega) q1
      | succ i => simp at hr he'; exact q2 i r' e' hr he'

/-! ## Destruction -/

theorem ownedNext_does {T : Ty w} (hT : TyOk T) {t lo : Nat} {l : Layout w} (hl : Lays T l) {σ : Stacks} (hσ : σ.Ok) {n : Nat} (ha : Allocated σ t 0 n) (hn : lo + l.size.toNat ≤ n) :
    (Headless T → ∃ σ', ownedNext T t lo l σ = .ok ((), σ') ∧ σ'.Ok ∧ Allocated σ' t 0 n) ∧ (¬ Headless T → ownedNext T t lo l σ = .error .ub) := by
  have hh := tyOk_head_le hT hl
  obtain ⟨σ1, e1, o1, _, _, c1, _⟩ := retag_shr hσ (ha.sub (lo' := lo) (n' := T.sem.headSize) (by omega) (by omega)).canWrite.canRead
  have h := calcTy_does hT σ.next lo l σ1 hl o1 c1
  rw [ownedNext, bind_ok e1]
  refine ⟨fun hH => ?_, h.2⟩
  obtain ⟨r, σ2, e2, k2⟩ := h.1 hH
  exact ⟨σ2, e2, k2.ok, (ha.of (.retag ..) e1).keep k2⟩

theorem ownedDrop_does {U : Unpins w} {T : Ty w} (hT : TyOk T) {t lo : Nat} {l : Layout w} (hl : Lays T l) {σ : Stacks} (hσ : σ.Ok) {n : Nat} (ha : Allocated σ t 0 n) (hn : lo + l.size.toNat ≤ n) :
    (Headless T ∧ Idle T l → ∃ σ', ownedDrop U T t lo l σ = .ok ((), σ') ∧ σ'.Ok ∧ Allocated σ' t 0 n) ∧ (¬ (Headless T ∧ Idle T l) → ownedDrop U T t lo l σ = .error .ub) := by
  have hh := tyOk_head_le hT hl
  obtain ⟨σ1, e1, o1, _, _, c1, _⟩ := retag_shr hσ (ha.sub (lo' := lo) (n' := T.sem.headSize) (by omega) (by omega)).canWrite.canRead
  have h := calcTy_does hT σ.next lo l σ1 hl o1 c1
  rw [ownedDrop, bind_ok e1]
  by_cases hH : Headless T
  · obtain ⟨r, σ2, e2, k2⟩ := h.1 hH
    have a2 := (ha.of (.retag ..) e1).keep k2
    obtain ⟨σ3, e3, o3, _, _, c3, _⟩ := retag_mut (u := U.ty T) k2.ok (a2.sub (lo' := lo) (n' := T.sem.headSize) (by omega) (by omega)).canWrite
    have h' := vdropTy_does (U := U) hT σ2.next lo l σ3 hl o3 c3
    rw [bind_ok e2, bind_ok e3]
    refine ⟨fun hi => ?_, fun hi => h'.2 fun h => hi ⟨hH, h⟩⟩
    obtain ⟨⟨⟩, σ4, e4, o4, _⟩ := h'.1 hi.2
    exact ⟨σ4, e4, o4, (a2.of (.retag ..) e3).of (vdropTy_pres hT _ _ _) e4⟩
  · exact ⟨fun h => absurd h.1 hH, fun _ => bind_error (h.2 hH)⟩

theorem dropLoop_does {U : Unpins w} {T : Ty w} (hT : TyOk T) {t n : Nat} : ∀ (es : List (Nat × Layout w)) {cur : Nat} {σ : Stacks}, Elems T es cur n → σ.Ok → Allocated σ t 0 n →
    ((∀ e ∈ es, Headless T ∧ Idle T e.2) → ∃ σ', dropLoop U T t es σ = .ok ((), σ') ∧ σ'.Ok ∧ Allocated σ' t 0 n) ∧
    (¬ (∀ e ∈ es, Headless T ∧ Idle T e.2) → dropLoop U T t es σ = .error .ub)
  | [], cur, σ, _, hσ, ha => ⟨fun _ => ⟨σ, rfl, hσ, ha⟩, fun h => (h fun e he => by cases he).elim⟩
  | (lo, l) :: es, cur, σ, he, hσ, ha => by
    obtain ⟨h1, h2, h3⟩ := he
    have hle := Elems.le h3
    have hx := ownedNext_does hT h2 hσ ha hle
    rw [dropLoop]
    by_cases hH : Headless T
    · obtain ⟨σ1, e1, o1, a1⟩ := hx.1 hH
      have hy := ownedDrop_does (U := U) hT h2 o1 a1 hle
      rw [bind_ok e1]
      by_cases hi : Idle T l
      · obtain ⟨σ2, e2, o2, a2⟩ := hy.1 ⟨hH, hi⟩
        have ih := dropLoop_does (U := U) hT es h3 o2 a2
        rw [bind_ok e2]
        refine ⟨fun h => ih.1 fun e he => h e (by simp [he]), fun h => ih.2 fun h' => h fun e he => ?_⟩
        rcases List.mem_cons.1 he with rfl | he
        · exact ⟨hH, hi⟩
        · exact h' e he
      · exact ⟨fun h => absurd (h (lo, l) (by simp)).2 hi, fun _ => bind_error (hy.2 fun h => hi h.2)⟩
    · exact ⟨fun h => absurd (h (lo, l) (by simp)).1 hH, fun _ => bind_error (hx.2 hH)⟩

theorem fill_ok {σ : Stacks} {t lo n : Nat} (hσ : σ.Ok) (h : CanWrite σ t lo n) : ∃ σ', fill t lo n σ = .ok ((), σ') ∧ σ'.Ok ∧ ∀ x, ¬ (lo ≤ x ∧ x < lo + n) → σ'.stack x = σ.stack x := by
  obtain ⟨σ1, e1, o1, _, _, c1, _, f1, _⟩ := retag_mut (u := true) hσ h
  obtain ⟨σ2, e2, o2, _, _, c2, _, f2, _⟩ := retag_mut (u := true) o1 c1
  obtain ⟨σ3, e3, o3, _, f3⟩ := write_full o2 c2
  exact ⟨σ3, (bind_ok e1).trans ((bind_ok e2).trans e3), o3, fun x hx => (f3 x hx).trans ((f2 x hx).trans (f1 x hx))⟩

theorem fill_pres (t lo n : Nat) : Pres (fill t lo n) := .bind (.retag ..) fun _ => .bind (.retag ..) fun _ => pres_write ..

theorem seqDrop_does {U : Unpins w} {T : Ty w} (hT : TyOk T) {checked : Bool} {t cap size : Nat} {es : List (Nat × Layout w)} {cur : Nat} {σ : Stacks} (he : Elems T es cur size) (hσ : σ.Ok) (ha : Allocated σ t 0 size) :
    DoesM (cap = 0 ∨ (T.sem.headNeedsDrop || T.sem.NEEDS_VDROP) = false ∨ ∀ e ∈ es, Headless T ∧ Idle T e.2) (seqDrop U T checked t cap size es) σ := by
  rw [DoesM, Fine, seqDrop]
  by_cases hc : cap = 0
  · rw [if_pos hc]
    exact ⟨fun _ => ⟨_, rfl⟩, fun h => (h (.inl hc)).elim⟩
  · rw [if_neg hc]
    have h1 : ∃ σ1, clearMasks checked t (cap * T.sem.ALIGN.toNat) σ = .ok ((), σ1) ∧ σ1.Ok ∧ Allocated σ1 t 0 size := by
      cases checked
      · exact ⟨σ, rfl, hσ, ha⟩
      · obtain ⟨σ1, e1, o1, f1⟩ := fill_ok (t := t) (lo := cap * T.sem.ALIGN.toNat) (n := 0) hσ fun x h1 h2 => by omega
        exact ⟨σ1, e1, o1, ha.of (fill_pres ..) e1⟩
    obtain ⟨σ1, e1, o1, a1⟩ := h1
    rw [bind_ok e1, ownedElemsDrop]
    by_cases hn : (T.sem.headNeedsDrop || T.sem.NEEDS_VDROP) = true
    · rw [if_pos hn]
      have h2 := dropLoop_does (U := U) hT es he o1 a1
      by_cases hi : ∀ e ∈ es, Headless T ∧ Idle T e.2
      · obtain ⟨σ2, e2, o2, a2⟩ := h2.1 hi
        rw [bind_ok e2]
        obtain ⟨σ3, e3, _⟩ := write_full o2 a2.canWrite
        exact ⟨fun _ => ⟨_, e3⟩, fun h => (h (.inr (.inr hi))).elim⟩
      · refine ⟨fun h => ?_, fun _ => bind_error (h2.2 hi)⟩
        rcases h with h | h | h
        · exact absurd h hc
        · rw [h] at hn; cases hn
        · exact absurd h hi
    · rw [if_neg hn]
      obtain ⟨σ2, e2, _⟩ := write_full o1 a1.canWrite
      exact ⟨fun _ => ⟨_, (bind_ok rfl).trans e2⟩, fun h => (h (.inr (.inl (by simpa using hn)))).elim⟩

/-! ## Storage -/

theorem grow_fits {align cap cap' : Nat} (h1 : 1 ≤ align) (h2 : 2 * cap ≤ cap') : cap * align + (cap + 7) / 8 ≤ cap' * align := by
  have h3 : 2 * cap * align ≤ cap' * align := Nat.mul_le_mul_right _ h2
  have h4 : cap * 1 ≤ cap * align := Nat.mul_le_mul_left _ h1
  have h5 : 2 * cap * align = cap * align + cap * align := by rw [Nat.mul_assoc, Nat.two_mul]
  omega

/-- The program is fine, and leaves the allocation as it is. -/
def Done (t n : Nat) (m : S Unit) : Prop := ∀ σ : Stacks, σ.Ok → Allocated σ t 0 n → ∃ σ', m σ = .ok ((), σ') ∧ σ'.Ok ∧ Allocated σ' t 0 n

theorem Done.bind {t n : Nat} {m : S Unit} {m' : S Unit} (h : Done t n m) (h' : Done t n m') : Done t n (do m; m') := by
  intro σ hσ ha
  obtain ⟨σ1, e1, o1, a1⟩ := h σ hσ ha
  obtain ⟨σ2, e2, o2, a2⟩ := h' σ1 o1 a1
  exact ⟨σ2, (bind_ok e1).trans e2, o2, a2⟩

theorem Done.pure (t n : Nat) : Done t n (pure ()) := fun σ hσ ha => ⟨σ, rfl, hσ, ha⟩

theorem Done.write {t lo k n : Nat} (h : lo + k ≤ n) : Done t n (write t lo k) := by
  intro σ hσ ha
  obtain ⟨σ1, e1, o1, _⟩ := write_full hσ (ha.sub (lo' := lo) (n' := k) (by omega) (by omega)).canWrite
  exact ⟨σ1, e1, o1, ha.of (pres_write ..) e1⟩

theorem Done.read {t lo k n : Nat} (h : lo + k ≤ n) : Done t n (read t lo k) := by
  intro σ hσ ha
  obtain ⟨σ1, e1, o1, _⟩ := read_full hσ (ha.sub (lo' := lo) (n' := k) (by omega) (by omega)).canWrite.canRead
  exact ⟨σ1, e1, o1, ha.of (pres_read ..) e1⟩

theorem Done.fill {t lo k n : Nat} (h : lo + k ≤ n) : Done t n (fill t lo k) := by
  intro σ hσ ha
  obtain ⟨σ1, e1, o1, _⟩ := fill_ok hσ (ha.sub (lo' := lo) (n' := k) (by omega) (by omega)).canWrite
  exact ⟨σ1, e1, o1, ha.of (fill_pres ..) e1⟩

theorem growStorage_done {t align cap cap' n : Nat} (h1 : 1 ≤ align) (h2 : 2 * cap ≤ cap') (hn : cap' * align + (cap' + 7) / 8 ≤ n) : Done t n (growStorage t align cap cap') := by
  intro σ hσ ha
  have hd := grow_fits h1 h2
  have hk : (cap + 7) / 8 ≤ (cap' + 7) / 8 := by omega
  generalize hA : cap * align = A at *
  generalize hB : cap' * align = B at *
  generalize hK : (cap + 7) / 8 = k at *
  generalize hK' : (cap' + 7) / 8 = k' at *
  obtain ⟨σ1, e1, o1, _, _, c1, _⟩ := retag_shr hσ (ha.sub (lo' := A) (n' := k) (by omega) (by omega)).canWrite.canRead
  have a1 := ha.of (.retag ..) e1
  obtain ⟨σ2, e2, o2, _, _, c2, _, f2, _⟩ := retag_mut (u := true) o1 (a1.sub (lo' := B) (n' := k') (by omega) (by omega)).canWrite
  have a2 := a1.of (.retag ..) e2
  have d2 : Clean σ2 σ.next A k := clean_frame c1 hd f2
  obtain ⟨σ3, e3, k3, _, _, c3⟩ := retag_clean o2 d2
  have a3 := a2.of (.retag ..) e3
  obtain ⟨σ4, e4, o4, _, _, c4, m4, f4, _⟩ := retag_mut (u := true) k3.ok (c2.keep k3)
  have a4 := a3.of (.retag ..) e4
  have d4 := clean_frame c3 hd f4
  obtain ⟨σ5, e5, o5, _, f5⟩ := write_full o4 (c4.sub (lo' := B) (n' := k) (Nat.le_refl _) (by omega))
  have a5 := a4.of (pres_write ..) e5
  have m5 : CanWrite σ5 σ1.next (B + k) (k' - k) := fun x hx1 hx2 => by rw [f5 x (by omega)]; exact m4 x (by omega) (by omega)
  obtain ⟨σ6, e6, o6, _, _, c6, _⟩ := retag_mut (u := true) o5 m5
  have a6 := a5.of (.retag ..) e6
  obtain ⟨σ7, e7, o7, _⟩ := write_full o6 c6
  refine ⟨σ7, ?_, o7, a6.of (pres_write ..) e7⟩
  simp only [growStorage, hA, hB, hK, hK']
  exact (bind_ok e1).trans ((bind_ok e2).trans ((bind_ok e3).trans ((bind_ok e4).trans ((bind_ok (read_clean d4)).trans ((bind_ok e5).trans ((bind_ok e6).trans e7))))))

theorem markValid_done {checked : Bool} {t align cap off n : Nat} (h : checked = true → cap * align + off / 8 + 1 ≤ n) : Done t n (markValid checked t align cap off) := by
  rw [markValid]
  split
  · rename_i hc
    exact .bind (.read (h hc)) (.write (h hc))
  · exact .pure _ _

/-! ## Construction -/

theorem fillSlots_ok {U : Unpins w} {P : Plain} {a : Nat} : ∀ (n lo : Nat) {σ : Stacks}, σ.Ok → CanWrite σ a lo (n * P.ty.size) → ∃ σ', fillSlots U P a lo n σ = .ok ((), σ') ∧ σ'.Ok
  | 0, lo, σ, hσ, _ => ⟨σ, rfl, hσ⟩
  | n + 1, lo, σ, hσ, hc => by
    have hm : (n + 1) * P.ty.size = n * P.ty.size + P.ty.size := Nat.succ_mul ..
    obtain ⟨σ1, e1, o1, _, _, c1, _, f1, _⟩ := retag_mut (u := U.plain P) hσ (hc.sub (lo' := lo) (n' := P.ty.size) (Nat.le_refl _) (by omega))
    obtain ⟨σ2, e2, o2, _, f2⟩ := write_full o1 c1
    obtain ⟨σ3, e3, o3⟩ := fillSlots_ok (U := U) (P := P) (a := a) n (lo + P.ty.size) o2 fun x h1 h2 => by rw [f2 x (by omega), f1 x (by omega)]; exact hc x (by omega) (by omega)
    exact ⟨σ3, (bind_ok e1).trans ((bind_ok e2).trans e3), o3⟩

theorem fillSlots_pres (U : Unpins w) (P : Plain) (a : Nat) : ∀ lo n, Pres (fillSlots U P a lo n)
  | _, 0 => .pure _
  | _, n + 1 => .bind (.retag ..) fun _ => .bind (pres_write ..) fun _ => fillSlots_pres U P a _ n

theorem initArray_done {U : Unpins w} {P : Plain} {t lo k n : Nat} (h : lo + k * P.ty.size ≤ n) : Done t n (initArray U P t lo k) := by
  intro σ hσ ha
  obtain ⟨σ1, e1, o1, _, _, c1, _⟩ := retag_mut (u := U.plain P) hσ (ha.sub (lo' := lo) (n' := k * P.ty.size) (by omega) (by omega)).canWrite
  obtain ⟨σ2, e2, o2, _, _, c2, _⟩ := retag_mut (u := U.plain P) o1 c1
  obtain ⟨σ3, e3, o3⟩ := fillSlots_ok (U := U) k lo o2 c2
  exact ⟨σ3, (bind_ok e1).trans ((bind_ok e2).trans e3), o3, ((ha.of (.retag ..) e1).of (.retag ..) e2).of (fillSlots_pres ..) e3⟩

/-- The tail fields end before `fin`. -/
def Inside (fin : Nat) : List (TyFld w) → List (BitVec w × Layout w) → Prop
  | [], _ => True
  | .normal _ _ :: fs, ls => Inside fin fs ls
  | .length _ _ :: fs, ls => Inside fin fs ls
  | .varlen T :: fs, (o, l) :: ls => (o.toNat + l.size.toNat ≤ fin ∧ TyOk T ∧ Lays T l) ∧ Inside fin fs ls
  | .array P _ :: fs, (o, .len n) :: ls => o.toNat + n.toNat * P.ty.size ≤ fin ∧ Inside fin fs ls
  | _, _ => False

theorem inside_of {lens : List Img} {o : View} : ∀ (fs : List (TyFld w)) vs ls cur fin, (∀ T, .varlen T ∈ fs → TyOk T) → (∀ P len, TyFld.array P len ∈ fs → P.ty.Ok w) →
    RepTails lens (TyFld.sems fs) vs ls cur fin o → cur ≤ fin ∧ Inside fin fs ls
  | [], vs, ls, cur, fin, _, _, h => by cases vs <;> cases ls <;> simp [TyFld.sems, RepTails] at h; exact ⟨by omega, trivial⟩
  | f :: fs, vs, ls, cur, fin, hT, ha, h => by
    have ih := fun vs ls cur h => inside_of (lens := lens) (o := o) fs vs ls cur fin (fun T h => hT T (by simp [h])) (fun P off h => ha P off (by simp [h])) h
    cases vs with
    | nil => cases f <;> simp [TyFld.sems, TyFld.sem, RepTails] at h
    | cons v vs =>
      cases f with
      | normal P off => simp only [TyFld.sems, TyFld.sem, RepTails] at h; exact ih _ _ _ h
      | length P off => simp only [TyFld.sems, TyFld.sem, RepTails] at h; exact ih _ _ _ h
      | varlen T =>
        rcases ls with _ | ⟨⟨o', l'⟩, ls⟩
        · simp [TyFld.sems, TyFld.sem, RepTails] at h
        · simp only [TyFld.sems, TyFld.sem, RepTails] at h
          have hT' := hT T (by simp)
          have := roundUpN_ge cur T.sem.ALIGN.toNat hT'.lib.lawful.align_pow2.pos
          have ho := h.1.1
          obtain ⟨i1, i2⟩ := ih _ _ _ h.2
          exact ⟨by omega, ⟨i1, hT', v, _, h.1.2⟩, i2⟩
      | array P len =>
        rcases ls with _ | ⟨⟨o', l'⟩, ls⟩
        · simp [TyFld.sems, TyFld.sem, RepTails] at h
        · cases v <;> cases l' <;> simp only [TyFld.sems, TyFld.sem, RepTails] at h
          have := roundUpN_ge cur P.ty.align (ha P len (by simp)).align_pos
          have ho := h.1.1
          obtain ⟨i1, i2⟩ := ih _ _ _ h.2
          exact ⟨by omega, i1, i2⟩

theorem struct_inside {hs ha : Nat} {fs : List (TyFld w)} (h : TyOk (.struct hs ha fs)) {size : BitVec w} {ls : List (BitVec w × Layout w)} (hl : Lays (.struct hs ha fs) (.fields size ls)) : hs ≤ size.toNat ∧ Inside size.toNat fs ls := by
  cases h with
  | struct hh hT =>
    obtain ⟨v, o, vs, ls, size, rfl, e, _, hr⟩ := hl
    injection e with e1 e2
    subst e1 e2
    exact inside_of fs vs _ hs _ hT (fun P len h => hh.array _ _ (mem_sems h)) hr

theorem tuple_inside {Ts : List (Ty w)} (h : TyOk (.tuple Ts)) {size : BitVec w} {ls : List (BitVec w × Layout w)} (hl : Lays (.tuple Ts) (.fields size ls)) : Inside size.toNat (Ts.map .varlen) ls := by
  cases h with
  | tuple hne hT =>
    obtain ⟨v, o, vs, ls, size, rfl, e, _, hr⟩ := hl
    injection e with e1 e2
    subst e1 e2
    rw [sems_varlen] at hr
    refine (inside_of _ vs _ 0 _ (fun T h => ?_) (fun P len h => ?_) hr).2
    all_goals simp at h
    exact hT T h

/-- Initializers are always fine. -/
theorem inits_done {U : Unpins w} {t n : Nat} {T : Ty w} {lo : Nat} {l : Layout w} {m : S Unit} (h : Inits U t T lo l m) : TyOk T → Lays T l → lo + l.size.toNat ≤ n → Done t n m := by
  refine Inits.rec (U := U) (t := t) (motive_1 := fun T lo l m _ => TyOk T → Lays T l → lo + l.size.toNat ≤ n → Done t n m)
    (motive_2 := fun lo fs ls m _ => ∀ fin, Inside fin fs ls → lo + fin ≤ n → Done t n m) ?_ ?_ ?_ ?_ ?_ ?_ ?_ ?_ ?_ ?_ ?_ h
  · intro T lo l _ _ hn
    exact .write hn
  · intro P L lo o k size hT hl hn
    have hh := tyOk_head_le hT hl
    obtain ⟨v, ov, off, k', size', xs, rfl, e, _, _, ho, hs, _⟩ := hl
    cases e
    have hn' : lo + size.toNat ≤ n := hn
    have hh' : L.bytes ≤ size.toNat := hh
    exact .bind (initArray_done (by omega)) (.write (by omega))
  · intro P L lo o k size hP hT hl hn
    have hh := tyOk_head_le hT hl
    obtain ⟨v, ov, ⟨off, k', size', xs, rfl, e, _, _, ho, hs, _⟩, _⟩ := hl
    cases e
    have hn' : lo + size.toNat ≤ n := hn
    have hh' : L.bytes ≤ size.toNat := hh
    have hs' : size.toNat = o.toNat + k.toNat * 1 := hs
    exact .bind (initArray_done (by rw [hP]; omega)) (.write (by omega))
  · intro T lo l m _ ih hT hl hn
    obtain ⟨v, o, hl, _⟩ := hl
    cases hT with
    | newtype hT => exact ih hT ⟨v, o, hl⟩ hn
  · intro Ts lo size ls m _ ih hT hl hn
    have hn' : lo + size.toNat ≤ n := hn
    exact .bind (ih _ (tuple_inside hT hl) hn') (.write (by omega))
  · intro hs ha fs lo size ls m _ ih hT hl hn
    have hn' : lo + size.toNat ≤ n := hn
    obtain ⟨h1, h2⟩ := struct_inside hT hl
    exact .bind (ih _ h2 hn') (.write (by omega))
  · intro lo fin _ _
    exact .pure _ _
  · intro P off lo fs ls m _ ih fin hi hn
    exact ih fin hi hn
  · intro P off lo fs ls m _ ih fin hi hn
    exact ih fin hi hn
  · intro T lo o l fs ls m m' _ _ ih ih' fin hi hn
    obtain ⟨⟨h1, h2, h3⟩, h4⟩ := hi
    exact .bind (ih h2 h3 (by omega)) (ih' fin h4 hn)
  · intro P len lo o k fs ls m _ ih fin hi hn
    exact .bind (initArray_done (by have := hi.1; omega)) (ih fin hi.2 hn)

end Varlen.SB
