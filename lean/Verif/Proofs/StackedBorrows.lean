import Verif.Spec.StackedBorrows
import Verif.Props.Controls
/-! # Lemmas about Stacked Borrows -/
namespace Varlen.SB
variable {w : Nat}

/-! ## One stack -/

def Clean1 (t : Nat) (st : List Item) : Prop :=
  ∃ pre i post, st = pre ++ i :: post ∧ i.tag = t ∧ i.perm ≠ .disabled ∧ ∀ j ∈ pre, j.perm ≠ .unique
def Has (t : Nat) (st : List Item) : Prop := ∃ i ∈ st, i.tag = t ∧ i.perm ≠ .disabled
def HasW (t : Nat) (st : List Item) : Prop := ∃ i ∈ st, i.tag = t ∧ i.perm.writes = true

theorem HasW.has {t st} (h : HasW t st) : Has t st := by
  obtain ⟨i, h1, h2, h3⟩ := h
  exact ⟨i, h1, h2, fun e => by rw [e] at h3; cases h3⟩

theorem writes_iff {p : Perm} : p.writes = true ↔ p = .unique ∨ p = .sharedRW := by cases p <;> simp [Perm.writes]

theorem readStack_none {t : Nat} : ∀ {st : List Item}, (∀ i ∈ st, i.tag ≠ t) → readStack t st = none
  | [], _ => rfl
  | i :: r, h => by
    rw [readStack, if_neg fun e => h i (by simp) e.1, readStack_none fun j hj => h j (by simp [hj])]; rfl

theorem writeStack_none {t : Nat} : ∀ {st : List Item}, (∀ i ∈ st, i.tag ≠ t) → writeStack t st = none
  | [], _ => rfl
  | i :: r, h => by
    rw [writeStack, if_neg fun e => h i (by simp) e.1, writeStack_none fun j hj => h j (by simp [hj])]; rfl

theorem insertRaw_none {t new : Nat} : ∀ {st : List Item}, (∀ i ∈ st, i.tag ≠ t) → insertRaw t new st = none
  | [], _ => rfl
  | i :: r, h => by
    rw [insertRaw, if_neg fun e => h i (by simp) e.1, insertRaw_none fun j hj => h j (by simp [hj])]; rfl

theorem readStack_clean {t : Nat} : ∀ {st : List Item}, Clean1 t st → readStack t st = some st
  | [], h => by obtain ⟨pre, i, post, e, _⟩ := h; simp at e
  | j :: r, h => by
    by_cases hj : j.tag = t ∧ j.perm ≠ .disabled
    · rw [readStack, if_pos hj]
    · obtain ⟨pre, i, post, e, h1, h2, h3⟩ := h
      cases pre with
      | nil => simp at e; exact absurd (e.1 ▸ ⟨h1, h2⟩) hj
      | cons k pre =>
        simp at e
        obtain ⟨rfl, e⟩ := e
        rw [readStack, if_neg hj, readStack_clean ⟨pre, i, post, e, h1, h2, fun x hx => h3 x (by simp [hx])⟩, Option.map_some, if_neg (h3 j (by simp))]

/-- Reading through a tag that has the right: the item stays, and the tags are old ones. -/
theorem readStack_some {t : Nat} : ∀ {st : List Item}, Has t st → ∃ st', readStack t st = some st' ∧ Clean1 t st' ∧
    (∀ j ∈ st', ∃ i ∈ st, i.tag = j.tag) ∧ (HasW t st → HasW t st')
  | [], h => by obtain ⟨i, h, _⟩ := h; cases h
  | j :: r, h => by
    by_cases hj : j.tag = t ∧ j.perm ≠ .disabled
    · exact ⟨j :: r, by rw [readStack, if_pos hj], ⟨[], j, r, rfl, hj.1, hj.2, by simp⟩, fun k hk => ⟨k, hk, rfl⟩, id⟩
    · have hr : Has t r := by
        obtain ⟨i, hi, h1, h2⟩ := h
        rcases List.mem_cons.1 hi with rfl | hi
        · exact absurd ⟨h1, h2⟩ hj
        · exact ⟨i, hi, h1, h2⟩
      obtain ⟨st', e, ⟨pre, i, post, e', h1, h2, h3⟩, hm, hw⟩ := readStack_some hr
      refine ⟨_, by rw [readStack, if_neg hj, e]; rfl, ⟨_ :: pre, i, post, by rw [e']; rfl, h1, h2, fun k hk => ?_⟩, fun k hk => ?_, fun hw' => ?_⟩
      · rcases List.mem_cons.1 hk with rfl | hk
        · split <;> simp_all
        · exact h3 k hk
      · rcases List.mem_cons.1 hk with rfl | hk
        · exact ⟨j, by simp, by split <;> rfl⟩
        · obtain ⟨x, hx, e⟩ := hm k hk
          exact ⟨x, by simp [hx], e⟩
      · obtain ⟨x, hx, hx1, hx2⟩ := hw'
        rcases List.mem_cons.1 hx with rfl | hx
        · exact absurd ⟨hx1, fun e => by rw [e] at hx2; cases hx2⟩ hj
        · obtain ⟨y, hy, hy'⟩ := hw ⟨x, hx, hx1, hx2⟩
          exact ⟨y, by simp [hy], hy'⟩

theorem writeStack_some {t : Nat} : ∀ {st : List Item}, HasW t st → ∃ st', writeStack t st = some st' ∧ HasW t st' ∧ (∀ j ∈ st', j ∈ st)
  | [], h => by obtain ⟨i, h, _⟩ := h; cases h
  | j :: r, h => by
    by_cases hj : j.tag = t ∧ j.perm.writes = true
    · exact ⟨j :: r, by rw [writeStack, if_pos hj], ⟨j, by simp, hj⟩, fun k hk => hk⟩
    · have hr : HasW t r := by
        obtain ⟨i, hi, h1, h2⟩ := h
        rcases List.mem_cons.1 hi with rfl | hi
        · exact absurd ⟨h1, h2⟩ hj
        · exact ⟨i, hi, h1, h2⟩
      obtain ⟨st', e, ⟨i, hi, hi'⟩, hm⟩ := writeStack_some hr
      by_cases hc : j.perm = .sharedRW ∧ st'.length = r.length ∧ (st'.head?.map Item.perm) = some .sharedRW
      · refine ⟨j :: st', by rw [writeStack, if_neg hj, e, Option.map_some, if_pos hc], ?_⟩
        refine ⟨⟨i, by simp [hi], hi'⟩, fun k hk => ?_⟩
        rcases List.mem_cons.1 hk with rfl | hk
        · simp
        · simp [hm k hk]
      · exact ⟨st', by rw [writeStack, if_neg hj, e, Option.map_some, if_neg hc], ⟨i, hi, hi'⟩, fun k hk => by simp [hm k hk]⟩

theorem insertRaw_some {t new : Nat} : ∀ {st : List Item}, HasW t st → ∃ st', insertRaw t new st = some st' ∧ HasW t st' ∧ HasW new st' ∧
    (∀ j ∈ st', j ∈ st ∨ j = ⟨new, .sharedRW⟩) ∧ ((∀ i ∈ st, i.tag ≠ new) → ∃ st'', readStack new st' = some st'' ∧ HasW t st'')
  | [], h => by obtain ⟨i, h, _⟩ := h; cases h
  | j :: r, h => by
    by_cases hj : j.tag = t ∧ j.perm.writes = true
    · refine ⟨⟨new, .sharedRW⟩ :: j :: r, by rw [insertRaw, if_pos hj], ⟨j, by simp, hj⟩, ⟨_, List.mem_cons_self, rfl, rfl⟩, fun k hk => ?_,
        fun _ => ⟨_, by rw [readStack, if_pos ⟨rfl, by simp⟩], ⟨j, by simp, hj⟩⟩⟩
      rcases List.mem_cons.1 hk with rfl | hk
      · exact .inr rfl
      · exact .inl hk
    · have hr : HasW t r := by
        obtain ⟨i, hi, h1, h2⟩ := h
        rcases List.mem_cons.1 hi with rfl | hi
        · exact absurd ⟨h1, h2⟩ hj
        · exact ⟨i, hi, h1, h2⟩
      obtain ⟨st', e, ⟨i, hi, hi'⟩, ⟨n, hn, hn'⟩, hm, hrd⟩ := insertRaw_some (new := new) hr
      refine ⟨_, by rw [insertRaw, if_neg hj, e]; rfl, ⟨i, by simp [hi], hi'⟩, ⟨n, by simp [hn], hn'⟩, fun k hk => ?_, fun hf => ?_⟩
      · rcases List.mem_cons.1 hk with rfl | hk
        · simp
        · rcases hm k hk with h | h
          · exact .inl (by simp [h])
          · exact .inr h
      · obtain ⟨st'', e, y, hy, hy'⟩ := hrd fun i hi => hf i (by simp [hi])
        exact ⟨_, by rw [readStack, if_neg fun c => hf j (by simp) c.1, e]; rfl, y, by simp [hy], hy'⟩

theorem push_none {k : Kind} {t new : Nat} {st : List Item} (h : ∀ i ∈ st, i.tag ≠ t) : k.push t new st = none := by
  cases k
  · simp [Kind.push, readStack_none h]
  · simp [Kind.push, writeStack_none h]
  · simp [Kind.push, insertRaw_none h]

/-! ## Stacks -/

theorem update_some {σ : Stacks} {lo n : Nat} {f : List Item → Option (List Item)} (h : ∀ x, lo ≤ x → x < lo + n → ∃ st, f (σ.stack x) = some st) :
    σ.update lo n f = some { σ with stack := fun x => if lo ≤ x ∧ x < lo + n then (f (σ.stack x)).getD [] else σ.stack x } := by
  rw [Stacks.update, if_pos]
  refine List.all_eq_true.2 fun i hi => ?_
  obtain ⟨st, e⟩ := h (lo + i) (by omega) (by have := List.mem_range.1 hi; omega)
  rw [e]; rfl

theorem update_none {σ : Stacks} {lo n x : Nat} {f : List Item → Option (List Item)} (h1 : lo ≤ x) (h2 : x < lo + n) (h : f (σ.stack x) = none) : σ.update lo n f = none := by
  rw [Stacks.update, if_neg]
  intro hall
  have := List.all_eq_true.1 hall (x - lo) (List.mem_range.2 (by omega))
  rw [show lo + (x - lo) = x by omega, h] at this
  cases this

/-- `t` may read, and reading through it changes nothing. -/
def Clean (σ : Stacks) (t lo n : Nat) : Prop := ∀ x, lo ≤ x → x < lo + n → Clean1 t (σ.stack x)

/-- Only shared items were added. -/
structure Keep (σ σ' : Stacks) : Prop where
  ok : σ'.Ok
  next : σ.next ≤ σ'.next
  stack : ∀ x, ∃ pre, σ'.stack x = pre ++ σ.stack x ∧ ∀ j ∈ pre, j.perm = .sharedRO

theorem Keep.refl {σ : Stacks} (h : σ.Ok) : Keep σ σ := ⟨h, Nat.le_refl _, fun _ => ⟨[], rfl, by simp⟩⟩

theorem Keep.trans {σ σ' σ'' : Stacks} (h : Keep σ σ') (h' : Keep σ' σ'') : Keep σ σ'' := by
  refine ⟨h'.ok, Nat.le_trans h.next h'.next, fun x => ?_⟩
  obtain ⟨p, e, hp⟩ := h.stack x
  obtain ⟨p', e', hp'⟩ := h'.stack x
  refine ⟨p' ++ p, by rw [e', e, List.append_assoc], fun j hj => ?_⟩
  rcases List.mem_append.1 hj with h | h
  · exact hp' j h
  · exact hp j h

theorem Clean.keep {σ σ' : Stacks} {t lo n : Nat} (h : Clean σ t lo n) (k : Keep σ σ') : Clean σ' t lo n := by
  intro x h1 h2
  obtain ⟨pre, i, post, e, h3, h4, h5⟩ := h x h1 h2
  obtain ⟨p, e', hp⟩ := k.stack x
  refine ⟨p ++ pre, i, post, by rw [e', e, List.append_assoc], h3, h4, fun j hj => ?_⟩
  rcases List.mem_append.1 hj with h | h
  · rw [hp j h]; simp
  · exact h5 j h

theorem Clean.sub {σ : Stacks} {t lo n lo' n' : Nat} (h : Clean σ t lo n) (h1 : lo ≤ lo') (h2 : lo' + n' ≤ lo + n) : Clean σ t lo' n' := fun x h3 h4 => h x (by omega) (by omega)

theorem CanWrite.keep {σ σ' : Stacks} {t lo n : Nat} (h : CanWrite σ t lo n) (k : Keep σ σ') : CanWrite σ' t lo n := by
  intro x h1 h2
  obtain ⟨i, hi, h⟩ := h x h1 h2
  obtain ⟨p, e, _⟩ := k.stack x
  exact ⟨i, by rw [e]; simp [hi], h⟩

/-- Outside of its bytes, nothing mentions the tag. -/
def Nowhere (σ : Stacks) (t lo n : Nat) : Prop := ∀ x, ¬ (lo ≤ x ∧ x < lo + n) → ∀ i ∈ σ.stack x, i.tag ≠ t

theorem Nowhere.keep {σ σ' : Stacks} {t lo n : Nat} (hn : Nowhere σ t lo n) (ht : t < σ.next) (h : ∀ x, ∀ j ∈ σ'.stack x, (∃ i ∈ σ.stack x, i.tag = j.tag) ∨ σ.next ≤ j.tag) : Nowhere σ' t lo n := by
  intro x hx j hj e
  rcases h x j hj with ⟨i, hi, e'⟩ | h
  · exact hn x hx i hi (by omega)
  · omega

theorem read_clean {σ : Stacks} {t lo n : Nat} (h : Clean σ t lo n) : read t lo n σ = .ok ((), σ) := by
  have : σ.update lo n (readStack t) = some σ := by
    rw [update_some fun x h1 h2 => ⟨_, readStack_clean (h x h1 h2)⟩]
    congr 1
    cases σ with
    | mk stack next =>
      congr 1
      funext x
      split
      · rename_i hx; rw [readStack_clean (h x hx.1 hx.2)]; rfl
      · rfl
  rw [read, this]

/-- What making a reference does. -/
theorem retag_ok {σ : Stacks} {t lo n : Nat} {k : Kind} (hσ : σ.Ok) (h : ∀ x, lo ≤ x → x < lo + n → ∃ st, k.push t σ.next (σ.stack x) = some st ∧ (∀ j ∈ st, (∃ i ∈ σ.stack x, i.tag = j.tag) ∨ j.tag = σ.next)) :
    ∃ σ', retag t k lo n σ = .ok (σ.next, σ') ∧ σ'.Ok ∧ σ'.next = σ.next + 1 ∧ Nowhere σ' σ.next lo n ∧
      ∀ x, (lo ≤ x ∧ x < lo + n → k.push t σ.next (σ.stack x) = some (σ'.stack x)) ∧ (¬ (lo ≤ x ∧ x < lo + n) → σ'.stack x = σ.stack x) := by
  have hu := update_some (σ := σ) fun x h1 h2 => (h x h1 h2).imp fun _ h => h.1
  have hst : ∀ x, lo ≤ x ∧ x < lo + n → k.push t σ.next (σ.stack x) = some ((k.push t σ.next (σ.stack x)).getD []) := by
    intro x hx
    obtain ⟨st, e, _⟩ := h x hx.1 hx.2
    rw [e]; rfl
  refine ⟨_, by rw [retag, hu], ?_, rfl, ?_, fun x => ⟨fun hx => ?_, fun hx => ?_⟩⟩
  · intro x i hi
    simp only at hi
    split at hi
    · rename_i hx
      obtain ⟨st, e, hm⟩ := h x hx.1 hx.2
      rw [e] at hi
      rcases hm i hi with ⟨y, hy, e'⟩ | e'
      · have := hσ x y hy; simp only; omega
      · simp only; omega
    · have := hσ x i hi; simp only; omega
  · intro x hx i hi
    simp only [if_neg hx] at hi
    have := hσ x i hi
    omega
  · simp only [if_pos hx]; exact hst x hx
  · simp only [if_neg hx]

theorem retag_out {σ : Stacks} {t t' lo n lo' n' : Nat} {k : Kind} (h : Nowhere σ t lo n) (ht : t' = t) (hd : lo + n ≤ lo') (hn : 0 < n') : retag t' k lo' n' σ = .error .ub := by
  subst ht
  rw [retag, update_none (x := lo') (Nat.le_refl _) (by omega) (push_none (h lo' (by omega)))]

theorem retag_shr {σ : Stacks} {t lo n : Nat} (hσ : σ.Ok) (h : CanRead σ t lo n) :
    ∃ σ', retag t .shr lo n σ = .ok (σ.next, σ') ∧ σ'.Ok ∧ σ'.next = σ.next + 1 ∧ Nowhere σ' σ.next lo n ∧ Clean σ' σ.next lo n ∧
      (∀ x, ¬ (lo ≤ x ∧ x < lo + n) → σ'.stack x = σ.stack x) ∧ (CanWrite σ t lo n → CanWrite σ' t lo n) := by
  have key : ∀ x, lo ≤ x → x < lo + n → ∃ st, Kind.shr.push t σ.next (σ.stack x) = some st ∧ (∀ j ∈ st, (∃ i ∈ σ.stack x, i.tag = j.tag) ∨ j.tag = σ.next) := by
    intro x h1 h2
    obtain ⟨st, e, _, hm, _⟩ := readStack_some (h x h1 h2)
    refine ⟨_, by rw [Kind.push, e]; rfl, fun j hj => ?_⟩
    rcases List.mem_cons.1 hj with rfl | hj
    · exact .inr rfl
    · exact .inl (hm j hj)
  obtain ⟨σ', e, h1, h2, h3, h4⟩ := retag_ok hσ key
  refine ⟨σ', e, h1, h2, h3, fun x hx1 hx2 => ?_, fun x => (h4 x).2, fun hw x hx1 hx2 => ?_⟩
  · obtain ⟨st, e, _⟩ := readStack_some (h x hx1 hx2)
    have := (h4 x).1 ⟨hx1, hx2⟩
    rw [Kind.push, e] at this
    injection this with this
    exact ⟨[], _, st, this.symm, rfl, by simp, by simp⟩
  · obtain ⟨st, e, _, _, hw'⟩ := readStack_some (h x hx1 hx2)
    have := (h4 x).1 ⟨hx1, hx2⟩
    rw [Kind.push, e] at this
    injection this with this
    obtain ⟨i, hi, hi1, hi2⟩ := hw x hx1 hx2
    obtain ⟨j, hj, hj1, hj2⟩ := hw' ⟨i, hi, hi1, writes_iff.2 hi2⟩
    exact ⟨j, by rw [← this]; simp [hj], hj1, writes_iff.1 hj2⟩

theorem Clean.canRead {σ : Stacks} {t lo n : Nat} (h : Clean σ t lo n) : CanRead σ t lo n := by
  intro x h1 h2
  obtain ⟨pre, i, post, e, h3, h4, _⟩ := h x h1 h2
  exact ⟨i, by rw [e]; simp, h3, h4⟩

theorem CanWrite.canRead {σ : Stacks} {t lo n : Nat} (h : CanWrite σ t lo n) : CanRead σ t lo n := by
  intro x h1 h2
  obtain ⟨i, hi, h3, h4⟩ := h x h1 h2
  exact ⟨i, hi, h3, fun e => by rw [e] at h4; simp at h4⟩

theorem retag_clean {σ : Stacks} {t lo n : Nat} (hσ : σ.Ok) (h : Clean σ t lo n) :
    ∃ σ', retag t .shr lo n σ = .ok (σ.next, σ') ∧ Keep σ σ' ∧ σ'.next = σ.next + 1 ∧ Nowhere σ' σ.next lo n ∧ Clean σ' σ.next lo n := by
  have key : ∀ x, lo ≤ x → x < lo + n → ∃ st, Kind.shr.push t σ.next (σ.stack x) = some st ∧ (∀ j ∈ st, (∃ i ∈ σ.stack x, i.tag = j.tag) ∨ j.tag = σ.next) := by
    intro x h1 h2
    refine ⟨_, by rw [Kind.push, readStack_clean (h x h1 h2)]; rfl, fun j hj => ?_⟩
    rcases List.mem_cons.1 hj with rfl | hj
    · exact .inr rfl
    · exact .inl ⟨j, hj, rfl⟩
  obtain ⟨σ', e, h1, h2, h3, h4⟩ := retag_ok hσ key
  have hpush : ∀ x, lo ≤ x ∧ x < lo + n → σ'.stack x = ⟨σ.next, .sharedRO⟩ :: σ.stack x := by
    intro x hx
    have := (h4 x).1 hx
    rw [Kind.push, readStack_clean (h x hx.1 hx.2)] at this
    injection this with this
    exact this.symm
  refine ⟨σ', e, ⟨h1, by omega, fun x => ?_⟩, h2, h3, fun x hx1 hx2 => ?_⟩
  · by_cases hx : lo ≤ x ∧ x < lo + n
    · exact ⟨[⟨σ.next, .sharedRO⟩], hpush x hx, by simp⟩
    · exact ⟨[], (h4 x).2 hx, by simp⟩
  · exact ⟨[], _, σ.stack x, hpush x ⟨hx1, hx2⟩, rfl, by simp, by simp⟩

theorem retag_mut {σ : Stacks} {t lo n : Nat} {u : Bool} (hσ : σ.Ok) (h : CanWrite σ t lo n) :
    ∃ σ', retag t (.mutable u) lo n σ = .ok (σ.next, σ') ∧ σ'.Ok ∧ σ'.next = σ.next + 1 ∧ Nowhere σ' σ.next lo n ∧ CanWrite σ' σ.next lo n ∧ CanWrite σ' t lo n ∧
      (∀ x, ¬ (lo ≤ x ∧ x < lo + n) → σ'.stack x = σ.stack x) ∧
      (∀ x, lo ≤ x ∧ x < lo + n → ∃ st, readStack σ.next (σ'.stack x) = some st ∧ HasW t st) := by
  have hW : ∀ x, lo ≤ x → x < lo + n → HasW t (σ.stack x) := fun x h1 h2 => (h x h1 h2).imp fun i hi => ⟨hi.1, hi.2.1, writes_iff.2 hi.2.2⟩
  have key : ∀ x, lo ≤ x → x < lo + n → ∃ st, (Kind.mutable u).push t σ.next (σ.stack x) = some st ∧ (∀ j ∈ st, (∃ i ∈ σ.stack x, i.tag = j.tag) ∨ j.tag = σ.next) ∧
      HasW σ.next st ∧ HasW t st ∧ ∃ st', readStack σ.next st = some st' ∧ HasW t st' := by
    intro x h1 h2
    have hfr : ∀ i ∈ σ.stack x, i.tag ≠ σ.next := fun i hi => Nat.ne_of_lt (hσ x i hi)
    cases u with
    | true =>
      obtain ⟨st, e, ⟨i, hi, hi'⟩, hm⟩ := writeStack_some (hW x h1 h2)
      refine ⟨_, by simp only [Kind.mutable, if_pos, Kind.push, e]; rfl, fun j hj => ?_, ⟨_, List.mem_cons_self, rfl, rfl⟩, ⟨i, by simp [hi], hi'⟩,
        _, by rw [readStack, if_pos ⟨rfl, by simp⟩], ⟨i, by simp [hi], hi'⟩⟩
      rcases List.mem_cons.1 hj with rfl | hj
      · exact .inr rfl
      · exact .inl ⟨j, hm j hj, rfl⟩
    | false =>
      obtain ⟨st, e, hw1, hw2, hm, hr⟩ := insertRaw_some (new := σ.next) (hW x h1 h2)
      refine ⟨_, by simp only [Kind.mutable, Kind.push]; exact e, fun j hj => ?_, hw2, hw1, hr hfr⟩
      rcases hm j hj with h | rfl
      · exact .inl ⟨j, h, rfl⟩
      · exact .inr rfl
  obtain ⟨σ', e, h1, h2, h3, h4⟩ := retag_ok hσ fun x hx1 hx2 => (key x hx1 hx2).imp fun _ h => ⟨h.1, h.2.1⟩
  have hpt : ∀ x, lo ≤ x ∧ x < lo + n → HasW σ.next (σ'.stack x) ∧ HasW t (σ'.stack x) ∧ ∃ st', readStack σ.next (σ'.stack x) = some st' ∧ HasW t st' := by
    intro x hx
    obtain ⟨st, e, _, h5⟩ := key x hx.1 hx.2
    have := (h4 x).1 hx
    rw [e] at this
    injection this with this
    rw [← this]
    exact h5
  refine ⟨σ', e, h1, h2, h3, fun x hx1 hx2 => ?_, fun x hx1 hx2 => ?_, fun x => (h4 x).2, fun x hx => (hpt x hx).2.2⟩
  · exact (hpt x ⟨hx1, hx2⟩).1.imp fun i hi => ⟨hi.1, hi.2.1, writes_iff.1 hi.2.2⟩
  · exact (hpt x ⟨hx1, hx2⟩).2.1.imp fun i hi => ⟨hi.1, hi.2.1, writes_iff.1 hi.2.2⟩

theorem bind_ok {α β : Type} {x : S α} {f : α → S β} {σ σ' : Stacks} {a : α} (h : x σ = .ok (a, σ')) : (x >>= f) σ = f a σ' := by
  show (match x σ with | Except.error e => Except.error e | Except.ok (a, σ) => f a σ) = _
  rw [h]

theorem bind_error {α β : Type} {x : S α} {f : α → S β} {σ : Stacks} {e : Err} (h : x σ = .error e) : (x >>= f) σ = .error e := by
  show (match x σ with | Except.error e => Except.error e | Except.ok (a, σ) => f a σ) = _
  rw [h]

end Varlen.SB
