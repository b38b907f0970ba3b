import Verif.Proofs.StackedLib
/-! # Destruction in Stacked Borrows -/
namespace Varlen.SB
variable {w : Nat}

/-! ## The item at the bottom of a stack stays -/

def Bottom (t : Nat) (st : List Item) : Prop := st.getLast? = some ⟨t, .unique⟩

theorem bottom_cons {t : Nat} {i : Item} {st : List Item} (h : Bottom t st) : Bottom t (i :: st) := by
  cases st with
  | nil => cases h
  | cons j st => exact h

theorem bottom_hasW {t : Nat} {st : List Item} (h : Bottom t st) : HasW t st := ⟨_, List.mem_of_getLast? h, rfl, rfl⟩

theorem readStack_ne {t : Nat} : ∀ {st st' : List Item}, readStack t st = some st' → st' ≠ []
  | [], _, h => by cases h
  | i :: r, st', h => by
    rw [readStack] at h
    split at h
    · cases h; simp
    · simp only [Option.map_eq_some_iff] at h
      obtain ⟨_, _, rfl⟩ := h
      simp

theorem bottom_tail {t : Nat} {i : Item} {st : List Item} (h : Bottom t (i :: st)) (hne : st ≠ []) : Bottom t st := by
  cases st with
  | nil => exact absurd rfl hne
  | cons j st => exact h

theorem readStack_bottom {t b : Nat} : ∀ {st st' : List Item}, readStack t st = some st' → Bottom b st → Bottom b st'
  | [], _, h, _ => by cases h
  | i :: r, st', h, hb => by
    rw [readStack] at h
    split at h
    · cases h; exact hb
    · simp only [Option.map_eq_some_iff] at h
      obtain ⟨r', hr, rfl⟩ := h
      have hne : r ≠ [] := fun e => by subst e; cases hr
      exact bottom_cons (readStack_bottom hr (bottom_tail hb hne))

theorem writeStack_bottom {t b : Nat} : ∀ {st st' : List Item}, writeStack t st = some st' → Bottom b st → Bottom b st'
  | [], _, h, _ => by cases h
  | i :: r, st', h, hb => by
    rw [writeStack] at h
    split at h
    · cases h; exact hb
    · simp only [Option.map_eq_some_iff] at h
      obtain ⟨r', hr, rfl⟩ := h
      have hne : r ≠ [] := fun e => by subst e; cases hr
      have := writeStack_bottom hr (bottom_tail hb hne)
      split
      · exact bottom_cons this
      · exact this

theorem insertRaw_bottom {t new b : Nat} : ∀ {st st' : List Item}, insertRaw t new st = some st' → Bottom b st → Bottom b st'
  | [], _, h, _ => by cases h
  | i :: r, st', h, hb => by
    rw [insertRaw] at h
    split at h
    · cases h; exact bottom_cons hb
    · simp only [Option.map_eq_some_iff] at h
      obtain ⟨r', hr, rfl⟩ := h
      have hne : r ≠ [] := fun e => by subst e; cases hr
      exact bottom_cons (insertRaw_bottom hr (bottom_tail hb hne))

theorem push_bottom {k : Kind} {t new b : Nat} {st st' : List Item} (h : k.push t new st = some st') (hb : Bottom b st) : Bottom b st' := by
  cases k with
  | shr =>
    simp only [Kind.push, Option.map_eq_some_iff] at h
    obtain ⟨r, hr, rfl⟩ := h
    exact bottom_cons (readStack_bottom hr hb)
  | uniq =>
    simp only [Kind.push, Option.map_eq_some_iff] at h
    obtain ⟨r, hr, rfl⟩ := h
    exact bottom_cons (writeStack_bottom hr hb)
  | raw => exact insertRaw_bottom h hb

/-- The program leaves the items at the bottom. -/
structure Pres {α : Type} (m : S α) : Prop where
  keeps : ∀ σ r σ', m σ = .ok (r, σ') → ∀ b x, Bottom b (σ.stack x) → Bottom b (σ'.stack x)

theorem Pres.pure {α : Type} (a : α) : Pres (pure a : S α) := by
  constructor
  intro σ r σ' h b x hb
  cases h
  exact hb

theorem Pres.confused {α : Type} : Pres (confused : S α) := by
  constructor
  intro σ r σ' h
  cases h

theorem Pres.bind {α β : Type} {m : S α} {f : α → S β} (h : Pres m) (hf : ∀ a, Pres (f a)) : Pres (m >>= f) := by
  constructor
  intro σ r σ' e b x hb
  cases e1 : m σ with
  | error _ => rw [bind_error e1] at e; cases e
  | ok y =>
    obtain ⟨a, σ1⟩ := y
    rw [bind_ok e1] at e
    exact (hf a).keeps σ1 r σ' e b x (h.keeps σ a σ1 e1 b x hb)

theorem update_bottom {σ σ' : Stacks} {lo n : Nat} {f : List Item → Option (List Item)} (hf : ∀ b st st', f st = some st' → Bottom b st → Bottom b st') (h : σ.update lo n f = some σ') {b x : Nat}
    (hb : Bottom b (σ.stack x)) : Bottom b (σ'.stack x) := by
  rw [Stacks.update] at h
  split at h
  · rename_i hall
    cases h
    simp only
    split
    · rename_i hx
      have := List.all_eq_true.1 hall (x - lo) (List.mem_range.2 (by omega))
      rw [show lo + (x - lo) = x by omega, Option.isSome_iff_exists] at this
      obtain ⟨st, e⟩ := this
      rw [e]
      exact hf b _ _ e hb
    · exact hb
  · cases h

theorem Pres.retag (t : Nat) (k : Kind) (lo n : Nat) : Pres (retag t k lo n) := by
  constructor
  intro σ r σ' h b x hb
  rw [SB.retag] at h
  split at h
  · rename_i σ1 e
    cases h
    exact update_bottom (fun b st st' h hb => push_bottom h hb) e hb
  · cases h

theorem Pres.ite {α : Type} {c : Prop} [Decidable c] {m m' : S α} (h : Pres m) (h' : Pres m') : Pres (if c then m else m') := by
  split
  · exact h
  · exact h'

theorem dropVal_pres (U : Unpins w) (P : Plain) (t lo : Nat) : Pres (dropVal U P t lo) := .ite (.bind (.retag ..) fun _ => .pure _) (.pure _)

theorem dropElems_pres (U : Unpins w) (P : Plain) (t : Nat) : ∀ lo n, Pres (dropElems U P t lo n)
  | _, 0 => .pure _
  | lo, n + 1 => .bind (dropVal_pres ..) fun _ => dropElems_pres U P t _ n

theorem vdropFlds_pres {U : Unpins w} {a lo : Nat} : ∀ (fs : List (TyFld w)) ls, (∀ T, TyFld.varlen T ∈ fs → ∀ t lo l, Pres (vdropTy U T t lo l)) → Pres (vdropFlds U a lo fs ls)
  | [], _, _ => by simp only [vdropFlds]; exact .pure _
  | .normal P off :: fs, ls, ih => by simp only [vdropFlds]; exact .bind (dropVal_pres ..) fun _ => vdropFlds_pres fs ls fun T hT => ih T (by simp [hT])
  | .length P off :: fs, ls, ih => by simp only [vdropFlds]; exact .bind (dropVal_pres ..) fun _ => vdropFlds_pres fs ls fun T hT => ih T (by simp [hT])
  | .varlen T :: fs, [], ih => by simp only [vdropFlds]; exact .confused
  | .varlen T :: fs, (o, l) :: ls, ih => by
    simp only [vdropFlds]
    exact .bind (.retag ..) fun _ => .bind (ih T (by simp) _ _ _) fun _ => vdropFlds_pres fs ls fun T hT => ih T (by simp [hT])
  | .array P len :: fs, [], ih => by simp only [vdropFlds]; exact .confused
  | .array P len :: fs, (_, .fixed _) :: ls, ih => by simp only [vdropFlds]; exact .confused
  | .array P len :: fs, (_, .array _ _ _) :: ls, ih => by simp only [vdropFlds]; exact .confused
  | .array P len :: fs, (_, .fields _ _) :: ls, ih => by simp only [vdropFlds]; exact .confused
  | .array P len :: fs, (o, .len n) :: ls, ih => by
    simp only [vdropFlds]
    exact .bind (dropElems_pres ..) fun _ => vdropFlds_pres fs ls fun T hT => ih T (by simp [hT])

theorem vdropTys_eq (U : Unpins w) (a lo : Nat) : ∀ (Ts : List (Ty w)) (ls : List (BitVec w × Layout w)), vdropTys U a lo Ts ls = vdropFlds U a lo (Ts.map .varlen) ls
  | [], _ => by simp [vdropTys, vdropFlds]
  | T :: Ts, [] => by simp [vdropTys, vdropFlds]
  | T :: Ts, (o, l) :: ls => by simp [vdropTys, vdropFlds, vdropTys_eq U a lo Ts ls]

theorem vdropTy_pres {U : Unpins w} {T : Ty w} (hT : TyOk T) : ∀ t lo l, Pres (vdropTy U T t lo l) := by
  induction hT with
  | fixedLen _ => intro t lo l; simp only [vdropTy]; exact .bind (.retag ..) fun _ => dropVal_pres ..
  | array _ _ => intro t lo l; cases l <;> simp only [vdropTy] <;> first | exact .confused | exact .bind (.retag ..) fun _ => dropElems_pres ..
  | str _ _ => intro t lo l; simp only [vdropTy]; exact .bind (.retag ..) fun _ => .pure _
  | newtype _ ih => intro t lo l; simp only [vdropTy]; exact .bind (.retag ..) fun _ => .ite (.bind (.retag ..) fun _ => ih ..) (.pure _)
  | tuple _ _ ih =>
    intro t lo l
    cases l <;> simp only [vdropTy] <;> try exact .confused
    exact .bind (.retag ..) fun _ => .ite (by rw [vdropTys_eq]; exact vdropFlds_pres _ _ fun T hT => ih T (by simpa using hT)) (.pure _)
  | struct _ _ ih =>
    intro t lo l
    cases l <;> simp only [vdropTy] <;> try exact .confused
    exact .bind (.retag ..) fun _ => vdropFlds_pres _ _ ih

/-! ## When destruction is fine -/

/-- Either all is fine, and only the bytes `[lo, lo + n)` are concerned, or the behaviour is undefined. -/
def DoesV {α : Type} (c : Prop) (m : S α) (σ : Stacks) (lo n : Nat) : Prop :=
  (c → ∃ r σ', m σ = .ok (r, σ') ∧ σ'.Ok ∧ ∀ x, ¬ (lo ≤ x ∧ x < lo + n) → σ'.stack x = σ.stack x) ∧ (¬ c → m σ = .error .ub)

/-- In the head. -/
theorem dropVal_ok {U : Unpins w} {P : Plain} {σ : Stacks} {t lo : Nat} (hσ : σ.Ok) (h : CanWrite σ t lo P.ty.size) :
    ∃ σ', dropVal U P t lo σ = .ok ((), σ') ∧ σ'.Ok ∧ CanWrite σ' t lo P.ty.size ∧ ∀ x, ¬ (lo ≤ x ∧ x < lo + P.ty.size) → σ'.stack x = σ.stack x := by
  by_cases hd : P.ty.needsDrop = true
  · obtain ⟨σ1, e1, o1, _, _, _, c1, f1, _⟩ := retag_mut (u := U.plain P) hσ h
    refine ⟨σ1, ?_, o1, c1, f1⟩
    rw [dropVal, if_pos hd, bind_ok e1]; rfl
  · exact ⟨σ, by rw [dropVal, if_neg hd]; rfl, hσ, h, fun _ _ => rfl⟩

/-- Behind the head. -/
theorem dropElems_does {U : Unpins w} {P : Plain} {t lo hs : Nat} : ∀ (n lo' : Nat) {σ : Stacks}, lo + hs ≤ lo' → σ.Ok → Nowhere σ t lo hs →
    ((P.ty.needsDrop = true → n * P.ty.size = 0) → ∃ σ', dropElems U P t lo' n σ = .ok ((), σ') ∧ σ'.Ok ∧ ∀ x, σ'.stack x = σ.stack x) ∧
    (¬ (P.ty.needsDrop = true → n * P.ty.size = 0) → dropElems U P t lo' n σ = .error .ub)
  | 0, lo', σ, hl, hσ, hn => ⟨fun _ => ⟨σ, rfl, hσ, fun _ => rfl⟩, fun h => (h fun _ => Nat.zero_mul _).elim⟩
  | n + 1, lo', σ, hl, hσ, hn => by
    by_cases hd : P.ty.needsDrop = true
    · by_cases hz : P.ty.size = 0
      · obtain ⟨σ1, e1, o1, c1, f1⟩ := dropVal_ok (U := U) (P := P) (t := t) (lo := lo') hσ fun x h1 h2 => by omega
        have f1' : ∀ x, σ1.stack x = σ.stack x := fun x => f1 x (by omega)
        obtain ⟨h1, _⟩ := dropElems_does (U := U) (P := P) (t := t) n (lo' + P.ty.size) (lo := lo) (hs := hs) (by omega) o1 (fun x hx i hi => hn x hx i (by rw [← f1' x]; exact hi))
        refine ⟨fun _ => ?_, fun h => (h fun _ => by rw [hz, Nat.mul_zero]).elim⟩
        obtain ⟨σ2, e2, o2, f2⟩ := h1 fun _ => by rw [hz, Nat.mul_zero]
        exact ⟨σ2, by rw [dropElems, bind_ok e1, e2], o2, fun x => (f2 x).trans (f1' x)⟩
      · have hne : (n + 1) * P.ty.size ≠ 0 := Nat.mul_ne_zero (by omega) hz
        refine ⟨fun h => absurd (h hd) hne, fun _ => ?_⟩
        rw [dropElems]
        refine bind_error ?_
        rw [dropVal, if_pos hd]
        exact bind_error (retag_out hn rfl hl (by omega))
    · obtain ⟨h1, _⟩ := dropElems_does (U := U) (P := P) (t := t) n (lo' + P.ty.size) (lo := lo) (hs := hs) (by omega) hσ hn
      obtain ⟨σ2, e2, o2, f2⟩ := h1 fun h => absurd h hd
      exact ⟨fun _ => ⟨σ2, by rw [dropElems, dropVal, if_neg hd]; exact e2, o2, f2⟩, fun h => (h fun h => absurd h hd).elim⟩

/-- The condition for the fields. -/
def IdleFlds : List (TyFld w) → List (BitVec w × Layout w) → Prop
  | [], _ => True
  | .normal _ _ :: fs, ls => IdleFlds fs ls
  | .length _ _ :: fs, ls => IdleFlds fs ls
  | .varlen T :: fs, (_, l) :: ls => (T.sem.headSize = 0 ∧ Idle T l) ∧ IdleFlds fs ls
  | .array P _ :: fs, (_, .len n) :: ls => (P.ty.needsDrop = true → n.toNat * P.ty.size = 0) ∧ IdleFlds fs ls
  | _, _ => False

theorem idleFlds_iff {hs : Nat} : ∀ {fs : List (TyFld w)} {ls : List (BitVec w × Layout w)}, Fits hs fs ls → (IdleFlds fs ls ↔
    (∀ T l, (TyFld.varlen T, l) ∈ tails fs ls → T.sem.headSize = 0 ∧ Idle T l) ∧ ∀ P len n, (TyFld.array P len, Layout.len n) ∈ tails fs ls → P.ty.needsDrop = true → n.toNat * P.ty.size = 0)
  | [], ls, _ => by simp [IdleFlds, tails]
  | .normal P off :: fs, ls, hf => by
    rw [IdleFlds, idleFlds_iff hf.2, show tails (.normal P off :: fs) ls = tails fs ls by simp [tails, TyFld.isTail]]
  | .length P off :: fs, ls, hf => by
    rw [IdleFlds, idleFlds_iff hf.2, show tails (.length P off :: fs) ls = tails fs ls by simp [tails, TyFld.isTail]]
  | .varlen T :: fs, [], hf => hf.elim
  | .varlen T :: fs, (o, l) :: ls, hf => by
    rw [IdleFlds, idleFlds_iff hf.2, show tails (.varlen T :: fs) ((o, l) :: ls) = (.varlen T, l) :: tails fs ls from rfl]
    constructor
    · rintro ⟨h1, h2, h3⟩
      refine ⟨fun T' l' h => ?_, fun P len n h => h3 P len n (by simpa using h)⟩
      rcases List.mem_cons.1 h with h | h
      · cases h; exact h1
      · exact h2 T' l' h
    · exact fun h => ⟨h.1 T l (by simp), fun T' l' h' => h.1 T' l' (by simp [h']), fun P len n h' => h.2 P len n (by simp [h'])⟩
  | .array P len :: fs, [], hf => hf.elim
  | .array P len :: fs, (_, .fixed _) :: ls, hf => hf.elim
  | .array P len :: fs, (_, .array _ _ _) :: ls, hf => hf.elim
  | .array P len :: fs, (_, .fields _ _) :: ls, hf => hf.elim
  | .array P len :: fs, (o, .len n) :: ls, hf => by
    rw [IdleFlds, idleFlds_iff hf.2, show tails (.array P len :: fs) ((o, .len n) :: ls) = (.array P len, .len n) :: tails fs ls from rfl]
    constructor
    · rintro ⟨h1, h2, h3⟩
      refine ⟨fun T' l' h => h2 T' l' (by simpa using h), fun P' len' n' h => ?_⟩
      rcases List.mem_cons.1 h with h | h
      · cases h; exact h1
      · exact h3 P' len' n' h
    · exact fun h => ⟨h.2 P len n (by simp), fun T' l' h' => h.1 T' l' (by simp [h']), fun P len n h' => h.2 P len n (by simp [h'])⟩

theorem CanWrite.same {σ σ' : Stacks} {t lo n : Nat} (h : CanWrite σ t lo n) (e : ∀ x, σ'.stack x = σ.stack x) : CanWrite σ' t lo n := fun x h1 h2 => by rw [e x]; exact h x h1 h2
theorem Nowhere.same {σ σ' : Stacks} {t lo n : Nat} (h : Nowhere σ t lo n) (e : ∀ x, σ'.stack x = σ.stack x) : Nowhere σ' t lo n := fun x hx i hi => h x hx i (by rw [← e x]; exact hi)

theorem vdropFlds_does {U : Unpins w} {lo hs a : Nat} : ∀ (fs : List (TyFld w)) (ls : List (BitVec w × Layout w)) {σ : Stacks},
    (∀ T, TyFld.varlen T ∈ fs → ∀ t lo l σ, Lays T l → σ.Ok → CanWrite σ t lo T.sem.headSize → DoesV (Idle T l) (vdropTy U T t lo l) σ lo T.sem.headSize) →
    Fits hs fs ls → σ.Ok → CanWrite σ a lo hs → Nowhere σ a lo hs → DoesV (IdleFlds fs ls) (vdropFlds U a lo fs ls) σ lo hs
  | [], _, σ, _, _, hσ, _, _ => ⟨fun _ => ⟨(), σ, by simp only [vdropFlds]; rfl, hσ, fun _ _ => rfl⟩, fun h => (h trivial).elim⟩
  | .normal P off :: fs, ls, σ, ih, hf, hσ, hc, hnw => by
    have := hf.1
    obtain ⟨σ1, e1, o1, c1, f1⟩ := dropVal_ok (U := U) hσ (hc.sub (lo' := lo + off) (n' := P.ty.size) (by omega) (by omega))
    have h := vdropFlds_does (U := U) fs ls (fun T hT => ih T (by simp [hT])) hf.2 o1 (hc.glue c1 f1) (hnw.step (by omega) (by omega) f1)
    simp only [vdropFlds]
    rw [DoesV, bind_ok e1, IdleFlds]
    refine ⟨fun hn => ?_, h.2⟩
    obtain ⟨r, σ2, e2, o2, f2⟩ := h.1 hn
    exact ⟨r, σ2, e2, o2, fun x hx => (f2 x hx).trans (f1 x (by omega))⟩
  | .length P off :: fs, ls, σ, ih, hf, hσ, hc, hnw => by
    have := hf.1
    obtain ⟨σ1, e1, o1, c1, f1⟩ := dropVal_ok (U := U) hσ (hc.sub (lo' := lo + off) (n' := P.ty.size) (by omega) (by omega))
    have h := vdropFlds_does (U := U) fs ls (fun T hT => ih T (by simp [hT])) hf.2 o1 (hc.glue c1 f1) (hnw.step (by omega) (by omega) f1)
    simp only [vdropFlds]
    rw [DoesV, bind_ok e1, IdleFlds]
    refine ⟨fun hn => ?_, h.2⟩
    obtain ⟨r, σ2, e2, o2, f2⟩ := h.1 hn
    exact ⟨r, σ2, e2, o2, fun x hx => (f2 x hx).trans (f1 x (by omega))⟩
  | .varlen T :: fs, [], σ, _, hf, _, _, _ => hf.elim
  | .varlen T :: fs, (o, l) :: ls, σ, ih, hf, hσ, hc, hnw => by
    obtain ⟨⟨ho, _, hlay⟩, hf'⟩ := hf
    simp only [vdropFlds]
    by_cases h0 : T.sem.headSize = 0
    · obtain ⟨σ1, e1, o1, _, _, _, _, f1, _⟩ := retag_mut (u := U.ty T) (t := a) (lo := lo + o.toNat) (n := T.sem.headSize) hσ fun x h1 h2 => by omega
      have f1' : ∀ x, σ1.stack x = σ.stack x := fun x => f1 x (by omega)
      have hT := ih T (by simp) σ.next (lo + o.toNat) l σ1 hlay o1 fun x h1 h2 => by omega
      rw [DoesV, bind_ok e1, IdleFlds]
      by_cases hi : Idle T l
      · obtain ⟨r, σ2, e2, o2, f2⟩ := hT.1 hi
        have f2' : ∀ x, σ2.stack x = σ.stack x := fun x => (f2 x (by omega)).trans (f1' x)
        have h := vdropFlds_does (U := U) fs ls (fun T hT => ih T (by simp [hT])) hf' o2 (hc.same f2') (hnw.same f2')
        rw [bind_ok e2]
        refine ⟨fun hn => ?_, fun hn => h.2 fun h' => hn ⟨⟨h0, hi⟩, h'⟩⟩
        obtain ⟨r, σ3, e3, o3, f3⟩ := h.1 hn.2
        exact ⟨r, σ3, e3, o3, fun x hx => (f3 x hx).trans (f2' x)⟩
      · exact ⟨fun hn => absurd hn.1.2 hi, fun _ => bind_error (hT.2 hi)⟩
    · exact ⟨fun hn => absurd hn.1.1 h0, fun _ => bind_error (retag_out hnw rfl (by omega) (by omega))⟩
  | .array P len :: fs, [], σ, _, hf, _, _, _ => hf.elim
  | .array P len :: fs, (_, .fixed _) :: ls, σ, _, hf, _, _, _ => hf.elim
  | .array P len :: fs, (_, .array _ _ _) :: ls, σ, _, hf, _, _, _ => hf.elim
  | .array P len :: fs, (_, .fields _ _) :: ls, σ, _, hf, _, _, _ => hf.elim
  | .array P len :: fs, (o, .len n) :: ls, σ, ih, hf, hσ, hc, hnw => by
    have ho := hf.1
    obtain ⟨h1, h2⟩ := dropElems_does (U := U) (P := P) (t := a) n.toNat (lo + o.toNat) (lo := lo) (hs := hs) (by omega) hσ hnw
    simp only [vdropFlds]
    rw [DoesV, IdleFlds]
    by_cases hz : P.ty.needsDrop = true → n.toNat * P.ty.size = 0
    · obtain ⟨σ1, e1, o1, f1⟩ := h1 hz
      have h := vdropFlds_does (U := U) fs ls (fun T hT => ih T (by simp [hT])) hf.2 o1 (hc.same f1) (hnw.same f1)
      rw [bind_ok e1]
      refine ⟨fun hn => ?_, fun hn => h.2 fun h' => hn ⟨hz, h'⟩⟩
      obtain ⟨r, σ2, e2, o2, f2⟩ := h.1 hn.2
      exact ⟨r, σ2, e2, o2, fun x hx => (f2 x hx).trans (f1 x)⟩
    · exact ⟨fun hn => absurd hn.1 hz, fun _ => bind_error (h2 hz)⟩

theorem idle_struct {hs ha : Nat} {fs : List (TyFld w)} {size : BitVec w} {ls : List (BitVec w × Layout w)} (hf : Fits hs fs ls) : Idle (.struct hs ha fs) (.fields size ls) ↔ IdleFlds fs ls := by
  rw [idleFlds_iff hf]
  exact ⟨fun h => by cases h with | struct h1 h2 h3 => exact ⟨fun T l h => ⟨h1 T l h, h2 T l h⟩, h3⟩, fun h => .struct (fun T l h' => (h.1 T l h').1) (fun T l h' => (h.1 T l h').2) h.2⟩

theorem idle_tuple {Ts : List (Ty w)} {size : BitVec w} {ls : List (BitVec w × Layout w)} (hf : Fits 0 (Ts.map .varlen) ls) :
    Idle (.tuple Ts) (.fields size ls) ↔ ((∃ T ∈ Ts, T.sem.NEEDS_VDROP = true) → IdleFlds (Ts.map .varlen) ls) := by
  rw [idleFlds_iff hf]
  constructor
  · intro h hn
    cases h with
    | tuple h1 h2 =>
      refine ⟨fun T l h => ⟨h1 hn T l h, h2 hn T l h⟩, fun P len n h => ?_⟩
      have := (List.of_mem_zip h).1
      simp at this
  · exact fun h => .tuple (fun hn T l h' => ((h hn).1 T l h').1) fun hn T l h' => ((h hn).1 T l h').2

theorem tuple_needs {Ts : List (Ty w)} : (Ty.tuple Ts).sem.NEEDS_VDROP = true ↔ ∃ T ∈ Ts, T.sem.NEEDS_VDROP = true := by
  show (Ty.sems Ts).any (·.NEEDS_VDROP) = true ↔ _
  induction Ts with
  | nil => simp [Ty.sems]
  | cons T Ts ih => simp only [Ty.sems, List.any_cons, Bool.or_eq_true, ih, List.mem_cons, exists_eq_or_imp]

/-- `vdrop`. -/
theorem vdropTy_does {U : Unpins w} {T : Ty w} (hT : TyOk T) : ∀ (t lo : Nat) (l : Layout w) (σ : Stacks), Lays T l → σ.Ok → CanWrite σ t lo T.sem.headSize →
    DoesV (Idle T l) (vdropTy U T t lo l) σ lo T.sem.headSize := by
  induction hT with
  | @fixedLen P _ =>
    intro t lo l σ _ hσ hc
    obtain ⟨σ1, e1, o1, _, _, c1, _, f1, _⟩ := retag_mut (u := U.ty (.fixedLen P)) (n := P.ty.size) hσ hc
    obtain ⟨σ2, e2, o2, _, f2⟩ := dropVal_ok (U := U) o1 c1
    refine ⟨fun _ => ⟨(), σ2, ?_, o2, fun x hx => (f2 x hx).trans (f1 x hx)⟩, fun h => (h (.fixedLen ..)).elim⟩
    simp only [vdropTy]
    exact (bind_ok e1).trans e2
  | @array P L hP _ =>
    intro t lo l σ hl hσ hc
    obtain ⟨v, ov, o, n, size, xs, rfl, rfl, _, ho, _⟩ := hl
    obtain ⟨σ1, e1, o1, _, w1, c1, _, f1, _⟩ := retag_mut (u := U.ty (.array P L)) (n := L.bytes) hσ hc
    have := roundUpN_ge L.bytes P.ty.align hP.align_pos
    obtain ⟨h1, h2⟩ := dropElems_does (U := U) (P := P) (t := σ.next) n.toNat (lo + o.toNat) (lo := lo) (hs := L.bytes) (by omega) o1 w1
    simp only [vdropTy]
    rw [DoesV, bind_ok e1]
    refine ⟨fun hn => ?_, fun hn => h2 fun h => hn (.array h)⟩
    cases hn with
    | array hn =>
      obtain ⟨σ2, e2, o2, f2⟩ := h1 hn
      exact ⟨(), σ2, e2, o2, fun x hx => (f2 x).trans (f1 x hx)⟩
  | @str L _ _ =>
    intro t lo l σ _ hσ hc
    obtain ⟨σ1, e1, o1, _, _, _, _, f1, _⟩ := retag_mut (u := U.ty (.str L)) (n := L.bytes) hσ hc
    refine ⟨fun _ => ⟨(), σ1, ?_, o1, f1⟩, fun h => (h (.str ..)).elim⟩
    simp only [vdropTy]
    exact bind_ok e1
  | @newtype T _ ih =>
    intro t lo l σ hl hσ hc
    obtain ⟨v, o, hl, _⟩ := hl
    obtain ⟨σ1, e1, o1, _, _, c1, _, f1, _⟩ := retag_mut (u := U.ty (.newtype T)) (n := T.sem.headSize) hσ hc
    simp only [vdropTy]
    rw [DoesV, bind_ok e1]
    by_cases hn : T.sem.NEEDS_VDROP = true
    · obtain ⟨σ2, e2, o2, _, _, c2, _, f2, _⟩ := retag_mut (u := U.ty T) (n := T.sem.headSize) o1 c1
      have h := ih σ1.next lo l σ2 ⟨v, o, hl⟩ o2 c2
      rw [if_pos hn, bind_ok e2]
      refine ⟨fun hi => ?_, fun hi => h.2 fun h' => hi (.newtype fun _ => h')⟩
      cases hi with
      | newtype hi =>
        obtain ⟨r, σ3, e3, o3, f3⟩ := h.1 (hi hn)
        exact ⟨r, σ3, e3, o3, fun x hx => (f3 x hx).trans ((f2 x hx).trans (f1 x hx))⟩
    · rw [if_neg hn]
      exact ⟨fun _ => ⟨(), σ1, rfl, o1, f1⟩, fun h => (h (.newtype fun h => absurd h hn)).elim⟩
  | @tuple Ts hne hT ih =>
    intro t lo l σ hl hσ hc
    obtain ⟨size, ls, rfl, hf⟩ := tuple_fits (.tuple hne hT) hl
    obtain ⟨σ1, e1, o1, _, w1, c1, _, f1, _⟩ := retag_mut (u := U.ty (.tuple Ts)) (n := 0) hσ hc
    simp only [vdropTy]
    rw [DoesV, bind_ok e1, idle_tuple hf, ← tuple_needs]
    by_cases hn : (Ty.tuple Ts).sem.NEEDS_VDROP = true
    · have h := vdropFlds_does (U := U) (Ts.map .varlen) ls (fun T hT' => ih T (by simpa using hT')) hf o1 c1 w1
      rw [if_pos hn, vdropTys_eq]
      refine ⟨fun hi => ?_, fun hi => h.2 fun h' => hi fun _ => h'⟩
      obtain ⟨r, σ2, e2, o2, f2⟩ := h.1 (hi hn)
      exact ⟨r, σ2, e2, o2, fun x hx => (f2 x hx).trans (f1 x hx)⟩
    · rw [if_neg hn]
      exact ⟨fun _ => ⟨(), σ1, rfl, o1, f1⟩, fun h => (h fun h => absurd h hn).elim⟩
  | @struct hs ha fs hh hT ih =>
    intro t lo l σ hl hσ hc
    obtain ⟨size, ls, rfl, hf⟩ := struct_fits (.struct hh hT) hl
    obtain ⟨σ1, e1, o1, _, w1, c1, _, f1, _⟩ := retag_mut (u := U.ty (.struct hs ha fs)) (n := hs) hσ hc
    have h := vdropFlds_does (U := U) fs ls ih hf o1 c1 w1
    simp only [vdropTy]
    rw [DoesV, bind_ok e1, idle_struct hf]
    refine ⟨fun hi => ?_, h.2⟩
    obtain ⟨r, σ2, e2, o2, f2⟩ := h.1 hi
    exact ⟨r, σ2, e2, o2, fun x hx => (f2 x hx).trans (f1 x hx)⟩

theorem write_ok {σ : Stacks} {t lo n : Nat} (h : CanWrite σ t lo n) : ∃ σ', write t lo n σ = .ok ((), σ') := by
  have := update_some (σ := σ) (lo := lo) (n := n) (f := writeStack t) fun x h1 h2 => by
    obtain ⟨i, hi, h3, h4⟩ := h x h1 h2
    obtain ⟨st, e, _⟩ := writeStack_some ⟨i, hi, h3, writes_iff.2 h4⟩
    exact ⟨st, e⟩
  exact ⟨_, by rw [write, this]⟩

theorem Allocated.canWrite {σ : Stacks} {t lo n : Nat} (h : Allocated σ t lo n) : CanWrite σ t lo n := fun x h1 h2 => ⟨_, List.mem_of_getLast? (h x h1 h2), rfl, .inl rfl⟩

theorem keep_bottom {σ σ' : Stacks} (k : Keep σ σ') {b x : Nat} (h : Bottom b (σ.stack x)) : Bottom b (σ'.stack x) := by
  obtain ⟨pre, e, hp⟩ := k.stack x
  rw [e]
  clear e hp
  induction pre with
  | nil => exact h
  | cons i pre ih => exact bottom_cons ih

/-- `Drop for VBox`. -/
theorem boxDrop_does {U : Unpins w} {T : Ty w} (hT : TyOk T) {t lo : Nat} {l : Layout w} {σ : Stacks} (hl : Lays T l) (hh : T.sem.headSize ≤ l.size.toNat) (hσ : σ.Ok) (ha : Allocated σ t lo l.size.toNat) :
    DoesM (Headless T ∧ Idle T l) (boxDrop U T t lo l) σ := by
  have hw := ha.canWrite.sub (lo' := lo) (n' := T.sem.headSize) (by omega) (by omega)
  obtain ⟨σ1, e1, o1, _, _, c1, _, cw1⟩ := retag_shr hσ hw.canRead
  have h1 := calcTy_does hT σ.next lo l σ1 hl o1 c1
  rw [DoesM, Fine, boxDrop, bind_ok e1]
  by_cases hn : Headless T
  · obtain ⟨r, σ2, e2, k2⟩ := h1.1 hn
    obtain ⟨σ3, e3, o3, _, _, c3, _, _, _⟩ := retag_mut (u := U.ty T) k2.ok ((cw1 hw).keep k2)
    have h2 := vdropTy_does (U := U) hT σ2.next lo l σ3 hl o3 c3
    rw [bind_ok e2, bind_ok e3]
    refine ⟨fun h => ?_, fun h => bind_error (h2.2 fun h' => h ⟨hn, h'⟩)⟩
    obtain ⟨r, σ4, e4, o4, _⟩ := h2.1 h.2
    rw [bind_ok e4]
    have hb : ∀ x, lo ≤ x → x < lo + l.size.toNat → Bottom t (σ4.stack x) := fun x hx1 hx2 =>
      (vdropTy_pres hT _ _ _).keeps _ _ _ e4 t x ((Pres.retag _ _ _ _).keeps _ _ _ e3 t x (keep_bottom k2 ((Pres.retag _ _ _ _).keeps _ _ _ e1 t x (ha x hx1 hx2))))
    obtain ⟨σ5, e5⟩ := write_ok (σ := σ4) (t := t) (lo := lo) (n := l.size.toNat) (Allocated.canWrite hb)
    exact ⟨_, e5⟩
  · exact ⟨fun h => absurd h.1 hn, fun _ => bind_error (h1.2 hn)⟩

end Varlen.SB
