import Verif.Proofs.StackedSeq
/-! # The operations on an object concern only its bytes -/
namespace Varlen.SB
variable {w : Nat}

theorem Only.pure {α : Type} (lo n : Nat) (a : α) : Only lo n (pure a : S α) := by
  intro σ σ' r e x _
  injection e with e
  injection e with _ e
  rw [e]

theorem Only.confused {α : Type} (lo n : Nat) : Only lo n (confused : S α) := by
  intro σ σ' r e
  cases e

theorem Only.bind {α β : Type} {lo n : Nat} {m : S α} {f : α → S β} (h : Only lo n m) (hf : ∀ a, Only lo n (f a)) : Only lo n (m >>= f) := by
  intro σ σ' r e x hx
  cases h1 : m σ with
  | error e1 => rw [bind_error h1] at e; cases e
  | ok q =>
    obtain ⟨a, σ1⟩ := q
    rw [bind_ok h1] at e
    rw [hf a σ1 σ' r e x hx, h σ σ1 a h1 x hx]

theorem Only.ite {α : Type} {lo n : Nat} {c : Prop} [Decidable c] {m m' : S α} (h : Only lo n m) (h' : Only lo n m') : Only lo n (if c then m else m') := by
  split
  · exact h
  · exact h'

theorem update_out {σ σ' : Stacks} {lo n : Nat} {f : List Item → Option (List Item)} (h : σ.update lo n f = some σ') {x : Nat} (hx : ¬ (lo ≤ x ∧ x < lo + n)) : σ'.stack x = σ.stack x := by
  rw [Stacks.update] at h
  split at h
  · injection h with h
    subst h
    exact if_neg hx
  · cases h

theorem Only.retag {lo n : Nat} (t : Nat) (k : Kind) {lo' n' : Nat} (h1 : lo ≤ lo') (h2 : lo' + n' ≤ lo + n) : Only lo n (retag t k lo' n') := by
  intro σ σ' r e x hx
  rw [SB.retag] at e
  split at e
  · next σ1 h =>
    injection e with e
    injection e with _ e
    subst e
    exact update_out h (x := x) (by omega)
  · cases e

theorem Only.read {lo n : Nat} (t : Nat) {lo' n' : Nat} (h1 : lo ≤ lo') (h2 : lo' + n' ≤ lo + n) : Only lo n (read t lo' n') := by
  intro σ σ' r e x hx
  rw [SB.read] at e
  split at e
  · next σ1 h =>
    injection e with e
    injection e with _ e
    subst e
    exact update_out h (x := x) (by omega)
  · cases e

theorem Only.write {lo n : Nat} (t : Nat) {lo' n' : Nat} (h1 : lo ≤ lo') (h2 : lo' + n' ≤ lo + n) : Only lo n (write t lo' n') := by
  intro σ σ' r e x hx
  rw [SB.write] at e
  split at e
  · next σ1 h =>
    injection e with e
    injection e with _ e
    subst e
    exact update_out h (x := x) (by omega)
  · cases e

theorem Only.mono {α : Type} {lo n lo' n' : Nat} {m : S α} (h : Only lo' n' m) (h1 : lo ≤ lo') (h2 : lo' + n' ≤ lo + n) : Only lo n m :=
  fun σ σ' r e x hx => h σ σ' r e x (by omega)

theorem lengths_only {lo hs n : Nat} (hn : hs ≤ n) (a : Nat) : ∀ (fs : List (TyFld w)) (ls : List (BitVec w × Layout w)), Fits hs fs ls → Only lo n (lengths a lo fs)
  | [], _, _ => .pure _ _ _
  | .length P off :: fs, ls, h => by
    have := h.1
    exact .bind (.retag _ _ (by omega) (by omega)) fun _ => .bind (.read _ (by omega) (by omega)) fun _ => lengths_only hn a fs ls h.2
  | .normal P off :: fs, ls, h => lengths_only hn a fs ls h.2
  | .varlen T :: fs, [], h => h.elim
  | .varlen T :: fs, _ :: ls, h => lengths_only hn a fs ls h.2
  | .array P len :: fs, [], h => h.elim
  | .array P len :: fs, (o, l) :: ls, h => by
    have h' : Fits hs fs ls := by cases l <;> simp only [Fits] at h; exact h.2
    exact lengths_only hn a fs ls h'

theorem calcFlds_only {lo hs n : Nat} (hn : hs ≤ n) (a : Nat) : ∀ (fs : List (TyFld w)) (ls : List (BitVec w × Layout w)), Inside n fs ls →
    (∀ T, TyFld.varlen T ∈ fs → ∀ t lo l, Lays T l → Only lo l.size.toNat (calcTy T t lo l)) → Only lo n (calcFlds a lo hs fs ls)
  | [], _, _, _ => by simp only [calcFlds]; exact .pure _ _ _
  | .normal P off :: fs, ls, h, ih => by simp only [calcFlds]; exact calcFlds_only hn a fs ls h fun T hT => ih T (by simp [hT])
  | .length P off :: fs, ls, h, ih => by simp only [calcFlds]; exact calcFlds_only hn a fs ls h fun T hT => ih T (by simp [hT])
  | .varlen T :: fs, [], h, _ => h.elim
  | .varlen T :: fs, (o, l) :: ls, ⟨⟨h1, h2, h3⟩, h4⟩, ih => by
    have hh := tyOk_head_le h2 h3
    simp only [calcFlds]
    exact .bind (.retag _ _ (by omega) (by omega)) fun _ => .bind (.retag _ _ (by omega) (by omega)) fun _ =>
      .bind ((ih T (by simp) _ _ _ h3).mono (by omega) (by omega)) fun _ => calcFlds_only hn a fs ls h4 fun T hT => ih T (by simp [hT])
  | .array P len :: fs, [], h, _ => h.elim
  | .array P len :: fs, (o, l) :: ls, h, ih => by
    have h' : Inside n fs ls := by cases l <;> simp only [Inside] at h; exact h.2
    simp only [calcFlds]
    exact calcFlds_only hn a fs ls h' fun T hT => ih T (by simp [hT])

theorem calcTy_only {T : Ty w} (hT : TyOk T) : ∀ (t lo : Nat) (l : Layout w), Lays T l → Only lo l.size.toNat (calcTy T t lo l) := by
  induction hT with
  | @fixedLen P h =>
    intro t lo l hl
    have hh : P.ty.size ≤ l.size.toNat := tyOk_head_le (.fixedLen h) hl
    simp only [calcTy]
    exact .bind (.retag _ _ (by omega) (by omega)) fun _ => .pure _ _ _
  | @array P L h h' =>
    intro t lo l hl
    have hh : L.bytes ≤ l.size.toNat := tyOk_head_le (.array h h') hl
    simp only [calcTy]
    exact .bind (.retag _ _ (by omega) (by omega)) fun _ => .read _ (by omega) (by omega)
  | @str L h h' =>
    intro t lo l hl
    have hh : L.bytes ≤ l.size.toNat := tyOk_head_le (.str h h') hl
    simp only [calcTy]
    exact .bind (.retag _ _ (by omega) (by omega)) fun _ => .bind (.retag _ _ (by omega) (by omega)) fun _ => .bind (.retag _ _ (by omega) (by omega)) fun _ => .read _ (by omega) (by omega)
  | @newtype T hT ih =>
    intro t lo l hl
    have hh : T.sem.headSize ≤ l.size.toNat := tyOk_head_le (.newtype hT) hl
    obtain ⟨v, o, hl, _⟩ := hl
    simp only [calcTy]
    exact .bind (.retag _ _ (by omega) (by omega)) fun _ => .bind (.retag _ _ (by omega) (by omega)) fun _ => ih _ _ _ ⟨v, o, hl⟩
  | @tuple Ts hne hT ih =>
    intro t lo l hl
    obtain ⟨size, ls, rfl, hf⟩ := tuple_fits (.tuple hne hT) hl
    have hi := tuple_inside (.tuple hne hT) hl
    simp only [calcTy]
    refine .bind (.retag _ _ (by omega) (by omega)) fun a => ?_
    rw [calcTys_eq]
    exact calcFlds_only (n := size.toNat) (Nat.zero_le _) a _ _ hi fun T hT' => ih T (by simpa using hT')
  | @struct hs ha fs hh hT ih =>
    intro t lo l hl
    obtain ⟨size, ls, rfl, hf⟩ := struct_fits (.struct hh hT) hl
    obtain ⟨hn, hi⟩ := struct_inside (.struct hh hT) hl
    simp only [calcTy]
    exact .bind (.retag (n := size.toNat) _ _ (by omega) (by omega)) fun a => .bind (lengths_only hn a _ _ hf) fun _ => calcFlds_only (n := size.toNat) hn a _ _ hi ih

theorem dropVal_only {U : Unpins w} {P : Plain} {lo n lo' : Nat} (t : Nat) (h1 : lo ≤ lo') (h2 : lo' + P.ty.size ≤ lo + n) : Only lo n (dropVal U P t lo') :=
  .ite (.bind (.retag _ _ h1 h2) fun _ => .pure _ _ _) (.pure _ _ _)

theorem dropElems_only {U : Unpins w} {P : Plain} {lo n : Nat} (t : Nat) : ∀ (k lo' : Nat), lo ≤ lo' → lo' + k * P.ty.size ≤ lo + n → Only lo n (dropElems U P t lo' k)
  | 0, _, _, _ => .pure _ _ _
  | k + 1, lo', h1, h2 => by
    have hm : (k + 1) * P.ty.size = k * P.ty.size + P.ty.size := Nat.succ_mul ..
    exact .bind (dropVal_only t h1 (by omega)) fun _ => dropElems_only t k _ (by omega) (by omega)

theorem vdropFlds_only {U : Unpins w} {lo hs n : Nat} (hn : hs ≤ n) (a : Nat) : ∀ (fs : List (TyFld w)) (ls : List (BitVec w × Layout w)), Fits hs fs ls → Inside n fs ls →
    (∀ T, TyFld.varlen T ∈ fs → ∀ t lo l, Lays T l → Only lo l.size.toNat (vdropTy U T t lo l)) → Only lo n (vdropFlds U a lo fs ls)
  | [], _, _, _, _ => by simp only [vdropFlds]; exact .pure _ _ _
  | .normal P off :: fs, ls, hf, h, ih => by
    have := hf.1
    simp only [vdropFlds]
    exact .bind (dropVal_only _ (by omega) (by omega)) fun _ => vdropFlds_only hn a fs ls hf.2 h fun T hT => ih T (by simp [hT])
  | .length P off :: fs, ls, hf, h, ih => by
    have := hf.1
    simp only [vdropFlds]
    exact .bind (dropVal_only _ (by omega) (by omega)) fun _ => vdropFlds_only hn a fs ls hf.2 h fun T hT => ih T (by simp [hT])
  | .varlen T :: fs, [], hf, _, _ => hf.elim
  | .varlen T :: fs, (o, l) :: ls, hf, ⟨⟨h1, h2, h3⟩, h4⟩, ih => by
    have hh := tyOk_head_le h2 h3
    simp only [vdropFlds]
    exact .bind (.retag _ _ (by omega) (by omega)) fun _ => .bind ((ih T (by simp) _ _ _ h3).mono (by omega) (by omega)) fun _ => vdropFlds_only hn a fs ls hf.2 h4 fun T hT => ih T (by simp [hT])
  | .array P len :: fs, [], hf, _, _ => hf.elim
  | .array P len :: fs, (o, .len k) :: ls, hf, h, ih => by
    simp only [vdropFlds]
    have := h.1
    exact .bind (dropElems_only _ _ _ (by omega) (by omega)) fun _ => vdropFlds_only hn a fs ls hf.2 h.2 fun T hT => ih T (by simp [hT])
  | .array P len :: fs, (o, .fixed ..) :: ls, hf, h, ih => hf.elim
  | .array P len :: fs, (o, .array ..) :: ls, hf, h, ih => hf.elim
  | .array P len :: fs, (o, .fields ..) :: ls, hf, h, ih => hf.elim

theorem vdropTy_only {U : Unpins w} {T : Ty w} (hT : TyOk T) : ∀ (t lo : Nat) (l : Layout w), Lays T l → Only lo l.size.toNat (vdropTy U T t lo l) := by
  induction hT with
  | @fixedLen P h =>
    intro t lo l hl
    have hh : P.ty.size ≤ l.size.toNat := tyOk_head_le (.fixedLen h) hl
    simp only [vdropTy]
    exact .bind (.retag _ _ (by omega) (by omega)) fun _ => dropVal_only _ (by omega) (by omega)
  | @array P L h h' =>
    intro t lo l hl
    have hh : L.bytes ≤ l.size.toNat := tyOk_head_le (.array h h') hl
    obtain ⟨v, ov, off, k', size', xs, rfl, rfl, _, _, ho, hs, _⟩ := hl
    have hh' : L.bytes ≤ size'.toNat := hh
    have hs' : size'.toNat = off.toNat + k'.toNat * P.ty.size := hs
    simp only [vdropTy]
    exact .bind (.retag (n := size'.toNat) _ _ (by omega) (by omega)) fun _ => dropElems_only (n := size'.toNat) _ _ _ (by omega) (by omega)
  | @str L h h' =>
    intro t lo l hl
    have hh : L.bytes ≤ l.size.toNat := tyOk_head_le (.str h h') hl
    simp only [vdropTy]
    exact .bind (.retag _ _ (by omega) (by omega)) fun _ => .pure _ _ _
  | @newtype T hT ih =>
    intro t lo l hl
    have hh : T.sem.headSize ≤ l.size.toNat := tyOk_head_le (.newtype hT) hl
    obtain ⟨v, o, hl, _⟩ := hl
    simp only [vdropTy]
    exact .bind (.retag _ _ (by omega) (by omega)) fun _ => .ite (.bind (.retag _ _ (by omega) (by omega)) fun _ => ih _ _ _ ⟨v, o, hl⟩) (.pure _ _ _)
  | @tuple Ts hne hT ih =>
    intro t lo l hl
    obtain ⟨size, ls, rfl, hf⟩ := tuple_fits (.tuple hne hT) hl
    have hi := tuple_inside (.tuple hne hT) hl
    simp only [vdropTy]
    refine .bind (.retag _ _ (by omega) (by omega)) fun a => .ite ?_ (.pure _ _ _)
    rw [vdropTys_eq]
    exact vdropFlds_only (n := size.toNat) (Nat.zero_le _) a _ _ hf hi fun T hT' => ih T (by simpa using hT')
  | @struct hs ha fs hh hT ih =>
    intro t lo l hl
    obtain ⟨size, ls, rfl, hf⟩ := struct_fits (.struct hh hT) hl
    obtain ⟨hn, hi⟩ := struct_inside (.struct hh hT) hl
    simp only [vdropTy]
    exact .bind (.retag (n := size.toNat) _ _ (by omega) (by omega)) fun a => vdropFlds_only (n := size.toNat) hn a _ _ hf hi ih

theorem refFields_only {lo hs n : Nat} (hn : hs ≤ n) (a : Nat) : ∀ (fs : List (TyFld w)) (ls : List (BitVec w × Layout w)), Fits hs fs ls → Inside n fs ls → Only lo n (refFields a lo hs fs ls)
  | [], _, _, _ => .pure _ _ _
  | .normal P off :: fs, ls, hf, h => by
    have := hf.1
    simp only [refFields]
    exact .bind (.retag _ _ (by omega) (by omega)) fun _ => .bind (refFields_only hn a fs ls hf.2 h) fun _ => .pure _ _ _
  | .length P off :: fs, ls, hf, h => by
    have := hf.1
    simp only [refFields]
    exact .bind (.retag _ _ (by omega) (by omega)) fun _ => .bind (refFields_only hn a fs ls hf.2 h) fun _ => .pure _ _ _
  | .varlen T :: fs, [], hf, _ => hf.elim
  | .varlen T :: fs, (o, l) :: ls, hf, ⟨⟨h1, h2, h3⟩, h4⟩ => by
    have hh := tyOk_head_le h2 h3
    simp only [refFields]
    exact .bind (.retag _ _ (by omega) (by omega)) fun _ => .bind (.retag _ _ (by omega) (by omega)) fun _ => .bind (refFields_only hn a fs ls hf.2 h4) fun _ => .pure _ _ _
  | .array P len :: fs, [], hf, _ => hf.elim
  | .array P len :: fs, (o, .len k) :: ls, hf, h => by
    simp only [refFields]
    have := h.1
    exact .bind (.retag _ _ (by omega) (by omega)) fun _ => .bind (.retag _ _ (by omega) (by omega)) fun _ => .bind (refFields_only hn a fs ls hf.2 h.2) fun _ => .pure _ _ _
  | .array P len :: fs, (o, .fixed ..) :: ls, hf, h => hf.elim
  | .array P len :: fs, (o, .array ..) :: ls, hf, h => hf.elim
  | .array P len :: fs, (o, .fields ..) :: ls, hf, h => hf.elim

theorem mutFields_only {U : Unpins w} {lo hs n : Nat} (hn : hs ≤ n) (a : Nat) : ∀ (fs : List (TyFld w)) (ls : List (BitVec w × Layout w)), Fits hs fs ls → Inside n fs ls → Only lo n (mutFields U a lo fs ls)
  | [], _, _, _ => .pure _ _ _
  | .normal P off :: fs, ls, hf, h => by
    have := hf.1
    simp only [mutFields]
    exact .bind (.retag _ _ (by omega) (by omega)) fun _ => .bind (mutFields_only hn a fs ls hf.2 h) fun _ => .pure _ _ _
  | .length P off :: fs, ls, hf, h => by
    have := hf.1
    simp only [mutFields]
    exact .bind (.retag _ _ (by omega) (by omega)) fun _ => .bind (.retag _ _ (by omega) (by omega)) fun _ => .bind (mutFields_only hn a fs ls hf.2 h) fun _ => .pure _ _ _
  | .varlen T :: fs, [], hf, _ => hf.elim
  | .varlen T :: fs, (o, l) :: ls, hf, ⟨⟨h1, h2, h3⟩, h4⟩ => by
    have hh := tyOk_head_le h2 h3
    simp only [mutFields]
    exact .bind (.retag _ _ (by omega) (by omega)) fun _ => .bind (mutFields_only hn a fs ls hf.2 h4) fun _ => .pure _ _ _
  | .array P len :: fs, [], hf, _ => hf.elim
  | .array P len :: fs, (o, .len k) :: ls, hf, h => by
    simp only [mutFields]
    have := h.1
    exact .bind (.retag _ _ (by omega) (by omega)) fun _ => .bind (mutFields_only hn a fs ls hf.2 h.2) fun _ => .pure _ _ _
  | .array P len :: fs, (o, .fixed ..) :: ls, hf, h => hf.elim
  | .array P len :: fs, (o, .array ..) :: ls, hf, h => hf.elim
  | .array P len :: fs, (o, .fields ..) :: ls, hf, h => hf.elim

theorem refs_only {hs : Nat} {fs : List (TyFld w)} {size : BitVec w} {ls : List (BitVec w × Layout w)} (hn : hs ≤ size.toNat) (hf : Fits hs fs ls) (hi : Inside size.toNat fs ls) (t lo : Nat) :
    Only lo size.toNat (refs hs fs t lo (.fields size ls)) := by
  rw [refs]
  exact .bind (.retag _ _ (by omega) (by omega)) fun _ => .bind (.retag _ _ (by omega) (by omega)) fun _ => .bind (lengths_only hn _ _ _ hf) fun _ =>
    .bind (calcFlds_only hn _ _ _ hi fun T h => calcTy_only (fits_tyOk hf T h)) fun _ => refFields_only hn _ _ _ hf hi

theorem muts_only {U : Unpins w} {u : Bool} {hs : Nat} {fs : List (TyFld w)} {size : BitVec w} {ls : List (BitVec w × Layout w)} (hn : hs ≤ size.toNat) (hf : Fits hs fs ls) (hi : Inside size.toNat fs ls) (t lo : Nat) :
    Only lo size.toNat (muts U u hs fs t lo (.fields size ls)) := by
  rw [muts]
  exact .bind (.retag _ _ (by omega) (by omega)) fun _ => .bind (.retag _ _ (by omega) (by omega)) fun _ => .bind (lengths_only hn _ _ _ hf) fun _ =>
    .bind (calcFlds_only hn _ _ _ hi fun T h => calcTy_only (fits_tyOk hf T h)) fun _ => .bind (.retag _ _ (by omega) (by omega)) fun _ => mutFields_only hn _ _ _ hf hi

theorem fillSlots_only {U : Unpins w} {P : Plain} {lo n : Nat} (t : Nat) : ∀ (k lo' : Nat), lo ≤ lo' → lo' + k * P.ty.size ≤ lo + n → Only lo n (fillSlots U P t lo' k)
  | 0, _, _, _ => .pure _ _ _
  | k + 1, lo', h1, h2 => by
    have hm : (k + 1) * P.ty.size = k * P.ty.size + P.ty.size := Nat.succ_mul ..
    exact .bind (.retag _ _ h1 (by omega)) fun _ => .bind (.write _ h1 (by omega)) fun _ => fillSlots_only t k _ (by omega) (by omega)

theorem initArray_only {U : Unpins w} {P : Plain} {lo n lo' k : Nat} (t : Nat) (h1 : lo ≤ lo') (h2 : lo' + k * P.ty.size ≤ lo + n) : Only lo n (initArray U P t lo' k) :=
  .bind (.retag _ _ h1 h2) fun _ => .bind (.retag _ _ h1 h2) fun _ => fillSlots_only _ k _ h1 h2

/-- Initializers write only to the object. -/
theorem inits_only {U : Unpins w} {t : Nat} {T : Ty w} {lo : Nat} {l : Layout w} {m : S Unit} (h : Inits U t T lo l m) : TyOk T → Lays T l → Only lo l.size.toNat m := by
  refine Inits.rec (U := U) (t := t) (motive_1 := fun T lo l m _ => TyOk T → Lays T l → Only lo l.size.toNat m)
    (motive_2 := fun lo fs ls m _ => ∀ fin, Inside fin fs ls → Only lo fin m) ?_ ?_ ?_ ?_ ?_ ?_ ?_ ?_ ?_ ?_ ?_ h
  · intro T lo l _ _
    exact .write _ (by omega) (by omega)
  · intro P L lo o k size hT hl
    have hh := tyOk_head_le hT hl
    obtain ⟨v, ov, off, k', size', xs, rfl, e, _, _, ho, hs, _⟩ := hl
    cases e
    have hh' : L.bytes ≤ size.toNat := hh
    exact .bind (initArray_only (n := size.toNat) _ (by omega) (by omega)) fun _ => .write (n := size.toNat) _ (by omega) (by omega)
  · intro P L lo o k size hP hT hl
    have hh := tyOk_head_le hT hl
    obtain ⟨v, ov, ⟨off, k', size', xs, rfl, e, _, _, ho, hs, _⟩, _⟩ := hl
    cases e
    have hh' : L.bytes ≤ size.toNat := hh
    have hs' : size.toNat = o.toNat + k.toNat * 1 := hs
    exact .bind (initArray_only (n := size.toNat) _ (by omega) (by rw [hP]; omega)) fun _ => .write (n := size.toNat) _ (by omega) (by omega)
  · intro T lo l m _ ih hT hl
    obtain ⟨v, o, hl, _⟩ := hl
    cases hT with
    | newtype hT => exact ih hT ⟨v, o, hl⟩
  · intro Ts lo size ls m _ ih hT hl
    exact .bind (ih _ (tuple_inside hT hl)) fun _ => .write (n := size.toNat) _ (by omega) (by omega)
  · intro hs ha fs lo size ls m _ ih hT hl
    obtain ⟨h1, h2⟩ := struct_inside hT hl
    exact .bind (ih _ h2) fun _ => .write (n := size.toNat) _ (by omega) (by omega)
  · intro lo fin _
    exact .pure _ _ _
  · intro P off lo fs ls m _ ih fin hi
    exact ih fin hi
  · intro P off lo fs ls m _ ih fin hi
    exact ih fin hi
  · intro T lo o l fs ls m m' _ _ ih ih' fin hi
    obtain ⟨⟨h1, h2, h3⟩, h4⟩ := hi
    exact .bind ((ih h2 h3).mono (by omega) (by omega)) fun _ => ih' fin h4
  · intro P len lo o k fs ls m _ ih fin hi
    exact .bind (initArray_only _ (by omega) (by have := hi.1; omega)) fun _ => ih fin hi.2

end Varlen.SB
