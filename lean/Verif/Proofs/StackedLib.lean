import Verif.Proofs.StackedBorrows
/-! # The library's references in Stacked Borrows -/
namespace Varlen.SB
variable {w : Nat}

/-- There are objects with this layout. -/
abbrev Lays (T : Ty w) (l : Layout w) : Prop := ∃ v o, T.sem.Rep v l o

/-- The tail fields start behind the head. -/
def Fits (hs : Nat) : List (TyFld w) → List (BitVec w × Layout w) → Prop
  | [], _ => True
  | .normal P off :: fs, ls => off + P.ty.size ≤ hs ∧ Fits hs fs ls
  | .length P off :: fs, ls => off + P.ty.size ≤ hs ∧ Fits hs fs ls
  | .varlen T :: fs, (o, l) :: ls => (hs ≤ o.toNat ∧ TyOk T ∧ Lays T l) ∧ Fits hs fs ls
  | .array _ _ :: fs, (o, .len _) :: ls => hs ≤ o.toNat ∧ Fits hs fs ls
  | _, _ => False

theorem fits_of {hs : Nat} {lens : List Img} {o : View} : ∀ (fs : List (TyFld w)) vs ls cur fin, hs ≤ cur → (∀ T, .varlen T ∈ fs → TyOk T) →
    (∀ P off, TyFld.normal P off ∈ fs → off + P.ty.size ≤ hs) → (∀ P off, TyFld.length P off ∈ fs → off + P.ty.size ≤ hs) → (∀ P len, TyFld.array P len ∈ fs → P.ty.Ok w) →
    RepTails lens (TyFld.sems fs) vs ls cur fin o → Fits hs fs ls
  | [], _, _, _, _, _, _, _, _, _, _ => trivial
  | f :: fs, vs, ls, cur, fin, hc, hT, hn, hl, ha, h => by
    have ih := fun vs ls cur fin hc h => fits_of (hs := hs) (lens := lens) (o := o) fs vs ls cur fin hc (fun T h => hT T (by simp [h])) (fun P off h => hn P off (by simp [h])) (fun P off h => hl P off (by simp [h]))
      (fun P off h => ha P off (by simp [h])) h
    cases vs with
    | nil => cases f <;> simp [TyFld.sems, TyFld.sem, RepTails] at h
    | cons v vs =>
      cases f with
      | normal P off => simp only [TyFld.sems, TyFld.sem, RepTails] at h; exact ⟨hn P off (by simp), ih _ _ _ _ hc h⟩
      | length P off => simp only [TyFld.sems, TyFld.sem, RepTails] at h; exact ⟨hl P off (by simp), ih _ _ _ _ hc h⟩
      | varlen T =>
        rcases ls with _ | ⟨⟨o', l'⟩, ls⟩
        · simp [TyFld.sems, TyFld.sem, RepTails] at h
        · simp only [TyFld.sems, TyFld.sem, RepTails] at h
          have hT' := hT T (by simp)
          have := roundUpN_ge cur T.sem.ALIGN.toNat hT'.lib.lawful.align_pow2.pos
          have ho := h.1.1
          exact ⟨⟨by omega, hT', v, _, h.1.2⟩, ih _ _ _ _ (by omega) h.2⟩
      | array P len =>
        rcases ls with _ | ⟨⟨o', l'⟩, ls⟩
        · simp [TyFld.sems, TyFld.sem, RepTails] at h
        · cases v <;> cases l' <;> simp only [TyFld.sems, TyFld.sem, RepTails] at h
          have := roundUpN_ge cur P.ty.align (ha P len (by simp)).align_pos
          have ho := h.1.1
          exact ⟨by omega, ih _ _ _ _ (by omega) h.2⟩

theorem mem_sems {f : TyFld w} {fs : List (TyFld w)} (h : f ∈ fs) : f.sem ∈ TyFld.sems fs := by rw [TyFld.sems_eq]; exact List.mem_map_of_mem h

theorem struct_fits {hs ha : Nat} {fs : List (TyFld w)} (h : TyOk (.struct hs ha fs)) {l : Layout w} (hl : Lays (.struct hs ha fs) l) : ∃ size ls, l = .fields size ls ∧ Fits hs fs ls := by
  cases h with
  | struct hh hT =>
    obtain ⟨v, o, vs, ls, size, rfl, rfl, _, hr⟩ := hl
    exact ⟨size, ls, rfl, fits_of fs vs ls hs size.toNat (Nat.le_refl _) hT (fun P off h => (hh.normal _ _ (mem_sems h)).2.1) (fun P off h => (hh.length _ _ (mem_sems h)).2.1)
      (fun P len h => hh.array _ _ (mem_sems h)) hr⟩

theorem sems_varlen : ∀ (Ts : List (Ty w)), (Ty.sems Ts).map Fld.varlen = TyFld.sems (Ts.map .varlen)
  | [] => rfl
  | T :: Ts => by rw [Ty.sems, List.map_cons, sems_varlen Ts]; rfl

theorem tuple_fits {Ts : List (Ty w)} (h : TyOk (.tuple Ts)) {l : Layout w} (hl : Lays (.tuple Ts) l) : ∃ size ls, l = .fields size ls ∧ Fits 0 (Ts.map .varlen) ls := by
  cases h with
  | tuple hne hT =>
    obtain ⟨v, o, vs, ls, size, rfl, rfl, _, hr⟩ := hl
    rw [sems_varlen] at hr
    refine ⟨size, ls, rfl, fits_of _ vs ls 0 size.toNat (Nat.le_refl _) (fun T h => ?_) (fun P off h => ?_) (fun P off h => ?_) (fun P len h => ?_) hr⟩
    all_goals simp at h
    exact hT T h

theorem calcTys_eq (a lo : Nat) : ∀ (Ts : List (Ty w)) (ls : List (BitVec w × Layout w)), calcTys a lo Ts ls = calcFlds a lo 0 (Ts.map .varlen) ls
  | [], _ => by simp [calcTys, calcFlds]
  | T :: Ts, [] => by simp [calcTys, calcFlds]
  | T :: Ts, (o, l) :: ls => by simp [calcTys, calcFlds, calcTys_eq a lo Ts ls]

/-- Either all is fine, or the behaviour is undefined. -/
def Does {α : Type} (c : Prop) (m : S α) (σ : Stacks) : Prop := (c → ∃ r σ', m σ = .ok (r, σ') ∧ Keep σ σ') ∧ (¬ c → m σ = .error .ub)

theorem lengths_ok {lo hs : Nat} : ∀ (fs : List (TyFld w)) (ls : List (BitVec w × Layout w)) {σ : Stacks} {a : Nat}, Fits hs fs ls → σ.Ok → Clean σ a lo hs →
    ∃ σ', lengths a lo fs σ = .ok ((), σ') ∧ Keep σ σ'
  | [], _, σ, a, _, hσ, _ => ⟨σ, rfl, .refl hσ⟩
  | .normal _ _ :: fs, ls, σ, a, hf, hσ, hc => lengths_ok fs ls hf.2 hσ hc
  | .varlen _ :: fs, (_, _) :: ls, σ, a, hf, hσ, hc => lengths_ok fs ls hf.2 hσ hc
  | .varlen _ :: fs, [], σ, a, hf, hσ, hc => hf.elim
  | .array _ _ :: fs, (_, .len _) :: ls, σ, a, hf, hσ, hc => lengths_ok fs ls hf.2 hσ hc
  | .array _ _ :: fs, (_, .fixed _) :: ls, σ, a, hf, hσ, hc => hf.elim
  | .array _ _ :: fs, (_, .array _ _ _) :: ls, σ, a, hf, hσ, hc => hf.elim
  | .array _ _ :: fs, (_, .fields _ _) :: ls, σ, a, hf, hσ, hc => hf.elim
  | .array _ _ :: fs, [], σ, a, hf, hσ, hc => hf.elim
  | .length P off :: fs, ls, σ, a, hf, hσ, hc => by
    have := hf.1
    obtain ⟨σ1, e1, k1, _, _, c1⟩ := retag_clean hσ (hc.sub (lo' := lo + off) (n' := P.ty.size) (by omega) (by omega))
    obtain ⟨σ2, e2, k2⟩ := lengths_ok fs ls hf.2 k1.ok (hc.keep k1)
    refine ⟨σ2, ?_, k1.trans k2⟩
    rw [lengths, bind_ok e1, bind_ok (read_clean c1), e2]

/-- No field has bytes in its head. -/
def NoHeads (fs : List (TyFld w)) : Prop := ∀ T, TyFld.varlen T ∈ fs → T.sem.headSize = 0 ∧ Headless T

theorem noHeads_cons {f : TyFld w} {fs : List (TyFld w)} : NoHeads (f :: fs) ↔ (∀ T, f = .varlen T → T.sem.headSize = 0 ∧ Headless T) ∧ NoHeads fs := by
  constructor
  · exact fun h => ⟨fun T e => h T (by simp [e]), fun T hT => h T (by simp [hT])⟩
  · intro h T hT
    rcases List.mem_cons.1 hT with e | hT
    · exact h.1 T e.symm
    · exact h.2 T hT

theorem calcFlds_does {lo hs : Nat} : ∀ (fs : List (TyFld w)) (ls : List (BitVec w × Layout w)) {σ : Stacks} {a : Nat},
    (∀ T, TyFld.varlen T ∈ fs → ∀ t lo l σ, Lays T l → σ.Ok → Clean σ t lo T.sem.headSize → Does (Headless T) (calcTy T t lo l) σ) →
    Fits hs fs ls → σ.Ok → Clean σ a lo hs → Does (NoHeads fs) (calcFlds a lo hs fs ls) σ
  | [], _, σ, a, _, _, hσ, _ => ⟨fun _ => ⟨(), σ, by simp only [calcFlds]; rfl, .refl hσ⟩, fun h => (h (fun T hT => by cases hT)).elim⟩
  | .normal P off :: fs, ls, σ, a, ih, hf, hσ, hc => by
    have h := calcFlds_does fs ls (fun T hT => ih T (by simp [hT])) hf.2 hσ hc
    simp only [calcFlds]
    exact ⟨fun hn => h.1 (noHeads_cons.1 hn).2, fun hn => h.2 fun h' => hn (noHeads_cons.2 ⟨fun T e => (by cases e), h'⟩)⟩
  | .length P off :: fs, ls, σ, a, ih, hf, hσ, hc => by
    have h := calcFlds_does fs ls (fun T hT => ih T (by simp [hT])) hf.2 hσ hc
    simp only [calcFlds]
    exact ⟨fun hn => h.1 (noHeads_cons.1 hn).2, fun hn => h.2 fun h' => hn (noHeads_cons.2 ⟨fun T e => (by cases e), h'⟩)⟩
  | .array P len :: fs, [], σ, a, ih, hf, hσ, hc => hf.elim
  | .array P len :: fs, (_, l) :: ls, σ, a, ih, hf, hσ, hc => by
    have hf' : Fits hs fs ls := by cases l <;> simp only [Fits] at hf; exact hf.2
    have h := calcFlds_does fs ls (fun T hT => ih T (by simp [hT])) hf' hσ hc
    simp only [calcFlds]
    exact ⟨fun hn => h.1 (noHeads_cons.1 hn).2, fun hn => h.2 fun h' => hn (noHeads_cons.2 ⟨fun T e => (by cases e), h'⟩)⟩
  | .varlen T :: fs, [], σ, a, ih, hf, hσ, hc => hf.elim
  | .varlen T :: fs, (o, l) :: ls, σ, a, ih, hf, hσ, hc => by
    obtain ⟨⟨ho, _, hlay⟩, hf'⟩ := hf
    obtain ⟨σ1, e1, k1, n1, w1, c1⟩ := retag_clean hσ hc
    simp only [calcFlds]
    rw [Does, bind_ok e1]
    by_cases h0 : T.sem.headSize = 0
    · have cz : Clean σ1 σ.next (lo + o.toNat) T.sem.headSize := fun x h1 h2 => by omega
      obtain ⟨σ2, e2, k2, n2, w2, c2⟩ := retag_clean k1.ok cz
      have hT := ih T (by simp) σ1.next (lo + o.toNat) l σ2 hlay k2.ok (fun x h1 h2 => by omega)
      rw [bind_ok e2]
      by_cases hh : Headless T
      · obtain ⟨r, σ3, e3, k3⟩ := hT.1 hh
        rw [bind_ok e3]
        have k := k1.trans (k2.trans k3)
        have h := calcFlds_does fs ls (fun T hT => ih T (by simp [hT])) hf' k.ok (hc.keep k)
        refine ⟨fun hn => ?_, fun hn => h.2 fun h' => hn (noHeads_cons.2 ⟨fun T' e => by cases e; exact ⟨h0, hh⟩, h'⟩)⟩
        obtain ⟨r, σ4, e4, k4⟩ := h.1 (noHeads_cons.1 hn).2
        exact ⟨r, σ4, e4, k.trans k4⟩
      · exact ⟨fun hn => absurd (hn T (by simp)).2 hh, fun _ => bind_error (hT.2 hh)⟩
    · exact ⟨fun hn => absurd (hn T (by simp)).1 h0, fun _ => bind_error (retag_out w1 rfl (by omega) (by omega))⟩

theorem headless_struct {hs ha : Nat} {fs : List (TyFld w)} : Headless (.struct hs ha fs) ↔ NoHeads fs :=
  ⟨fun h T hT => by cases h with | struct h1 h2 => exact ⟨h1 T hT, h2 T hT⟩, fun h => .struct (fun T hT => (h T hT).1) fun T hT => (h T hT).2⟩

theorem headless_tuple {Ts : List (Ty w)} : Headless (.tuple Ts) ↔ NoHeads (Ts.map TyFld.varlen) :=
  ⟨fun h T hT => by simp at hT; cases h with | tuple h1 h2 => exact ⟨h1 T hT, h2 T hT⟩,
   fun h => .tuple (fun T hT => (h T (List.mem_map_of_mem hT)).1) fun T hT => (h T (List.mem_map_of_mem hT)).2⟩

/-- `calculate_layout`. -/
theorem calcTy_does {T : Ty w} (hT : TyOk T) : ∀ (t lo : Nat) (l : Layout w) (σ : Stacks), Lays T l → σ.Ok → Clean σ t lo T.sem.headSize → Does (Headless T) (calcTy T t lo l) σ := by
  induction hT with
  | @fixedLen P _ =>
    intro t lo l σ _ hσ hc
    obtain ⟨σ1, e1, k1, _⟩ := retag_clean hσ hc
    refine ⟨fun _ => ⟨(), σ1, ?_, k1⟩, fun h => (h (.fixedLen _)).elim⟩
    simp only [calcTy]
    exact bind_ok e1
  | @array P L _ _ =>
    intro t lo l σ _ hσ hc
    obtain ⟨σ1, e1, k1, _, _, c1⟩ := retag_clean hσ hc
    refine ⟨fun _ => ⟨(), σ1, ?_, k1⟩, fun h => (h (.array ..)).elim⟩
    simp only [calcTy]
    exact (bind_ok e1).trans (read_clean c1)
  | @str L _ _ =>
    intro t lo l σ _ hσ hc
    obtain ⟨σ1, e1, k1, _, _, c1⟩ := retag_clean hσ hc
    obtain ⟨σ2, e2, k2, _, _, c2⟩ := retag_clean k1.ok c1
    obtain ⟨σ3, e3, k3, _, _, c3⟩ := retag_clean k2.ok c2
    refine ⟨fun _ => ⟨(), σ3, ?_, k1.trans (k2.trans k3)⟩, fun h => (h (.str ..)).elim⟩
    simp only [calcTy]
    exact (bind_ok e1).trans ((bind_ok e2).trans ((bind_ok e3).trans (read_clean c3)))
  | @newtype T _ ih =>
    intro t lo l σ hl hσ hc
    obtain ⟨v, o, hl, _⟩ := hl
    obtain ⟨σ1, e1, k1, _, _, c1⟩ := retag_clean (n := T.sem.headSize) hσ hc
    obtain ⟨σ2, e2, k2, _, _, c2⟩ := retag_clean k1.ok c1
    have h := ih σ1.next lo l σ2 ⟨v, o, hl⟩ k2.ok c2
    simp only [calcTy]
    rw [Does, bind_ok e1, bind_ok e2]
    refine ⟨fun hn => ?_, fun hn => h.2 fun h' => hn (.newtype h')⟩
    cases hn with
    | newtype hn =>
      obtain ⟨r, σ3, e3, k3⟩ := h.1 hn
      exact ⟨r, σ3, e3, k1.trans (k2.trans k3)⟩
  | @tuple Ts hne hT ih =>
    intro t lo l σ hl hσ hc
    obtain ⟨size, ls, rfl, hf⟩ := tuple_fits (.tuple hne hT) hl
    obtain ⟨σ1, e1, k1, _, _, c1⟩ := retag_clean (n := 0) hσ hc
    have h := calcFlds_does (lo := lo) (Ts.map .varlen) ls (fun T hT' => ih T (by simpa using hT')) hf k1.ok c1
    simp only [calcTy]
    rw [Does, bind_ok e1, calcTys_eq, headless_tuple]
    refine ⟨fun hn => ?_, h.2⟩
    obtain ⟨r, σ2, e2, k2⟩ := h.1 hn
    exact ⟨r, σ2, e2, k1.trans k2⟩
  | @struct hs ha fs hh hT ih =>
    intro t lo l σ hl hσ hc
    obtain ⟨size, ls, rfl, hf⟩ := struct_fits (.struct hh hT) hl
    obtain ⟨σ1, e1, k1, _, _, c1⟩ := retag_clean (n := hs) hσ hc
    obtain ⟨σ2, e2, k2⟩ := lengths_ok fs ls hf k1.ok c1
    have h := calcFlds_does (lo := lo) fs ls ih hf k2.ok (c1.keep k2)
    simp only [calcTy]
    rw [Does, bind_ok e1, bind_ok e2, headless_struct]
    refine ⟨fun hn => ?_, h.2⟩
    obtain ⟨r, σ3, e3, k3⟩ := h.1 hn
    exact ⟨r, σ3, e3, k1.trans (k2.trans k3)⟩

theorem fits_tyOk {hs : Nat} : ∀ {fs : List (TyFld w)} {ls : List (BitVec w × Layout w)}, Fits hs fs ls → ∀ T, TyFld.varlen T ∈ fs → TyOk T
  | [], _, _, T, hT => by cases hT
  | .normal _ _ :: fs, ls, h, T, hT => fits_tyOk h.2 T (by simpa using hT)
  | .length _ _ :: fs, ls, h, T, hT => fits_tyOk h.2 T (by simpa using hT)
  | .varlen T' :: fs, (o, l) :: ls, h, T, hT => by
    rcases List.mem_cons.1 hT with e | hT
    · cases e; exact h.1.2.1
    · exact fits_tyOk h.2 T hT
  | .varlen _ :: fs, [], h, T, hT => h.elim
  | .array _ _ :: fs, [], h, T, hT => h.elim
  | .array _ _ :: fs, (_, l) :: ls, h, T, hT => by
    have hf' : Fits hs fs ls := by cases l <;> simp only [Fits] at h; exact h.2
    exact fits_tyOk hf' T (by simpa using hT)

/-- All references to tail fields are empty. -/
def Empties (fs : List (TyFld w)) (ls : List (BitVec w × Layout w)) : Prop := (∀ T, TyFld.varlen T ∈ fs → T.sem.headSize = 0) ∧ ∀ n ∈ arraySizes fs ls, n = 0

theorem refFields_does {lo hs : Nat} : ∀ (fs : List (TyFld w)) (ls : List (BitVec w × Layout w)) {σ : Stacks} {a : Nat}, Fits hs fs ls → σ.Ok → Clean σ a lo hs →
    Does (Empties fs ls) (refFields a lo hs fs ls) σ
  | [], ls, σ, a, _, hσ, _ => ⟨fun _ => ⟨[], σ, by simp only [refFields]; rfl, .refl hσ⟩, fun h => (h ⟨fun T hT => (by cases hT), fun n hn => (by simp [arraySizes] at hn)⟩).elim⟩
  | .normal P off :: fs, ls, σ, a, hf, hσ, hc => by
    have := hf.1
    obtain ⟨σ1, e1, k1, _, _, c1⟩ := retag_clean hσ (hc.sub (lo' := lo + off) (n' := P.ty.size) (by omega) (by omega))
    have h := refFields_does fs ls hf.2 k1.ok (hc.keep k1)
    have he : Empties (.normal P off :: fs) ls ↔ Empties fs ls := by simp [Empties, arraySizes]
    simp only [refFields]
    rw [Does, bind_ok e1, he]
    refine ⟨fun hn => ?_, fun hn => bind_error (h.2 hn)⟩
    obtain ⟨r, σ2, e2, k2⟩ := h.1 hn
    exact ⟨_, σ2, bind_ok e2, k1.trans k2⟩
  | .length P off :: fs, ls, σ, a, hf, hσ, hc => by
    have := hf.1
    obtain ⟨σ1, e1, k1, _, _, c1⟩ := retag_clean hσ (hc.sub (lo' := lo + off) (n' := P.ty.size) (by omega) (by omega))
    have h := refFields_does fs ls hf.2 k1.ok (hc.keep k1)
    have he : Empties (.length P off :: fs) ls ↔ Empties fs ls := by simp [Empties, arraySizes]
    simp only [refFields]
    rw [Does, bind_ok e1, he]
    refine ⟨fun hn => ?_, fun hn => bind_error (h.2 hn)⟩
    obtain ⟨r, σ2, e2, k2⟩ := h.1 hn
    exact ⟨_, σ2, bind_ok e2, k1.trans k2⟩
  | .varlen T :: fs, [], σ, a, hf, hσ, hc => hf.elim
  | .varlen T :: fs, (o, l) :: ls, σ, a, hf, hσ, hc => by
    have ho := hf.1.1
    obtain ⟨σ1, e1, k1, _, w1, c1⟩ := retag_clean hσ hc
    simp only [refFields]
    rw [Does, bind_ok e1]
    by_cases h0 : T.sem.headSize = 0
    · have cz : Clean σ1 σ.next (lo + o.toNat) T.sem.headSize := fun x h1 h2 => by omega
      obtain ⟨σ2, e2, k2, n2, w2, c2⟩ := retag_clean k1.ok cz
      have h := refFields_does fs ls hf.2 k2.ok ((hc.keep k1).keep k2)
      have he : Empties (.varlen T :: fs) ((o, l) :: ls) ↔ Empties fs ls := by simp [Empties, arraySizes, h0]
      rw [bind_ok e2, he]
      refine ⟨fun hn => ?_, fun hn => bind_error (h.2 hn)⟩
      obtain ⟨r, σ3, e3, k3⟩ := h.1 hn
      exact ⟨_, σ3, bind_ok e3, k1.trans (k2.trans k3)⟩
    · exact ⟨fun hn => absurd (hn.1 T (by simp)) h0, fun _ => bind_error (retag_out w1 rfl (by omega) (by omega))⟩
  | .array P len :: fs, [], σ, a, hf, hσ, hc => hf.elim
  | .array P len :: fs, (_, .fixed _) :: ls, σ, a, hf, hσ, hc => hf.elim
  | .array P len :: fs, (_, .array _ _ _) :: ls, σ, a, hf, hσ, hc => hf.elim
  | .array P len :: fs, (_, .fields _ _) :: ls, σ, a, hf, hσ, hc => hf.elim
  | .array P len :: fs, (o, .len n) :: ls, σ, a, hf, hσ, hc => by
    have ho := hf.1
    obtain ⟨σ1, e1, k1, _, w1, c1⟩ := retag_clean hσ hc
    simp only [refFields]
    rw [Does, bind_ok e1]
    by_cases h0 : n.toNat * P.ty.size = 0
    · have cz : Clean σ1 σ.next (lo + o.toNat) (n.toNat * P.ty.size) := fun x h1 h2 => by omega
      obtain ⟨σ2, e2, k2, n2, w2, c2⟩ := retag_clean k1.ok cz
      have h := refFields_does fs ls hf.2 k2.ok ((hc.keep k1).keep k2)
      have he : Empties (.array P len :: fs) ((o, .len n) :: ls) ↔ Empties fs ls := by simp [Empties, arraySizes]; omega
      rw [bind_ok e2, he]
      refine ⟨fun hn => ?_, fun hn => bind_error (h.2 hn)⟩
      obtain ⟨r, σ3, e3, k3⟩ := h.1 hn
      exact ⟨_, σ3, bind_ok e3, k1.trans (k2.trans k3)⟩
    · exact ⟨fun hn => absurd (hn.2 _ (by simp [arraySizes])) h0, fun _ => bind_error (retag_out w1 rfl (by omega) (by omega))⟩

/-- The same for exclusive access, which may change the stacks. -/
def DoesM {α : Type} (c : Prop) (m : S α) (σ : Stacks) : Prop := (c → Fine m σ) ∧ (¬ c → m σ = .error .ub)

theorem CanWrite.sub {σ : Stacks} {t lo n lo' n' : Nat} (h : CanWrite σ t lo n) (h1 : lo ≤ lo') (h2 : lo' + n' ≤ lo + n) : CanWrite σ t lo' n' := fun x h3 h4 => h x (by omega) (by omega)

theorem CanWrite.glue {σ σ' : Stacks} {t lo n lo' n' : Nat} (h : CanWrite σ t lo n) (h1 : CanWrite σ' t lo' n') (h2 : ∀ x, ¬ (lo' ≤ x ∧ x < lo' + n') → σ'.stack x = σ.stack x) : CanWrite σ' t lo n := by
  intro x hx1 hx2
  by_cases hx : lo' ≤ x ∧ x < lo' + n'
  · exact h1 x hx.1 hx.2
  · rw [h2 x hx]; exact h x hx1 hx2

theorem Nowhere.step {σ σ' : Stacks} {t lo n lo' n' : Nat} (h : Nowhere σ t lo n) (h1 : lo ≤ lo') (h3 : lo' + n' ≤ lo + n) (h2 : ∀ x, ¬ (lo' ≤ x ∧ x < lo' + n') → σ'.stack x = σ.stack x) : Nowhere σ' t lo n := by
  intro x hx i hi
  rw [h2 x (by omega)] at hi
  exact h x hx i hi

theorem mutFields_does {U : Unpins w} {lo hs : Nat} : ∀ (fs : List (TyFld w)) (ls : List (BitVec w × Layout w)) {σ : Stacks} {m : Nat}, Fits hs fs ls → σ.Ok → CanWrite σ m lo hs → Nowhere σ m lo hs →
    DoesM (Empties fs ls) (mutFields U m lo fs ls) σ
  | [], ls, σ, m, _, hσ, _, _ => ⟨fun _ => ⟨_, by simp only [mutFields]; rfl⟩, fun h => (h ⟨fun T hT => (by cases hT), fun n hn => (by simp [arraySizes] at hn)⟩).elim⟩
  | .normal P off :: fs, ls, σ, m, hf, hσ, hc, hnw => by
    have := hf.1
    obtain ⟨σ1, e1, o1, n1, _, _, c1, f1, _⟩ := retag_mut (u := U.plain P) hσ (hc.sub (lo' := lo + off) (n' := P.ty.size) (by omega) (by omega))
    have h := mutFields_does (U := U) fs ls hf.2 o1 (hc.glue c1 f1) (hnw.step (by omega) (by omega) f1)
    have he : Empties (.normal P off :: fs) ls ↔ Empties fs ls := by simp [Empties, arraySizes]
    simp only [mutFields]
    rw [DoesM, Fine, bind_ok e1, he]
    refine ⟨fun hn => ?_, fun hn => bind_error (h.2 hn)⟩
    obtain ⟨⟨r, σ2⟩, e2⟩ := h.1 hn
    exact ⟨_, bind_ok e2⟩
  | .length P off :: fs, ls, σ, m, hf, hσ, hc, hnw => by
    have := hf.1
    obtain ⟨σ1, e1, o1, n1, w1, cn1, c1, f1, r1⟩ := retag_mut (u := U.plain P) hσ (hc.sub (lo' := lo + off) (n' := P.ty.size) (by omega) (by omega))
    have key : ∀ x, lo + off ≤ x → x < lo + off + P.ty.size → ∃ st, Kind.shr.push σ.next σ1.next (σ1.stack x) = some st ∧ (∀ j ∈ st, (∃ i ∈ σ1.stack x, i.tag = j.tag) ∨ j.tag = σ1.next) := by
      intro x h1 h2
      obtain ⟨st, e, _, hm, _⟩ := readStack_some (cn1.canRead x h1 h2)
      refine ⟨_, by rw [Kind.push, e]; rfl, fun j hj => ?_⟩
      rcases List.mem_cons.1 hj with rfl | hj
      · exact .inr rfl
      · exact .inl (hm j hj)
    obtain ⟨σ2, e2, o2, n2, _, g2⟩ := retag_ok o1 key
    have c2 : CanWrite σ2 m (lo + off) P.ty.size := by
      intro x h1 h2
      obtain ⟨st, e, i, hi, hi1, hi2⟩ := r1 x ⟨h1, h2⟩
      have := (g2 x).1 ⟨h1, h2⟩
      rw [Kind.push, e] at this
      injection this with this
      exact ⟨i, by rw [← this]; simp [hi], hi1, writes_iff.1 hi2⟩
    have f2 : ∀ x, ¬ (lo + off ≤ x ∧ x < lo + off + P.ty.size) → σ2.stack x = σ.stack x := fun x hx => ((g2 x).2 hx).trans (f1 x hx)
    have h := mutFields_does (U := U) fs ls hf.2 o2 (hc.glue c2 f2) (hnw.step (by omega) (by omega) f2)
    have he : Empties (.length P off :: fs) ls ↔ Empties fs ls := by simp [Empties, arraySizes]
    simp only [mutFields]
    rw [DoesM, Fine, bind_ok e1, bind_ok e2, he]
    refine ⟨fun hn => ?_, fun hn => bind_error (h.2 hn)⟩
    obtain ⟨⟨r, σ3⟩, e3⟩ := h.1 hn
    exact ⟨_, bind_ok e3⟩
  | .varlen T :: fs, [], σ, m, hf, hσ, hc, _ => hf.elim
  | .varlen T :: fs, (o, l) :: ls, σ, m, hf, hσ, hc, hnw => by
    have ho := hf.1.1
    simp only [mutFields]
    by_cases h0 : T.sem.headSize = 0
    · have cz : CanWrite σ m (lo + o.toNat) T.sem.headSize := fun x h1 h2 => by omega
      obtain ⟨σ1, e1, o1, n1, _, _, _, f1, _⟩ := retag_mut (u := U.ty T) hσ cz
      have f1' : ∀ x, σ1.stack x = σ.stack x := fun x => f1 x (by omega)
      have h := mutFields_does (U := U) fs ls hf.2 o1 (fun x h1 h2 => by rw [f1' x]; exact hc x h1 h2) (fun x hx i hi => hnw x hx i (by rw [← f1' x]; exact hi))
      have he : Empties (.varlen T :: fs) ((o, l) :: ls) ↔ Empties fs ls := by simp [Empties, arraySizes, h0]
      rw [DoesM, Fine, bind_ok e1, he]
      refine ⟨fun hn => ?_, fun hn => bind_error (h.2 hn)⟩
      obtain ⟨⟨r, σ2⟩, e2⟩ := h.1 hn
      exact ⟨_, bind_ok e2⟩
    · exact ⟨fun hn => absurd (hn.1 T (by simp)) h0, fun _ => bind_error (retag_out hnw rfl (by omega) (by omega))⟩
  | .array P len :: fs, [], σ, m, hf, hσ, hc, _ => hf.elim
  | .array P len :: fs, (_, .fixed _) :: ls, σ, m, hf, hσ, hc, _ => hf.elim
  | .array P len :: fs, (_, .array _ _ _) :: ls, σ, m, hf, hσ, hc, _ => hf.elim
  | .array P len :: fs, (_, .fields _ _) :: ls, σ, m, hf, hσ, hc, _ => hf.elim
  | .array P len :: fs, (o, .len n) :: ls, σ, m, hf, hσ, hc, hnw => by
    have ho := hf.1
    simp only [mutFields]
    by_cases h0 : n.toNat * P.ty.size = 0
    · have cz : CanWrite σ m (lo + o.toNat) (n.toNat * P.ty.size) := fun x h1 h2 => by omega
      obtain ⟨σ1, e1, o1, n1, _, _, _, f1, _⟩ := retag_mut (u := U.plain P) hσ cz
      have f1' : ∀ x, σ1.stack x = σ.stack x := fun x => f1 x (by omega)
      have h := mutFields_does (U := U) fs ls hf.2 o1 (fun x h1 h2 => by rw [f1' x]; exact hc x h1 h2) (fun x hx i hi => hnw x hx i (by rw [← f1' x]; exact hi))
      have he : Empties (.array P len :: fs) ((o, .len n) :: ls) ↔ Empties fs ls := by simp [Empties, arraySizes]; omega
      rw [DoesM, Fine, bind_ok e1, he]
      refine ⟨fun hn => ?_, fun hn => bind_error (h.2 hn)⟩
      obtain ⟨⟨r, σ2⟩, e2⟩ := h.1 hn
      exact ⟨_, bind_ok e2⟩
    · exact ⟨fun hn => absurd (hn.2 _ (by simp [arraySizes])) h0, fun _ => bind_error (retag_out hnw rfl (by omega) (by omega))⟩

/-- `refs()`. -/
theorem refs_does {hs : Nat} {fs : List (TyFld w)} {size : BitVec w} {ls : List (BitVec w × Layout w)} (hf : Fits hs fs ls) {σ : Stacks} {t lo : Nat} (hσ : σ.Ok) (ht : CanRead σ t lo hs) :
    DoesM (NoHeads fs ∧ ∀ n ∈ arraySizes fs ls, n = 0) (refs hs fs t lo (.fields size ls)) σ := by
  obtain ⟨σ1, e1, o1, n1, w1, c1, _, _⟩ := retag_shr hσ ht
  obtain ⟨σ2, e2, k2, _, _, c2⟩ := retag_clean o1 c1
  obtain ⟨σ3, e3, k3⟩ := lengths_ok fs ls hf k2.ok c2
  have h := calcFlds_does (lo := lo) fs ls (fun T hT => calcTy_does (fits_tyOk hf T hT)) hf k3.ok (c2.keep k3)
  simp only [refs]
  rw [DoesM, Fine, bind_ok e1, bind_ok e2, bind_ok e3]
  by_cases hn : NoHeads fs
  · obtain ⟨r, σ4, e4, k4⟩ := h.1 hn
    have k := k2.trans (k3.trans k4)
    have h' := refFields_does (lo := lo) fs ls hf k4.ok (c1.keep k)
    rw [bind_ok e4]
    refine ⟨fun hA => ?_, fun hA => h'.2 fun hE => hA ⟨hn, hE.2⟩⟩
    obtain ⟨r, σ5, e5, _⟩ := h'.1 ⟨fun T hT => (hn T hT).1, hA.2⟩
    exact ⟨_, e5⟩
  · exact ⟨fun hA => absurd hA.1 hn, fun _ => bind_error (h.2 hn)⟩

/-- `muts()`. -/
theorem muts_does {U : Unpins w} {u : Bool} {hs : Nat} {fs : List (TyFld w)} {size : BitVec w} {ls : List (BitVec w × Layout w)} (hf : Fits hs fs ls) {σ : Stacks} {t lo : Nat} (hσ : σ.Ok) (ht : CanWrite σ t lo hs) :
    DoesM (NoHeads fs ∧ ∀ n ∈ arraySizes fs ls, n = 0) (muts U u hs fs t lo (.fields size ls)) σ := by
  obtain ⟨σ1, e1, o1, n1, w1, c1, _, _, _⟩ := retag_mut (u := u) hσ ht
  obtain ⟨σ2, e2, o2, _, _, c2, _, cw2⟩ := retag_shr o1 c1.canRead
  obtain ⟨σ3, e3, k3⟩ := lengths_ok fs ls hf o2 c2
  have h := calcFlds_does (lo := lo) fs ls (fun T hT => calcTy_does (fits_tyOk hf T hT)) hf k3.ok (c2.keep k3)
  simp only [muts]
  rw [DoesM, Fine, bind_ok e1, bind_ok e2, bind_ok e3]
  by_cases hn : NoHeads fs
  · obtain ⟨r, σ4, e4, k4⟩ := h.1 hn
    obtain ⟨σ5, e5, o5, _, w5, c5, _⟩ := retag_mut (u := u) k4.ok (((cw2 c1).keep k3).keep k4)
    have h' := mutFields_does (U := U) (lo := lo) fs ls hf o5 c5 w5
    rw [bind_ok e4, bind_ok e5]
    refine ⟨fun hA => h'.1 ⟨fun T hT => (hn T hT).1, hA.2⟩, fun hA => h'.2 fun hE => hA ⟨hn, hE.2⟩⟩
  · exact ⟨fun hA => absurd hA.1 hn, fun _ => bind_error (h.2 hn)⟩

end Varlen.SB
