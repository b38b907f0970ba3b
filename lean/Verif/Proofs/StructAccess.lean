import Verif.Proofs.StructInit
import Verif.Spec.Access
namespace Varlen
variable {w : Nat}

/-! ## Per-field view of a struct or tuple -/

/-- A field with its byte offset in the object and its shape (its own layout; the length for arrays). -/
structure Desc (w : Nat) where
  fld : Fld w
  off : Nat
  shape : Layout w

def Desc.size (d : Desc w) : Nat := d.fld.extent d.shape

/-- The fields of an object with tail layouts `ls`. -/
def descs : List (Fld w) → List (BitVec w × Layout w) → List (Desc w)
  | .normal R off :: fs, ls => ⟨.normal R off, off, .fixed (R.sizeOf w)⟩ :: descs fs ls
  | .length R off :: fs, ls => ⟨.length R off, off, .fixed (R.sizeOf w)⟩ :: descs fs ls
  | .varlen T :: fs, (o, l) :: ls => ⟨.varlen T, o.toNat, l⟩ :: descs fs ls
  | .array R len :: fs, (o, l) :: ls => ⟨.array R len, o.toNat, l⟩ :: descs fs ls
  | _, _ => []

/-- The field holds value `v`. -/
def Desc.Rep (d : Desc w) (v : V) (o : View) : Prop :=
  match d.fld, d.shape with
  | .normal R _, _ => ∃ img, v = .leaf img ∧ takeV o d.off R.size = img ∧ R.valid img = true
  | .length R _, _ => ∃ img, v = .leaf img ∧ takeV o d.off R.size = img ∧ R.valid img = true
  | .varlen T, l => T.Rep v l (shift d.off o)
  | .array R _, .len n => ∃ xs, v = .arr xs ∧ elemsV o d.off R.size n.toNat = xs ∧ ∀ x ∈ xs, R.valid x = true
  | .array _ _, _ => False

/-- The offset recurrence. -/
def LayOk (lens : List Img) : List (Fld w) → List (BitVec w × Layout w) → Nat → Nat → Prop
  | [], [], cur, fin => cur = fin
  | .normal _ _ :: fs, ls, cur, fin => LayOk lens fs ls cur fin
  | .length _ _ :: fs, ls, cur, fin => LayOk lens fs ls cur fin
  | .varlen T :: fs, (off, l) :: ls, cur, fin =>
    off.toNat = roundUpN cur T.ALIGN.toNat ∧ LayOk lens fs ls (off.toNat + l.size.toNat) fin
  | .array R len :: fs, (off, .len n) :: ls, cur, fin =>
    (off.toNat = roundUpN cur R.align ∧ n = len lens ∧ len.defd lens = true) ∧ LayOk lens fs ls (off.toNat + n.toNat * R.size) fin
  | _, _, _, _ => False

/-- Pointwise relation of two lists. -/
def Rel2 {α β : Type} (P : α → β → Prop) : List α → List β → Prop
  | [], [] => True
  | a :: as, b :: bs => P a b ∧ Rel2 P as bs
  | _, _ => False

theorem Rel2.length {α β : Type} {P : α → β → Prop} : ∀ {as bs}, Rel2 P as bs → as.length = bs.length
  | [], [], _ => rfl
  | _ :: _, _ :: _, h => by simp [Rel2.length h.2]
  | [], _ :: _, h => h.elim
  | _ :: _, [], h => h.elim

theorem Rel2.get {α β : Type} {P : α → β → Prop} : ∀ {as bs}, Rel2 P as bs → ∀ (i : Nat) a b, as[i]? = some a → bs[i]? = some b → P a b
  | [], [], _, i, a, b, h, _ => by simp at h
  | _ :: _, _ :: _, h, 0, a, b, h1, h2 => by simp at h1 h2; subst h1 h2; exact h.1
  | _ :: _, _ :: _, h, i + 1, a, b, h1, h2 => by
    simp only [List.getElem?_cons_succ] at h1 h2; exact Rel2.get h.2 i a b h1 h2
  | [], _ :: _, h, _, _, _, _, _ => h.elim
  | _ :: _, [], h, _, _, _, _, _ => h.elim

theorem Rel2.of_get {α β : Type} {P : α → β → Prop} : ∀ {as bs}, as.length = bs.length →
    (∀ (i : Nat) a b, as[i]? = some a → bs[i]? = some b → P a b) → Rel2 P as bs
  | [], [], _, _ => trivial
  | a :: as, b :: bs, hl, h => ⟨h 0 a b rfl rfl, Rel2.of_get (by simpa using hl) fun i x y h1 h2 => h (i + 1) x y (by simpa using h1) (by simpa using h2)⟩
  | [], _ :: _, hl, _ => by simp at hl
  | _ :: _, [], hl, _ => by simp at hl

/-- A representation is: right offsets, and every field holds its value. -/
theorem rep_iff {lens : List Img} {o : View} : ∀ (fs : List (Fld w)) vs ls cur fin,
    (RepHdr fs vs o ∧ RepTails lens fs vs ls cur fin o) ↔
    (LayOk lens fs ls cur fin ∧ Rel2 (fun d v => d.Rep v o) (descs fs ls) vs) := by
  intro fs
  induction fs with
  | nil =>
    intro vs ls cur fin
    cases vs <;> cases ls <;> simp [RepHdr, RepTails, LayOk, descs, Rel2]
  | cons f fs ih =>
    intro vs ls cur fin
    cases vs with
    | nil =>
      constructor
      · rintro ⟨h, _⟩; cases f <;> simp [RepHdr] at h
      · rintro ⟨h1, h2⟩
        cases f with
        | normal => exact h2.elim
        | length => exact h2.elim
        | varlen T => cases ls with
          | nil => exact h1.elim
          | cons x ls => exact h2.elim
        | array R len => rcases ls with _ | ⟨⟨o1, l⟩, ls⟩
                         · exact h1.elim
                         · exact h2.elim
    | cons v vs =>
      cases f with
      | normal R off =>
        cases v with
        | leaf img =>
          simp only [RepHdr, RepTails, LayOk, descs, Rel2, Desc.Rep]
          constructor
          · rintro ⟨⟨h1, h2⟩, h3⟩
            obtain ⟨h4, h5⟩ := (ih vs ls cur fin).1 ⟨h2, h3⟩
            exact ⟨h4, ⟨img, rfl, h1⟩, h5⟩
          · rintro ⟨h1, ⟨img', he, h2⟩, h3⟩
            cases he
            obtain ⟨h4, h5⟩ := (ih vs ls cur fin).2 ⟨h1, h3⟩
            exact ⟨⟨h2, h4⟩, h5⟩
        | arr xs => simp [RepHdr, descs, Rel2, Desc.Rep]
        | node xs => simp [RepHdr, descs, Rel2, Desc.Rep]
      | length R off =>
        cases v with
        | leaf img =>
          simp only [RepHdr, RepTails, LayOk, descs, Rel2, Desc.Rep]
          constructor
          · rintro ⟨⟨h1, h2⟩, h3⟩
            obtain ⟨h4, h5⟩ := (ih vs ls cur fin).1 ⟨h2, h3⟩
            exact ⟨h4, ⟨img, rfl, h1⟩, h5⟩
          · rintro ⟨h1, ⟨img', he, h2⟩, h3⟩
            cases he
            obtain ⟨h4, h5⟩ := (ih vs ls cur fin).2 ⟨h1, h3⟩
            exact ⟨⟨h2, h4⟩, h5⟩
        | arr xs => simp [RepHdr, descs, Rel2, Desc.Rep]
        | node xs => simp [RepHdr, descs, Rel2, Desc.Rep]
      | varlen T =>
        rcases ls with _ | ⟨⟨o1, l⟩, ls⟩
        · simp [RepTails, LayOk]
        · simp only [RepHdr, RepTails, LayOk, descs, Rel2, Desc.Rep]
          have := ih vs ls (o1.toNat + l.size.toNat) fin
          constructor
          · rintro ⟨h1, ⟨h2, h3⟩, h4⟩
            obtain ⟨h5, h6⟩ := this.1 ⟨h1, h4⟩
            exact ⟨⟨h2, h5⟩, h3, h6⟩
          · rintro ⟨⟨h1, h2⟩, h3, h4⟩
            obtain ⟨h5, h6⟩ := this.2 ⟨h2, h4⟩
            exact ⟨h5, ⟨h1, h3⟩, h6⟩
      | array R len =>
        rcases ls with _ | ⟨⟨o1, l⟩, ls⟩
        · simp [RepTails, LayOk]
        · cases l with
          | len n =>
            cases v with
            | arr xs =>
              simp only [RepHdr, RepTails, LayOk, descs, Rel2, Desc.Rep]
              have := ih vs ls (o1.toNat + n.toNat * R.size) fin
              constructor
              · rintro ⟨h1, ⟨h2, h3, h4, h4', hd⟩, h5⟩
                obtain ⟨h6, h7⟩ := this.1 ⟨h1, h5⟩
                exact ⟨⟨⟨h2, h3, hd⟩, h6⟩, ⟨xs, rfl, h4, h4'⟩, h7⟩
              · rintro ⟨⟨⟨h1, h2, hd⟩, h3⟩, ⟨xs', he, h4, h4'⟩, h5⟩
                cases he
                obtain ⟨h6, h7⟩ := this.2 ⟨h3, h5⟩
                exact ⟨h6, ⟨h1, h2, h4, h4', hd⟩, h7⟩
            | leaf img => simp [RepTails, descs, Rel2, Desc.Rep]
            | node xs => simp [RepTails, descs, Rel2, Desc.Rep]
          | fixed => simp [RepTails, LayOk]
          | array => simp [RepTails, LayOk]
          | fields => simp [RepTails, LayOk]

/-- Two byte ranges do not overlap. -/
def Disj (a b : Desc w) : Prop := a.size = 0 ∨ b.size = 0 ∨ a.off + a.size ≤ b.off ∨ b.off + b.size ≤ a.off

/-- Is it a header field? -/
def Fld.isHdr : Fld w → Bool
  | .normal _ _ => true
  | .length _ _ => true
  | _ => false

theorem descs_hdr {fs : List (Fld w)} : ∀ {ls : List (BitVec w × Layout w)} {d : Desc w}, d ∈ descs fs ls →
    d.fld ∈ fs ∧ (d.fld.isHdr = true → (d.off, d.size) = d.fld.range) := by
  induction fs with
  | nil => intro ls d h; cases ls <;> simp [descs] at h
  | cons f fs ih =>
    intro ls d h
    cases f with
    | normal R off =>
      rcases List.mem_cons.1 h with rfl | h
      · exact ⟨by simp, fun _ => rfl⟩
      · have := ih h; exact ⟨by simp [this.1], this.2⟩
    | length R off =>
      rcases List.mem_cons.1 h with rfl | h
      · exact ⟨by simp, fun _ => rfl⟩
      · have := ih h; exact ⟨by simp [this.1], this.2⟩
    | varlen T =>
      rcases ls with _ | ⟨⟨o1, l⟩, ls⟩
      · simp [descs] at h
      · rcases List.mem_cons.1 h with rfl | h
        · exact ⟨by simp, fun h => by simp [Fld.isHdr] at h⟩
        · have := ih h; exact ⟨by simp [this.1], this.2⟩
    | array R len =>
      rcases ls with _ | ⟨⟨o1, l⟩, ls⟩
      · simp [descs] at h
      · rcases List.mem_cons.1 h with rfl | h
        · exact ⟨by simp, fun h => by simp [Fld.isHdr] at h⟩
        · have := ih h; exact ⟨by simp [this.1], this.2⟩

section
variable {hs ha : Nat}

theorem LayOk.le {lens : List Img} : ∀ (fs : List (Fld w)) ls cur fin, (∀ f ∈ fs, f.Ok hs ha) → LayOk lens fs ls cur fin → cur ≤ fin := by
  intro fs
  induction fs with
  | nil => intro ls cur fin _ h; cases ls <;> simp [LayOk] at h; omega
  | cons f fs ih =>
    intro ls cur fin hok h
    have ih := fun ls cur => ih ls cur fin (fun g hg => hok g (by simp [hg]))
    have hf := hok f (by simp)
    cases f with
    | normal R off => exact ih _ _ h
    | length R off => exact ih _ _ h
    | varlen T =>
      rcases ls with _ | ⟨⟨o1, l⟩, ls⟩
      · exact h.elim
      · have := ih _ _ h.2
        have := roundUpN_ge cur T.ALIGN.toNat (Lawful.align_pow2 hf).pos
        have := h.1
        omega
    | array R len =>
      rcases ls with _ | ⟨⟨o1, l⟩, ls⟩
      · exact h.elim
      · cases l <;> simp only [LayOk] at h
        have := ih _ _ h.2
        have := roundUpN_ge cur R.align (RTy.Ok.align_pos hf)
        have := h.1
        omega

/-- Tail fields lie between `cur` and `fin`. -/
theorem descs_tail {lens : List Img} : ∀ (fs : List (Fld w)) ls cur fin, (∀ f ∈ fs, f.Ok hs ha) → LayOk lens fs ls cur fin →
    ∀ d ∈ descs fs ls, d.fld.isHdr = false → cur ≤ d.off ∧ d.off + d.size ≤ fin := by
  intro fs
  induction fs with
  | nil => intro ls cur fin _ h d hd; cases ls <;> simp [descs] at hd
  | cons f fs ih =>
    intro ls cur fin hok h d hd hh
    have hok' : ∀ f ∈ fs, f.Ok hs ha := fun g hg => hok g (by simp [hg])
    have hf := hok f (by simp)
    cases f with
    | normal R off =>
      rcases List.mem_cons.1 hd with rfl | hd
      · simp [Fld.isHdr] at hh
      · exact ih _ _ _ hok' h d hd hh
    | length R off =>
      rcases List.mem_cons.1 hd with rfl | hd
      · simp [Fld.isHdr] at hh
      · exact ih _ _ _ hok' h d hd hh
    | varlen T =>
      rcases ls with _ | ⟨⟨o1, l⟩, ls⟩
      · exact h.elim
      · have h1 := h.1
        have hle := LayOk.le _ _ _ _ hok' h.2
        have := roundUpN_ge cur T.ALIGN.toNat (Lawful.align_pow2 hf).pos
        rcases List.mem_cons.1 hd with rfl | hd
        · simp only [Desc.size, Fld.extent]; omega
        · have := ih _ _ _ hok' h.2 d hd hh; omega
    | array R len =>
      rcases ls with _ | ⟨⟨o1, l⟩, ls⟩
      · exact h.elim
      · cases l <;> simp only [LayOk] at h
        have h1 := h.1
        have hle := LayOk.le _ _ _ _ hok' h.2
        have := roundUpN_ge cur R.align (RTy.Ok.align_pos hf)
        rcases List.mem_cons.1 hd with rfl | hd
        · simp only [Desc.size, Fld.extent]; omega
        · have := ih _ _ _ hok' h.2 d hd hh; omega

/-- Every field lies in the object. -/
theorem descs_inside {lens : List Img} {fs : List (Fld w)} {ls fin} (hok : ∀ f ∈ fs, f.Ok hs ha) (h : LayOk lens fs ls hs fin)
    {d : Desc w} (hd : d ∈ descs fs ls) : d.off + d.size ≤ fin := by
  obtain ⟨h1, h2⟩ := descs_hdr hd
  cases hh : d.fld.isHdr with
  | true =>
    have h2 := h2 hh
    simp only [Prod.ext_iff] at h2
    have := LayOk.le _ _ _ _ hok h
    have hf := hok _ h1
    cases he : d.fld with
    | normal R off => rw [he] at hf h2; simp only [Fld.range] at h2; have := hf.2.1; omega
    | length R off => rw [he] at hf h2; simp only [Fld.range] at h2; have := hf.2.1; omega
    | varlen T => rw [he] at hh; cases hh
    | array R len => rw [he] at hh; cases hh
  | false => exact (descs_tail _ _ _ _ hok h d hd hh).2

/-- The fields do not overlap. -/
theorem descs_disjoint {lens : List Img} : ∀ (fs : List (Fld w)) ls cur fin, (∀ f ∈ fs, f.Ok hs ha) →
    (fs.Pairwise fun a b => a.range.2 = 0 ∨ b.range.2 = 0 ∨ a.range.1 + a.range.2 ≤ b.range.1 ∨
      b.range.1 + b.range.2 ≤ a.range.1) → hs ≤ cur → LayOk lens fs ls cur fin → (descs fs ls).Pairwise Disj := by
  intro fs
  induction fs with
  | nil => intro ls cur fin _ _ _ h; cases ls <;> simp [descs]
  | cons f fs ih =>
    intro ls cur fin hok hdj hcur h
    have hok' : ∀ f ∈ fs, f.Ok hs ha := fun g hg => hok g (by simp [hg])
    have hf := hok f (by simp)
    obtain ⟨hdj1, hdj2⟩ := List.pairwise_cons.1 hdj
    -- a header field against all later ones
    have hh : ∀ (d0 : Desc w), d0.fld = f → f.isHdr = true → (d0.off, d0.size) = f.range → LayOk lens fs ls cur fin →
        ∀ d ∈ descs fs ls, Disj d0 d := by
      intro d0 e0 hf1 hr hl d hd
      simp only [Prod.ext_iff] at hr
      obtain ⟨h1, h2⟩ := descs_hdr hd
      by_cases h0 : f.range.2 = 0
      · left; omega
      have hle := hf.range_le h0
      cases hh : d.fld.isHdr with
      | true =>
        have h2 := h2 hh
        simp only [Prod.ext_iff] at h2
        have := hdj1 _ h1
        unfold Disj; omega
      | false =>
        have := descs_tail _ _ _ _ hok' hl d hd hh
        unfold Disj; omega
    -- a tail field against all later ones
    have ht : ∀ (d0 : Desc w) (cur' : Nat) ls', hs ≤ d0.off → d0.off + d0.size ≤ cur' → LayOk lens fs ls' cur' fin →
        ∀ d ∈ descs fs ls', Disj d0 d := by
      intro d0 cur' ls' h0 h1 hl d hd
      obtain ⟨h2, h3⟩ := descs_hdr hd
      cases hh : d.fld.isHdr with
      | true =>
        have h3 := h3 hh
        simp only [Prod.ext_iff] at h3
        by_cases h4 : d.fld.range.2 = 0
        · right; left; omega
        · have := (hok' _ h2).range_le h4
          unfold Disj; omega
      | false =>
        have := descs_tail _ _ _ _ hok' hl d hd hh
        unfold Disj; omega
    cases f with
    | normal R off =>
      exact List.pairwise_cons.2 ⟨hh _ rfl rfl rfl h, ih _ _ _ hok' hdj2 hcur h⟩
    | length R off =>
      exact List.pairwise_cons.2 ⟨hh _ rfl rfl rfl h, ih _ _ _ hok' hdj2 hcur h⟩
    | varlen T =>
      rcases ls with _ | ⟨⟨o1, l⟩, ls⟩
      · exact h.elim
      · have h1 := h.1
        have := roundUpN_ge cur T.ALIGN.toNat (Lawful.align_pow2 hf).pos
        exact List.pairwise_cons.2 ⟨ht _ _ _ (by simp only; omega) (Nat.le_refl _) h.2, ih _ _ _ hok' hdj2 (by omega) h.2⟩
    | array R len =>
      rcases ls with _ | ⟨⟨o1, l⟩, ls⟩
      · exact h.elim
      · cases l <;> simp only [LayOk] at h
        have h1 := h.1
        have := roundUpN_ge cur R.align (RTy.Ok.align_pos hf)
        exact List.pairwise_cons.2 ⟨ht _ _ _ (by simp only; omega) (Nat.le_refl _) h.2, ih _ _ _ hok' hdj2 (by omega) h.2⟩

/-- A field depends only on its own bytes. -/
theorem Desc.Rep.congr {d : Desc w} (hok : d.fld.Ok hs ha) {v : V} {o o' : View}
    (h : ∀ i, i < d.size → o (d.off + i) = o' (d.off + i)) (hr : d.Rep v o) : d.Rep v o' := by
  obtain ⟨f, off, sh⟩ := d
  cases f with
  | normal R off' =>
    obtain ⟨img, h1, h2, h3⟩ := hr
    exact ⟨img, h1, by rw [← h2]; exact (takeV_congr h).symm, h3⟩
  | length R off' =>
    obtain ⟨img, h1, h2, h3⟩ := hr
    exact ⟨img, h1, by rw [← h2]; exact (takeV_congr h).symm, h3⟩
  | varlen T => exact Lawful.rep_ext hok _ _ _ _ hr fun i hi => h i hi
  | array R len =>
    cases sh with
    | len n =>
      obtain ⟨xs, h1, h2, h3⟩ := hr
      exact ⟨xs, h1, by rw [← h2]; exact (elemsV_congr h).symm, h3⟩
    | fixed => exact hr.elim
    | array => exact hr.elim
    | fields => exact hr.elim

/-- Updating one field. -/
theorem Rel2.update {fs : List (Fld w)} {ls vs} {o o' : View} (hok : ∀ f ∈ fs, f.Ok hs ha)
    (hdj : (descs fs ls).Pairwise Disj) (hr : Rel2 (fun d v => d.Rep v o) (descs fs ls) vs) {i : Nat} {d : Desc w}
    (hd : (descs fs ls)[i]? = some d) (hout : ∀ j, ¬ (d.off ≤ j ∧ j < d.off + d.size) → o j = o' j)
    {v' : V} (hv : d.Rep v' o') : Rel2 (fun d v => d.Rep v o') (descs fs ls) (vs.set i v') := by
  refine Rel2.of_get (by simpa using hr.length) ?_
  intro j e u he hu
  have hmem : e ∈ descs fs ls := List.mem_of_getElem? he
  rw [List.getElem?_set] at hu
  by_cases hij : i = j
  · subst hij
    rw [hd] at he; cases he
    simp only [if_true] at hu
    split at hu
    · cases hu; exact hv
    · cases hu
  · simp only [hij, if_false] at hu
    have h0 := hr.get j e u he hu
    refine Desc.Rep.congr (hok _ (descs_hdr hmem).1) (fun k hk => hout _ ?_) h0
    have hne : Disj d e ∨ Disj e d := by
      have hi' := (List.getElem?_eq_some_iff.1 hd)
      have hj' := (List.getElem?_eq_some_iff.1 he)
      obtain ⟨hi1, hi2⟩ := hi'
      obtain ⟨hj1, hj2⟩ := hj'
      rw [← hi2, ← hj2]
      rcases Nat.lt_or_gt_of_ne hij with h | h
      · left; exact List.pairwise_iff_getElem.1 hdj _ _ _ _ h
      · right; exact List.pairwise_iff_getElem.1 hdj _ _ _ _ h
    unfold Disj at hne; omega

/-! ## `refs()` and `muts()` -/

/-- The reference produced for a field. -/
def Desc.ref (p : Ptr) (d : Desc w) : FRef :=
  match d.fld, d.shape with
  | .normal _ _, _ => .val (p.add d.off)
  | .length _ _, _ => .val (p.add d.off)
  | .varlen _, _ => .field (p.add d.off)
  | .array _ _, .len n => .slice ⟨p.add d.off, n.toNat⟩
  | .array _ _, _ => .slice ⟨p.add d.off, 0⟩

theorem refFields_spec {lens : List Img} {s : St} {p : Ptr} {o : View} : ∀ (fs : List (Fld w)) vs ls cur fin, (∀ f ∈ fs, f.Ok hs ha) →
    hs ≤ cur → LayOk lens fs ls cur fin → Rel2 (fun d v => d.Rep v o) (descs fs ls) vs → Acc s p fin → Aligned s p ha →
    (∀ a ∈ tailAligns fs, Aligned s p a.toNat) → refFields p fs ls s = .ok ((descs fs ls).map (·.ref p)) s := by
  intro fs
  induction fs with
  | nil => intro vs ls cur fin _ _ h _ _ _ _; cases ls <;> simp [LayOk] at h; rfl
  | cons f fs ih =>
    intro vs ls cur fin hok hcur h hr hacc hal halt
    have hok' : ∀ f ∈ fs, f.Ok hs ha := fun g hg => hok g (by simp [hg])
    have hf := hok f (by simp)
    cases vs with
    | nil =>
      cases f with
      | normal => exact hr.elim
      | length => exact hr.elim
      | varlen T =>
        rcases ls with _ | ⟨⟨o1, l⟩, ls⟩
        · exact h.elim
        · exact hr.elim
      | array R len =>
        rcases ls with _ | ⟨⟨o1, l⟩, ls⟩
        · exact h.elim
        · exact hr.elim
    | cons v vs =>
      cases f with
      | normal R off =>
        have ih := ih vs ls cur fin hok' hcur h hr.2 hacc hal halt
        have hle := LayOk.le _ _ _ _ hok' h
        have h1 : off + R.size ≤ hs := hf.2.1
        have h2 := mkRef_ok (hacc.sub (o := off) (m := R.size) (by omega)) ((hal.of_dvd hf.2.2.2).add hf.2.2.1)
        simp only [refFields, bind_apply, h2, ih, Res.bind_ok, pure_apply, descs, List.map_cons, Desc.ref]
      | length R off =>
        have ih := ih vs ls cur fin hok' hcur h hr.2 hacc hal halt
        have hle := LayOk.le _ _ _ _ hok' h
        have h1 : off + R.size ≤ hs := hf.2.1
        have h2 := mkRef_ok (hacc.sub (o := off) (m := R.size) (by omega)) ((hal.of_dvd hf.2.2.2).add hf.2.2.1)
        simp only [refFields, bind_apply, h2, ih, Res.bind_ok, pure_apply, descs, List.map_cons, Desc.ref]
      | varlen T =>
        rcases ls with _ | ⟨⟨o1, l⟩, ls⟩
        · exact h.elim
        · have h1 := h.1
          have hge := roundUpN_ge cur T.ALIGN.toNat (Lawful.align_pow2 hf).pos
          have ih := ih vs ls _ fin hok' (by omega) h.2 hr.2 hacc hal (fun a ha' => halt a (by simp [tailAligns, ha']))
          have hle := LayOk.le _ _ _ _ hok' h.2
          have hh : T.headSize ≤ l.size.toNat := Lawful.head_le hf _ _ _ hr.1
          have h2 := mkRef_ok (hacc.sub (o := o1.toNat) (m := T.headSize) (by omega))
            (((halt T.ALIGN (by simp [tailAligns])).add (n := o1.toNat) (by rw [h1]; exact roundUpN_mod _ _)).of_dvd (Lawful.head_align hf))
          simp only [refFields, refField, bind_apply, h2, ih, Res.bind_ok, pure_apply, descs, List.map_cons, Desc.ref]
      | array R len =>
        rcases ls with _ | ⟨⟨o1, l⟩, ls⟩
        · exact h.elim
        · cases l <;> simp only [LayOk] at h
          have h1 := h.1.1
          have hge := roundUpN_ge cur R.align (RTy.Ok.align_pos hf)
          have ih := ih vs ls _ fin hok' (by omega) h.2 hr.2 hacc hal (fun a ha' => halt a (by simp [tailAligns, ha']))
          have hle := LayOk.le _ _ _ _ hok' h.2
          have hal1 := halt (R.alignOf w) (by simp [tailAligns])
          rw [RTy.Ok.alignOf_toNat hf] at hal1
          have h2 := mkRef_ok (hacc.sub (o := o1.toNat) (by omega)) (hal1.add (n := o1.toNat) (by rw [h1]; exact roundUpN_mod _ _))
          simp only [refFields, refArray, bind_apply, h2, ih, Res.bind_ok, pure_apply, descs, List.map_cons, Desc.ref]

end
end Varlen

namespace Varlen
variable {w : Nat}

theorem Desc.ref_ptr (p : Ptr) (d : Desc w) : (d.ref p).ptr = p.add d.off := by
  obtain ⟨f, off, sh⟩ := d
  cases f <;> cases sh <;> rfl

theorem Sees.rep {d : Desc w} {s : St} {p : Ptr} {v : V} (h : Sees d.fld s (d.ref p) v d.shape) : d.Rep v (viewAt s p) := by
  obtain ⟨f, off, sh⟩ := d
  cases f with
  | normal R o =>
    obtain ⟨img, h1, h2, h3, h4⟩ := Valid.rep (T := FixedLen w R) h
    refine ⟨img, h1, ?_, h4⟩
    rw [viewAt_add, takeV_shift] at h3; exact h3
  | length R o =>
    obtain ⟨img, h1, h2, h3, h4⟩ := Valid.rep (T := FixedLen w R) h
    refine ⟨img, h1, ?_, h4⟩
    rw [viewAt_add, takeV_shift] at h3; exact h3
  | varlen T =>
    have := Valid.rep (T := T) h
    rw [viewAt_add] at this; exact this
  | array R len =>
    cases sh with
    | len n =>
      obtain ⟨xs, m, h1, h2, h3, h4, h5, h6, h7⟩ := h
      refine ⟨xs, h1, ?_, h7⟩
      simp only [viewAt_add, elemsV_shift] at h6
      exact h6
    | fixed => obtain ⟨xs, m, h1, h2, _⟩ := h; cases h2
    | array => obtain ⟨xs, m, h1, h2, _⟩ := h; cases h2
    | fields => obtain ⟨xs, m, h1, h2, _⟩ := h; cases h2

section
variable {hs ha : Nat}

/-- Alignment of a field at its offset. -/
def Desc.Al (d : Desc w) (s : St) (p : Ptr) : Prop :=
  match d.fld with
  | .normal R _ => Aligned s (p.add d.off) R.align
  | .length R _ => Aligned s (p.add d.off) R.align
  | .varlen T => Aligned s (p.add d.off) T.ALIGN.toNat
  | .array R _ => Aligned s (p.add d.off) R.align

theorem descs_aligned {lens : List Img} {s : St} {p : Ptr} : ∀ (fs : List (Fld w)) ls cur fin, (∀ f ∈ fs, f.Ok hs ha) →
    LayOk lens fs ls cur fin → Aligned s p ha → (∀ a ∈ tailAligns fs, Aligned s p a.toNat) → ∀ d ∈ descs fs ls, d.Al s p := by
  intro fs
  induction fs with
  | nil => intro ls cur fin _ _ _ _ d hd; cases ls <;> simp [descs] at hd
  | cons f fs ih =>
    intro ls cur fin hok h hal halt d hd
    have hok' : ∀ f ∈ fs, f.Ok hs ha := fun g hg => hok g (by simp [hg])
    have hf := hok f (by simp)
    cases f with
    | normal R off =>
      rcases List.mem_cons.1 hd with rfl | hd
      · exact (hal.of_dvd hf.2.2.2).add hf.2.2.1
      · exact ih _ _ _ hok' h hal halt d hd
    | length R off =>
      rcases List.mem_cons.1 hd with rfl | hd
      · exact (hal.of_dvd hf.2.2.2).add hf.2.2.1
      · exact ih _ _ _ hok' h hal halt d hd
    | varlen T =>
      rcases ls with _ | ⟨⟨o1, l⟩, ls⟩
      · exact h.elim
      · rcases List.mem_cons.1 hd with rfl | hd
        · exact (halt T.ALIGN (by simp [tailAligns])).add (by simp only [h.1]; exact roundUpN_mod _ _)
        · exact ih _ _ _ hok' h.2 hal (fun a ha' => halt a (by simp [tailAligns, ha'])) d hd
    | array R len =>
      rcases ls with _ | ⟨⟨o1, l⟩, ls⟩
      · exact h.elim
      · cases l <;> simp only [LayOk] at h
        rcases List.mem_cons.1 hd with rfl | hd
        · have := halt (R.alignOf w) (by simp [tailAligns])
          rw [RTy.Ok.alignOf_toNat hf] at this
          exact this.add (by simp only [h.1.1]; exact roundUpN_mod _ _)
        · exact ih _ _ _ hok' h.2 hal (fun a ha' => halt a (by simp [tailAligns, ha'])) d hd

theorem Desc.shape_hdr {fs : List (Fld w)} : ∀ {ls : List (BitVec w × Layout w)} {d : Desc w}, d ∈ descs fs ls →
    ∀ R off, d.fld = .normal R off ∨ d.fld = .length R off → d.shape = .fixed (R.sizeOf w) := by
  induction fs with
  | nil => intro ls d h; cases ls <;> simp [descs] at h
  | cons f fs ih =>
    intro ls d h R off he
    cases f with
    | normal R' off' =>
      rcases List.mem_cons.1 h with rfl | h
      · rcases he with he | he
        · cases he; rfl
        · cases he
      · exact ih h R off he
    | length R' off' =>
      rcases List.mem_cons.1 h with rfl | h
      · rcases he with he | he
        · cases he
        · cases he; rfl
      · exact ih h R off he
    | varlen T =>
      rcases ls with _ | ⟨⟨o1, l⟩, ls⟩
      · simp [descs] at h
      · rcases List.mem_cons.1 h with rfl | h
        · rcases he with he | he <;> cases he
        · exact ih h R off he
    | array R' len =>
      rcases ls with _ | ⟨⟨o1, l⟩, ls⟩
      · simp [descs] at h
      · rcases List.mem_cons.1 h with rfl | h
        · rcases he with he | he <;> cases he
        · exact ih h R off he

theorem Desc.Rep.sees {fs : List (Fld w)} {ls : List (BitVec w × Layout w)} {d : Desc w} (hm : d ∈ descs fs ls) (hok : d.fld.Ok hs ha)
    {s : St} {p : Ptr} {v : V} (hacc : Acc s (p.add d.off) d.size) (hal : d.Al s p) (h : d.Rep v (viewAt s p)) :
    Sees d.fld s (d.ref p) v d.shape := by
  have hsh := Desc.shape_hdr hm
  obtain ⟨f, off, sh⟩ := d
  cases f with
  | normal R o =>
    obtain ⟨img, h1, h2, h3⟩ := h
    have hsh := hsh R o (.inl rfl)
    simp only at hsh
    have hR : R.Ok w := hok.1
    have hsz : (RTy.sizeOf w R).toNat = R.size := RTy.Ok.sizeOf_toNat hR
    subst hsh
    refine ⟨?_, ?_, img, h1, rfl, ?_, h3⟩
    · simp only [Layout.size, hsz]; exact hacc
    · simp only [FixedLen, RTy.Ok.alignOf_toNat hR]; exact hal
    · rw [viewAt_add, takeV_shift]; exact h2
  | length R o =>
    obtain ⟨img, h1, h2, h3⟩ := h
    have hsh := hsh R o (.inr rfl)
    simp only at hsh
    have hR : R.Ok w := hok.1
    have hsz : (RTy.sizeOf w R).toNat = R.size := RTy.Ok.sizeOf_toNat hR
    subst hsh
    refine ⟨?_, ?_, img, h1, rfl, ?_, h3⟩
    · simp only [Layout.size, hsz]; exact hacc
    · simp only [FixedLen, RTy.Ok.alignOf_toNat hR]; exact hal
    · rw [viewAt_add, takeV_shift]; exact h2
  | varlen T =>
    exact ⟨hacc, hal, by rw [viewAt_add]; exact h⟩
  | array R len =>
    cases sh with
    | len n =>
      obtain ⟨xs, h1, h2, h3⟩ := h
      refine ⟨xs, n, h1, rfl, rfl, hacc, hal, ?_, h3⟩
      rw [viewAt_add, elemsV_shift]; exact h2
    | fixed => exact h.elim
    | array => exact h.elim
    | fields => exact h.elim

/-- Everything about the references into a valid struct or tuple: which they are, that they are in bounds, disjoint and show the
fields' values, and that changing what one of them points to (keeping its shape) changes exactly that field. -/
theorem agg_access {fs : List (Fld w)} (hok : StructOk hs ha fs) {A : Nat} (hha : ha ∣ A)
    (hta : ∀ a ∈ tailAligns fs, a.toNat ∣ A) {s : St} {p : Ptr} {vs : List V} {size : BitVec w} {ls}
    (hacc : Acc s p size.toNat) (hal : Aligned s p A) (hr : RepHdr fs vs (viewAt s p))
    (ht : RepTails (lengthsOf fs (viewAt s p)) fs vs ls hs size.toNat (viewAt s p)) :
    refFields p fs ls s = .ok ((descs fs ls).map (·.ref p)) s ∧
    (descs fs ls).Pairwise Disj ∧ (descs fs ls).length = vs.length ∧ (descs fs ls).length = fs.length ∧
    (∀ (i : Nat) d v, (descs fs ls)[i]? = some d → vs[i]? = some v → Sees d.fld s (d.ref p) v d.shape) ∧
    (∀ d ∈ descs fs ls, Acc s (p.add d.off) d.size ∧ d.off + d.size ≤ size.toNat) ∧
    (∀ (i : Nat) d v' s', (descs fs ls)[i]? = some d → (∀ R off, d.fld ≠ .length R off) →
      Touch s s' (p.add d.off) d.size noOwn → Sees d.fld s' (d.ref p) v' d.shape →
      aggRep hs fs (.node (vs.set i v')) (.fields size ls) (viewAt s' p)) := by
  obtain ⟨hl, hrel⟩ := (rep_iff fs vs ls hs size.toNat).1 ⟨hr, ht⟩
  have hdj := descs_disjoint fs ls hs _ hok.flds hok.disjoint (Nat.le_refl _) hl
  have hin : ∀ d ∈ descs fs ls, Acc s (p.add d.off) d.size ∧ d.off + d.size ≤ size.toNat := by
    intro d hd
    have h := descs_inside hok.flds hl hd
    exact ⟨hacc.sub h, h⟩
  have hdal := descs_aligned fs ls hs _ hok.flds hl (hal.of_dvd hha) (fun a ha' => hal.of_dvd (hta a ha'))
  refine ⟨refFields_spec fs vs ls hs _ hok.flds (Nat.le_refl _) hl hrel hacc (hal.of_dvd hha) (fun a ha' => hal.of_dvd (hta a ha')),
    hdj, hrel.length, ?_, ?_, hin, ?_⟩
  · clear hdal hin hdj hrel ht hr hta hok
    generalize lengthsOf fs (viewAt s p) = lens at hl
    generalize hs = cur at hl
    clear hha hacc hal
    induction fs generalizing ls cur with
    | nil => cases ls <;> simp [descs]
    | cons f fs ih =>
      cases f with
      | normal R off => simp only [descs, List.length_cons, ih _ hl]
      | length R off => simp only [descs, List.length_cons, ih _ hl]
      | varlen T =>
        rcases ls with _ | ⟨⟨o1, l⟩, ls⟩
        · exact hl.elim
        · simp only [descs, List.length_cons, ih _ hl.2]
      | array R len =>
        rcases ls with _ | ⟨⟨o1, l⟩, ls⟩
        · exact hl.elim
        · cases l <;> simp only [LayOk] at hl
          simp only [descs, List.length_cons, ih _ hl.2]
  · intro i d v hd hv
    have hm := List.mem_of_getElem? hd
    exact Desc.Rep.sees hm (hok.flds _ (descs_hdr hm).1) (hin d hm).1 (hdal d hm) (hrel.get i d v hd hv)
  · intro i d v' s' hd hnl htouch hsee
    have hm := List.mem_of_getElem? hd
    have hview : ∀ j, ¬ (d.off ≤ j ∧ j < d.off + d.size) → viewAt s p j = viewAt s' p j := fun j hj =>
      (htouch.view (q := p) (fun h => h) j (by simp; omega)).symm
    have hup := Rel2.update hok.flds hdj hrel hd hview hsee.rep
    have hlens : lengthsOf fs (viewAt s p) = lengthsOf fs (viewAt s' p) := by
      -- the layout controllers are not part of the changed field
      clear hup hdal hin hr ht
      have key : ∀ (fs0 : List (Fld w)), (∀ R off, Fld.length R off ∈ fs0 → ∀ j, j < R.size → viewAt s p (off + j) = viewAt s' p (off + j)) →
          lengthsOf fs0 (viewAt s p) = lengthsOf fs0 (viewAt s' p) := by
        intro fs0 h
        unfold lengthsOf
        induction fs0 with
        | nil => rfl
        | cons f fs0 ih =>
          have ih := ih fun R off hm => h R off (by simp [hm])
          cases f with
          | length R off =>
            have : takeV (viewAt s p) off R.size = takeV (viewAt s' p) off R.size := takeV_congr (h R off (by simp))
            simp only [List.filterMap_cons, ih, this]
          | normal R off => simpa using ih
          | varlen T => simpa using ih
          | array R len => simpa using ih
      apply key
      intro R off hmem j hj
      apply hview
      -- find the descriptor of this controller
      have hex : ∃ k : Nat, (descs fs ls)[k]? = some ⟨.length R off, off, .fixed (R.sizeOf w)⟩ := by
        clear hview hsee htouch hnl hd hm hrel hdj hok hta hacc hal
        generalize lengthsOf fs (viewAt s p) = lens at hl
        generalize hs = cur at hl
        clear key hha
        induction fs generalizing ls cur with
        | nil => simp at hmem
        | cons f fs ih =>
          cases f with
          | normal R' off' =>
            obtain ⟨k, hk⟩ := ih (by simpa using hmem) _ hl
            exact ⟨k + 1, by simpa [descs] using hk⟩
          | length R' off' =>
            rcases List.mem_cons.1 hmem with he | hmem
            · cases he; exact ⟨0, rfl⟩
            · obtain ⟨k, hk⟩ := ih hmem _ hl
              exact ⟨k + 1, by simpa [descs] using hk⟩
          | varlen T =>
            rcases ls with _ | ⟨⟨o1, l⟩, ls⟩
            · exact hl.elim
            · obtain ⟨k, hk⟩ := ih (by simpa using hmem) _ hl.2
              exact ⟨k + 1, by simpa [descs] using hk⟩
          | array R' len =>
            rcases ls with _ | ⟨⟨o1, l⟩, ls⟩
            · exact hl.elim
            · cases l <;> simp only [LayOk] at hl
              obtain ⟨k, hk⟩ := ih (by simpa using hmem) _ hl.2
              exact ⟨k + 1, by simpa [descs] using hk⟩
      obtain ⟨k, hk⟩ := hex
      have hne : i ≠ k := by
        rintro rfl
        rw [hd] at hk
        cases hk
        exact hnl R off rfl
      obtain ⟨hi1, hi2⟩ := List.getElem?_eq_some_iff.1 hd
      obtain ⟨hk1, hk2⟩ := List.getElem?_eq_some_iff.1 hk
      have hdisj : Disj d ⟨.length R off, off, .fixed (R.sizeOf w)⟩ ∨ Disj ⟨.length R off, off, .fixed (R.sizeOf w)⟩ d := by
        rw [← hi2, ← hk2]
        rcases Nat.lt_or_gt_of_ne hne with h | h
        · left; exact List.pairwise_iff_getElem.1 hdj _ _ _ _ h
        · right; exact List.pairwise_iff_getElem.1 hdj _ _ _ _ h
      have e1 : (⟨.length R off, off, .fixed (R.sizeOf w)⟩ : Desc w).size = R.size := rfl
      unfold Disj at hdisj
      rw [e1] at hdisj
      simp only at hdisj
      omega
    rw [hlens] at hl
    obtain ⟨h1, h2⟩ := (rep_iff fs _ ls hs size.toNat).2 ⟨hl, hup⟩
    exact ⟨_, ls, size, rfl, rfl, h1, h2⟩

end
end Varlen
