import Verif.Proofs.BorrowAgg
import Verif.Spec.Borrow
/-! # The references that the library returns -/
namespace Varlen.TB
open Varlen
variable {w : Nat}

/-- The reference `A` is derived from `t`; which bytes may change. -/
def Via (S : Tree) (t : Nat) (A : Tag) (e : Ext) : Prop :=
  t ∈ A.path ∧ ∀ (T : Tag) (x : Nat), S.tag t = some T → (S.Mutable A x ↔ (e.uniq = true ∨ e.im x = true) ∧ S.Mutable T x)

/-- The references `rs` are live and are for the bytes `es`. -/
def Refs (S : Tree) (n t : Nat) (rs : List Nat) (es : List Ext) : Prop :=
  rs.length = es.length ∧ ∀ (k r : Nat) (e : Ext), rs[k]? = some r → es[k]? = some e → n ≤ r ∧
    ∃ A, S.tag r = some A ∧ A.live = true ∧ A.prot = false ∧ A.uniq = e.uniq ∧ A.lo = e.lo ∧ A.len = e.len ∧ Via S t A e

theorem Refs.nil (S : Tree) (n t : Nat) : Refs S n t [] [] := ⟨rfl, by intro k r e h; simp at h⟩

theorem Refs.cons {S : Tree} {n t r : Nat} {e : Ext} {rs : List Nat} {es : List Ext} (h : Refs S n t rs es) (hn : n ≤ r)
    (hr : ∃ A, S.tag r = some A ∧ A.live = true ∧ A.prot = false ∧ A.uniq = e.uniq ∧ A.lo = e.lo ∧ A.len = e.len ∧ Via S t A e) : Refs S n t (r :: rs) (e :: es) := by
  refine ⟨by simp [h.1], ?_⟩
  intro k r' e' h1 h2
  cases k with
  | zero => simp at h1 h2; subst h1; subst h2; exact ⟨hn, hr⟩
  | succ k => simp at h1 h2; exact h.2 k r' e' h1 h2

theorem Via.tags {S S' : Tree} {t i : Nat} {A : Tag} {e : Ext} (h : Via S t A e) (hA : S.tag i = some A) (ht : ∀ T, S'.tag t = some T → S.tag t = some T)
    (hm : ∀ (j : Nat) (M : Tag) (x : Nat), S.tag j = some M → (S'.Mutable M x ↔ S.Mutable M x)) : Via S' t A e := by
  refine ⟨h.1, ?_⟩
  intro T x hT
  rw [hm i A x hA, hm t T x (ht T hT)]
  exact h.2 T x (ht T hT)

theorem Refs.tags {S S' : Tree} {n t : Nat} {rs : List Nat} {es : List Ext} (h : Refs S n t rs es) (hr : ∀ i, i ∈ rs → S'.tag i = S.tag i) (ht : ∀ T, S'.tag t = some T → S.tag t = some T)
    (hm : ∀ (j : Nat) (M : Tag) (x : Nat), S.tag j = some M → (S'.Mutable M x ↔ S.Mutable M x)) : Refs S' n t rs es := by
  refine ⟨h.1, ?_⟩
  intro k r e h1 h2
  obtain ⟨h3, A, h4, h5, h6, h7, h8, h9, h10⟩ := h.2 k r e h1 h2
  exact ⟨h3, A, by rw [hr r (List.mem_of_getElem? h1)]; exact h4, h5, h6, h7, h8, h9, h10.tags h4 ht hm⟩

theorem Refs.mem {S : Tree} {n t : Nat} {rs : List Nat} {es : List Ext} (h : Refs S n t rs es) {r : Nat} (hr : r ∈ rs) : n ≤ r := by
  obtain ⟨k, hk⟩ := List.getElem?_of_mem hr
  have hlt : k < es.length := by rw [← h.1]; exact (List.getElem?_eq_some_iff.mp hk).1
  exact (h.2 k r _ hk (List.getElem?_eq_getElem hlt)).1

theorem Refs.mono {S : Tree} {n n' t : Nat} {rs : List Nat} {es : List Ext} (h : Refs S n t rs es) (hn : n' ≤ n) : Refs S n' t rs es := by
  refine ⟨h.1, ?_⟩
  intro k r e h1 h2
  obtain ⟨h3, h4⟩ := h.2 k r e h1 h2
  exact ⟨by omega, h4⟩

/-- References derived from a reference `t` that is derived from `t'`. -/
theorem Refs.through {S : Tree} {n t t' : Nat} {rs : List Nat} {es : List Ext} (own : Nat → Bool) (h : Refs S n t rs es) (ht : ∀ i A, S.tag i = some A → t ∈ A.path → t' ∈ A.path)
    (hm : ∀ T', S.tag t' = some T' → ∃ T, S.tag t = some T ∧ ∀ x, S.Mutable T x ↔ own x = true ∧ S.Mutable T' x)
    (hu : (∀ x, own x = true) ∨ ∀ e ∈ es, e.uniq = false) : Refs S n t' rs (es.map (Ext.within own)) := by
  refine ⟨by simp [h.1], ?_⟩
  intro k r e h1 h2
  rw [List.getElem?_map, Option.map_eq_some_iff] at h2
  obtain ⟨e, h2, rfl⟩ := h2
  obtain ⟨h3, A, h4, h5, h6, h7, h8, h9, h10, h11⟩ := h.2 k r e h1 h2
  refine ⟨h3, A, h4, h5, h6, h7, h8, h9, ht r A h4 h10, ?_⟩
  intro T' x hT'
  obtain ⟨T, hT, hTx⟩ := hm T' hT'
  rw [h11 T x hT, hTx x]
  simp only [Ext.within, Bool.and_eq_true]
  rcases hu with hu | hu
  · simp [hu x]
  · have := hu e (List.mem_of_getElem? h2)
    rw [this]
    constructor
    · rintro ⟨a | a, b, c⟩
      · cases a
      · exact ⟨.inr ⟨b, a⟩, c⟩
    · rintro ⟨a | ⟨a, b⟩, c⟩
      · cases a
      · exact ⟨.inr b, a, c⟩

theorem map_within_true (es : List Ext) : es.map (Ext.within fun _ => true) = es := by
  induction es with
  | nil => rfl
  | cons e es ih => rw [List.map_cons, ih]; rfl

theorem path_trans {S : Tree} (hi : Inv S) {t t' : Nat} {P : Tag} (hP : S.tag t = some P) (h : t' ∈ P.path) : ∀ i A, S.tag i = some A → t ∈ A.path → t' ∈ A.path := by
  intro i A hA ht
  obtain ⟨N, hN, rfl⟩ := tag_some hA
  obtain ⟨K, hK, h1, -⟩ := hi.anc i N t hN ht
  rw [tag_eq hK] at hP; cases hP
  exact h1 t' h

/-- The bytes of two references do not overlap. -/
def Ext.Apart (a b : Ext) : Prop := ∀ x, ¬ ((a.lo ≤ x ∧ x < a.lo + a.len) ∧ (b.lo ≤ x ∧ x < b.lo + b.len))

theorem Ext.Apart.symm {a b : Ext} (h : a.Apart b) : b.Apart a := fun x hx => h x ⟨hx.2, hx.1⟩

/-- From the fields of the proofs to those of the specification. -/
theorem returns_of {S S' : Tree} {t : Nat} {rs : List Nat} {es : List Ext} (hi : Inv S) (hi' : Inv S') (hg : Grow S S' rs) (hr : Refs S' S.nodes.length t rs es)
    (hd : (∀ e ∈ es, e.uniq = false) ∨ es.Pairwise Ext.Apart) : Returns S S' t rs es := by
  refine ⟨hr.1, ?_, ?_, hg.old, ?_⟩
  · intro k r e h1 h2
    obtain ⟨h3, A, h4, h5, -, h6, h7, h8, h9, h10⟩ := hr.2 k r e h1 h2
    refine ⟨h3, A, h4, h5, h6, h7, h8, h9, ?_⟩
    intro P x hP
    rw [h10 P x (hg.tag hP), hg.mutable hi hP]
  · intro k r e h1 h2
    obtain ⟨h3, A, h4, h5, h6, h7, h8, h9, h10⟩ := hr.2 k r e h1 h2
    have hcov : A.Covers e.lo e.len := by unfold Tag.Covers; omega
    cases hu : e.uniq with
    | false =>
      simp only [Bool.false_eq_true, if_false]
      exact Reader.canRead hi' ⟨A, h4, h5, h7.trans hu, hcov⟩
    | true =>
      simp only [if_true]
      refine ⟨⟨A, h4, h5, h7.trans hu, hcov⟩, ?_⟩
      intro i M hM hl hp hne x hx hx'
      have hir : i ∈ rs := by
        by_cases hlt : i < S.nodes.length
        · rw [hg.old i hlt] at hM
          have := path_lt hi hM hp
          omega
        · by_cases hm : i ∈ rs
          · exact hm
          · rw [hg.new i M (Nat.not_lt.mp hlt) hM hm] at hl; cases hl
      obtain ⟨j, hj⟩ := List.getElem?_of_mem hir
      have hlt : j < es.length := by rw [← hr.1]; exact (List.getElem?_eq_some_iff.mp hj).1
      obtain ⟨-, B, g4, g5, g6, g7, g8, g9, g10⟩ := hr.2 j i _ hj (List.getElem?_eq_getElem hlt)
      rw [hM] at g4; cases g4
      have hjk : j ≠ k := by
        rintro rfl
        rw [hj] at h1; cases h1; exact hne rfl
      have hk : k < es.length := (List.getElem?_eq_some_iff.mp h2).1
      have ek : es[k] = e := (List.getElem?_eq_some_iff.mp h2).2
      unfold Tag.Has at hx
      rcases hd with hd | hd
      · rw [hd e (List.mem_of_getElem? h2)] at hu; cases hu
      · rw [List.pairwise_iff_getElem] at hd
        rcases Nat.lt_or_gt_of_ne hjk with hlt' | hlt'
        · have := hd j k hlt hk hlt'
          rw [ek] at this
          exact this x ⟨by omega, hx'⟩
        · have := hd k j hk hlt hlt'
          rw [ek] at this
          exact this x ⟨hx', by omega⟩
  · intro i M h1 h2 h3
    by_cases hm : i ∈ rs
    · exact hm
    · rw [hg.new i M h1 h2 hm] at h3; cases h3

/-- Where the fields are. -/
theorem fieldExts_mem (m : Bool) (lo : Nat) : ∀ (fs : List (BFld w)) (ls : List (BitVec w × Layout w)) (cur fin : Nat), Lays fs ls cur fin → ∀ e ∈ fieldExts m lo fs ls,
    (∃ f ∈ fs, e.lo = lo + f.fld.range.1 ∧ e.len = f.fld.range.2) ∨ (lo + cur ≤ e.lo ∧ e.lo + e.len ≤ lo + fin) := by
  intro fs
  induction fs with
  | nil => intro ls cur fin _ e he; simp [fieldExts] at he
  | cons f fs ih =>
    intro ls cur fin hl e he
    have up : ((∃ g ∈ fs, e.lo = lo + g.fld.range.1 ∧ e.len = g.fld.range.2) ∨ (lo + cur ≤ e.lo ∧ e.lo + e.len ≤ lo + fin)) →
        (∃ g ∈ f :: fs, e.lo = lo + g.fld.range.1 ∧ e.len = g.fld.range.2) ∨ (lo + cur ≤ e.lo ∧ e.lo + e.len ≤ lo + fin) := by
      rintro (⟨g, hg, h⟩ | h)
      · exact .inl ⟨g, by simp [hg], h⟩
      · exact .inr h
    cases f with
    | normal R off =>
      simp only [fieldExts, List.mem_cons] at he
      rcases he with rfl | he
      · exact .inl ⟨.normal R off, by simp, rfl, rfl⟩
      · exact up (ih ls cur fin hl e he)
    | length R off =>
      simp only [fieldExts, List.mem_cons] at he
      rcases he with rfl | he
      · exact .inl ⟨.length R off, by simp, rfl, rfl⟩
      · exact up (ih ls cur fin hl e he)
    | varlen C =>
      rcases ls with _ | ⟨⟨o, l⟩, ls⟩
      · exact hl.elim
      · obtain ⟨⟨h1, -⟩, h2⟩ := hl
        have h3 := Lays.le _ _ _ _ h2
        simp only [fieldExts, List.mem_cons] at he
        rcases he with rfl | he
        · right; dsimp only; omega
        · refine up ?_
          rcases ih ls _ fin h2 e he with h | h
          · exact .inl h
          · right; omega
    | array R len =>
      rcases ls with _ | ⟨⟨o, l⟩, ls⟩
      · exact hl.elim
      · cases l with
        | len n =>
          obtain ⟨h1, h2⟩ := hl
          have h3 := Lays.le _ _ _ _ h2
          simp only [fieldExts, List.mem_cons] at he
          rcases he with rfl | he
          · right; dsimp only; omega
          · refine up ?_
            rcases ih ls _ fin h2 e he with h | h
            · exact .inl h
            · right; omega
        | _ => exact hl.elim

theorem fieldExts_apart (m : Bool) (lo headSize : Nat) : ∀ (fs : List (BFld w)) (ls : List (BitVec w × Layout w)) (cur fin : Nat), Lays fs ls cur fin → InHead headSize fs → headSize ≤ cur →
    ((fs.map BFld.fld).Pairwise fun a b => a.range.2 = 0 ∨ b.range.2 = 0 ∨ a.range.1 + a.range.2 ≤ b.range.1 ∨ b.range.1 + b.range.2 ≤ a.range.1) →
    (fieldExts m lo fs ls).Pairwise Ext.Apart := by
  intro fs
  induction fs with
  | nil => intro ls cur fin _ _ _ _; simp [fieldExts]
  | cons f fs ih =>
    intro ls cur fin hl hh hc hd
    have hh' : InHead headSize fs := fun g hg => hh g (by simp [hg])
    have hf := hh f (by simp)
    rw [List.map_cons, List.pairwise_cons] at hd
    obtain ⟨hd1, hd2⟩ := hd
    have hdr : ∀ (u : Bool) (im : Nat → Bool) (R : RTy) (off : Nat), f.fld.range = (off, R.size) → Lays fs ls cur fin →
        (⟨u, lo + off, R.size, im⟩ :: fieldExts m lo fs ls : List Ext).Pairwise Ext.Apart := by
      intro u im R off hr hl'
      rw [List.pairwise_cons]
      refine ⟨?_, ih ls cur fin hl' hh' hc hd2⟩
      intro e he x hx
      simp only [hr] at hf
      rcases fieldExts_mem m lo fs ls cur fin hl' e he with ⟨g, hg, h1, h2⟩ | ⟨h1, h2⟩
      · have := hd1 _ (List.mem_map_of_mem hg)
        simp only [hr] at this
        dsimp only at hx
        omega
      · dsimp only at hx; omega
    have htl : ∀ (u : Bool) (im : Nat → Bool) (o n : Nat) (ls' : List (BitVec w × Layout w)), cur ≤ o → Lays fs ls' (o + n) fin →
        (⟨u, lo + o, n, im⟩ :: fieldExts m lo fs ls' : List Ext).Pairwise Ext.Apart := by
      intro u im o n ls' h1 h2
      rw [List.pairwise_cons]
      refine ⟨?_, ih ls' _ fin h2 hh' (by omega) hd2⟩
      intro e he x hx
      rcases fieldExts_mem m lo fs ls' _ fin h2 e he with ⟨g, hg, h3, h4⟩ | ⟨h3, h4⟩
      · have := hh' g hg
        dsimp only at hx; omega
      · dsimp only at hx; omega
    cases f with
    | normal R off => exact hdr m _ R off rfl hl
    | length R off => exact hdr false _ R off rfl hl
    | varlen C =>
      rcases ls with _ | ⟨⟨o, l⟩, ls⟩
      · exact hl.elim
      · exact htl m _ o.toNat l.size.toNat ls hl.1.1 hl.2
    | array R len =>
      rcases ls with _ | ⟨⟨o, l⟩, ls⟩
      · exact hl.elim
      · cases l with
        | len n => exact htl m _ o.toNat (n.toNat * R.size) ls hl.1 hl.2
        | _ => exact hl.elim

end Varlen.TB
