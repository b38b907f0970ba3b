import Verif.Proofs.BorrowAccess
/-! # Access to fields follows the rules of the borrow checker -/
namespace Varlen.TB
open Varlen
variable {w : Nat}

/-- Exactly one new reference, `r`. -/
structure Gives (S S' : Tree) (t r : Nat) (e : Ext) : Prop where
  inv : Inv S'
  grow : Grow S S' [r]
  new : S.nodes.length ≤ r
  tag : ∃ A, S'.tag r = some A ∧ A.live = true ∧ A.prot = false ∧ A.uniq = e.uniq ∧ A.lo = e.lo ∧ A.len = e.len ∧ Via S' t A e

theorem Retagged.gives {S S' : Tree} {t : Nat} {P : Tag} {uniq : Bool} {im : Nat → Bool} {elo elen : Nat} (hi : Inv S) (h : Retagged S S' t P uniq false im elo elen) :
    Gives S S' t S.nodes.length ⟨uniq, elo, elen, im⟩ := by
  refine ⟨h.inv, h.grow, Nat.le_refl _, _, h.tag, rfl, rfl, rfl, rfl, rfl, .tail _ (self_path hi h.par), ?_⟩
  intro T x hT
  rw [h.grow.tag h.par] at hT; cases hT
  rw [h.mutable hi, h.grow.mutable hi h.par]

/-- Several new references. -/
structure Gave (S S' : Tree) (t : Nat) (rs : List Nat) (es : List Ext) : Prop where
  inv : Inv S'
  grow : Grow S S' rs
  refs : Refs S' S.nodes.length t rs es

theorem Gave.nil {S : Tree} (hi : Inv S) (t : Nat) : Gave S S t [] [] := ⟨hi, .refl S _, .nil S _ t⟩

theorem Gives.cons {S S1 S2 : Tree} {t r : Nat} {e : Ext} {rs : List Nat} {es : List Ext} (ht : t < S.nodes.length) (h : Gives S S1 t r e) (h' : Gave S1 S2 t rs es) :
    Gave S S2 t (r :: rs) (e :: es) := by
  obtain ⟨A, h1, h2, h3, h4, h5, h6, h7⟩ := h.tag
  refine ⟨h'.inv, h.grow.trans h'.grow (by simp) (fun i hi => .tail _ hi), ?_⟩
  refine (h'.refs.mono h.grow.len).cons h.new ⟨A, h'.grow.tag h1, h2, h3, h4, h5, h6, h7.tags h1 ?_ fun j M x hM => h'.grow.mutable h.inv hM x⟩
  intro T hT
  rw [← h'.grow.old t (Nat.lt_of_lt_of_le ht h.grow.len)]
  exact hT

theorem Gives.gave {S S' : Tree} {t r : Nat} {e : Ext} (h : Gives S S' t r e) : Gave S S' t [r] [e] := by
  obtain ⟨A, h1⟩ := h.tag
  exact ⟨h.inv, h.grow, (Refs.nil S' _ t).cons h.new ⟨A, h1⟩⟩

theorem Gave.gives {S S' : Tree} {t r : Nat} {e : Ext} (h : Gave S S' t [r] [e]) : Gives S S' t r e := by
  obtain ⟨h1, h2⟩ := h.refs.2 0 r e rfl rfl
  exact ⟨h.inv, h.grow, h1, h2⟩

theorem Gives.canWrite {S S' : Tree} {t r lo n : Nat} {im : Nat → Bool} (hi : Inv S) (h : Gives S S' t r ⟨true, lo, n, im⟩) : CanWrite S' r lo n := by
  obtain ⟨A, h1, h2, -, h3, h4, h5, -⟩ := h.tag
  have := fresh_canWrite hi h.grow h.new h1 h2 h3
  rw [h4, h5] at this
  exact this

theorem Gives.reader {S S' : Tree} {t r lo n : Nat} {im : Nat → Bool} (h : Gives S S' t r ⟨false, lo, n, im⟩) : Reader S' r lo n := by
  obtain ⟨A, h1, h2, -, h3, h4, h5, -⟩ := h.tag
  refine ⟨A, h1, h2, h3, ?_⟩
  unfold Tag.Covers
  dsimp only at h4 h5
  omega

theorem Gave.quietFirst {S S1 S2 : Tree} {t : Nat} {rs : List Nat} {es : List Ext} (hg : Grow S S1 []) (h : Gave S1 S2 t rs es) : Gave S S2 t rs es :=
  ⟨h.inv, hg.trans h.grow (by simp) (fun _ h => h), h.refs.mono hg.len⟩

theorem Gave.quietLast {S S1 S2 : Tree} {t : Nat} {rs : List Nat} {es : List Ext} (ht : t < S.nodes.length) (h : Gave S S1 t rs es) (hi : Inv S2) (hg : Grow S1 S2 []) : Gave S S2 t rs es := by
  refine ⟨hi, h.grow.quiet hg, h.refs.tags ?_ ?_ fun j M x hM => hg.mutable h.inv hM x⟩
  · intro i hi
    obtain ⟨k, hk⟩ := List.getElem?_of_mem hi
    have hlt : k < es.length := by rw [← h.refs.1]; exact (List.getElem?_eq_some_iff.mp hk).1
    obtain ⟨-, A, h1, -⟩ := h.refs.2 k i _ hk (List.getElem?_eq_getElem hlt)
    rw [hg.tag h1, h1]
  · intro T hT
    rw [← hg.old t (Nat.lt_of_lt_of_le ht h.grow.len)]
    exact hT

/-- References made through a temporary one. -/
theorem Gave.temp {S S1 S2 : Tree} {t : Nat} {P : Tag} {uniq prot : Bool} {im : Nat → Bool} {elo elen : Nat} {rs : List Nat} {es : List Ext} (own : Nat → Bool)
    (ho : ∀ x, own x = true ↔ uniq = true ∨ im x = true) (hu : uniq = true ∨ ∀ e ∈ es, e.uniq = false) (hi : Inv S) (h : Retagged S S1 t P uniq prot im elo elen)
    (h' : Gave S1 S2 S.nodes.length rs es) : Refs S2 S.nodes.length t rs (es.map (Ext.within own)) := by
  have hl := h.len
  have hp := h'.grow.tag h.tag
  refine (h'.refs.mono (n' := S.nodes.length) (by omega)).through own (path_trans h'.inv hp (.tail _ (self_path hi h.par))) ?_ ?_
  · intro T' hT'
    rw [h'.grow.tag (h.grow.tag h.par)] at hT'; cases hT'
    refine ⟨_, hp, ?_⟩
    intro x
    rw [h'.grow.mutable h.inv h.tag, h.mutable hi, h'.grow.mutable h.inv (h.grow.tag h.par), h.grow.mutable hi h.par, ho x]
  · rcases hu with hu | hu
    · exact .inl fun x => (ho x).mpr (.inl hu)
    · exact .inr hu

theorem Retagged.after {S S1 S2 S3 : Tree} {t : Nat} {P : Tag} {uniq prot : Bool} {im : Nat → Bool} {elo elen : Nat} {rs : List Nat} {es es' : List Ext}
    (h : Retagged S S1 t P uniq prot im elo elen) (h' : Gave S1 S2 S.nodes.length rs es) (hr : Refs S2 S.nodes.length t rs es') (ho : ∀ i, i ≠ S.nodes.length → S3.tag i = S2.tag i)
    (hm : ∀ (M : Tag) (x : Nat), S3.Mutable M x ↔ S2.Mutable M x) : Refs S3 S.nodes.length t rs es' := by
  have hl := h.len
  refine hr.tags ?_ ?_ fun _ M x _ => hm M x
  · intro i hm
    have := h'.refs.mem hm
    exact ho i (by omega)
  · intro T hT
    have := tag_lt h.par
    rw [ho t (by omega)] at hT
    exact hT

/-- References made through a temporary mutable one, which is then not used any more. -/
theorem Gave.kill {S S1 S2 : Tree} {t : Nat} {P : Tag} {im : Nat → Bool} {elo elen : Nat} {rs : List Nat} {es : List Ext} (hi : Inv S) (h : Retagged S S1 t P true false im elo elen)
    (h' : Gave S1 S2 S.nodes.length rs es) : ∃ S3, kill S.nodes.length S2 = some ((), S3) ∧ Gave S S3 t rs es := by
  obtain ⟨S3, h1, h2, h3, h4, h5⟩ := h.scope h'.inv h'.grow
  refine ⟨S3, h1, h2, h3, h.after h' ?_ h4 h5⟩
  have := Gave.temp (fun _ => true) (fun x => by simp) (.inl rfl) hi h h'
  rwa [map_within_true] at this

/-- References made through a shared argument of a function. -/
theorem Gave.ret {S S1 S2 : Tree} {t : Nat} {P : Tag} {im : Nat → Bool} {elo elen : Nat} {rs : List Nat} {es : List Ext} (hi : Inv S) (h : Retagged S S1 t P false true im elo elen)
    (hu : ∀ e ∈ es, e.uniq = false) (h' : Gave S1 S2 S.nodes.length rs es) : ∃ S3, ret S.nodes.length S2 = some ((), S3) ∧ Gave S S3 t rs (es.map (Ext.within im)) := by
  obtain ⟨S3, h1, h2, h3, h4, h5⟩ := h.scopeRet h'.inv h'.grow
  exact ⟨S3, h1, h2, h3, h.after h' (Gave.temp im (fun x => by simp) (.inr hu) hi h h') h4 h5⟩

theorem Inv.uniqMut {S : Tree} (hi : Inv S) {i : Nat} {M : Tag} (h : S.tag i = some M) (hu : M.uniq = true) (x : Nat) : S.Mutable M x := by
  obtain ⟨N, hN, rfl⟩ := tag_some h
  exact hi.uniqMutable hN hu x

/-- With a `Pin<&mut Self>` argument. -/
theorem mutArg_gave {S : Tree} (pin : Bool) {t lo n size : Nat} (hi : Inv S) (hw : CanWrite S t lo size) (hn : n ≤ size) :
    ∃ a S1, mutArg pin t lo n lo size S = some (a, S1) ∧ Inv S1 ∧ CanWrite S1 a lo size ∧
      ∀ S2 rs es, Gave S1 S2 a rs es → ∃ S3, mutRet pin a S2 = some ((), S3) ∧ Gave S S3 t rs es := by
  obtain ⟨a, S1, h1, h2, h3, ⟨h4, A, h5, h6⟩, h7⟩ := mutArg_grow pin hi hw hn
  refine ⟨a, S1, h1, h2, h3, ?_⟩
  intro S2 rs es h8
  obtain ⟨S3, h9, h10, h11, h12, h13⟩ := h7 S2 rs h8.inv h8.grow
  refine ⟨S3, h9, h10, h11, ?_⟩
  obtain ⟨T, hT, -, hTu, -⟩ := hw.live
  obtain ⟨A', hA', -, hAu, -⟩ := h3.live
  rw [h5] at hA'; cases hA'
  have hT2 := h8.grow.tag (h4.tag hT)
  have hA2 := h8.grow.tag h5
  have h14 := (h8.refs.mono h4.len).through (fun _ => true) (path_trans h8.inv hA2 h6) (by
    intro T' hT'
    rw [hT2] at hT'; cases hT'
    refine ⟨A, hA2, fun x => ?_⟩
    simp [h8.inv.uniqMut hA2 hAu x, h8.inv.uniqMut hT2 hTu x]) (.inl fun _ => rfl)
  rw [map_within_true] at h14
  refine h14.tags ?_ ?_ fun _ M x _ => h13 M x
  · intro i hm
    exact h12 i (h8.refs.mem hm)
  · intro T' hT'
    rw [h11.old t (tag_lt hT), hT] at hT'; cases hT'
    exact hT2

/-- Going through a shared reference a second time makes no difference. -/
theorem Gives.absorb {S S' : Tree} {a r : Nat} {e : Ext} {im : Nat → Bool} {A : Tag} (hA : S'.tag a = some A) (hu : A.uniq = false) (hm : A.im = im) (he : e.uniq = false)
    (h : Gives S S' a r (e.within im)) : Gives S S' a r e := by
  obtain ⟨B, h1, h2, h3, h4, h5, h6, h7, h8⟩ := h.tag
  refine ⟨h.inv, h.grow, h.new, B, h1, h2, h3, h4, h5, h6, h7, ?_⟩
  intro T x hT
  rw [hA] at hT; cases hT
  rw [h8 A x hA]
  simp only [Ext.within, he, Bool.and_eq_true]
  constructor
  · rintro ⟨c | ⟨-, c⟩, d⟩
    · cases c
    · exact ⟨.inr c, d⟩
  · rintro ⟨c | c, d⟩
    · cases c
    · refine ⟨.inr ⟨?_, c⟩, d⟩
      rcases d a A (self_path h.inv hA) hA with g | g
      · rw [hu] at g; cases g
      · rw [hm] at g; exact g

/-- A live shared reference, which promises that only the bytes in `im` may change. -/
def ReaderIm (S : Tree) (a lo n : Nat) (im : Nat → Bool) : Prop := ∃ A, S.tag a = some A ∧ A.live = true ∧ A.uniq = false ∧ A.Covers lo n ∧ A.im = im

theorem ReaderIm.reader {S : Tree} {a lo n : Nat} {im : Nat → Bool} (h : ReaderIm S a lo n im) : Reader S a lo n := by
  obtain ⟨A, h1, h2, h3, h4, -⟩ := h
  exact ⟨A, h1, h2, h3, h4⟩

theorem ReaderIm.grow {S S' : Tree} {a lo n : Nat} {im : Nat → Bool} {L : List Nat} (h : ReaderIm S a lo n im) (hg : Grow S S' L) : ReaderIm S' a lo n im := by
  obtain ⟨A, h1, h2⟩ := h
  exact ⟨A, hg.tag h1, h2⟩

theorem ReaderIm.lt {S : Tree} {a lo n : Nat} {im : Nat → Bool} (h : ReaderIm S a lo n im) : a < S.nodes.length := by
  obtain ⟨A, h1, -⟩ := h
  exact tag_lt h1

theorem Retagged.readerIm {S S' : Tree} {t : Nat} {P : Tag} {prot : Bool} {im : Nat → Bool} {elo elen : Nat} (h : Retagged S S' t P false prot im elo elen) :
    ReaderIm S' S.nodes.length elo elen im := ⟨_, h.tag, rfl, rfl, ⟨Nat.le_refl _, Nat.le_refl _⟩, rfl⟩

/-- `ref_field`, `ref_array`. -/
theorem viaBase_ok {S : Tree} {a lo hs size elo elen n : Nat} {im im' : Nat → Bool} (hi : Inv S) (hr : ReaderIm S a lo size im) (hhs : hs ≤ size) (h1 : lo ≤ elo) (h2 : elo + elen ≤ lo + size) (hn : n ≤ elen) :
    ∃ b S1 r S2 S3, shrArg a im lo hs lo size S = some (b, S1) ∧ retag b false false im' elo n elo elen S1 = some (r, S2) ∧ ret b S2 = some ((), S3) ∧ Gives S S3 a r ⟨false, elo, elen, im'⟩ := by
  obtain ⟨P, S1, h3, h4⟩ := retag_grow (uniq := false) (prot := true) (im := im) (lo := lo) (n := hs) hi (hr.reader.canRead hi) (Nat.le_refl _) (by omega)
  have hr1 : Reader S1 S.nodes.length elo elen := h4.reader.sub h1 h2
  obtain ⟨P', S2, h5, h6⟩ := retag_grow (uniq := false) (prot := false) (im := im') (lo := elo) (n := n) h4.inv (hr1.canRead h4.inv) (Nat.le_refl _) (by omega)
  obtain ⟨S3, h7, h8⟩ := Gave.ret hi h4 (by simp) (h6.gives h4.inv).gave
  obtain ⟨A, g1, -, g2, -, g3⟩ := hr.grow h8.grow
  exact ⟨_, S1, _, S2, S3, h3, h5, h7, Gives.absorb g1 g2 g3 rfl h8.gives⟩

theorem refFields_ok {a lo headSize fin : Nat} {im : Nat → Bool} (hle : headSize ≤ fin) : ∀ (fs : List (BFld w)) (ls : List (BitVec w × Layout w)) {cur : Nat} {S : Tree},
    (∀ C, BFld.varlen C ∈ fs → BLawful C) → InHead headSize fs → Lays fs ls cur fin → Inv S → ReaderIm S a lo fin im →
    ∃ rs S', refFields a im lo headSize fin fs ls S = some (rs, S') ∧ Gave S S' a rs (fieldExts false lo fs ls) := by
  intro fs
  induction fs with
  | nil => intro ls cur S _ _ _ hi _; exact ⟨[], S, rfl, .nil hi a⟩
  | cons f fs ih =>
    intro ls cur S hC hh hl hi hr
    have hC' : ∀ C, BFld.varlen C ∈ fs → BLawful C := fun C h => hC C (by simp [h])
    have hh' : InHead headSize fs := fun g hg => hh g (by simp [hg])
    have hf := hh f (by simp)
    cases f with
    | normal R off =>
      simp only [BFld.fld, Fld.range] at hf
      have hr' : Reader S a (lo + off) R.size := hr.reader.sub (by omega) (by omega)
      obtain ⟨P, S1, h1, h2⟩ := retag_grow (uniq := false) (prot := false) (im := rustIm R (lo + off)) (lo := lo + off) (n := R.size) hi (hr'.canRead hi) (Nat.le_refl _) (Nat.le_refl _)
      obtain ⟨rs, S2, h3, h4⟩ := ih ls hC' hh' hl h2.inv (hr.grow h2.grow)
      refine ⟨_, S2, ?_, Gives.cons hr.lt (h2.gives hi) h4⟩
      show (retag a false false (rustIm R (lo + off)) (lo + off) R.size (lo + off) R.size >>= _) S = _
      rw [bind_some h1, bind_some h3]; rfl
    | length R off =>
      simp only [BFld.fld, Fld.range] at hf
      have hr' : Reader S a (lo + off) R.size := hr.reader.sub (by omega) (by omega)
      obtain ⟨P, S1, h1, h2⟩ := retag_grow (uniq := false) (prot := false) (im := rustIm R (lo + off)) (lo := lo + off) (n := R.size) hi (hr'.canRead hi) (Nat.le_refl _) (Nat.le_refl _)
      obtain ⟨rs, S2, h3, h4⟩ := ih ls hC' hh' hl h2.inv (hr.grow h2.grow)
      refine ⟨_, S2, ?_, Gives.cons hr.lt (h2.gives hi) h4⟩
      show (retag a false false (rustIm R (lo + off)) (lo + off) R.size (lo + off) R.size >>= _) S = _
      rw [bind_some h1, bind_some h3]; rfl
    | varlen C =>
      rcases ls with _ | ⟨⟨o, l⟩, ls⟩
      · exact hl.elim
      · obtain ⟨⟨hcur, v, b, hrep⟩, hl'⟩ := hl
        have hfin := Lays.le _ _ _ _ hl'
        have hn := (hC C (by simp)).head v l b hrep
        obtain ⟨b, S1, r, S2, S3, h1, h2, h3, h4⟩ := viaBase_ok (im' := C.im (lo + o.toNat)) (elo := lo + o.toNat) (elen := l.size.toNat) (n := C.T.headSize) hi hr hle (by omega) (by omega) hn
        obtain ⟨rs, S4, h5, h6⟩ := ih ls hC' hh' hl' h4.inv (hr.grow h4.grow)
        refine ⟨_, S4, ?_, Gives.cons hr.lt h4 h6⟩
        show (shrArg a im lo headSize lo fin >>= _) S = _
        rw [bind_some h1, bind_some h2, bind_some h3, bind_some h5]; rfl
    | array R len =>
      rcases ls with _ | ⟨⟨o, l⟩, ls⟩
      · exact hl.elim
      · cases l with
        | len n =>
          obtain ⟨hcur, hl'⟩ := hl
          have hfin := Lays.le _ _ _ _ hl'
          obtain ⟨b, S1, r, S2, S3, h1, h2, h3, h4⟩ := viaBase_ok (im' := sliceIm R (lo + o.toNat) n.toNat) (elo := lo + o.toNat) (elen := n.toNat * R.size) (n := n.toNat * R.size) hi hr hle (by omega) (by omega) (Nat.le_refl _)
          obtain ⟨rs, S4, h5, h6⟩ := ih ls hC' hh' hl' h4.inv (hr.grow h4.grow)
          refine ⟨_, S4, ?_, Gives.cons hr.lt h4 h6⟩
          show (shrArg a im lo headSize lo fin >>= _) S = _
          rw [bind_some h1, bind_some h2, bind_some h3, bind_some h5]; rfl
        | _ => exact hl.elim

theorem fieldExts_shared (lo : Nat) (fs : List (BFld w)) (ls : List (BitVec w × Layout w)) : ∀ e ∈ fieldExts false lo fs ls, e.uniq = false := by
  induction fs generalizing ls with
  | nil => intro e h; simp [fieldExts] at h
  | cons f fs ih =>
    intro e h
    cases f with
    | normal R off => simp only [fieldExts, List.mem_cons] at h; rcases h with rfl | h; (· rfl); exact ih ls e h
    | length R off => simp only [fieldExts, List.mem_cons] at h; rcases h with rfl | h; (· rfl); exact ih ls e h
    | varlen C =>
      rcases ls with _ | ⟨⟨o, l⟩, ls⟩
      · simp [fieldExts] at h
      · simp only [fieldExts, List.mem_cons] at h; rcases h with rfl | h; (· rfl); exact ih ls e h
    | array R len =>
      rcases ls with _ | ⟨⟨o, l⟩, ls⟩
      · simp [fieldExts] at h
      · cases l with
        | len n => simp only [fieldExts, List.mem_cons] at h; rcases h with rfl | h; (· rfl); exact ih ls e h
        | _ => simp [fieldExts] at h

theorem refs_ok {headSize : Nat} {fs : List (BFld w)} {size : BitVec w} {ls : List (BitVec w × Layout w)} (hC : ∀ C, BFld.varlen C ∈ fs → BLawful C) (hh : InHead headSize fs)
    (hl : Lays fs ls headSize size.toNat) {S : Tree} {t lo : Nat} (hi : Inv S) (hr : CanRead S t lo size.toNat) :
    ∃ rs S', refs headSize fs t lo (.fields size ls) S = some (rs, S') ∧ Gave S S' t rs ((fieldExts false lo fs ls).map (Ext.within (aggIm headSize fs lo))) := by
  have hle := Lays.le _ _ _ _ hl
  obtain ⟨P, S1, h1, h2⟩ := retag_grow (uniq := false) (prot := true) (im := aggIm headSize fs lo) (lo := lo) (n := headSize) hi hr (Nat.le_refl _) (by omega)
  obtain ⟨S2, h3, h4, h5⟩ := aggCalc_quiet hC hh hl h2.inv (h2.reader.canRead h2.inv)
  obtain ⟨rs, S3, h6, h7⟩ := refFields_ok hle fs ls hC hh hl h4 (h2.readerIm.grow h5)
  obtain ⟨S4, h8, h9⟩ := Gave.ret hi h2 (fieldExts_shared lo fs ls) (h7.quietFirst h5)
  refine ⟨rs, S4, ?_, h9⟩
  show (shrArg t (aggIm headSize fs lo) lo headSize lo size.toNat >>= _) S = _
  rw [bind_some (show shrArg t (aggIm headSize fs lo) lo headSize lo size.toNat S = _ from h1), bind_some h3, bind_some h6, bind_some h8]; rfl

/-- After borrowing one field, the others can still be borrowed. -/
theorem others_ok {S S1 : Tree} {m r : Nat} {e : Ext} {es : List Ext} (h : Gives S S1 m r e) (hw : ∀ e ∈ es, CanWrite S m e.lo e.len) (hd : ∀ e' ∈ es, e.Apart e') :
    ∀ e ∈ es, CanWrite S1 m e.lo e.len := by
  intro e' he
  refine (hw e' he).grow h.grow ?_
  intro i hi M hM x hx hx'
  simp only [List.mem_singleton] at hi
  subst hi
  obtain ⟨A, h1, -, -, -, h2, h3, -⟩ := h.tag
  rw [hM] at h1; cases h1
  unfold Tag.Has at hx
  exact hd e' he x ⟨by omega, hx'⟩

theorem mutFields_ok {m lo fin : Nat} : ∀ (fs : List (BFld w)) (ls : List (BitVec w × Layout w)) {cur : Nat} {S : Tree},
    m < S.nodes.length → (∀ C, BFld.varlen C ∈ fs → BLawful C) → Lays fs ls cur fin → Inv S → (∀ e ∈ fieldExts true lo fs ls, CanWrite S m e.lo e.len) → (fieldExts true lo fs ls).Pairwise Ext.Apart →
    ∃ rs S', mutFields m lo fs ls S = some (rs, S') ∧ Gave S S' m rs (fieldExts true lo fs ls) := by
  intro fs
  induction fs with
  | nil => intro ls cur S _ _ _ hi _ _; exact ⟨[], S, rfl, .nil hi m⟩
  | cons f fs ih =>
    intro ls cur S hm hC hl hi hw hd
    have hC' : ∀ C, BFld.varlen C ∈ fs → BLawful C := fun C h => hC C (by simp [h])
    cases f with
    | normal R off =>
      simp only [fieldExts, List.pairwise_cons, List.forall_mem_cons] at hw hd
      obtain ⟨P, S1, h1, h2⟩ := retag_grow (uniq := true) (prot := false) (im := rustIm R (lo + off)) (lo := lo + off) (n := R.size) hi hw.1 (Nat.le_refl _) (Nat.le_refl _)
      obtain ⟨rs, S2, h3, h4⟩ := ih ls (Nat.lt_of_lt_of_le hm h2.grow.len) hC' hl h2.inv (others_ok (h2.gives hi) hw.2 hd.1) hd.2
      refine ⟨_, S2, ?_, Gives.cons hm (h2.gives hi) h4⟩
      show (retag m true false (rustIm R (lo + off)) (lo + off) R.size (lo + off) R.size >>= _) S = _
      rw [bind_some h1, bind_some h3]; rfl
    | length R off =>
      simp only [fieldExts, List.pairwise_cons, List.forall_mem_cons] at hw hd
      obtain ⟨P, S1, h1, h2⟩ := retag_grow (uniq := true) (prot := false) (im := rustIm R (lo + off)) (lo := lo + off) (n := R.size) hi hw.1 (Nat.le_refl _) (Nat.le_refl _)
      obtain ⟨P', S2, h3, h4⟩ := retag_grow (uniq := false) (prot := false) (im := rustIm R (lo + off)) (lo := lo + off) (n := R.size) h2.inv (h2.canWrite hi).canRead (Nat.le_refl _) (Nat.le_refl _)
      obtain ⟨S3, h5, h6⟩ := Gave.kill hi h2 (h4.gives h2.inv).gave
      obtain ⟨rs, S4, h7, h8⟩ := ih ls (Nat.lt_of_lt_of_le hm h6.grow.len) hC' hl h6.inv (others_ok h6.gives hw.2 hd.1) hd.2
      refine ⟨_, S4, ?_, Gives.cons hm h6.gives h8⟩
      show (retag m true false (rustIm R (lo + off)) (lo + off) R.size (lo + off) R.size >>= _) S = _
      rw [bind_some h1, bind_some h3, bind_some h5, bind_some h7]; rfl
    | varlen C =>
      rcases ls with _ | ⟨⟨o, l⟩, ls⟩
      · exact hl.elim
      · obtain ⟨⟨hcur, v, b, hrep⟩, hl'⟩ := hl
        have hn := (hC C (by simp)).head v l b hrep
        simp only [fieldExts, List.pairwise_cons, List.forall_mem_cons] at hw hd
        obtain ⟨P, S1, h1, h2⟩ := retag_grow (uniq := true) (prot := false) (im := C.im (lo + o.toNat)) (lo := lo + o.toNat) (n := C.T.headSize) hi hw.1 (Nat.le_refl _) (by omega)
        obtain ⟨rs, S2, h3, h4⟩ := ih ls (Nat.lt_of_lt_of_le hm h2.grow.len) hC' hl' h2.inv (others_ok (h2.gives hi) hw.2 hd.1) hd.2
        refine ⟨_, S2, ?_, Gives.cons hm (h2.gives hi) h4⟩
        show (retag m true false (C.im (lo + o.toNat)) (lo + o.toNat) C.T.headSize (lo + o.toNat) l.size.toNat >>= _) S = _
        rw [bind_some h1, bind_some h3]; rfl
    | array R len =>
      rcases ls with _ | ⟨⟨o, l⟩, ls⟩
      · exact hl.elim
      · cases l with
        | len n =>
          obtain ⟨hcur, hl'⟩ := hl
          simp only [fieldExts, List.pairwise_cons, List.forall_mem_cons] at hw hd
          obtain ⟨P, S1, h1, h2⟩ := retag_grow (uniq := true) (prot := false) (im := sliceIm R (lo + o.toNat) n.toNat) (lo := lo + o.toNat) (n := n.toNat * R.size) hi hw.1 (Nat.le_refl _) (Nat.le_refl _)
          obtain ⟨rs, S2, h3, h4⟩ := ih ls (Nat.lt_of_lt_of_le hm h2.grow.len) hC' hl' h2.inv (others_ok (h2.gives hi) hw.2 hd.1) hd.2
          refine ⟨_, S2, ?_, Gives.cons hm (h2.gives hi) h4⟩
          show (retag m true false (sliceIm R (lo + o.toNat) n.toNat) (lo + o.toNat) (n.toNat * R.size) (lo + o.toNat) (n.toNat * R.size) >>= _) S = _
          rw [bind_some h1, bind_some h3]; rfl
        | _ => exact hl.elim

theorem calcThrough_quiet {C : (t lo : Nat) → Layout w → B Unit} {im : Nat → Bool} {headSize a lo : Nat} {l : Layout w} {S : Tree} (hi : Inv S) (hr : CanRead S a lo l.size.toNat) (hn : headSize ≤ l.size.toNat)
    (hC : ∀ t S1, Inv S1 → CanRead S1 t lo l.size.toNat → Quiet (C t lo l) S1) : Quiet (calcThrough C im headSize a lo l) S :=
  quiet_tmp (body := fun s => C s lo l) hi hr hn fun t S1 hi1 hr1 => hC t S1 hi1 (hr1.canRead hi1)

/-- The fixed-size fields do not overlap. -/
def HeadApart (fs : List (BFld w)) : Prop :=
  (fs.map BFld.fld).Pairwise fun a b => a.range.2 = 0 ∨ b.range.2 = 0 ∨ a.range.1 + a.range.2 ≤ b.range.1 ∨ b.range.1 + b.range.2 ≤ a.range.1

theorem muts_ok (pin : Bool) {headSize : Nat} {fs : List (BFld w)} {size : BitVec w} {ls : List (BitVec w × Layout w)} (hC : ∀ C, BFld.varlen C ∈ fs → BLawful C) (hh : InHead headSize fs)
    (ha : HeadApart fs) (hl : Lays fs ls headSize size.toNat) {S : Tree} {t lo : Nat} (hi : Inv S) (hw : CanWrite S t lo size.toNat) :
    ∃ rs S', muts pin headSize fs t lo (.fields size ls) S = some (rs, S') ∧ Gave S S' t rs (fieldExts true lo fs ls) := by
  have hle := Lays.le _ _ _ _ hl
  obtain ⟨a, S1, h1, h2, h3, h4⟩ := mutArg_gave pin hi hw hle
  obtain ⟨S2, h5, h6, h7⟩ := calcThrough_quiet (C := aggCalc headSize fs) (im := aggIm headSize fs lo) (l := .fields size ls) h2 h3.canRead hle
    (fun t S1 hi1 hr1 => aggCalc_quiet hC hh hl hi1 hr1)
  obtain ⟨P, S3, h8, h9⟩ := retag_grow (uniq := true) (prot := false) (im := aggIm headSize fs lo) (lo := lo) (n := headSize) h6 (h3.quiet h7) (Nat.le_refl _) (by omega)
  obtain ⟨rs, S4, h10, h11⟩ := mutFields_ok (m := S2.nodes.length) (lo := lo) fs ls (by rw [h9.len]; omega) hC hl h9.inv (by
    intro e he
    refine (h9.canWrite h6).sub ?_ ?_
    all_goals
      rcases fieldExts_mem true lo fs ls _ _ hl e he with ⟨f, hf, g1, g2⟩ | ⟨g1, g2⟩
      · have := hh f hf
        omega
      · omega) (fieldExts_apart true lo headSize fs ls _ _ hl hh (Nat.le_refl _) ha)
  obtain ⟨S5, h12, h13⟩ := Gave.kill h6 h9 h11
  obtain ⟨S6, h14, h15⟩ := h4 S5 rs _ (h13.quietFirst h7)
  refine ⟨rs, S6, ?_, h15⟩
  show (mutArg pin t lo headSize lo size.toNat >>= _) S = _
  rw [bind_some h1, bind_some h5, bind_some h8, bind_some h10, bind_some h12, bind_some h14]; rfl

theorem setLens_quiet {m lo headSize fin : Nat} (hle : headSize ≤ fin) : ∀ (fs : List (BFld w)) {S : Tree}, InHead headSize fs → Inv S → CanWrite S m lo fin → Quiet (setLens m lo fs) S := by
  intro fs
  induction fs with
  | nil => intro S _ hi _; exact .pure hi
  | cons f fs ih =>
    intro S hh hi hw
    have hh' : InHead headSize fs := fun g hg => hh g (by simp [hg])
    have hf := hh f (by simp)
    cases f with
    | normal R off => exact ih hh' hi hw
    | varlen C => exact ih hh' hi hw
    | array R len => exact ih hh' hi hw
    | length R off =>
      simp only [BFld.fld, Fld.range] at hf
      refine Quiet.bind (dropIn_quiet _ hi (hw.sub (by omega) (by omega))) ?_
      intro S1 hi1 hg1
      refine Quiet.bind (.access (wr := true) hi1 ((hw.quiet hg1).sub (by omega) (by omega))) ?_
      intro S2 hi2 hg2
      exact ih hh' hi2 ((hw.quiet hg1).quiet hg2)

theorem trySet_quiet (pin valid : Bool) {headSize : Nat} {fs : List (BFld w)} {l : Layout w} (hle : headSize ≤ l.size.toNat) (hh : InHead headSize fs) {S : Tree} {t lo : Nat} (hi : Inv S)
    (hw : CanWrite S t lo l.size.toNat) : Quiet (trySet pin valid headSize fs t lo l) S := by
  obtain ⟨a, S1, h1, h2, h3, -, h4⟩ := mutArg_grow pin hi hw hle
  obtain ⟨P, S2, h5, h6⟩ := retag_grow (uniq := false) (prot := false) (im := aggIm headSize fs lo) (lo := lo) (n := headSize) h2 h3.canRead (Nat.le_refl _) (by omega)
  obtain ⟨lens, S3, h7, h8, h9, h10⟩ := lenRefs_ok hle fs h6.inv h6.reader hh
  obtain ⟨S4, h11, h12, h13⟩ := readAll_quiet lens h8 h10
  obtain ⟨S5, h14, h15, h16⟩ := killAll_ok (S0 := S2) lens (L' := []) h12 (fun r hr => by
    obtain ⟨-, g2, g3⟩ := (h10.grow h13) r hr
    exact ⟨g2, g3⟩) (h9.quiet h13) (by
    intro i hi
    obtain ⟨r, hr, e⟩ := List.mem_map.mp hi
    exact .inr ⟨r, hr, e⟩)
  obtain ⟨S6, h17, h18, h19, -⟩ := h6.scope h15 h16
  unfold Quiet
  show ∃ S', (mutArg pin t lo headSize lo l.size.toNat >>= _) S = _ ∧ _
  rw [bind_some h1, bind_some h5, bind_some h7, bind_some h11, bind_some h14, bind_some h17]
  cases valid with
  | false =>
    obtain ⟨S7, h20, h21, h22, -⟩ := h4 S6 [] h18 h19
    exact ⟨S7, h20, h21, h22⟩
  | true =>
    obtain ⟨P', S7, g1, g2⟩ := retag_grow (uniq := true) (prot := false) (im := aggIm headSize fs lo) (lo := lo) (n := headSize) h18 (h3.quiet h19) (Nat.le_refl _) (by omega)
    obtain ⟨S8, g3, g4, g5⟩ := setLens_quiet hle fs hh g2.inv (g2.canWrite h18)
    obtain ⟨S9, g6, g7, g8, -⟩ := g2.scope g4 g5
    obtain ⟨S10, h20, h21, h22, -⟩ := h4 S9 [] g7 (h19.quiet g8)
    refine ⟨S10, ?_, h21, h22⟩
    rw [if_pos rfl, bind_some g1, bind_some g3, bind_some g6]
    exact h20

theorem arrayDeref_ok (pin : Bool) {R : RTy} {L : LenTy} (hR : R.Ok w) (hL : L.Ok w) {v : V} {l : Layout w} {o : View} (hrep : (BTy.array pin w R L).T.Rep v l o) {S : Tree} {t lo : Nat}
    (hi : Inv S) (hr : CanRead S t lo l.size.toNat) :
    ∃ r S' off n size, l = .array off n size ∧ arrayDeref pin R L t lo l S = some (r, S') ∧ Gives S S' t r ((⟨false, lo + off.toNat, n.toNat * R.size, sliceIm R (lo + off.toNat) n.toNat⟩ : Ext).within noIm) := by
  have hn : L.bytes ≤ l.size.toNat := (BTy.array_lawful pin hR hL).head v l o hrep
  obtain ⟨off, n, size, xs, hv, hl, hoff, hnn, hxs, hsz, hrest⟩ := id hrep
  subst hl
  obtain ⟨P, S1, h1, h2⟩ := retag_grow (uniq := false) (prot := true) (im := noIm) (lo := lo) (n := L.bytes) hi hr (Nat.le_refl _) (by omega)
  obtain ⟨S2, h3, h4, h5⟩ := (BTy.array_lawful pin hR hL).calc_ok S1 S.nodes.length lo v _ o hrep h2.inv (h2.reader.canRead h2.inv)
  obtain ⟨b, S3, r, S4, S5, h6, h7, h8, h9⟩ := viaBase_ok (im' := sliceIm R (lo + off.toNat) n.toNat) (hs := L.bytes) (elo := lo + off.toNat) (elen := n.toNat * R.size) (n := n.toNat * R.size) h4 (h2.readerIm.grow h5) hn (by omega)
    (by simp only [Layout.size] at *; omega) (Nat.le_refl _)
  obtain ⟨S6, h10, h11⟩ := Gave.ret hi h2 (by simp) (h9.gave.quietFirst h5)
  refine ⟨r, S6, off, n, size, rfl, ?_, h11.gives⟩
  show (shrArg t noIm lo L.bytes lo size.toNat >>= _) S = _
  rw [bind_some (show shrArg t noIm lo L.bytes lo size.toNat S = _ from h1), bind_some h3, bind_some (show shrArg S.nodes.length noIm lo L.bytes lo size.toNat S2 = _ from h6), bind_some h7, bind_some h8, bind_some h10]; rfl

theorem arrayMutSlice_ok (pin : Bool) {R : RTy} {L : LenTy} (hR : R.Ok w) (hL : L.Ok w) {v : V} {l : Layout w} {o : View} (hrep : (BTy.array pin w R L).T.Rep v l o) {S : Tree} {t lo : Nat}
    (hi : Inv S) (hw : CanWrite S t lo l.size.toNat) :
    ∃ r S' off n size, l = .array off n size ∧ arrayMutSlice pin R L t lo l S = some (r, S') ∧ Gives S S' t r ⟨true, lo + off.toNat, n.toNat * R.size, sliceIm R (lo + off.toNat) n.toNat⟩ := by
  have hn : L.bytes ≤ l.size.toNat := (BTy.array_lawful pin hR hL).head v l o hrep
  obtain ⟨off, n, size, xs, hv, hl, hoff, hnn, hxs, hsz, hrest⟩ := id hrep
  subst hl
  obtain ⟨a, S1, h1, h2, h3, h4⟩ := mutArg_gave pin (size := size.toNat) hi hw hn
  obtain ⟨S2, h5, h6, h7⟩ := calcThrough_quiet (C := (BTy.array pin w R L).calcB) (im := noIm) (l := .array off n size) h2 h3.canRead hn
    (fun t S1 hi1 hr1 => (BTy.array_lawful pin hR hL).calc_ok S1 t lo v _ o hrep hi1 hr1)
  obtain ⟨P, S3, h8, h9⟩ := retag_grow (uniq := true) (prot := false) (im := noIm) (lo := lo) (n := L.bytes) h6 (h3.quiet h7) (Nat.le_refl _) (by simp only [Layout.size] at *; omega)
  have hw3 : CanWrite S3 S2.nodes.length (lo + off.toNat) (n.toNat * R.size) := (h9.canWrite h6).sub (by omega) (by simp only [Layout.size] at *; omega)
  obtain ⟨P', S4, h10, h11⟩ := retag_grow (uniq := true) (prot := false) (im := sliceIm R (lo + off.toNat) n.toNat) (lo := lo + off.toNat) (n := n.toNat * R.size) h9.inv hw3 (Nat.le_refl _) (Nat.le_refl _)
  obtain ⟨S5, h12, h13⟩ := Gave.kill h6 h9 (h11.gives h9.inv).gave
  obtain ⟨S6, h14, h15⟩ := h4 S5 _ _ (h13.quietFirst h7)
  refine ⟨_, S6, off, n, size, rfl, ?_, h15.gives⟩
  show (mutArg pin t lo L.bytes lo size.toNat >>= _) S = _
  rw [bind_some h1, bind_some h5, bind_some h8, bind_some h10, bind_some h12, bind_some h14]; rfl

theorem newtypeRef_ok {C : BTy w} {t lo : Nat} {l : Layout w} {S : Tree} (hn : C.T.headSize ≤ l.size.toNat) (hi : Inv S) (hr : CanRead S t lo l.size.toNat) :
    ∃ r S', newtypeRef C t lo l S = some (r, S') ∧ Gives S S' t r ((⟨false, lo, l.size.toNat, C.im lo⟩ : Ext).within (C.im lo)) := by
  obtain ⟨P, S1, h1, h2⟩ := retag_grow (uniq := false) (prot := true) (im := C.im lo) (lo := lo) (n := C.T.headSize) hi hr (Nat.le_refl _) (by omega)
  obtain ⟨P', S2, h3, h4⟩ := retag_grow (uniq := false) (prot := false) (im := C.im lo) (lo := lo) (n := C.T.headSize) h2.inv (h2.reader.canRead h2.inv) (Nat.le_refl _) (by omega)
  obtain ⟨S3, h5, h6⟩ := Gave.ret hi h2 (by simp) (h4.gives h2.inv).gave
  refine ⟨_, S3, ?_, h6.gives⟩
  show (shrArg t (C.im lo) lo C.T.headSize lo l.size.toNat >>= _) S = _
  rw [bind_some (show shrArg t (C.im lo) lo C.T.headSize lo l.size.toNat S = _ from h1), bind_some h3, bind_some h5]; rfl

theorem newtypeMut_ok (pin : Bool) {C : BTy w} {t lo : Nat} {l : Layout w} {S : Tree} (hn : C.T.headSize ≤ l.size.toNat) (hi : Inv S) (hw : CanWrite S t lo l.size.toNat) :
    ∃ r S', newtypeMut pin C t lo l S = some (r, S') ∧ Gives S S' t r ⟨true, lo, l.size.toNat, C.im lo⟩ := by
  obtain ⟨a, S1, h1, h2, h3, h4⟩ := mutArg_gave pin hi hw hn
  obtain ⟨P, i, S2, h5, h6, h7, h8, h9, h10⟩ := mapInner_ok (im := C.im lo) h2 h3 hn
  have hg : Gives S1 S2 a i ⟨true, lo, l.size.toNat, C.im lo⟩ := by
    refine ⟨h7, h9, h8, _, h10, rfl, rfl, rfl, rfl, rfl, by simp [self_path h2 h6], ?_⟩
    intro T x hT
    obtain ⟨A, hA, -, hu, -⟩ := h3.live
    have hA2 := h9.tag hA
    rw [hA2] at hT; cases hT
    simp [h7.uniqMut h10 rfl x, h7.uniqMut hA2 hu x]
  obtain ⟨S3, h11, h12⟩ := h4 S2 _ _ hg.gave
  refine ⟨_, S3, ?_, h12.gives⟩
  show (mutArg pin t lo C.T.headSize lo l.size.toNat >>= _) S = _
  rw [bind_some h1, bind_some h5, bind_some h11]; rfl

end Varlen.TB
