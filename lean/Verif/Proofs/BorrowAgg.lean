import Verif.Proofs.BorrowTypes
/-! # Structs and tuples follow the rules of the borrow checker -/
namespace Varlen.TB
open Varlen
variable {w : Nat}

/-- The tail fields lie one after the other between `cur` and `fin`, with suitable layouts. -/
def Lays : List (BFld w) → List (BitVec w × Layout w) → Nat → Nat → Prop
  | [], _, cur, fin => cur ≤ fin
  | .normal _ _ :: fs, ls, cur, fin => Lays fs ls cur fin
  | .length _ _ :: fs, ls, cur, fin => Lays fs ls cur fin
  | .varlen C :: fs, (o, l) :: ls, cur, fin => (cur ≤ o.toNat ∧ ∃ v b, C.T.Rep v l b) ∧ Lays fs ls (o.toNat + l.size.toNat) fin
  | .array R _ :: fs, (o, .len n) :: ls, cur, fin => cur ≤ o.toNat ∧ Lays fs ls (o.toNat + n.toNat * R.size) fin
  | _, _, _, _ => False

theorem Lays.le : ∀ (fs : List (BFld w)) (ls : List (BitVec w × Layout w)) (cur fin : Nat), Lays fs ls cur fin → cur ≤ fin := by
  intro fs
  induction fs with
  | nil => intro ls cur fin h; exact h
  | cons f fs ih =>
    intro ls cur fin h
    cases f with
    | normal R off => exact ih ls cur fin h
    | length R off => exact ih ls cur fin h
    | varlen C =>
      rcases ls with _ | ⟨⟨o, l⟩, ls⟩
      · exact h.elim
      · have := ih _ _ _ h.2
        have := h.1.1
        omega
    | array R len =>
      rcases ls with _ | ⟨⟨o, l⟩, ls⟩
      · exact h.elim
      · cases l with
        | len n =>
          have := ih _ _ _ h.2
          have := h.1
          omega
        | _ => exact h.elim

/-- The layout of an object. -/
theorem Lays.ofRep {lens : List Img} {b : View} {hs ha : Nat} : ∀ (fs : List (BFld w)) vs ls cur fin, (∀ f ∈ fs, f.fld.Ok hs ha) →
    RepTails lens (fs.map BFld.fld) vs ls cur fin b → Lays fs ls cur fin := by
  intro fs
  induction fs with
  | nil =>
    intro vs ls cur fin _ h
    cases vs <;> cases ls <;> simp [RepTails] at h
    exact Nat.le_of_eq h
  | cons f fs ih =>
    intro vs ls cur fin hok h
    have hok' : ∀ f ∈ fs, f.fld.Ok hs ha := fun g hg => hok g (by simp [hg])
    have hf := hok f (by simp)
    cases vs with
    | nil => cases f <;> simp [RepTails, BFld.fld] at h
    | cons v vs =>
      cases f with
      | normal R off => exact ih _ _ _ _ hok' h
      | length R off => exact ih _ _ _ _ hok' h
      | varlen C =>
        rcases ls with _ | ⟨⟨o, l⟩, ls⟩
        · exact h.elim
        · have := roundUpN_ge cur C.T.ALIGN.toNat (Lawful.align_pow2 hf).pos
          exact ⟨⟨by rw [h.1.1]; exact this, v, _, h.1.2⟩, ih _ _ _ _ hok' h.2⟩
      | array R len =>
        rcases ls with _ | ⟨⟨o, l⟩, ls⟩
        · simp [RepTails, BFld.fld] at h
        · cases v <;> cases l <;> simp only [RepTails, BFld.fld, List.map_cons] at h
          have := roundUpN_ge cur R.align (RTy.Ok.align_pos hf)
          exact ⟨by rw [h.1.1]; exact this, ih _ _ _ _ hok' h.2⟩

/-- The fixed-size fields lie in the head. -/
def InHead (headSize : Nat) (fs : List (BFld w)) : Prop := ∀ f ∈ fs, f.fld.range.1 + f.fld.range.2 ≤ headSize

/-- The references to the layout-controlling fields are live. -/
def Lens (S : Tree) (n : Nat) (rs : List LenRef) : Prop :=
  ∀ r ∈ rs, Reader S r.tag r.lo r.len ∧ n ≤ r.tag ∧ ∃ A, S.tag r.tag = some A ∧ A.prot = false

theorem Lens.grow {S S' : Tree} {n : Nat} {rs : List LenRef} {L : List Nat} (h : Lens S n rs) (hg : Grow S S' L) : Lens S' n rs := by
  intro r hr
  obtain ⟨h1, h2, A, h3, h4⟩ := h r hr
  exact ⟨h1.grow hg, h2, A, hg.tag h3, h4⟩

theorem readAll_quiet {n : Nat} : ∀ (rs : List LenRef) {S : Tree}, Inv S → Lens S n rs → Quiet (readAll rs) S := by
  intro rs
  induction rs with
  | nil => intro S hi _; exact .pure hi
  | cons r rs ih =>
    intro S hi h
    refine Quiet.bind (.access (wr := false) hi ((h r (by simp)).1.canRead hi)) ?_
    intro S' hi' hg
    exact ih hi' (Lens.grow (fun r hr => h r (by simp [hr])) hg)

theorem killAll_ok {S0 : Tree} : ∀ (rs : List LenRef) {S : Tree} {L L' : List Nat}, Inv S → (∀ r ∈ rs, S0.nodes.length ≤ r.tag ∧ ∃ A, S.tag r.tag = some A ∧ A.prot = false) →
    Grow S0 S L → (∀ i ∈ L, i ∈ L' ∨ ∃ r ∈ rs, r.tag = i) → ∃ S', killAll rs S = some ((), S') ∧ Inv S' ∧ Grow S0 S' L' := by
  intro rs
  induction rs with
  | nil =>
    intro S L L' hi _ hg hL
    refine ⟨S, rfl, hi, hg.trans (.refl S []) ?_ (by simp)⟩
    intro i h
    rcases hL i h with h | ⟨r, hr, -⟩
    · exact h
    · simp at hr
  | cons r rs ih =>
    intro S L L' hi hr hg hL
    obtain ⟨h1, A, h2, h3⟩ := hr r (by simp)
    obtain ⟨S1, h4, h5⟩ := kill_grow hi h2 h3
    obtain ⟨S2, h6, h7, h8⟩ := ih (S := S1) (L := L.filter (· ≠ r.tag)) (L' := L') h5.inv (by
      intro q hq
      obtain ⟨g1, B, g2, g3⟩ := hr q (by simp [hq])
      refine ⟨g1, ?_⟩
      by_cases hqr : q.tag = r.tag
      · obtain ⟨M, g4, g5⟩ := h5.dead
        exact ⟨M, by rw [hqr]; exact g4, h5.inv.protFalse g4 g5⟩
      · exact ⟨B, by rw [h5.other _ hqr]; exact g2, g3⟩) (h5.grow hg h1 (by
      intro i hi hne; simp [hi, hne])) (by
      intro i hi
      simp only [List.mem_filter, decide_not, Bool.not_eq_eq_eq_not, Bool.not_true, decide_eq_false_iff_not] at hi
      rcases hL i hi.1 with h | ⟨q, hq, e⟩
      · exact .inl h
      · rcases List.mem_cons.mp hq with h | h
        · subst h; exact absurd e.symm hi.2
        · exact .inr ⟨q, h, e⟩)
    refine ⟨S2, ?_, h7, h8⟩
    show (kill r.tag >>= fun _ => killAll rs) S = _
    rw [bind_some h4]
    exact h6

theorem lenRefs_ok {a lo size headSize : Nat} (hle : headSize ≤ size) : ∀ (fs : List (BFld w)) {S : Tree}, Inv S → Reader S a lo size → InHead headSize fs →
    ∃ rs S', lenRefs a lo fs S = some (rs, S') ∧ Inv S' ∧ Grow S S' (rs.map (·.tag)) ∧ Lens S' S.nodes.length rs := by
  intro fs
  induction fs with
  | nil => intro S hi _ _; exact ⟨[], S, rfl, hi, .refl S _, by intro r hr; simp at hr⟩
  | cons f fs ih =>
    intro S hi hr hh
    have hh' : InHead headSize fs := fun g hg => hh g (by simp [hg])
    have hf := hh f (by simp)
    cases f with
    | normal R off => exact ih hi hr hh'
    | varlen C => exact ih hi hr hh'
    | array R len => exact ih hi hr hh'
    | length R off =>
      simp only [BFld.fld, Fld.range] at hf
      have hr' : Reader S a (lo + off) R.size := hr.sub (by omega) (by omega)
      obtain ⟨P, S1, h1, h2⟩ := retag_grow (uniq := false) (prot := false) (im := rustIm R (lo + off)) (lo := lo + off) (n := R.size) hi (hr'.canRead hi) (Nat.le_refl _) (Nat.le_refl _)
      obtain ⟨rs, S2, h3, h4, h5, h6⟩ := ih h2.inv (hr.grow h2.grow) hh'
      refine ⟨⟨S.nodes.length, lo + off, R.size⟩ :: rs, S2, ?_, h4, ?_, ?_⟩
      · show (retag a false false (rustIm R (lo + off)) (lo + off) R.size (lo + off) R.size >>= _) S = _
        rw [bind_some h1, bind_some h3]
        rfl
      · exact h2.grow.trans h5 (by simp) (fun i hi => by simp at hi ⊢; exact .inr hi)
      · intro r hr
        rcases List.mem_cons.mp hr with h | h
        · subst h
          exact ⟨h2.reader.grow h5, Nat.le_refl _, _, h5.tag h2.tag, rfl⟩
        · obtain ⟨g1, g2, g3⟩ := h6 r h
          have := h2.len
          exact ⟨g1, by omega, g3⟩

theorem calcFields_quiet {a lo headSize fin n : Nat} {im : Nat → Bool} {lens : List LenRef} (hle : headSize ≤ fin) : ∀ (fs : List (BFld w)) (ls : List (BitVec w × Layout w)) {cur : Nat} {S : Tree},
    (∀ C, BFld.varlen C ∈ fs → BLawful C) → Lays fs ls cur fin → Inv S → Reader S a lo fin → Lens S n lens → Quiet (calcFields a im lo headSize fin lens fs ls) S := by
  intro fs
  induction fs with
  | nil => intro ls cur S _ _ hi _ _; exact .pure hi
  | cons f fs ih =>
    intro ls cur S hC hl hi hr hlens
    have hC' : ∀ C, BFld.varlen C ∈ fs → BLawful C := fun C h => hC C (by simp [h])
    cases f with
    | normal R off => exact ih ls hC' hl hi hr hlens
    | length R off => exact ih ls hC' hl hi hr hlens
    | varlen C =>
      rcases ls with _ | ⟨⟨o, l⟩, ls⟩
      · exact hl.elim
      · obtain ⟨⟨hcur, v, b, hrep⟩, hl'⟩ := hl
        have hfin := Lays.le _ _ _ _ hl'
        have hCl := hC C (by simp)
        have hn := hCl.head v l b hrep
        obtain ⟨P, S1, h1, h2⟩ := retag_grow (uniq := false) (prot := true) (im := im) (lo := lo) (n := headSize) hi (hr.canRead hi) (Nat.le_refl _) (by omega)
        have hr1 : Reader S1 S.nodes.length (lo + o.toNat) l.size.toNat := h2.reader.sub (by omega) (by omega)
        obtain ⟨P', S1', h1', h2'⟩ := retag_grow (uniq := false) (prot := false) (im := C.im (lo + o.toNat)) (lo := lo + o.toNat) (n := C.T.headSize) h2.inv (hr1.canRead h2.inv) (Nat.le_refl _) (by omega)
        obtain ⟨S2, h3, h4, h5⟩ := hCl.calc_ok S1' _ (lo + o.toNat) v l b hrep h2'.inv (h2'.reader.canRead h2'.inv)
        obtain ⟨S3, h6, h7, h8, -⟩ := h2'.scope h4 h5
        obtain ⟨S4, h9, h10, h11, -⟩ := h2.scopeRet h7 h8
        obtain ⟨S5, h12, h13, h14⟩ := ih ls hC' hl' h10 (hr.grow h11) (hlens.grow h11)
        refine ⟨S5, ?_, h13, h11.quiet h14⟩
        show (shrArg a im lo headSize lo fin >>= _) S = _
        rw [bind_some (show shrArg a im lo headSize lo fin S = _ from h1), bind_some h1', bind_some h3, bind_some h6, bind_some h9]
        exact h12
    | array R len =>
      rcases ls with _ | ⟨⟨o, l⟩, ls⟩
      · exact hl.elim
      · have hl' : ∃ cur, Lays fs ls cur fin := by
          cases l with
          | len n => exact ⟨_, hl.2⟩
          | _ => exact hl.elim
        obtain ⟨cur', hl'⟩ := hl'
        refine Quiet.bind (readAll_quiet lens hi hlens) ?_
        intro S' hi' hg
        exact ih ls hC' hl' hi' (hr.grow hg) (hlens.grow hg)

theorem aggCalc_quiet {headSize : Nat} {fs : List (BFld w)} {size : BitVec w} {ls : List (BitVec w × Layout w)} (hC : ∀ C, BFld.varlen C ∈ fs → BLawful C) (hh : InHead headSize fs)
    (hl : Lays fs ls headSize size.toNat) {S : Tree} {t lo : Nat} (hi : Inv S) (hr : CanRead S t lo size.toNat) : Quiet (aggCalc headSize fs t lo (.fields size ls)) S := by
  have hle := Lays.le _ _ _ _ hl
  obtain ⟨P, S1, h1, h2⟩ := retag_grow (uniq := false) (prot := true) (im := aggIm headSize fs lo) (lo := lo) (n := headSize) hi hr (Nat.le_refl _) (by omega)
  obtain ⟨lens, S2, h3, h4, h5, h6⟩ := lenRefs_ok hle fs h2.inv h2.reader hh
  obtain ⟨S3, h7, h8, h9⟩ := calcFields_quiet hle fs ls hC hl h4 (h2.reader.grow h5) h6
  obtain ⟨S4, h10, h11, h12⟩ := killAll_ok (S0 := S1) lens (L' := []) h8 (fun r hr => by
    obtain ⟨-, g2, g3⟩ := (h6.grow h9) r hr
    exact ⟨g2, g3⟩) (h5.quiet h9) (by
    intro i hi
    obtain ⟨r, hr, e⟩ := List.mem_map.mp hi
    exact .inr ⟨r, hr, e⟩)
  obtain ⟨S5, h13, h14, h15, -⟩ := h2.scopeRet h11 h12
  refine ⟨S5, ?_, h14, h15⟩
  show (shrArg t (aggIm headSize fs lo) lo headSize lo size.toNat >>= _) S = _
  rw [bind_some (show shrArg t (aggIm headSize fs lo) lo headSize lo size.toNat S = _ from h1), bind_some h3, bind_some h7, bind_some h10]
  exact h13

theorem dropFields_quiet {p lo headSize fin : Nat} : ∀ (fs : List (BFld w)) (ls : List (BitVec w × Layout w)) {cur : Nat} {S : Tree},
    (∀ C, BFld.varlen C ∈ fs → BLawful C) → InHead headSize fs → headSize ≤ fin → Lays fs ls cur fin → Inv S → CanWrite S p lo fin → Quiet (dropFields p lo fs ls) S := by
  intro fs
  induction fs with
  | nil => intro ls cur S _ _ _ _ hi _; exact .pure hi
  | cons f fs ih =>
    intro ls cur S hC hh hle hl hi hw
    have hC' : ∀ C, BFld.varlen C ∈ fs → BLawful C := fun C h => hC C (by simp [h])
    have hh' : InHead headSize fs := fun g hg => hh g (by simp [hg])
    have hf := hh f (by simp)
    cases f with
    | normal R off =>
      simp only [BFld.fld, Fld.range] at hf
      refine Quiet.bind (dropIn_quiet _ hi (hw.sub (by omega) (by omega))) ?_
      intro S' hi' hg
      exact ih ls hC' hh' hle hl hi' (hw.quiet hg)
    | length R off =>
      simp only [BFld.fld, Fld.range] at hf
      refine Quiet.bind (dropIn_quiet _ hi (hw.sub (by omega) (by omega))) ?_
      intro S' hi' hg
      exact ih ls hC' hh' hle hl hi' (hw.quiet hg)
    | varlen C =>
      rcases ls with _ | ⟨⟨o, l⟩, ls⟩
      · exact hl.elim
      · obtain ⟨⟨hcur, v, b, hrep⟩, hl'⟩ := hl
        have hfin := Lays.le _ _ _ _ hl'
        have hCl := hC C (by simp)
        have hn := hCl.head v l b hrep
        have hw1 : CanWrite S p (lo + o.toNat) l.size.toNat := hw.sub (by omega) (by omega)
        obtain ⟨P, S1, h1, h2⟩ := retag_grow (uniq := true) (prot := false) (im := C.im (lo + o.toNat)) (lo := lo + o.toNat) (n := C.T.headSize) hi hw1 (Nat.le_refl _) (by omega)
        obtain ⟨S2, h3, h4, h5⟩ := hCl.vdrop_ok S1 _ (lo + o.toNat) v l b hrep h2.inv (h2.canWrite hi)
        obtain ⟨S3, h6, h7, h8, -⟩ := h2.scope h4 h5
        obtain ⟨S5, h12, h13, h14⟩ := ih ls hC' hh' hle hl' h7 (hw.quiet h8)
        refine ⟨S5, ?_, h13, h8.quiet h14⟩
        show (retag p true false (C.im (lo + o.toNat)) (lo + o.toNat) C.T.headSize (lo + o.toNat) l.size.toNat >>= _) S = _
        rw [bind_some h1, bind_some h3, bind_some h6]
        exact h12
    | array R len =>
      rcases ls with _ | ⟨⟨o, l⟩, ls⟩
      · exact hl.elim
      · cases l with
        | len n =>
          obtain ⟨hcur, hl'⟩ := hl
          have hfin := Lays.le _ _ _ _ hl'
          refine Quiet.bind (dropElems_quiet _ _ hi (hw.sub (by omega) (by omega))) ?_
          intro S' hi' hg
          exact ih ls hC' hh' hle hl' hi' (hw.quiet hg)
        | _ => exact hl.elim

theorem aggVdrop_quiet (pin : Bool) {headSize : Nat} {fs : List (BFld w)} {size : BitVec w} {ls : List (BitVec w × Layout w)} (hC : ∀ C, BFld.varlen C ∈ fs → BLawful C) (hh : InHead headSize fs)
    (hl : Lays fs ls headSize size.toNat) {S : Tree} {t lo : Nat} (hi : Inv S) (hw : CanWrite S t lo size.toNat) : Quiet (aggVdrop pin headSize fs t lo (.fields size ls)) S := by
  have hle := Lays.le _ _ _ _ hl
  refine quiet_vdrop pin hi hw hle ?_
  intro a S1 hi1 hw1
  exact dropFields_quiet fs ls hC hh hle hl hi1 hw1

/-- What is known about the fields of a well-formed struct and the layout of an object. -/
theorem agg_facts {hs ha : Nat} {fs : List (BFld w)} (hok : StructOk hs ha (fs.map BFld.fld)) {v : V} {l : Layout w} {o : View} (hrep : aggRep hs (fs.map BFld.fld) v l o) :
    ∃ size ls, l = .fields size ls ∧ InHead hs fs ∧ Lays fs ls hs size.toNat := by
  obtain ⟨vs, ls, size, -, rfl, -, ht⟩ := hrep
  have hf : ∀ f ∈ fs, f.fld.Ok hs ha := fun f hf => hok.flds _ (List.mem_map_of_mem hf)
  refine ⟨size, ls, rfl, ?_, Lays.ofRep fs vs ls hs size.toNat hf ht⟩
  intro f hm
  have := hf f hm
  cases f with
  | normal R off => exact this.2.1
  | length R off => exact this.2.1
  | varlen C => exact Nat.zero_le _
  | array R len => exact Nat.zero_le _

theorem BTy.struct_lawful (pin : Bool) {hs ha : Nat} {fs : List (BFld w)} (hok : StructOk hs ha (fs.map BFld.fld)) (hC : ∀ C, BFld.varlen C ∈ fs → BLawful C) :
    BLawful (BTy.struct pin w hs ha fs) where
  calc_ok := by
    intro S t lo v l o hrep hi hr
    obtain ⟨size, ls, rfl, h1, h2⟩ := agg_facts hok hrep
    exact aggCalc_quiet hC h1 h2 hi hr
  vdrop_ok := by
    intro S t lo v l o hrep hi hw
    obtain ⟨size, ls, rfl, h1, h2⟩ := agg_facts hok hrep
    exact aggVdrop_quiet pin hC h1 h2 hi hw
  head := (Struct.lawful hok).head_le

theorem BTy.tuple_fs (Cs : List (BTy w)) : (Cs.map (·.T)).map Fld.varlen = (Cs.map BFld.varlen).map BFld.fld := by
  simp [BFld.fld]

theorem BTy.tuple_lawful (pin : Bool) {Cs : List (BTy w)} (hok : StructOk 0 1 ((Cs.map BFld.varlen).map BFld.fld)) (hC : ∀ C ∈ Cs, BLawful C) : BLawful (BTy.tuple pin w Cs) where
  calc_ok := by
    intro S t lo v l o hrep hi hr
    replace hrep : aggRep 0 ((Cs.map (·.T)).map Fld.varlen) v l o := hrep
    rw [BTy.tuple_fs] at hrep
    obtain ⟨size, ls, rfl, h1, h2⟩ := agg_facts hok hrep
    exact aggCalc_quiet (by intro C h; simp at h; exact hC C h) h1 h2 hi hr
  vdrop_ok := by
    intro S t lo v l o hrep hi hw
    replace hrep : aggRep 0 ((Cs.map (·.T)).map Fld.varlen) v l o := hrep
    rw [BTy.tuple_fs] at hrep
    obtain ⟨size, ls, rfl, h1, h2⟩ := agg_facts hok hrep
    show Quiet (if _ then _ else _) S
    split
    · exact aggVdrop_quiet pin (by intro C h; simp at h; exact hC C h) h1 h2 hi hw
    · obtain ⟨a, S1, g1, g2, g3, -, g4⟩ := mutArg_grow pin (n := 0) hi hw (Nat.zero_le _)
      obtain ⟨S2, g5, g6, g7, -⟩ := g4 S1 [] g2 (.refl S1 [])
      refine ⟨S2, ?_, g6, g7⟩
      rw [bind_some g1]
      exact g5
  head := fun _ _ _ _ => Nat.zero_le _

end Varlen.TB
