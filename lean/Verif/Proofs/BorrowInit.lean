import Verif.Proofs.BorrowRefs
/-! # Initialization, boxes and sequences follow the rules of the borrow checker -/
namespace Varlen.TB
open Varlen
variable {w : Nat}

theorem Inv.new (n : Nat) : Inv (Tree.new n) := by
  have key : ∀ (i : Nat) (N : Node), (Tree.new n).nodes[i]? = some N → i = 0 ∧ N = ⟨⟨[0], true, false, true, 0, n, noIm⟩, fun _ => ⟨.active, true⟩⟩ := by
    intro i N h
    cases i with
    | zero => simp [Tree.new] at h; exact ⟨rfl, h.symm⟩
    | succ i => simp [Tree.new] at h
  constructor
  · intro i N h; obtain ⟨rfl, rfl⟩ := key i N h; simp
  · intro i N j h hj
    obtain ⟨rfl, rfl⟩ := key i N h
    simp only [List.mem_singleton] at hj; subst hj
    exact ⟨_, h, fun _ h => h, fun h => h⟩
  · intro i N j k h hj hk M K hM hK
    obtain ⟨rfl, rfl⟩ := key j M hM
    obtain ⟨rfl, rfl⟩ := key k K hK
    left; simp
  · intro i j N M x h1 h2 _ _ _ _ _
    obtain ⟨rfl, rfl⟩ := key i N h1
    obtain ⟨rfl, rfl⟩ := key j M h2
    left; simp
  · intro i j N M h1 h2 _ _
    obtain ⟨rfl, rfl⟩ := key i N h1
    obtain ⟨rfl, rfl⟩ := key j M h2
    rfl
  · intro i j k N M K x h1 h2 h3 _ _ hu _ _ _ _ _
    obtain ⟨rfl, rfl⟩ := key j M h2
    cases hu
  · intro i N x h hu
    obtain ⟨rfl, rfl⟩ := key i N h
    cases hu
  · intro i N x j M h1 _ _ _ _ h2
    obtain ⟨rfl, rfl⟩ := key j M h2
    right; right; left; rfl
  · intro i N x j M h1 _ _ _ h2
    obtain ⟨rfl, rfl⟩ := key j M h2
    simp
  · intro i N h hp
    obtain ⟨rfl, rfl⟩ := key i N h
    cases hp
  · intro i N x h hp _
    obtain ⟨rfl, rfl⟩ := key i N h
    cases hp
  · intro i N x h _
    obtain ⟨rfl, rfl⟩ := key i N h
    exact ⟨rfl, rfl⟩
  · intro i N j M x h1 _ _ h2 _ h3
    obtain ⟨rfl, rfl⟩ := key i N h1
    obtain ⟨rfl, rfl⟩ := key j M h2
    exact h3
  · intro i N h
    obtain ⟨rfl, rfl⟩ := key i N h
    simp [Tree.new]

/-! ### Sources -/

theorem Sources.quiet {S S' : Tree} {srcs : List LenRef} {lo n : Nat} (hi : Inv S) (h : Sources S srcs lo n) (hg : Grow S S' []) : Sources S' srcs lo n := by
  intro s hs
  obtain ⟨h1, h2⟩ := h s hs
  exact ⟨h1.grow hi hg (by simp), h2⟩

theorem Sources.sub {S : Tree} {srcs : List LenRef} {lo n lo' n' : Nat} (h : Sources S srcs lo n) (h1 : lo ≤ lo') (h2 : lo' + n' ≤ lo + n) : Sources S srcs lo' n' := by
  intro s hs
  obtain ⟨h3, h4⟩ := h s hs
  exact ⟨h3, by omega⟩

/-- The sources can be read while the destination is borrowed. -/
theorem Sources.borrowed {S S' : Tree} {srcs : List LenRef} {t lo n : Nat} {P : Tag} {uniq prot : Bool} {im : Nat → Bool} (hi : Inv S) (h : Sources S srcs lo n) (hr : Retagged S S' t P uniq prot im lo n) : Sources S' srcs lo n := by
  intro s hs
  obtain ⟨h1, h2⟩ := h s hs
  refine ⟨h1.grow hi hr.grow ?_, h2⟩
  intro i hi M hM
  left
  intro x hx hx'
  simp only [List.mem_singleton] at hi
  subst hi
  rw [hr.tag] at hM; cases hM
  unfold Tag.Has at hx
  dsimp only at hx
  omega

theorem readSrcs_quiet {lo n : Nat} : ∀ (rs : List LenRef) {S : Tree}, Inv S → Sources S rs lo n → Quiet (readAll rs) S := by
  intro rs
  induction rs with
  | nil => intro S hi _; exact .pure hi
  | cons r rs ih =>
    intro S hi h
    refine Quiet.bind (.access (wr := false) hi (h r (by simp)).1) ?_
    intro S' hi' hg
    exact ih hi' (Sources.quiet hi (fun r hr => h r (by simp [hr])) hg)

theorem fillSlots_quiet {a size dlo dn : Nat} {srcs : List LenRef} : ∀ (k : Nat) {lo : Nat} {S : Tree}, Inv S → CanWrite S a lo (k * size) → Sources S srcs dlo dn →
    Quiet (fillSlots a lo size srcs k) S := by
  intro k
  induction k with
  | zero => intro lo S hi _ _; exact .pure hi
  | succ k ih =>
    intro lo S hi hw hs
    rw [Nat.succ_mul] at hw
    refine Quiet.bind (readSrcs_quiet srcs hi hs) ?_
    intro S0 hi0 hg0
    have hw0 := (hw.quiet hg0).sub (lo' := lo) (n' := size) (Nat.le_refl _) (by omega)
    obtain ⟨P, S1, h1, h2⟩ := retag_grow (uniq := true) (prot := true) (im := noIm) (lo := lo) (n := size) hi0 hw0 (Nat.le_refl _) (Nat.le_refl _)
    obtain ⟨S2, h3, h4, h5⟩ := access_grow (wr := true) h2.inv (h2.canWrite hi0)
    obtain ⟨S3, h6, h7, h8, -⟩ := h2.scopeRet h4 h5
    obtain ⟨S4, h9, h10, h11⟩ := ih (lo := lo + size) h7 (((hw.quiet hg0).quiet h8).sub (by omega) (by omega)) (.quiet hi0 (hs.quiet hi hg0) h8)
    refine ⟨S4, ?_, h10, h8.quiet h11⟩
    rw [bind_some h1, bind_some h3, bind_some h6]
    exact h9

theorem initArray_quiet {R : RTy} {srcs : List LenRef} {t lo n : Nat} {S : Tree} (hi : Inv S) (hw : CanWrite S t lo (n * R.size)) (hs : Sources S srcs lo (n * R.size)) :
    Quiet (initArray R srcs t lo n) S := by
  obtain ⟨P, S1, h1, h2⟩ := retag_grow (uniq := true) (prot := true) (im := noIm) (lo := lo) (n := n * R.size) hi hw (Nat.le_refl _) (Nat.le_refl _)
  obtain ⟨S2, h3, h4, h5⟩ := fillSlots_quiet (size := R.size) n h2.inv (h2.canWrite hi) (hs.borrowed hi h2)
  obtain ⟨S3, h6, h7, h8, -⟩ := h2.scopeRet h4 h5
  refine ⟨S3, ?_, h7, h8⟩
  unfold initArray
  rw [bind_some h1, bind_some h3]
  exact h6

/-- An initializer follows the rules. -/
def InitQuiet (srcs : List LenRef) (C : BTy w) (I : (t lo : Nat) → Layout w → B Unit) : Prop :=
  ∀ S t lo v l o, C.T.Rep v l o → Inv S → CanWrite S t lo l.size.toNat → Sources S srcs lo l.size.toNat → Quiet (I t lo l) S

theorem initFields_quiet {t lo fin : Nat} {srcs : List LenRef} : ∀ (fs : List (BFI w)) (ls : List (BitVec w × Layout w)) {cur : Nat} {S : Tree},
    (∀ C I, BFI.varlen C I ∈ fs → InitQuiet srcs C I) → Lays (fs.map BFI.bfld) ls cur fin → Inv S → CanWrite S t lo fin → Sources S srcs lo fin → Quiet (initFields srcs t lo fs ls) S := by
  intro fs
  induction fs with
  | nil => intro ls cur S _ _ hi _ _; exact .pure hi
  | cons f fs ih =>
    intro ls cur S hC hl hi hw hs
    have hC' : ∀ C I, BFI.varlen C I ∈ fs → InitQuiet srcs C I := fun C I h => hC C I (by simp [h])
    cases f with
    | normal R off => exact ih ls hC' hl hi hw hs
    | length R off => exact ih ls hC' hl hi hw hs
    | varlen C I =>
      rcases ls with _ | ⟨⟨o, l⟩, ls⟩
      · exact hl.elim
      · obtain ⟨⟨hcur, v, b, hrep⟩, hl'⟩ := hl
        have hfin := Lays.le _ _ _ _ hl'
        refine Quiet.bind (hC C I (by simp) S t _ v l b hrep hi (hw.sub (by omega) (by omega)) (hs.sub (by omega) (by omega))) ?_
        intro S' hi' hg
        exact ih ls hC' hl' hi' (hw.quiet hg) (hs.quiet hi hg)
    | array R len =>
      rcases ls with _ | ⟨⟨o, l⟩, ls⟩
      · exact hl.elim
      · cases l with
        | len n =>
          obtain ⟨hcur, hl'⟩ := hl
          have hfin := Lays.le _ _ _ _ hl'
          refine Quiet.bind (initArray_quiet hi (hw.sub (by omega) (by omega)) (hs.sub (by omega) (by omega))) ?_
          intro S' hi' hg
          exact ih ls hC' hl' hi' (hw.quiet hg) (hs.quiet hi hg)
        | _ => exact hl.elim

theorem aggInit_quiet {headSize : Nat} {srcs : List LenRef} {fs : List (BFI w)} {size : BitVec w} {ls : List (BitVec w × Layout w)} (hC : ∀ C I, BFI.varlen C I ∈ fs → InitQuiet srcs C I)
    (hl : Lays (fs.map BFI.bfld) ls headSize size.toNat) {S : Tree} {t lo : Nat} (hi : Inv S) (hw : CanWrite S t lo size.toNat) (hs : Sources S srcs lo size.toNat) :
    Quiet (aggInit headSize srcs fs t lo (.fields size ls)) S := by
  have hle := Lays.le _ _ _ _ hl
  refine Quiet.bind (initFields_quiet fs ls hC hl hi hw hs) ?_
  intro S' hi' hg
  exact .access (wr := true) hi' ((hw.quiet hg).sub (Nat.le_refl _) (by omega))

/-! ### All types -/

theorem LibBTy.ok {C : BTy w} (h : LibBTy C) : BLawful C ∧ Lawful C.T := by
  induction h with
  | fixedLen hR => exact ⟨BTy.fixed_lawful _ hR, FixedLen.lawful hR⟩
  | array hR hL => exact ⟨BTy.array_lawful _ hR hL, Array.lawful hR hL⟩
  | newtype _ ih => exact ⟨BTy.newtype_lawful _ ih.1, NewtypeInv.lawful ih.2 _⟩
  | tuple hne _ ih =>
    rename_i pin Cs _
    have hT : ∀ T ∈ Cs.map (·.T), Lawful T := by
      intro T hT
      obtain ⟨C, hC, rfl⟩ := List.mem_map.mp hT
      exact (ih C hC).2
    have hw : 0 < w := by
      rcases Cs with _ | ⟨C, Cs⟩
      · exact absurd rfl hne
      · obtain ⟨k, hk, -⟩ := (ih C (by simp)).2.align_pow2
        omega
    refine ⟨BTy.tuple_lawful _ ?_ fun C hC => (ih C hC).1, Tuple.lawful (by simpa using hne) hT⟩
    have := Tuple.structOk hw hT
    rw [BTy.tuple_fs] at this
    exact this
  | struct hh _ ih =>
    rename_i pin hs ha fs _
    have hok := hh.structOk (by
      intro T hT
      obtain ⟨f, hf, e⟩ := List.mem_map.mp hT
      cases f <;> simp only [BFld.fld] at e <;> cases e
      exact (ih _ hf).2)
    exact ⟨BTy.struct_lawful _ hok fun C hC => (ih C hC).1, Struct.lawful hok⟩

/-- The fields of structs and tuples. -/
theorem LibFields.ok {hs : Nat} {fs : List (BFld w)} (h : LibFields hs fs) : ∃ ha, StructOk hs ha (fs.map BFld.fld) ∧ ∀ C, BFld.varlen C ∈ fs → BLawful C := by
  cases h with
  | tuple hne hC =>
    rename_i Cs
    have hT : ∀ T ∈ Cs.map (·.T), Lawful T := by
      intro T hT
      obtain ⟨C, hC', rfl⟩ := List.mem_map.mp hT
      exact (hC C hC').ok.2
    have hw : 0 < w := by
      rcases Cs with _ | ⟨C, Cs⟩
      · exact absurd rfl hne
      · obtain ⟨k, hk, -⟩ := ((hC C (by simp)).ok.2).align_pow2
        omega
    refine ⟨1, ?_, ?_⟩
    · have := Tuple.structOk hw hT
      rw [BTy.tuple_fs] at this
      exact this
    · intro C h
      simp at h
      exact (hC C h).ok.1
  | struct hh hC =>
    refine ⟨_, hh.structOk ?_, fun C h => (hC C h).ok.1⟩
    intro T hT
    obtain ⟨f, hf, e⟩ := List.mem_map.mp hT
    cases f <;> simp only [BFld.fld] at e <;> cases e
    exact (hC _ hf).ok.2

theorem LibBInit.lib {srcs : List LenRef} {C : BTy w} {I : (t lo : Nat) → Layout w → B Unit} (h : LibBInit srcs C I) : LibBTy C := by
  induction h with
  | fixedLen hR => exact .fixedLen hR
  | array hR hL => exact .array hR hL
  | newtype _ ih => exact .newtype ih
  | copy h _ => exact h
  | box h => exact h
  | tuple hne _ ih =>
    refine .tuple (by simpa using hne) ?_
    intro C hC
    obtain ⟨f, hf, rfl⟩ := List.mem_map.mp hC
    exact ih f hf
  | struct hh _ ih =>
    refine .struct hh ?_
    intro C hC
    obtain ⟨f, hf, e⟩ := List.mem_map.mp hC
    cases f <;> simp only [BFI.bfld] at e <;> cases e
    exact ih _ _ hf

theorem LibBInit.ok {srcs : List LenRef} {C : BTy w} {I : (t lo : Nat) → Layout w → B Unit} (h : LibBInit srcs C I) : InitQuiet srcs C I := by
  induction h with
  | fixedLen hR =>
    rename_i pin R
    intro S t lo v l o hrep hi hw hs
    have hn : R.size ≤ l.size.toNat := (FixedLen.lawful hR).head_le v l o hrep
    refine Quiet.bind (readSrcs_quiet srcs hi hs) ?_
    intro S' hi' hg
    exact .access (wr := true) hi' ((hw.quiet hg).sub (Nat.le_refl _) (by omega))
  | array hR hL =>
    rename_i pin R L
    intro S t lo v l o hrep hi hw hs
    have hn : L.bytes ≤ l.size.toNat := (Array.lawful hR hL).head_le v l o hrep
    obtain ⟨off, n, size, xs, -, rfl, -, -, -, hsz, -⟩ := hrep
    simp only [Layout.size] at *
    refine Quiet.bind (initArray_quiet hi (hw.sub (by omega) (by omega)) (hs.sub (by omega) (by omega))) ?_
    intro S' hi' hg
    exact .access (wr := true) hi' ((hw.quiet hg).sub (Nat.le_refl _) (by omega))
  | newtype _ ih =>
    intro S t lo v l o hrep hi hw hs
    exact ih S t lo v l o hrep.1 hi hw hs
  | copy h hsrc =>
    intro S t lo v l o hrep hi hw hs
    refine Quiet.bind (.access (wr := false) hi (hs _ hsrc).1) ?_
    intro S' hi' hg
    exact .access (wr := true) hi' (hw.quiet hg)
  | box h =>
    intro S t lo v l o hrep hi hw hs
    exact .access (wr := true) hi hw
  | tuple hne hl ih =>
    rename_i pin fs
    intro S t lo v l o hrep hi hw hs
    have hlf : LibFields 0 ((fs.map (·.1)).map (BFld.varlen (w := w))) := .tuple (by simpa using hne) (by
      intro C hC
      obtain ⟨f, hf, rfl⟩ := List.mem_map.mp hC
      exact (hl f hf).lib)
    obtain ⟨ha, hok, -⟩ := hlf.ok
    replace hrep : aggRep 0 (((fs.map (·.1)).map (·.T)).map Fld.varlen) v l o := hrep
    rw [BTy.tuple_fs] at hrep
    obtain ⟨size, ls, rfl, h1, h2⟩ := agg_facts hok hrep
    refine aggInit_quiet ?_ ?_ hi hw hs
    · intro C I hm
      simp only [List.mem_map, BFI.varlen.injEq] at hm
      obtain ⟨f, hf, rfl, rfl⟩ := hm
      exact ih f hf
    · have : (fs.map fun f => BFI.varlen f.1 f.2).map BFI.bfld = (fs.map (·.1)).map (BFld.varlen (w := w)) := by simp [BFI.bfld]
      rw [this]
      exact h2
  | struct hh hl ih =>
    rename_i pin hs' ha fs
    intro S t lo v l o hrep hi hw hs
    have hlf : LibFields hs' (fs.map BFI.bfld) := .struct hh (by
      intro C hC
      obtain ⟨f, hf, e⟩ := List.mem_map.mp hC
      cases f <;> simp only [BFI.bfld] at e <;> cases e
      exact (hl _ _ hf).lib)
    obtain ⟨ha', hok, -⟩ := hlf.ok
    obtain ⟨size, ls, rfl, h1, h2⟩ := agg_facts hok hrep
    exact aggInit_quiet ih h2 hi hw hs

/-! ### Boxes and sequences -/

theorem asRef_ok {C : BTy w} {t lo : Nat} {l : Layout w} {S : Tree} (hn : C.T.headSize ≤ l.size.toNat) (hi : Inv S) (hr : CanRead S t lo l.size.toNat) :
    ∃ r S', asRef C t lo l S = some (r, S') ∧ Gives S S' t r ⟨false, lo, l.size.toNat, C.im lo⟩ ∧ ∃ T A, S.tag t = some T ∧ S'.tag r = some A ∧ A.path = r :: T.path := by
  obtain ⟨P, S1, h1, h2⟩ := retag_grow (uniq := false) (prot := false) (im := C.im lo) (lo := lo) (n := C.T.headSize) hi hr (Nat.le_refl _) (by omega)
  exact ⟨_, S1, h1, h2.gives hi, P, _, h2.par, h2.tag, rfl⟩

theorem asMut_ok {C : BTy w} {t lo : Nat} {l : Layout w} {S : Tree} (hn : C.T.headSize ≤ l.size.toNat) (hi : Inv S) (hw : CanWrite S t lo l.size.toNat) :
    ∃ r S', asMut C t lo l S = some (r, S') ∧ Gives S S' t r ⟨true, lo, l.size.toNat, C.im lo⟩ := by
  obtain ⟨P, S1, h1, h2⟩ := retag_grow (uniq := true) (prot := false) (im := C.im lo) (lo := lo) (n := C.T.headSize) hi hw (Nat.le_refl _) (by omega)
  exact ⟨_, S1, h1, h2.gives hi⟩

theorem ownedNext_quiet {C : BTy w} (hC : BLawful C) {t lo : Nat} {v : V} {l : Layout w} {o : View} (hrep : C.T.Rep v l o) {S : Tree} (hi : Inv S) (hr : CanRead S t lo l.size.toNat) :
    Quiet (ownedNext C t lo l) S :=
  calcThrough_quiet hi hr (hC.head v l o hrep) fun t S1 hi1 hr1 => hC.calc_ok S1 t lo v l o hrep hi1 hr1

theorem ownedDrop_quiet {C : BTy w} (hC : BLawful C) {t lo : Nat} {v : V} {l : Layout w} {o : View} (hrep : C.T.Rep v l o) {S : Tree} (hi : Inv S) (hw : CanWrite S t lo l.size.toNat) :
    Quiet (ownedDrop C t lo l) S := by
  refine Quiet.bind (ownedNext_quiet hC hrep hi hw.canRead) ?_
  intro S' hi' hg
  exact quiet_mut (body := fun m => C.vdropB m lo l) hi' (hw.quiet hg) (hC.head v l o hrep) fun a S1 hi1 hw1 => hC.vdrop_ok S1 a lo v l o hrep hi1 hw1

theorem iterNext_ok {C : BTy w} (hC : BLawful C) {t lo : Nat} {v : V} {l : Layout w} {o : View} (hrep : C.T.Rep v l o) {S : Tree} (hi : Inv S) (hr : CanRead S t lo l.size.toNat) :
    ∃ r S', iterNext C t lo l S = some (r, S') ∧ Gives S S' t r ⟨false, lo, l.size.toNat, C.im lo⟩ ∧ ∃ T A, S.tag t = some T ∧ S'.tag r = some A ∧ A.path = r :: T.path := by
  obtain ⟨r, S1, h1, h2, T, A, g1, g2, g3⟩ := asRef_ok (C := C) (hC.head v l o hrep) hi hr
  obtain ⟨S2, h3, h4, h5⟩ := hC.calc_ok S1 r lo v l o hrep h2.inv (h2.reader.canRead h2.inv)
  refine ⟨r, S2, ?_, (h2.gave.quietLast (tag_lt g1) h4 h5).gives, T, A, g1, h5.tag g2, g3⟩
  unfold iterNext
  rw [bind_some h1, bind_some h3]; rfl

theorem iterMutNext_ok {C : BTy w} (hC : BLawful C) {t lo : Nat} {v : V} {l : Layout w} {o : View} (hrep : C.T.Rep v l o) {S : Tree} (hi : Inv S) (hw : CanWrite S t lo l.size.toNat) :
    ∃ r S', iterMutNext C t lo l S = some (r, S') ∧ Gives S S' t r ⟨true, lo, l.size.toNat, C.im lo⟩ := by
  obtain ⟨r, S1, h1, h2⟩ := asMut_ok (C := C) (hC.head v l o hrep) hi hw
  obtain ⟨S2, h3, h4, h5⟩ := calcThrough_quiet (C := C.calcB) (im := C.im lo) (a := r) h2.inv (h2.canWrite hi).canRead (hC.head v l o hrep) fun t S1 hi1 hr1 => hC.calc_ok S1 t lo v l o hrep hi1 hr1
  obtain ⟨T, hT, -⟩ := hw.live
  refine ⟨r, S2, ?_, (h2.gave.quietLast (tag_lt hT) h4 h5).gives⟩
  unfold iterMutNext
  rw [bind_some h1, bind_some h3]; rfl

/-- The bytes of the elements. -/
def elemExts (C : BTy w) (u : Bool) (es : List (Nat × Layout w)) : List Ext := es.map fun e => ⟨u, e.1, e.2.size.toNat, C.im e.1⟩

theorem Elems.le {C : BTy w} : ∀ (es : List (Nat × Layout w)) (cur fin : Nat), Elems C es cur fin → cur ≤ fin := by
  intro es
  induction es with
  | nil => intro cur fin h; exact h
  | cons e es ih =>
    obtain ⟨lo, l⟩ := e
    intro cur fin h
    have := ih _ _ h.2.2
    have := h.1
    omega

theorem Elems.mem {C : BTy w} (u : Bool) : ∀ (es : List (Nat × Layout w)) (cur fin : Nat), Elems C es cur fin → ∀ e ∈ elemExts C u es, cur ≤ e.lo ∧ e.lo + e.len ≤ fin := by
  intro es
  induction es with
  | nil => intro cur fin _ e he; simp [elemExts] at he
  | cons e es ih =>
    obtain ⟨lo, l⟩ := e
    intro cur fin h e he
    have hle := Elems.le _ _ _ h.2.2
    have := h.1
    simp only [elemExts, List.map_cons, List.mem_cons] at he
    rcases he with rfl | he
    · dsimp only; omega
    · have := ih _ _ h.2.2 e he
      omega

theorem Elems.apart {C : BTy w} (u : Bool) : ∀ (es : List (Nat × Layout w)) (cur fin : Nat), Elems C es cur fin → (elemExts C u es).Pairwise Ext.Apart := by
  intro es
  induction es with
  | nil => intro cur fin _; simp [elemExts]
  | cons e es ih =>
    obtain ⟨lo, l⟩ := e
    intro cur fin h
    rw [elemExts, List.map_cons, List.pairwise_cons]
    refine ⟨?_, ih _ _ h.2.2⟩
    intro e he x hx
    have := Elems.mem u _ _ _ h.2.2 e he
    dsimp only at hx
    omega

/-- All items of `iter()`. -/
theorem iterAll_ref {C : BTy w} (hC : BLawful C) {t fin : Nat} : ∀ (es : List (Nat × Layout w)) {cur : Nat} {S : Tree}, Elems C es cur fin → Inv S → CanRead S t cur (fin - cur) →
    ∃ rs S', iterAll (iterNext C t) es S = some (rs, S') ∧ Gave S S' t rs (elemExts C false es) := by
  intro es
  induction es with
  | nil => intro cur S _ hi _; exact ⟨[], S, rfl, .nil hi t⟩
  | cons e es ih =>
    obtain ⟨lo, l⟩ := e
    intro cur S he hi hr
    have hle := Elems.le _ _ _ he.2.2
    have h1 := he.1
    obtain ⟨v, o, hrep⟩ := he.2.1
    obtain ⟨r, S1, h2, h3, T, B, g1, g2, g3⟩ := iterNext_ok hC hrep hi (hr.sub (by omega) (by omega))
    have hr1 : CanRead S1 t cur (fin - cur) := by
      refine hr.grow hi h3.grow ?_
      intro i hm M hM
      simp only [List.mem_singleton] at hm
      subst hm
      obtain ⟨A, h4, -, -, h5, -⟩ := h3.tag
      rw [hM] at h4 g2; cases h4; cases g2
      right
      refine ⟨h5, ?_⟩
      intro k K hk hK hu ht
      rw [g3] at hk
      rcases List.mem_cons.mp hk with hk | hk
      · subst hk
        rw [hM] at hK; cases hK
        rw [h5] at hu; cases hu
      · have hkt := path_lt hi g1 hk
        rw [h3.grow.old k hkt] at hK
        obtain ⟨N, hN, e⟩ := tag_some hK
        obtain ⟨N', hN', e'⟩ := tag_some g1
        exact hi.asym k t N N' hN hN' (by rw [e']; exact hk) (by rw [e]; exact ht)
    obtain ⟨rs, S2, h4, h5⟩ := ih he.2.2 h3.inv (hr1.sub (by omega) (by omega))
    refine ⟨_, S2, ?_, Gives.cons (tag_lt g1) h3 h5⟩
    show (iterNext C t lo l >>= _) S = _
    rw [bind_some h2, bind_some h4]; rfl

/-- All items of `iter_mut()`. -/
theorem iterAll_mut {C : BTy w} (hC : BLawful C) {t fin : Nat} : ∀ (es : List (Nat × Layout w)) {cur : Nat} {S : Tree}, Elems C es cur fin → Inv S →
    (∀ e ∈ elemExts C true es, CanWrite S t e.lo e.len) → ∃ rs S', iterAll (iterMutNext C t) es S = some (rs, S') ∧ Gave S S' t rs (elemExts C true es) := by
  intro es
  induction es with
  | nil => intro cur S _ hi _; exact ⟨[], S, rfl, .nil hi t⟩
  | cons e es ih =>
    obtain ⟨lo, l⟩ := e
    intro cur S he hi hw
    obtain ⟨v, o, hrep⟩ := he.2.1
    have hd := Elems.apart true _ _ _ he
    simp only [elemExts, List.map_cons, List.forall_mem_cons, List.pairwise_cons] at hw hd
    obtain ⟨r, S1, h2, h3⟩ := iterMutNext_ok hC hrep hi hw.1
    obtain ⟨rs, S2, h4, h5⟩ := ih he.2.2 h3.inv (others_ok h3 hw.2 hd.1)
    obtain ⟨T, hT, -⟩ := hw.1.live
    refine ⟨_, S2, ?_, Gives.cons (tag_lt hT) h3 h5⟩
    show (iterMutNext C t lo l >>= _) S = _
    rw [bind_some h2, bind_some h4]; rfl

theorem takeElems_quiet {t mask n : Nat} {S : Tree} (hi : Inv S) (hw : CanWrite S t mask n) : Quiet (takeElems t mask n) S :=
  quiet_mut (body := fun m => access m true mask n) hi hw (Nat.le_refl _) fun _ _ hi1 hw1 => .access (wr := true) hi1 hw1

theorem ownedElemsDrop_quiet {C : BTy w} (hC : BLawful C) {t fin : Nat} : ∀ (es : List (Nat × Layout w)) {cur : Nat} {S : Tree}, Elems C es cur fin → Inv S → CanWrite S t cur (fin - cur) →
    Quiet (ownedElemsDrop C t es) S := by
  intro es
  induction es with
  | nil => intro cur S _ hi _; exact .pure hi
  | cons e es ih =>
    obtain ⟨lo, l⟩ := e
    intro cur S he hi hw
    have hle := Elems.le _ _ _ he.2.2
    have h1 := he.1
    obtain ⟨v, o, hrep⟩ := he.2.1
    have hw0 : CanWrite S t lo l.size.toNat := hw.sub (by omega) (by omega)
    refine Quiet.bind (ownedNext_quiet hC hrep hi hw0.canRead) ?_
    intro S1 hi1 hg1
    refine Quiet.bind (ownedDrop_quiet hC hrep hi1 (hw0.quiet hg1)) ?_
    intro S2 hi2 hg2
    exact ih he.2.2 hi2 (((hw.quiet hg1).quiet hg2).sub (by omega) (by omega))

theorem growStorage_quiet {t old oldN new newN : Nat} {S : Tree} (hi : Inv S) (hr : CanRead S t old oldN) (hw : CanWrite S t new newN) (hn : oldN ≤ newN) (hd : old + oldN ≤ new) :
    Quiet (growStorage t old oldN new newN) S := by
  obtain ⟨P, S1, h1, h2⟩ := retag_grow (uniq := false) (prot := false) (im := noIm) (lo := old) (n := oldN) hi hr (Nat.le_refl _) (Nat.le_refl _)
  have hw1 : CanWrite S1 t new newN := by
    refine hw.grow h2.grow ?_
    intro i hm M hM x hx hx'
    simp only [List.mem_singleton] at hm
    subst hm
    rw [h2.tag] at hM; cases hM
    unfold Tag.Has at hx
    dsimp only at hx
    omega
  obtain ⟨P', S2, h3, h4⟩ := retag_grow (uniq := true) (prot := false) (im := noIm) (lo := new) (n := newN) h2.inv hw1 (Nat.le_refl _) (Nat.le_refl _)
  obtain ⟨S3, h5, h6, h7⟩ := access_grow (wr := false) h4.inv ((h2.reader.grow h4.grow).canRead h4.inv)
  have hw3 : CanWrite S3 S1.nodes.length new newN := (h4.canWrite h2.inv).quiet h7
  obtain ⟨S4, h8, h9, h10⟩ := access_grow (wr := true) h6 (hw3.sub (lo' := new) (n' := oldN) (Nat.le_refl _) (by omega))
  obtain ⟨S5, h11, h12, h13⟩ := access_grow (wr := true) h9 ((hw3.quiet h10).sub (lo' := new + oldN) (n' := newN - oldN) (by omega) (by omega))
  obtain ⟨S6, h14, h15, h16, -⟩ := h4.scope h12 ((h7.quiet h10).quiet h13)
  obtain ⟨S7, h17, h18, h19, -⟩ := h2.scope h15 h16
  refine ⟨S7, ?_, h18, h19⟩
  unfold growStorage
  rw [bind_some h1, bind_some h3, bind_some h5, bind_some h8, bind_some h11, bind_some h14]
  exact h17

theorem dealloc_ok {t : Nat} {S : Tree} (hi : Inv S) (hw : CanWrite S t 0 S.size) : Quiet (dealloc t) S := access_grow (wr := true) hi hw

end Varlen.TB
