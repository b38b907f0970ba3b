import Verif.Proofs.BorrowGrow
import Verif.Proofs.LibType
import Verif.Model.Borrow
/-! # The library's methods follow the rules of the borrow checker -/
namespace Varlen.TB
open Varlen
variable {w : Nat}

/-- What `m` does in `S`: it succeeds and leaves no new live references but those in `L`. -/
def Runs {α : Type} (m : B α) (S : Tree) (L : α → List Nat) : Prop := ∃ a S', m S = some (a, S') ∧ Inv S' ∧ Grow S S' (L a)

/-- It leaves no new live references. -/
def Quiet (m : B Unit) (S : Tree) : Prop := ∃ S', m S = some ((), S') ∧ Inv S' ∧ Grow S S' []

/-- The methods of a type follow the rules. -/
structure BLawful (C : BTy w) : Prop where
  calc_ok : ∀ S t lo v l o, C.T.Rep v l o → Inv S → CanRead S t lo l.size.toNat → Quiet (C.calcB t lo l) S
  vdrop_ok : ∀ S t lo v l o, C.T.Rep v l o → Inv S → CanWrite S t lo l.size.toNat → Quiet (C.vdropB t lo l) S
  head : ∀ v l o, C.T.Rep v l o → C.T.headSize ≤ l.size.toNat

/-- Doing something through a shared argument. -/
theorem quiet_shr {S : Tree} {t lo n size : Nat} {im : Nat → Bool} {body : Nat → B Unit} (hi : Inv S) (hr : CanRead S t lo size) (hn : n ≤ size)
    (hb : ∀ a S1, Inv S1 → Reader S1 a lo size → Quiet (body a) S1) : Quiet (do let a ← shrArg t im lo n lo size; body a; ret a) S := by
  obtain ⟨P, S1, h1, h2⟩ := retag_grow (uniq := false) (prot := true) (im := im) (lo := lo) (n := n) hi hr (Nat.le_refl _) (by omega)
  obtain ⟨S2, h3, h4, h5⟩ := hb _ S1 h2.inv h2.reader
  obtain ⟨S3, h6, h7, h8, -⟩ := h2.scopeRet h4 h5
  refine ⟨S3, ?_, h7, h8⟩
  rw [bind_some (show shrArg t im lo n lo size S = _ from h1), bind_some h3]
  exact h6

/-- Doing something through a temporary shared reference. -/
theorem quiet_tmp {S : Tree} {t lo n size : Nat} {im : Nat → Bool} {body : Nat → B Unit} (hi : Inv S) (hr : CanRead S t lo size) (hn : n ≤ size)
    (hb : ∀ a S1, Inv S1 → Reader S1 a lo size → Quiet (body a) S1) : Quiet (do let a ← retag t false false im lo n lo size; body a; kill a) S := by
  obtain ⟨P, S1, h1, h2⟩ := retag_grow (uniq := false) (prot := false) (im := im) (lo := lo) (n := n) hi hr (Nat.le_refl _) (by omega)
  obtain ⟨S2, h3, h4, h5⟩ := hb _ S1 h2.inv h2.reader
  obtain ⟨S3, h6, h7, h8, -⟩ := h2.scope h4 h5
  refine ⟨S3, ?_, h7, h8⟩
  rw [bind_some h1, bind_some h3]
  exact h6

/-- Doing something through a temporary mutable reference. -/
theorem quiet_mut {S : Tree} {t lo n size : Nat} {im : Nat → Bool} {body : Nat → B Unit} (hi : Inv S) (hr : CanWrite S t lo size) (hn : n ≤ size)
    (hb : ∀ a S1, Inv S1 → CanWrite S1 a lo size → Quiet (body a) S1) : Quiet (do let a ← retag t true false im lo n lo size; body a; kill a) S := by
  obtain ⟨P, S1, h1, h2⟩ := retag_grow (uniq := true) (prot := false) (im := im) (lo := lo) (n := n) hi hr (Nat.le_refl _) (by omega)
  obtain ⟨S2, h3, h4, h5⟩ := hb _ S1 h2.inv (h2.canWrite hi)
  obtain ⟨S3, h6, h7, h8, -⟩ := h2.scope h4 h5
  refine ⟨S3, ?_, h7, h8⟩
  rw [bind_some h1, bind_some h3]
  exact h6

theorem Quiet.bind {m : B Unit} {f : Unit → B Unit} {S : Tree} (h : Quiet m S) (hf : ∀ S', Inv S' → Grow S S' [] → Quiet (f ()) S') : Quiet (m >>= f) S := by
  obtain ⟨S1, h1, h2, h3⟩ := h
  obtain ⟨S2, h4, h5, h6⟩ := hf S1 h2 h3
  exact ⟨S2, by rw [bind_some h1]; exact h4, h5, h3.quiet h6⟩

theorem Quiet.pure {S : Tree} (hi : Inv S) : Quiet (Pure.pure ()) S := ⟨S, rfl, hi, .refl S _⟩

theorem Quiet.access {S : Tree} {t lo n : Nat} {wr : Bool} (hi : Inv S) (h : Can wr S t lo n) : Quiet (access t wr lo n) S := access_grow hi h

theorem dropIn_quiet {S : Tree} (needs : Bool) {t lo n : Nat} (hi : Inv S) (hw : CanWrite S t lo n) : Quiet (dropIn needs t lo n) S := by
  cases needs with
  | false => exact .pure hi
  | true =>
    obtain ⟨P, S1, h1, h2⟩ := retag_grow (uniq := true) (prot := true) (im := noIm) (lo := lo) (n := n) hi hw (Nat.le_refl _) (Nat.le_refl _)
    obtain ⟨S2, h3, h4, h5⟩ := access_grow (wr := true) h2.inv (h2.canWrite hi)
    obtain ⟨S3, h6, h7, h8, -⟩ := h2.scopeRet h4 h5
    refine ⟨S3, ?_, h7, h8⟩
    unfold dropIn
    rw [if_pos rfl, bind_some h1, bind_some h3]
    exact h6

theorem dropElems_quiet (needs : Bool) {t n : Nat} : ∀ (k : Nat) {lo : Nat} {S : Tree}, Inv S → CanWrite S t lo (k * n) → Quiet (dropElems needs t lo n k) S := by
  intro k
  induction k with
  | zero => intro lo S hi _; exact .pure hi
  | succ k ih =>
    intro lo S hi hw
    rw [Nat.succ_mul] at hw
    refine Quiet.bind (dropIn_quiet needs hi (hw.sub (Nat.le_refl _) (by omega))) ?_
    intro S' hi' hg
    exact ih hi' ((hw.quiet hg).sub (by omega) (by omega))

/-- With a `Pin<&mut Self>` argument from which `get_unchecked_mut` is taken. -/
theorem quiet_vdrop {S : Tree} (pin : Bool) {t lo n size : Nat} {im : Nat → Bool} {body : Nat → B Unit} (hi : Inv S) (hw : CanWrite S t lo size) (hn : n ≤ size)
    (hb : ∀ a S1, Inv S1 → CanWrite S1 a lo size → Quiet (body a) S1) :
    Quiet (do let a ← mutArg pin t lo n lo size; let m ← retag a true false im lo n lo size; body m; kill m; mutRet pin a) S := by
  obtain ⟨a, S1, h1, h2, h3, -, h4⟩ := mutArg_grow pin hi hw hn
  obtain ⟨P, S2, h5, h6⟩ := retag_grow (uniq := true) (prot := false) (im := im) (lo := lo) (n := n) h2 h3 (Nat.le_refl _) (by omega)
  obtain ⟨S3, h7, h8, h9⟩ := hb _ S2 h6.inv (h6.canWrite h2)
  obtain ⟨S4, h10, h11, h12, -⟩ := h6.scope h8 h9
  obtain ⟨S5, h13, h14, h15, -⟩ := h4 S4 [] h11 h12
  refine ⟨S5, ?_, h14, h15⟩
  rw [bind_some h1, bind_some h5, bind_some h7, bind_some h10]
  exact h13

theorem BTy.fixed_lawful (pin : Bool) {R : RTy} (hR : R.Ok w) : BLawful (BTy.fixed pin w R) where
  calc_ok := by
    intro S t lo v l o hrep hi hr
    have hn : R.size ≤ l.size.toNat := (FixedLen.lawful hR).head_le v l o hrep
    obtain ⟨P, S1, h1, h2⟩ := retag_grow (uniq := false) (prot := true) (im := rustIm R lo) (lo := lo) (n := R.size) hi hr (Nat.le_refl _) (by omega)
    obtain ⟨S3, h6, h7, h8, -⟩ := h2.scopeRet h2.inv (.refl S1 [])
    refine ⟨S3, ?_, h7, h8⟩
    show (shrArg t (rustIm R lo) lo R.size lo l.size.toNat >>= fun a => ret a) S = _
    rw [bind_some (show shrArg t (rustIm R lo) lo R.size lo l.size.toNat S = _ from h1)]
    exact h6
  vdrop_ok := by
    intro S t lo v l o hrep hi hw
    have hn : R.size ≤ l.size.toNat := (FixedLen.lawful hR).head_le v l o hrep
    refine quiet_vdrop pin hi hw hn ?_
    intro a S1 hi1 hw1
    exact dropIn_quiet _ hi1 (hw1.sub (Nat.le_refl _) (by omega))
  head := (FixedLen.lawful hR).head_le

theorem BTy.array_lawful (pin : Bool) {R : RTy} {L : LenTy} (hR : R.Ok w) (hL : L.Ok w) : BLawful (BTy.array pin w R L) where
  calc_ok := by
    intro S t lo v l o hrep hi hr
    have hn : L.bytes ≤ l.size.toNat := (Array.lawful hR hL).head_le v l o hrep
    refine quiet_shr (body := fun a => access a false lo L.bytes) hi hr hn ?_
    intro a S1 hi1 hr1
    exact .access (wr := false) hi1 ((hr1.canRead hi1).sub (Nat.le_refl _) (by omega))
  vdrop_ok := by
    intro S t lo v l o hrep hi hw
    have hn : L.bytes ≤ l.size.toNat := (Array.lawful hR hL).head_le v l o hrep
    obtain ⟨off, n, size, xs, -, rfl, -, -, -, hsz, -⟩ := hrep
    refine quiet_vdrop pin (size := size.toNat) hi hw hn ?_
    intro a S1 hi1 hw1
    exact dropElems_quiet _ _ hi1 (hw1.sub (by omega) (by omega))
  head := (Array.lawful hR hL).head_le

theorem mapInner_ok {S : Tree} {a lo n size : Nat} {im : Nat → Bool} (hi : Inv S) (hw : CanWrite S a lo size) (hn : n ≤ size) :
    ∃ P i S', mapInner a im lo n size S = some (i, S') ∧ S.tag a = some P ∧ Inv S' ∧ S.nodes.length ≤ i ∧ Grow S S' [i] ∧
      S'.tag i = some ⟨i :: S.nodes.length :: P.path, true, false, true, lo, size, im⟩ := by
  obtain ⟨P, S1, h1, h2⟩ := retag_grow (uniq := true) (prot := true) (im := noIm) (lo := lo) (n := n) hi hw (Nat.le_refl _) (by omega)
  obtain ⟨P2, S2, h3, h4⟩ := retag_grow (uniq := true) (prot := false) (im := im) (lo := lo) (n := n) h2.inv (h2.canWrite hi) (Nat.le_refl _) (by omega)
  have e : P2 = ⟨S.nodes.length :: P.path, true, true, true, lo, size, noIm⟩ := by
    have := h4.par
    rw [h2.tag] at this
    cases this; rfl
  subst e
  obtain ⟨S3, h5, h6, h7, h8, -⟩ := h2.scopeRet h4.inv h4.grow
  have hl := h2.len
  refine ⟨P, _, S3, ?_, h2.par, h6, by omega, h7, ?_⟩
  · unfold mapInner
    rw [bind_some h1, bind_some h3, bind_some h5]
    rfl
  · rw [h8 _ (by omega)]; exact h4.tag

/-- A reference that was just returned may be written. -/
theorem fresh_canWrite {S S' : Tree} {i : Nat} {P : Tag} (hi : Inv S) (hg : Grow S S' [i]) (hlo : S.nodes.length ≤ i) (ht : S'.tag i = some P) (hl : P.live = true)
    (hu : P.uniq = true) : CanWrite S' i P.lo P.len := by
  refine ⟨⟨P, ht, hl, hu, Nat.le_refl _, Nat.le_refl _⟩, ?_⟩
  intro j M hM hl hp hne
  exfalso
  by_cases hlt : j < S.nodes.length
  · rw [hg.old j hlt] at hM
    have := path_lt hi hM hp
    omega
  · rw [hg.new j M (Nat.not_lt.mp hlt) hM (by simpa using hne)] at hl; cases hl

theorem Inv.protFalse {S : Tree} (hi : Inv S) {i : Nat} {M : Tag} (h : S.tag i = some M) (hl : M.live = false) : M.prot = false := by
  obtain ⟨N, hN, rfl⟩ := tag_some h
  cases hp : N.prot with
  | false => rfl
  | true => rw [hi.prot i N hN hp] at hl; cases hl

theorem BTy.newtype_lawful (pin : Bool) {C : BTy w} {inv : V → Prop} (hC : BLawful C) : BLawful (BTy.newtype pin C inv) where
  calc_ok := by
    intro S t lo v l o hrep hi hr
    obtain ⟨hrep, -⟩ := hrep
    have hn := hC.head v l o hrep
    obtain ⟨P, S1, h1, h2⟩ := retag_grow (uniq := false) (prot := true) (im := C.im lo) (lo := lo) (n := C.T.headSize) hi hr (Nat.le_refl _) (by omega)
    obtain ⟨P', S1', h1', h2'⟩ := retag_grow (uniq := false) (prot := false) (im := C.im lo) (lo := lo) (n := C.T.headSize) h2.inv (h2.reader.canRead h2.inv) (Nat.le_refl _) (by omega)
    obtain ⟨S2, h3, h4, h5⟩ := hC.calc_ok S1' _ lo v l o hrep h2'.inv (h2'.reader.canRead h2'.inv)
    obtain ⟨S3, h6, h7, h8, -⟩ := h2'.scope h4 h5
    obtain ⟨S4, h9, h10, h11, -⟩ := h2.scopeRet h7 h8
    refine ⟨S4, ?_, h10, h11⟩
    show (shrArg t (C.im lo) lo C.T.headSize lo l.size.toNat >>= _) S = _
    rw [bind_some (show shrArg t (C.im lo) lo C.T.headSize lo l.size.toNat S = _ from h1), bind_some h1', bind_some h3, bind_some h6]
    exact h9
  vdrop_ok := by
    intro S t lo v l o hrep hi hw
    obtain ⟨hrep, -⟩ := hrep
    have hn := hC.head v l o hrep
    obtain ⟨a, S1, h1, h2, h3, -, h4⟩ := mutArg_grow pin hi hw hn
    show Quiet (mutArg pin t lo C.T.headSize lo l.size.toNat >>= _) S
    unfold Quiet
    rw [bind_some h1]
    by_cases hv : C.T.NEEDS_VDROP = true
    · rw [if_pos hv]
      obtain ⟨P, i, S2, h5, h6, h7, h8, h9, h10⟩ := mapInner_ok (im := C.im lo) h2 h3 hn
      obtain ⟨S3, h11, h12, h13⟩ := hC.vdrop_ok S2 i lo v l o hrep h7 (fresh_canWrite h2 h9 h8 h10 rfl rfl)
      obtain ⟨S4, h14, h15⟩ := kill_grow h12 (h13.tag h10) rfl
      obtain ⟨S5, h16, h17, h18, -⟩ := h4 S4 [] h15.inv (h15.grow (h9.quiet h13) h8 (by simp))
      refine ⟨S5, ?_, h17, h18⟩
      rw [bind_some h5, bind_some h11, bind_some h14]
      exact h16
    · rw [if_neg hv]
      obtain ⟨S5, h16, h17, h18, -⟩ := h4 S1 [] h2 (.refl S1 [])
      exact ⟨S5, h16, h17, h18⟩
  head := fun v l o h => hC.head v l o h.1

end Varlen.TB
