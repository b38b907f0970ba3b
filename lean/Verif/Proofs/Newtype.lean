import Verif.Model.Newtype
import Verif.Proofs.Clone
/-! # Proofs about newtypes and `Str` -/
namespace Varlen
variable {w : Nat}

theorem NewtypeInv.valid_inner {T : VarLen w} {inv : V → Prop} {s p v l} (h : Valid (NewtypeInv T inv) s p v l) : Valid T s p v l :=
  ⟨h.acc, h.aligned, h.rep.1⟩

theorem NewtypeInv.lawful {T : VarLen w} (hT : Lawful T) (inv : V → Prop) : Lawful (NewtypeInv T inv) where
  align_pow2 := hT.align_pow2
  head_align := hT.head_align
  rep_ext := fun v l o o' h he => ⟨hT.rep_ext v l o o' h.1 he, h.2⟩
  rep_unique := fun v l o v' l' h h' => hT.rep_unique v l o v' l' h.1 h'.1
  head_le := fun v l o h => hT.head_le v l o h.1
  calc_ok := fun s p v l h => hT.calc_ok s p v l (NewtypeInv.valid_inner h)
  vdrop_ok := by
    intro s p v l h
    by_cases hn : T.NEEDS_VDROP = false
    · refine ⟨s, by simp [NewtypeInv, hn], Touch.refl _ _ _ _, ?_, rfl⟩
      have := hT.no_vdrop hn v l _ h.rep.1
      simp [NewtypeInv, this]
    · obtain ⟨s', h1, h2⟩ := hT.vdrop_ok s p v l (NewtypeInv.valid_inner h)
      exact ⟨s', by simp [NewtypeInv, hn, h1], h2⟩
  no_vdrop := fun h v l o hr => hT.no_vdrop h v l o hr.1

theorem Newtype.lawful {T : VarLen w} (hT : Lawful T) : Lawful (Newtype T) := NewtypeInv.lawful hT _

theorem NewtypeInv.init_lawful {T : VarLen w} {I : Init w} (hI : InitLawful T I) {inv : V → Prop} (hv : ∀ v, I.val = some v → inv v) :
    InitLawful (NewtypeInv T inv) (Newtype.init I) where
  owns_mods := hI.owns_mods
  mods_fp := hI.mods_fp
  fp_exists := hI.fp_exists
  stable := hI.stable
  calc_ok := hI.calc_ok
  calc_panic := hI.calc_panic
  bad_lay := hI.bad_lay
  drop_ok := hI.drop_ok
  init_ok := by
    intro s p l v h1 h2 h3 h4 h5 h6
    obtain ⟨s', e1, e2, e3, e4, e5⟩ := hI.init_ok s p l v h1 h2 h3 h4 h5 h6
    exact ⟨s', e1, e2, e3, ⟨e4, hv v h3⟩, e5⟩
  init_panic := hI.init_panic

theorem Newtype.init_lawful {T : VarLen w} {I : Init w} (hI : InitLawful T I) : InitLawful (Newtype T) (Newtype.init I) :=
  NewtypeInv.init_lawful hI fun _ _ => trivial

/-- `impl_initializer_as_newtype!`: wrapping an initializer without changing the type. -/
theorem Newtype.wrap_lawful {T : VarLen w} {I : Init w} (hI : InitLawful T I) : InitLawful T (Newtype.init I) :=
  ⟨hI.owns_mods, hI.mods_fp, hI.fp_exists, hI.stable, hI.calc_ok, hI.calc_panic, hI.bad_lay, hI.drop_ok, hI.init_ok, hI.init_panic⟩

theorem Newtype.inner_ok {T : VarLen w} (hT : Lawful T) {s p v l} (h : Valid T s p v l) : Newtype.inner T p s = .ok p s := by
  have ha : Acc s p T.headSize := h.acc.mono (hT.head_le v l _ h.rep)
  simp [Newtype.inner, mkRef_ok ha (h.aligned.of_dvd hT.head_align)]

theorem NewtypeInv.vclone_lawful {T : VarLen w} {C : VClone w} (hC : VCloneLawful T C) {inv : V → Prop}
    (hv : ∀ v v' l o, T.Rep v l o → inv v → C.cloneV v = some v' → inv v') : VCloneLawful (NewtypeInv T inv) (Newtype.vclone C) where
  ok := by
    intro s p v l h hb
    obtain ⟨I, e1, e2, e3, e4, e5, e6, e7, e8⟩ := hC.ok s p v l (NewtypeInv.valid_inner h) hb
    refine ⟨Newtype.init (Newtype.init I), by simp [Newtype.vclone, e1], Newtype.wrap_lawful (NewtypeInv.init_lawful e2 ?_), e3, e4, e5, e6, e7, e8⟩
    intro v' hv'
    exact hv v v' l _ h.rep.1 h.rep.2 (by rw [← e7]; exact hv')

theorem Newtype.vclone_lawful {T : VarLen w} {C : VClone w} (hC : VCloneLawful T C) : VCloneLawful (Newtype T) (Newtype.vclone C) :=
  NewtypeInv.vclone_lawful hC fun _ _ _ _ _ _ _ => trivial

/-! ## `Str` -/
theorem u8Ty_ok (hw : 1 < w) : u8Ty.Ok w where
  align_pow2 := ⟨0, by omega, rfl⟩
  dvd := by simp [u8Ty]
  size_lt := by simp only [u8Ty]; exact Nat.one_lt_two_pow (by omega)
  valid_len := by intro img hv; simp only [u8Ty, Bool.and_eq_true, beq_iff_eq] at hv; exact hv.1

theorem strBytes_valid (s : String) : ∀ x ∈ strBytes s, u8Ty.valid x = true := by
  intro x hx
  simp only [strBytes, List.mem_map] at hx
  obtain ⟨b, _, rfl⟩ := hx
  rfl

theorem strBytes_length (s : String) : (strBytes s).length = s.utf8ByteSize := by
  simp only [strBytes, List.length_map]; rfl

theorem strBytes_inj {s t : String} (h : strBytes s = strBytes t) : s = t := by
  unfold strBytes at h
  have h1 := (List.map_inj_right (fun a b hab => by simpa [UInt8.toBitVec_inj] using hab)).1 h
  have : s.toByteArray = t.toByteArray := by
    rcases hs : s.toByteArray with ⟨a⟩
    rcases ht : t.toByteArray with ⟨b⟩
    rw [hs, ht] at h1
    congr
    exact Array.toList_inj.1 h1
  exact String.toByteArray_inj.1 this

variable {L : LenTy}

theorem Str.lawful (hw : 1 < w) (hL : L.Ok w) : Lawful (Str w L) := NewtypeInv.lawful (Array.lawful (u8Ty_ok hw) hL) _

theorem CloneFn.some_ok (R : RTy) : CloneFn.Ok R some := by
  intro a b h e; cases e; exact h

theorem cloneAll_some (xs : List Img) : cloneAll some xs = some xs := by
  induction xs with
  | nil => rfl
  | cons x xs ih => simp [cloneAll, ih]

theorem Str.vclone_lawful (hw : 1 < w) (hL : L.Ok w) : VCloneLawful (Str w L) (Str.vclone w L) := by
  refine NewtypeInv.vclone_lawful (Array.vclone_lawful (u8Ty_ok hw) hL (CloneFn.some_ok _)) ?_
  intro v v' l o _ hi hc
  cases v with
  | arr xs =>
    simp only [Array.vcloneI, cloneAll_some, Option.map_some, Option.some.injEq] at hc
    subst hc; exact hi
  | leaf => exact hi.elim
  | node => exact hi.elim

theorem Array.tryCopy_spec {R : RTy} (hR : R.Ok w) (hL : L.Ok w) {src : Ptr} {xs : List Img} (hx : ∀ x ∈ xs, R.valid x = true)
    (hlen : xs.length < 2 ^ w) :
    (Array.tryCopy w R L src xs = none ↔ 2 ^ (8 * L.bytes) ≤ xs.length) ∧
    ∀ I, Array.tryCopy w R L src xs = some I → InitLawful (Array w R L) I ∧ I.val = some (.arr xs) ∧
      (∀ s, I.pre s ↔ SliceHas R s src xs) ∧ (∀ b, I.fp b ↔ b = src.blk) ∧ (∀ b, ¬ I.mods b) := by
  have hs := LenTy.fromUsize_spec hL (BitVec.ofNat w xs.length)
  have ht : (BitVec.ofNat w xs.length).toNat = xs.length := by simp [Nat.mod_eq_of_lt hlen]
  rw [ht] at hs
  unfold Array.tryCopy
  refine ⟨?_, ?_⟩
  · rw [← hs.1]
    cases L.fromUsize (BitVec.ofNat w xs.length) <;> simp
  · intro I hI
    cases hf : L.fromUsize (BitVec.ofNat w xs.length) with
    | none => rw [hf] at hI; simp at hI
    | some len =>
      rw [hf] at hI
      simp only [Option.bind_eq_bind, Option.bind_some, Option.some.injEq] at hI
      obtain ⟨h1, h2, h3⟩ := hs.2 len hf
      subst hI
      refine ⟨SizedInit_lawful hR hL h1 (CopyFrom_lawful hx), ?_, fun s => Iff.rfl, fun b => Iff.rfl, fun b h => h⟩
      simp [SizedInit, CopyFrom, h3, Nat.mod_eq_of_lt hlen]

theorem Str.tryCopy_spec (hw : 1 < w) (hL : L.Ok w) {src : Ptr} {str : String} (hlen : str.utf8ByteSize < 2 ^ w) :
    (Str.tryCopy w L src str = none ↔ 2 ^ (8 * L.bytes) ≤ str.utf8ByteSize) ∧
    ∀ I, Str.tryCopy w L src str = some I → InitLawful (Str w L) I ∧ I.val = some (.arr (strBytes str)) ∧
      (∀ s, I.pre s ↔ SliceHas u8Ty s src (strBytes str)) ∧ (∀ b, I.fp b ↔ b = src.blk) ∧ (∀ b, ¬ I.mods b) := by
  rw [← strBytes_length] at hlen ⊢
  obtain ⟨h1, h2⟩ := Array.tryCopy_spec (u8Ty_ok hw) hL (src := src) (strBytes_valid str) hlen
  unfold Str.tryCopy
  cases hf : Array.tryCopy w u8Ty L src (strBytes str) with
  | none => exact ⟨by rw [← h1, hf]; simp, by simp⟩
  | some I =>
    refine ⟨by rw [← h1, hf]; simp, ?_⟩
    intro J hJ
    simp only [Option.bind_eq_bind, Option.bind_some, Option.some.injEq] at hJ
    subst hJ
    obtain ⟨a, b, c, d, e⟩ := h2 I hf
    refine ⟨NewtypeInv.init_lawful a ?_, b, c, d, e⟩
    intro v hv
    rw [b] at hv; cases hv
    exact ⟨str, rfl⟩

theorem Str.deref_spec (hw : 1 < w) (hL : L.Ok w) {s : St} {p : Ptr} {v : V} {l : Layout w} (h : Valid (Str w L) s p v l) :
    ∃ sl str, v = .arr (strBytes str) ∧ Str.deref w L p s = .ok sl s ∧ sl.len = str.utf8ByteSize ∧ Slice.read u8Ty sl s = .ok (strBytes str) s ∧
      sl.ptr.blk = p.blk ∧ p.off + L.bytes ≤ sl.ptr.off ∧
      sl.ptr.off + sl.len = p.off + l.size.toNat ∧ Acc s sl.ptr sl.len := by
  have hv := NewtypeInv.valid_inner h
  cases v with
  | leaf => exact (h.rep.2).elim
  | node => exact (h.rep.2).elim
  | arr xs =>
    obtain ⟨str, rfl⟩ := h.rep.2
    obtain ⟨sl, e1, e2, e3, e4, e5, e6, e7, e8, e9, e10⟩ := Array.deref_spec (u8Ty_ok hw) hL hv
    have hu : IsUtf8 (strBytes str) := ⟨str, rfl⟩
    have hi := Newtype.inner_ok (Array.lawful (u8Ty_ok hw) hL) hv
    refine ⟨sl, str, rfl, ?_, by rw [e2, strBytes_length], e3, e4, e5, ?_, ?_⟩
    · simp [Str.deref, hi, e1, fromUtf8Unchecked, e3, hu]
    · simpa [u8Ty] using e6
    · simpa [u8Ty] using e7

end Varlen
