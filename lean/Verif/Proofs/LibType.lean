import Verif.Spec.LibType
/-! # All library types and initializers satisfy the contracts -/
namespace Varlen
variable {w : Nat}

theorem HeaderOk.structOk {hs ha : Nat} {fs : List (Fld w)} (h : HeaderOk hs ha fs) (hT : ∀ T, Fld.varlen T ∈ fs → Lawful T) : StructOk hs ha fs where
  head_pow2 := h.head_pow2
  head_lt := h.head_lt
  flds := by
    intro f hf
    cases f with
    | normal R off => exact h.normal R off hf
    | length R off => exact h.length R off hf
    | varlen T => exact hT T hf
    | array R len => exact h.array R len hf
  disjoint := h.disjoint

theorem LibType.lawful {T : VarLen w} (h : LibType T) : Lawful T := by
  induction h with
  | fixedLen hR => exact FixedLen.lawful hR
  | array hR hL => exact Array.lawful hR hL
  | str hw hL => exact Str.lawful hw hL
  | newtype _ ih => exact Newtype.lawful ih
  | tuple hne _ ih => exact Tuple.lawful hne ih
  | struct hh _ ih => exact Struct.lawful (hh.structOk ih)
  | user h => exact h

theorem LibArrInit.lawful {R : RTy} (hR : R.Ok w) {I : ArrInit} (h : LibArrInit R I) : ArrInitLawful R I := by
  cases h with
  | fillSequentially h => exact FillSequentially_lawful hR h
  | fillWithDefault h => exact FillWithDefault_lawful hR h
  | fromIterPrefix h => exact FromIterPrefix_lawful hR h
  | copyFrom h => exact CopyFrom_lawful h
  | cloneFrom hc h => exact CloneFrom_lawful hR hc h
  | moveFrom h => exact MoveFrom_lawful hR h
  | user h => exact h

theorem LibClone.lib {T : VarLen w} {C : VClone w} (h : LibClone T C) : LibType T ∧ VCloneLawful T C := by
  induction h with
  | fixedLen hR hc => exact ⟨.fixedLen hR, FixedLen.vclone_lawful hR hc⟩
  | array hR hL hc => exact ⟨.array hR hL, Array.vclone_lawful hR hL hc⟩
  | str hw hL => exact ⟨.str hw hL, Str.vclone_lawful hw hL⟩
  | newtype _ ih => exact ⟨.newtype ih.1, Newtype.vclone_lawful ih.2⟩
  | tuple hne _ ih =>
    refine ⟨.tuple (by simpa using hne) ?_, Tuple.vclone_lawful hne (fun t ht => (ih t ht).1.lawful) fun t ht => (ih t ht).2⟩
    intro T hT
    obtain ⟨t, ht, rfl⟩ := List.mem_map.1 hT
    exact (ih t ht).1
  | user h1 h2 => exact ⟨h1, h2⟩

theorem SizedInit_eq_of_tryCopy {R : RTy} {L : LenTy} (hL : L.Ok w) {src : Ptr} {xs : List Img} {I : Init w}
    (h : Array.tryCopy w R L src xs = some I) : ∃ len, L.ty.valid len = true ∧ I = SizedInit w R L len (CopyFrom R src xs) := by
  unfold Array.tryCopy at h
  cases e : L.fromUsize (BitVec.ofNat w xs.length) with
  | none => simp [e] at h
  | some len =>
    simp only [e, Option.bind_eq_bind, Option.bind_some, Option.some.injEq] at h
    exact ⟨len, ((LenTy.fromUsize_spec hL _).2 len e).1, h.symm⟩

theorem SizedInit_eq_of_tryClone {R : RTy} {L : LenTy} (hL : L.Ok w) {c : CloneFn} {src : Ptr} {xs : List Img} {I : Init w}
    (h : Array.tryCloneFromSlice w R L c src xs = some I) : ∃ len, L.ty.valid len = true ∧ I = SizedInit w R L len (CloneFrom R c src xs) := by
  unfold Array.tryCloneFromSlice at h
  cases e : L.fromUsize (BitVec.ofNat w xs.length) with
  | none => simp [e] at h
  | some len =>
    simp only [e, Option.bind_eq_bind, Option.bind_some, Option.some.injEq] at h
    exact ⟨len, ((LenTy.fromUsize_spec hL _).2 len e).1, h.symm⟩

theorem LibInit.lib {T : VarLen w} {I : Init w} (h : LibInit T I) : LibType T ∧ InitLawful T I := by
  induction h with
  | fixedLen hR hv => exact ⟨.fixedLen hR, FixedLen.init_lawful hR hv⟩
  | sized hR hL hlen hI => exact ⟨.array hR hL, SizedInit_lawful hR hL hlen (hI.lawful hR)⟩
  | tryCopy hR hL hx he =>
    obtain ⟨len, hv, rfl⟩ := SizedInit_eq_of_tryCopy hL he
    exact ⟨.array hR hL, SizedInit_lawful hR hL hv (CopyFrom_lawful hx)⟩
  | tryClone hR hL hc hx he =>
    obtain ⟨len, hv, rfl⟩ := SizedInit_eq_of_tryClone hL he
    exact ⟨.array hR hL, SizedInit_lawful hR hL hv (CloneFrom_lawful hR hc hx)⟩
  | str hw hL hlen he => exact ⟨.str hw hL, ((Str.tryCopy_spec hw hL hlen).2 _ he).1⟩
  | newtype _ ih => exact ⟨.newtype ih.1, Newtype.init_lawful ih.2⟩
  | tuple hne _ ih =>
    refine ⟨.tuple (by simpa using hne) ?_, Tuple.init_lawful hne (fun f hf => (ih f hf).1.lawful) fun f hf => (ih f hf).2⟩
    intro T hT
    obtain ⟨t, ht, rfl⟩ := List.mem_map.1 hT
    exact (ih t ht).1
  | @struct hs ha fis hh hn hl _ ha' ih =>
    have hT : ∀ T, Fld.varlen T ∈ fis.map FI.fld → LibType T := by
      intro T hT
      obtain ⟨f, hf, he⟩ := List.mem_map.1 hT
      cases f <;> simp [FI.fld] at he
      subst he
      exact (ih _ _ hf).1
    have hok := hh.structOk fun T hT' => (hT T hT').lawful
    refine ⟨.struct hh hT, Struct.init_lawful hok ?_⟩
    intro f hf
    refine ⟨hok.flds _ (List.mem_map_of_mem hf), ?_⟩
    cases f with
    | normal R off img => exact hn _ _ _ hf
    | length R off img => exact hl _ _ _ hf
    | varlen T I => exact (ih _ _ hf).2
    | array R len I => exact (ha' _ _ _ hf).lawful (hh.array R len (by simpa [FI.fld] using List.mem_map_of_mem (f := FI.fld) hf))
  | vclone hC hv hb he =>
    obtain ⟨I', e, hI, _⟩ := hC.lib.2.ok _ _ _ _ hv hb
    rw [he] at e
    cases e
    exact ⟨hC.lib.1, hI⟩
  | vcopy h => exact ⟨h, VCopier_lawful h.lawful⟩
  | vbox h => exact ⟨h, VBox.init_lawful h.lawful⟩
  | owned h h1 => exact ⟨h, Owned.init_lawful_of_head_one h.lawful h1⟩
  | user h hI => exact ⟨h, hI⟩

theorem StructLit.lib {hs ha : Nat} {fis : List (FI w)} (h : StructLit hs ha fis) :
    LibInit (Struct w hs ha (fis.map FI.fld)) (Struct.init hs ha fis) := .struct h.header h.normal h.length h.varlen h.array

theorem StructLit.structOk {hs ha : Nat} {fis : List (FI w)} (h : StructLit hs ha fis) : StructOk hs ha (fis.map FI.fld) :=
  h.header.structOk (by
    intro T hT'
    obtain ⟨f, hf, he⟩ := List.mem_map.1 hT'
    cases f <;> simp [FI.fld] at he
    subst he
    exact (h.varlen _ _ hf).lib.1.lawful)

theorem StructLit.flds {hs ha : Nat} {fis : List (FI w)} (h : StructLit hs ha fis) : ∀ f ∈ fis, f.Ok hs ha := by
  intro f hf
  refine ⟨h.structOk.flds _ (List.mem_map_of_mem hf), ?_⟩
  cases f with
  | normal R off img => exact h.normal _ _ _ hf
  | length R off img => exact h.length _ _ _ hf
  | varlen T I => exact (h.varlen _ _ hf).lib.2
  | array R len I => exact (h.array _ _ _ hf).lawful (h.header.array R len (by simpa [FI.fld] using List.mem_map_of_mem (f := FI.fld) hf))

theorem Suitable.lay {T : VarLen w} {I : Init w} (hI : InitLawful T I) {s : St} {p : Ptr} {l : Layout w} (h : Suitable T I s p l) : I.lay = some l := by
  cases hb : I.bad with
  | true =>
    have := hI.calc_panic s h.pre hb
    rw [h.layout] at this
    cases this
  | false =>
    have := hI.calc_ok s h.pre hb
    rw [h.layout] at this
    injection this with h1
    exact h1.symm

/-- Construction in suitable storage, in one statement. -/
theorem Suitable.run {T : VarLen w} {I : Init w} (hI : InitLawful T I) {s : St} {p : Ptr} {l : Layout w} (h : Suitable T I s p l) :
    (∃ v s', I.val = some v ∧ I.initTo p l s = .ok () s' ∧ Touch s s' p l.size.toNat I.owns ∧ (∀ b, I.owns b → ∃ B, s'.blk b = some B ∧ B.live = false) ∧
      Valid T s' p v l ∧ s'.log = s.log ++ I.left ∧ s'.copied = s.copied) ∨
    (∃ m s', I.val = none ∧ I.initTo p l s = .panic m s' ∧ Touch s s' p l.size.toNat I.mods ∧
      (∀ b, I.owns b → ∃ B, s'.blk b = some B ∧ B.live = false) ∧ s'.log = s.log ++ I.lost ∧ s'.copied = s.copied) := by
  cases hv : I.val with
  | some v =>
    obtain ⟨s', e, ht, hf, hr, hlog, hcop⟩ := hI.init_ok s p l v h.pre (h.lay hI) hv h.acc h.aligned h.apart
    have ho : ¬ I.owns p.blk := fun hb => h.apart (hI.owns_fp _ hb)
    exact .inl ⟨v, s', rfl, e, ht, hf, ⟨ht.acc ho h.acc, ht.aligned ho h.aligned, hr⟩, hlog, hcop⟩
  | none =>
    obtain ⟨m, s', e, ht, hf, hlog, hcop⟩ := hI.init_panic s p l h.pre (h.lay hI) hv h.acc h.aligned h.apart
    exact .inr ⟨m, s', rfl, e, ht, hf, hlog, hcop⟩

end Varlen
