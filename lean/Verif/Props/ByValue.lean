import Verif.Spec.ByValue
import Verif.Props.Unpin
import Verif.Props.Controls
/-!
# C73: heads without tails

Variable-length types are sized Rust structs, so one might try to put a value of them into a local variable and borrow it. The markers prevent this wherever it would be wrong.
-/
namespace Varlen
variable {w : Nat}

theorem fieldMarker_not_built {have_ : Plain → Prop} {T : Ty w} : ¬ Builds have_ (fieldMarker T) := by
  intro h; cases h

theorem arrayMarker_not_built {have_ : Plain → Prop} {P : Plain} : ¬ Builds (w := w) have_ (arrayMarker P) := by
  intro h; cases h

/-- Safe code can build exactly the values of types without a tail. -/
theorem C73_which {have_ : Plain → Prop} {T : Ty w} (hT : TyOk T) : Builds have_ (.obj T) ↔ NoTail have_ T := by
  constructor
  · intro h
    induction hT with
    | fixedLen _ =>
      cases h with | obj h => cases h _ (List.mem_singleton.2 rfl) with | plain h => exact .fixedLen h
    | array _ _ => cases h with | obj h => exact absurd (h _ (List.mem_cons_of_mem _ (List.mem_singleton.2 rfl))) arrayMarker_not_built
    | str _ _ =>
      cases h with | obj h =>
      cases h _ (List.mem_singleton.2 rfl) with | obj h => exact absurd (h _ (List.mem_cons_of_mem _ (List.mem_singleton.2 rfl))) arrayMarker_not_built
    | newtype _ ih => cases h with | obj h => exact .newtype (ih (h _ (List.mem_singleton.2 rfl)))
    | @tuple Ts hne _ _ =>
      cases h with | obj h =>
      cases Ts with
      | nil => exact absurd rfl hne
      | cons T Ts => exact absurd (h _ (List.mem_cons_self ..)) fieldMarker_not_built
    | @struct hs ha fs _ _ _ =>
      cases h with | obj h =>
      refine .struct fun f hf => ?_
      have hb := h _ (List.mem_map.2 ⟨f, hf, rfl⟩)
      cases f with
      | normal P off => cases hb with | plain hb => exact ⟨P, off, hb, .inl rfl⟩
      | length P off => cases hb with | plain hb => exact ⟨P, off, hb, .inr rfl⟩
      | varlen T => exact absurd hb fieldMarker_not_built
      | array P len => exact absurd hb arrayMarker_not_built
  · intro h
    clear hT
    induction h with
    | fixedLen h => exact .obj fun t ht => by rw [List.mem_singleton.1 ht]; exact .plain h
    | newtype _ ih => exact .obj fun t ht => by rw [List.mem_singleton.1 ht]; exact ih
    | struct h =>
      refine .obj fun t ht => ?_
      obtain ⟨f, hf, rfl⟩ := List.mem_map.1 ht
      obtain ⟨P, off, hP, rfl | rfl⟩ := h f hf <;> exact .plain hP

theorem plain_fields {have_ : Plain → Prop} : ∀ {fs : List (TyFld w)}, (∀ f ∈ fs, ∃ P off, have_ P ∧ (f = .normal P off ∨ f = .length P off)) → ∀ {o : View} {lens : List Img},
    (∀ P off, (.normal P off ∈ fs ∨ .length P off ∈ fs) → P.ty.valid (takeV o off P.ty.size) = true) →
    tailAligns (TyFld.sems fs) = [] ∧ ∃ vs, RepHdr (TyFld.sems fs) vs o ∧ (∀ n, RepTails lens (TyFld.sems fs) vs [] n n o) ∧ ∀ p, glueFields p fs = vdropFields p (TyFld.sems fs) [] := by
  intro fs
  induction fs with
  | nil =>
    intro h o lens hv
    refine ⟨rfl, [], trivial, fun n => ?_, fun p => rfl⟩
    simp [TyFld.sems, RepTails]
  | cons f fs ih =>
    intro h o lens hv
    obtain ⟨P, off, hP, hf⟩ := h f (List.mem_cons_self ..)
    obtain ⟨h1, vs, h2, h3, h4⟩ := @ih (fun g hg => h g (List.mem_cons_of_mem _ hg)) o lens (fun P off hm => hv P off (hm.imp (List.mem_cons_of_mem _) (List.mem_cons_of_mem _)))
    obtain rfl | rfl := hf
    · refine ⟨by simpa only [TyFld.sems, TyFld.sem, tailAligns] using h1, .leaf (takeV o off P.ty.size) :: vs, ?_, fun n => ?_, fun p => ?_⟩
      · simp only [TyFld.sems, TyFld.sem, RepHdr]
        exact ⟨⟨trivial, hv P off (.inl (List.mem_cons_self ..))⟩, h2⟩
      · simpa only [TyFld.sems, TyFld.sem, RepTails] using h3 n
      · simp only [TyFld.sems, TyFld.sem, glueFields, vdropFields, h4]
    · refine ⟨by simpa only [TyFld.sems, TyFld.sem, tailAligns] using h1, .leaf (takeV o off P.ty.size) :: vs, ?_, fun n => ?_, fun p => ?_⟩
      · simp only [TyFld.sems, TyFld.sem, RepHdr]
        exact ⟨⟨trivial, hv P off (.inr (List.mem_cons_self ..))⟩, h2⟩
      · simpa only [TyFld.sems, TyFld.sem, RepTails] using h3 n
      · simp only [TyFld.sems, TyFld.sem, glueFields, vdropFields, h4]

/-- A value that safe code can build is a complete object, valid for its type, of the size of the Rust struct, with nothing after it. -/
theorem C73_complete {have_ : Plain → Prop} {T : Ty w} (hT : TyOk T) (hb : Builds have_ (.obj T)) {s : St} {p : Ptr} (h : Stands T s p) :
    ∃ v l, Valid T.sem s p v l ∧ l.size.toNat = T.sem.headSize := by
  have hn := (C73_which hT).1 hb
  clear hb
  induction hn with
  | @fixedLen P hP =>
    cases hT with | fixedLen hok =>
    have hsz : (P.ty.sizeOf w).toNat = P.ty.size := by
      simp only [RTy.sizeOf, BitVec.toNat_ofNat]
      exact Nat.mod_eq_of_lt hok.size_lt
    have hal : (P.ty.alignOf w).toNat = P.ty.align := by
      obtain ⟨k, hk, he⟩ := hok.align_pow2
      simp only [RTy.alignOf, BitVec.toNat_ofNat]
      exact Nat.mod_eq_of_lt (he ▸ Nat.pow_lt_pow_right (by decide) hk)
    refine ⟨.leaf (takeV (viewAt s p) 0 P.ty.size), .fixed (P.ty.sizeOf w), ⟨?_, ?_, ⟨_, rfl, rfl, rfl, h.valid⟩⟩, hsz⟩
    · simp only [Layout.size, hsz]
      exact h.acc
    · simp only [Ty.sem, FixedLen, hal]
      exact h.aligned
  | newtype _ ih =>
    cases hT with | newtype hT =>
    obtain ⟨v, l, hv, hl⟩ := ih hT ⟨h.acc, h.aligned, h.valid⟩
    exact ⟨v, l, ⟨hv.acc, hv.aligned, hv.rep, trivial⟩, hl⟩
  | @struct hs ha fs hf =>
    cases hT with | struct hok _ =>
    obtain ⟨h1, vs, h2, h3, _⟩ := plain_fields (lens := lengthsOf (TyFld.sems fs) (viewAt s p)) hf h.valid
    have hsz : (BitVec.ofNat w hs).toNat = hs := by
      rw [BitVec.toNat_ofNat]
      exact Nat.mod_eq_of_lt hok.head_lt
    have hal : (arrayMax (BitVec.ofNat w ha :: tailAligns (TyFld.sems fs))).toNat = ha := by
      obtain ⟨k, hk, he⟩ := hok.head_pow2
      obtain ⟨ha1, ha2⟩ := arrayMax_spec (BitVec.ofNat w ha :: tailAligns (TyFld.sems fs))
      have hha : (BitVec.ofNat w ha).toNat = ha := by
        rw [BitVec.toNat_ofNat]
        exact Nat.mod_eq_of_lt (he ▸ Nat.pow_lt_pow_right (by decide) hk)
      rw [h1] at ha1 ha2 ⊢
      grind
    refine ⟨.node vs, .fields (BitVec.ofNat w hs) [], ⟨?_, ?_, ⟨vs, [], _, rfl, rfl, h2, ?_⟩⟩, hsz⟩
    · simp only [Layout.size, hsz]
      exact h.acc
    · simp only [Ty.sem, Struct, hal]
      exact h.aligned
    · rw [hsz]
      exact h3 hs

/-- Conversely, objects of the types that safe code can build are never longer than the Rust struct. -/
theorem C73_no_tail {have_ : Plain → Prop} {T : Ty w} (hT : TyOk T) (hb : Builds have_ (.obj T)) {s : St} {p : Ptr} {v : V} {l : Layout w} (hv : Valid T.sem s p v l) : l.size.toNat = T.sem.headSize := by
  have hn := (C73_which hT).1 hb
  clear hb
  induction hn with
  | @fixedLen P hP =>
    cases hT with | fixedLen hok =>
    obtain ⟨img, _, rfl, _, _⟩ := hv.rep
    simp only [Layout.size, RTy.sizeOf, BitVec.toNat_ofNat, Ty.sem, FixedLen]
    exact Nat.mod_eq_of_lt hok.size_lt
  | newtype _ ih =>
    cases hT with | newtype hT =>
    exact ih hT ⟨hv.acc, hv.aligned, hv.rep.1⟩
  | @struct hs ha fs hf =>
    obtain ⟨vs, ls, size, rfl, rfl, _, h2⟩ := hv.rep
    refine (no_tail_rep (fun f hm he => ?_) h2).symm
    rw [TyFld.sems_eq] at hm
    obtain ⟨g, hg, rfl⟩ := List.mem_map.1 hm
    obtain ⟨P, off, _, rfl | rfl⟩ := hf g hg <;> simp [TyFld.sem, Fld.declTy] at he

/-- When a value that safe code has built goes out of scope, the destructors of all its fields run exactly once, in declaration order, and no memory outside of it is written. If it is a `define_varlen` struct there is a panic
besides; else not. -/
theorem C73_scope_end {have_ : Plain → Prop} {T : Ty w} (hT : TyOk T) (hb : Builds have_ (.obj T)) {s : St} {p : Ptr} {v : V} {l : Layout w} (hv : Valid T.sem s p v l) :
    ∃ s', T.glue p s = (if T.isStruct then .panic .invalidDrop s' else .ok () s') ∧ s'.log = s.log ++ T.sem.drops v ∧ s'.copied = s.copied ∧ Touch s s' p T.sem.headSize fun _ => False := by
  have hn := (C73_which hT).1 hb
  have hsz := C73_no_tail hT hb hv
  clear hb
  induction hn with
  | @fixedLen P hP =>
    obtain ⟨s', h1, h2, h3, h4⟩ := hT.lib.lawful.vdrop_ok _ _ _ _ hv
    rw [hsz] at h2
    exact ⟨s', h1, h3, h4, h2⟩
  | newtype _ ih =>
    cases hT with | newtype hT =>
    exact ih hT ⟨hv.acc, hv.aligned, hv.rep.1⟩ hsz
  | @struct hs ha fs hf =>
    obtain ⟨s', h1, h2, h3, h4⟩ := hT.lib.lawful.vdrop_ok _ _ _ _ hv
    rw [hsz] at h2
    obtain ⟨vs, ls, size, rfl, rfl, hr, ht⟩ := hv.rep
    have hh : ∀ P off, (.normal P off ∈ fs ∨ .length P off ∈ fs) → P.ty.valid (takeV (viewAt s p) off P.ty.size) = true := by
      clear h1 h2 h3 h4 hsz hT hv ht
      induction fs generalizing vs with
      | nil => intro P off h; simp at h
      | cons f fs ih =>
        intro P off h
        obtain ⟨P', off', _, hfe⟩ := hf f (List.mem_cons_self ..)
        have key : ∃ vs', RepHdr (TyFld.sems fs) vs' (viewAt s p) ∧ P'.ty.valid (takeV (viewAt s p) off' P'.ty.size) = true := by
          obtain rfl | rfl := hfe <;> simp only [TyFld.sems, TyFld.sem] at hr
          all_goals
            cases vs with
            | nil => simp [RepHdr] at hr
            | cons v vs => cases v with
              | leaf img => simp only [RepHdr] at hr; exact ⟨vs, hr.2, hr.1.1 ▸ hr.1.2⟩
              | arr xs => simp [RepHdr] at hr
              | node xs => simp [RepHdr] at hr
        obtain ⟨vs', hr', hP'⟩ := key
        by_cases hm : (.normal P off ∈ fs ∨ .length P off ∈ fs)
        · exact ih (fun g hg => hf g (List.mem_cons_of_mem _ hg)) vs' hr' P off hm
        · have hc : f = .normal P off ∨ f = .length P off := by
            simp only [List.mem_cons] at h
            obtain (h | h) | (h | h) := h
            · exact .inl h.symm
            · exact absurd (.inl h) hm
            · exact .inr h.symm
            · exact absurd (.inr h) hm
          obtain rfl | rfl := hc <;> obtain h | h := hfe <;> cases h <;> exact hP'
    obtain ⟨_, vs', hr', ht', hg⟩ := plain_fields (lens := lengthsOf (TyFld.sems fs) (viewAt s p)) hf hh
    have hl : ls = [] := by
      have := (hT.lib.lawful.rep_unique _ _ _ (.node vs') (.fields size []) hv.rep ⟨vs', [], size, rfl, rfl, hr', by
        have : size.toNat = hs := hsz
        rw [this]
        exact ht' hs⟩).2
      cases this
      rfl
    subst hl
    refine ⟨s', ?_, h3, h4, h2⟩
    simp only [Ty.glue, Ty.isStruct, if_true, onUnwind, hg]
    have : vdropFields p (TyFld.sems fs) [] s = .ok () s' := h1
    simp [panicM, this, Res.bind]

/-! ## Examples -/
namespace Demo

/-- `#[define_varlen] struct Pair { #[controls_layout] n: u8, d: D4, e: D4 }`: no tail. -/
def pairT : Ty 64 := .struct 12 4 [.length u8Plain 0, .normal guardP 4, .normal guardP 8]

theorem pairT_ok : TyOk pairT := .struct (by
  refine ⟨⟨2, by decide, rfl⟩, by decide, ?_, ?_, ?_, by simp [TyFld.sems, TyFld.sem, Fld.range, guardP, u8Plain, D4, u8Ty]⟩
  · intro R off h
    simp [TyFld.sems, TyFld.sem, guardP] at h
    obtain ⟨rfl, rfl⟩ | ⟨rfl, rfl⟩ := h <;> exact ⟨D4_ok, by decide, by decide, by decide⟩
  · intro R off h
    simp [TyFld.sems, TyFld.sem, u8Plain] at h
    obtain ⟨rfl, rfl⟩ := h
    exact ⟨u8Ty_ok (by decide), by decide, by decide, by decide⟩
  · intro R len h
    simp [TyFld.sems, TyFld.sem] at h) (fun T hT => by simp at hT)

theorem pairT_built : Builds (w := 64) (fun _ => True) (.obj (.newtype pairT)) :=
  (C73_which (.newtype pairT_ok)).2 (.newtype (.struct fun f hf => by
    simp only [List.mem_cons, List.not_mem_nil, or_false] at hf
    obtain rfl | rfl | rfl := hf
    · exact ⟨_, _, trivial, .inr rfl⟩
    · exact ⟨_, _, trivial, .inl rfl⟩
    · exact ⟨_, _, trivial, .inl rfl⟩))

/-- A local variable of this type: `Pair { n: 7, d: D4(9), e: D4(5) }`. -/
def pairSt : St := ⟨[⟨4096, 12, 4, true, fun i => ([some 7#8, none, none, none] ++ d4 9 ++ d4 5).getD i none⟩], [], 0⟩

theorem pairSt_stands : Stands (.newtype pairT) pairSt p1 := ⟨by decide, by decide, fun P off h => by
  simp at h
  obtain (⟨rfl, rfl⟩ | ⟨rfl, rfl⟩) | ⟨rfl, rfl⟩ := h <;> decide⟩

example : ∃ v l, Valid (Ty.newtype pairT).sem pairSt p1 v l ∧ l.size.toNat = 12 := C73_complete (.newtype pairT_ok) pairT_built pairSt_stands

/-- It goes out of scope: a panic, after which the two destructors run. -/
example : (panicOf ((Ty.newtype pairT).glue p1 pairSt)).map (fun r => (r.1, r.2.log)) = some (.invalidDrop, [9, 5]) := by decide

/-- `FixedLen(D4(9))` in a local variable; no panic. -/
example : (okOf ((Ty.fixedLen (w := 64) guardP).glue ⟨1, 4⟩ pairSt)).map (fun r => r.2.log) = some [9] := by decide

/-- None of these can be built. -/
example (have_ : Plain → Prop) : ¬ Builds have_ (.obj sT) ∧ ¬ Builds (w := 64) have_ (.obj (.array guardP lenU16)) ∧ ¬ Builds (w := 64) have_ (.obj (.str lenU16)) ∧
    ¬ Builds (w := 64) have_ (.obj (.tuple [.fixedLen guardP])) := by
  refine ⟨fun h => ?_, fun h => ?_, fun h => ?_, fun h => ?_⟩
  · have := (C73_which sT_ok).1 h
    cases this with | struct h =>
    obtain ⟨P, off, _, h | h⟩ := h (.varlen (.array guardP lenU16)) (by simp) <;> cases h
  · have := (C73_which (.array D4_ok lenU16_ok)).1 h
    cases this
  · have := (C73_which (.str (by decide) lenU16_ok)).1 h
    cases this
  · have := (C73_which (.tuple (by simp) fun T hT => by rw [List.mem_singleton.1 hT]; exact .fixedLen D4_ok)).1 h
    cases this

/-- The head of an `Array<D4, u16>` of length 2 on its own. -/
def headSt : St := ⟨[⟨4096, 2, 2, true, fun i => (encLE 2 2).getD i none⟩], [], 0⟩

end Demo

/-- The markers are needed: if safe code could build the head of an array on its own, borrowing it and looking at its elements would be undefined. -/
theorem C73_markers_needed : ∃ (T : Ty 64) (P : Plain) (L : LenTy) (s : St) (p : Ptr), T = .array P L ∧ TyOk T ∧ Stands T s p ∧ ∃ k, Array.deref 64 P.ty L p s = .ub k :=
  ⟨_, Demo.guardP, Demo.lenU16, Demo.headSt, Demo.p1, rfl, .array Demo.D4_ok Demo.lenU16_ok, ⟨by decide, by decide, by unfold Ty.HeadValid; decide⟩, _, by rfl⟩

end Varlen
