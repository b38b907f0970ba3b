import Verif.Props.Header
/-!
# C71: length expressions that change their mind

The length expression of a `#[varlen_array]` field is evaluated again by every `calculate_layout`, `refs`, `muts` and drop. It is the body of a `const fn` (varlen_macro/src/lib.rs:294), whose only arguments are
references to the `#[controls_layout]` fields. A `const fn` that is called when the program runs need not give the same answer each time: a field of type `&'static Cell<usize>` with the expression `len.get()` (a
`const fn` since Rust 1.88) can be made to give any answer by safe code, without any access to the object. Here the fields `fs` are those at the time when the object was made, and `gs` those at a later time.
-/
namespace Varlen
variable {w : Nat}

/-- The same fields, up to the length expressions. -/
inductive Relen : List (Fld w) → List (Fld w) → Prop
  | nil : Relen [] []
  | same (f : Fld w) {fs gs : List (Fld w)} : Relen fs gs → Relen (f :: fs) (f :: gs)
  | array {R : RTy} {len len' : LenFn w} {fs gs : List (Fld w)} : Relen fs gs → Relen (.array R len :: fs) (.array R len' :: gs)

/-- For these controllers, every length expression gives the same answer as before. -/
def LensAgree (ctl : List Img) (fs gs : List (Fld w)) : Prop :=
  ∀ (i : Nat) (R R' : RTy) (len len' : LenFn w), fs[i]? = some (.array R len) → gs[i]? = some (.array R' len') → len'.defd ctl = true ∧ len' ctl = len ctl

theorem LensAgree.tail {ctl : List Img} {f g : Fld w} {fs gs : List (Fld w)} (h : LensAgree ctl (f :: fs) (g :: gs)) : LensAgree ctl fs gs := fun i => h (i + 1)

theorem Relen.aligns {fs gs : List (Fld w)} (h : Relen fs gs) : tailAligns gs = tailAligns fs := by
  induction h with
  | nil => rfl
  | same f _ ih => cases f <;> simp only [tailAligns, ih]
  | array _ ih => simp only [tailAligns, ih]

theorem Relen.lengthsOf {fs gs : List (Fld w)} (h : Relen fs gs) (o : View) : Varlen.lengthsOf gs o = Varlen.lengthsOf fs o := by
  unfold Varlen.lengthsOf
  induction h with
  | nil => rfl
  | same f _ ih => simp only [List.filterMap_cons, ih]
  | array _ ih => simp only [List.filterMap_cons, ih]

theorem Relen.hdr {fs gs : List (Fld w)} (h : Relen fs gs) : ∀ {vs : List V} {o : View}, RepHdr fs vs o → RepHdr gs vs o := by
  induction h with
  | nil => exact fun h => h
  | same f _ ih =>
    intro vs o h
    cases vs with
    | nil => cases f <;> exact h.elim
    | cons v vs =>
      cases f with
      | normal R off => cases v <;> first | exact ⟨h.1, ih h.2⟩ | exact h.elim
      | length R off => cases v <;> first | exact ⟨h.1, ih h.2⟩ | exact h.elim
      | varlen T => exact ih h
      | array R len => exact ih h
  | array _ ih =>
    intro vs o h
    cases vs with
    | nil => exact h.elim
    | cons v vs => exact ih h

theorem Relen.tails {lens : List Img} {o : View} {fs gs : List (Fld w)} (h : Relen fs gs) : ∀ {vs : List V} {ls : List (BitVec w × Layout w)} {cur fin : Nat}, RepTails lens fs vs ls cur fin o →
    (RepTails lens gs vs ls cur fin o ↔ LensAgree lens fs gs) := by
  induction h with
  | nil => intro vs ls cur fin h; exact ⟨fun _ i R R' len len' e => (by cases e), fun _ => h⟩
  | @same f fs gs _ ih =>
    have up : (∀ R len, f = .array R len → len.defd lens = true) → (LensAgree lens fs gs ↔ LensAgree lens (f :: fs) (f :: gs)) := by
      intro hd
      constructor
      · intro h i R R' len len' h1 h2
        cases i with
        | zero => cases h1; cases h2; exact ⟨hd _ _ rfl, rfl⟩
        | succ i => exact h i R R' len len' h1 h2
      · exact LensAgree.tail
    intro vs ls cur fin h
    cases vs with
    | nil => cases f <;> simp [RepTails] at h
    | cons v vs =>
      cases f with
      | normal R off => exact (ih h).trans (up (fun _ _ e => by cases e))
      | length R off => exact (ih h).trans (up (fun _ _ e => by cases e))
      | varlen T =>
        rcases ls with _ | ⟨⟨o1, l⟩, ls⟩
        · simp [RepTails] at h
        · exact (and_iff_right h.1).trans ((ih h.2).trans (up (fun _ _ e => by cases e)))
      | array R len =>
        rcases ls with _ | ⟨⟨o1, l⟩, ls⟩
        · simp [RepTails] at h
        · cases v <;> cases l <;> first | exact h.elim | skip
          exact (and_iff_right h.1).trans ((ih h.2).trans (up (fun _ _ e => by cases e; exact h.1.2.2.2.2)))
  | @array R len len' fs gs _ ih =>
    intro vs ls cur fin h
    cases vs with
    | nil => simp [RepTails] at h
    | cons v vs =>
      rcases ls with _ | ⟨⟨o1, l⟩, ls⟩
      · simp [RepTails] at h
      · cases v <;> cases l <;> first | exact h.elim | skip
        obtain ⟨⟨h1, h2, h3, h4, h5⟩, h6⟩ := h
        constructor
        · rintro ⟨⟨-, g2, -, -, g5⟩, g6⟩ i R1 R1' l1 l1' e1 e2
          cases i with
          | zero => cases e1; cases e2; exact ⟨g5, g2.symm.trans h2⟩
          | succ i => exact (ih h6).mp g6 i R1 R1' l1 l1' e1 e2
        · intro ha
          have h0 := ha 0 R R len len' rfl rfl
          exact ⟨⟨h1, h2.trans h0.2.symm, h3, h4, h0.1⟩, (ih h6).mpr ha.tail⟩

/-- An object is still an object of the struct, with the same value and layout, exactly as long as every length expression gives the number of elements there are.
(Missing: length expressions that give another answer later; there the claim is false: `C71_length_changed_undefined`.) -/
theorem C71_valid_iff_partial {headSize headAlign : Nat} {fs gs : List (Fld w)} (hr : Relen fs gs) {s : St} {p : Ptr} {v : V} {l : Layout w} (h : Valid (Struct w headSize headAlign fs) s p v l) :
    Valid (Struct w headSize headAlign gs) s p v l ↔ LensAgree (controllersAt fs s p) fs gs := by
  obtain ⟨ha, hal, vs, ls, size, rfl, rfl, r1, r2⟩ := h
  rw [controllersAt_eq]
  constructor
  · rintro ⟨-, -, vs', ls', size', e1, e2, -, r2'⟩
    cases e1; cases e2
    rw [hr.lengthsOf] at r2'
    exact (hr.tails r2).mp r2'
  · intro hagree
    refine ⟨ha, ?_, vs, ls, size, rfl, rfl, hr.hdr r1, ?_⟩
    · show Aligned s p (arrayMax (BitVec.ofNat w headAlign :: tailAligns gs)).toNat
      rw [hr.aligns]
      exact hal
    · rw [hr.lengthsOf]
      exact (hr.tails r2).mpr hagree

/-- Then everything proved about valid objects holds again; for example, `calculate_layout` gives the layout that the object was made with. -/
theorem C71_layout_partial {headSize headAlign : Nat} {fs gs : List (Fld w)} (hh : HeaderOk headSize headAlign gs) (hT : ∀ T, Fld.varlen T ∈ gs → LibType T) (hr : Relen fs gs) {s : St} {p : Ptr} {v : V}
    {l : Layout w} (h : Valid (Struct w headSize headAlign fs) s p v l) (ha : LensAgree (controllersAt fs s p) fs gs) : (Struct w headSize headAlign gs).calculateLayout p s = .ok l s :=
  (LibType.struct hh hT).lawful.calc_ok _ _ _ _ ((C71_valid_iff_partial hr h).mpr ha)

/-! ### A struct `{ a: D4, #[controls_layout] n: &'static Cell<usize>, #[varlen] s: Array<D4, u16>, #[varlen_array] xs: [u8; n.get()], #[varlen] t: Array<D4, u16> }`

For simplicity the reference `n` takes one byte. -/

/-- The length expression `n.get()`, while the cell holds `k`. -/
def Demo.cellLen (k : Nat) : LenFn 64 := .total fun _ => BitVec.ofNat 64 k

/-- The fields, while the cell holds `k`. -/
abbrev Demo.cellFs (k : Nat) : List (Fld 64) := [.normal D4 0, .length u8Ty 4, .varlen ArrT, .array u8Ty (cellLen k), .varlen ArrT]

/-- An initializer, used while the cell holds 3. -/
abbrev Demo.cellFis : List (FI 64) := [.normal D4 0 (d4 7), .length u8Ty 4 (encLE 1 77), .varlen ArrT (arrInit [1, 2]), .array u8Ty (cellLen 3) (MoveFrom u8Ty [encLE 1 10, encLE 1 11, encLE 1 12]), .varlen ArrT (arrInit [5])]

theorem Demo.cellFs_header (k : Nat) : HeaderOk 8 4 (cellFs k) where
  head_pow2 := ⟨2, by decide, rfl⟩
  head_lt := by decide
  normal := by
    intro R off h
    simp at h
    obtain ⟨rfl, rfl⟩ := h
    exact ⟨D4_ok, by decide, by decide, by decide⟩
  length := by
    intro R off h
    simp at h
    obtain ⟨rfl, rfl⟩ := h
    exact ⟨u8Ty_ok (by decide), by decide, by decide, by decide⟩
  array := by
    intro R len h
    simp at h
    obtain ⟨rfl, rfl⟩ := h
    exact u8Ty_ok (by decide)
  disjoint := by
    simp [Fld.range, D4, u8Ty]

theorem Demo.cellFs_types (k : Nat) : ∀ T, Fld.varlen T ∈ cellFs k → LibType T := by
  intro T h
  simp at h
  subst h
  exact ArrT_lib

theorem Demo.cellFs_relen (k k' : Nat) : Relen (cellFs k) (cellFs k') := .same _ (.same _ (.same _ (.array (.same _ .nil))))

theorem Demo.cellInit_lib : LibInit (Struct 64 8 4 (cellFs 3)) (Struct.init 8 4 cellFis) := by
  refine StructLit.lib (fis := cellFis) ⟨cellFs_header 3, ?_, ?_, ?_, ?_⟩
  · intro R off img h
    simp at h
    obtain ⟨rfl, rfl, rfl⟩ := h
    exact d4_valid 7
  · intro R off img h
    simp at h
    obtain ⟨rfl, rfl, rfl⟩ := h
    exact encLE1_valid 77
  · intro T I h
    simp only [List.mem_cons, reduceCtorEq, FI.varlen.injEq, List.mem_nil_iff, or_false, false_or] at h
    rcases h with ⟨rfl, rfl⟩ | ⟨rfl, rfl⟩
    · exact arrInit_lib [1, 2]
    · exact arrInit_lib [5]
  · intro R len I h
    simp at h
    obtain ⟨rfl, rfl, rfl⟩ := h
    refine .moveFrom fun x hx => ?_
    simp at hx
    rcases hx with rfl | rfl | rfl <;> exact encLE1_valid _

/-- The claim fails. The struct is made in a box while the cell holds 3, and `refs()` works. Then the cell is set to 200; nothing is done to the box. Now `refs()` and dropping the box are undefined behaviour; if the cell is set
to 0 instead, dropping the box is too, as the field behind the array is looked for in the wrong place. -/
theorem C71_length_changed_undefined :
    ∃ p s rs, VBox.new Demo.alloc (Struct 64 8 4 (Demo.cellFs 3)) (Struct.init 8 4 Demo.cellFis) Demo.st0 = .ok p s ∧ aggRefs 8 (Demo.cellFs 3) p s = .ok rs s ∧
      aggRefs 8 (Demo.cellFs 200) p s = .ub .outOfBounds ∧ VBox.drop (Struct 64 8 4 (Demo.cellFs 200)) p s = .ub .outOfBounds ∧ ∃ k, VBox.drop (Struct 64 8 4 (Demo.cellFs 0)) p s = .ub k := by
  have run : ∀ {α : Type} (x : M α) (d : α) (s : St), Demo.isOk (x s) = true → x s = .ok (Demo.result d x s) (Demo.after x s) := fun x d s => Demo.run_eq d x s
  have ub : ∀ {α : Type} {r : Res St α} {k : UB}, Demo.ubOf r = some k → r = .ub k := by
    intro α r k h
    cases r with
    | ok => cases h
    | panic => cases h
    | ub k' => cases h; rfl
  have e1 := run (VBox.new Demo.alloc (Struct 64 8 4 (Demo.cellFs 3)) (Struct.init 8 4 Demo.cellFis)) ⟨0, 0⟩ Demo.st0 (by decide +kernel)
  have hp : Demo.result ⟨0, 0⟩ (VBox.new Demo.alloc (Struct 64 8 4 (Demo.cellFs 3)) (Struct.init 8 4 Demo.cellFis)) Demo.st0 = ⟨1, 0⟩ := by decide +kernel
  rw [hp] at e1
  have hval : ∃ v l, BoxHas (Struct 64 8 4 (Demo.cellFs 3)) (Demo.after (VBox.new Demo.alloc (Struct 64 8 4 (Demo.cellFs 3)) (Struct.init 8 4 Demo.cellFis)) Demo.st0) ⟨1, 0⟩ v l := by
    have hpre : (Struct.init 8 4 Demo.cellFis).pre Demo.st0 := by
      refine ⟨?_, ?_⟩
      · intro f hf
        simp only [List.mem_cons, List.mem_nil_iff, or_false] at hf
        rcases hf with rfl | rfl | rfl | rfl | rfl <;> exact trivial
      · simp [FI.mods, SizedInit]
    rcases VBox.new_cases Demo.alloc Demo.cellInit_lib.lib.1.lawful Demo.cellInit_lib.lib.2 hpre with ⟨m, s', e, _⟩ | ⟨k, e⟩ | ⟨p, s', v, l, e, _, hb, _⟩ | ⟨m, s', e, _⟩ <;> rw [e1] at e <;> cases e
    exact ⟨v, l, hb⟩
  obtain ⟨v, l, hb⟩ := hval
  obtain ⟨vs, rs, _, _, e2, _⟩ := Struct.accessIx ((Demo.cellFs_header 3).structOk fun T hT => (Demo.cellFs_types 3 T hT).lawful) hb.valid
  refine ⟨⟨1, 0⟩, _, rs, e1, e2, ub (by decide +kernel), ub (by decide +kernel), ?_⟩
  exact ⟨_, ub (k := .invalidValue) (by decide +kernel)⟩

/-- The demo struct, whose length expression is `*n as usize` with `n = 3`, is also one of the struct here as long as the cell holds 3, and no longer if it holds 2. -/
example : Valid (Struct 64 8 4 (Demo.cellFs 3)) Demo.sSt Demo.p1 (.node Demo.sVal) Demo.sLay ∧ (Struct 64 8 4 (Demo.cellFs 3)).calculateLayout Demo.p1 Demo.sSt = .ok Demo.sLay Demo.sSt ∧
    ¬ Valid (Struct 64 8 4 (Demo.cellFs 2)) Demo.sSt Demo.p1 (.node Demo.sVal) Demo.sLay := by
  have hr : ∀ k, Relen Demo.sFs (Demo.cellFs k) := fun k => .same _ (.same _ (.same _ (.array (.same _ .nil))))
  have ha : LensAgree (controllersAt Demo.sFs Demo.sSt Demo.p1) Demo.sFs (Demo.cellFs 3) := by
    intro i R R' len len' h1 h2
    match i with
    | 0 | 1 | 2 | 4 => cases h1
    | 3 => cases h1; cases h2; decide +kernel
    | _ + 5 => cases h1
  refine ⟨(C71_valid_iff_partial (hr 3) Demo.sSt_valid).mpr ha, C71_layout_partial (Demo.cellFs_header 3) (Demo.cellFs_types 3) (hr 3) Demo.sSt_valid ha, ?_⟩
  rw [C71_valid_iff_partial (hr 2) Demo.sSt_valid]
  intro h
  have := (h 3 _ _ _ _ rfl rfl).2
  revert this
  decide +kernel

end Varlen
