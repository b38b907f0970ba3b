import Verif.Props.Struct
import Verif.Props.Moves
/-!
# C57: changing the head of a struct in place

`refs()` and the public fields of a struct give shared references to its header fields. If a `#[controls_layout]` field has a type with interior mutability (`Cell<u8>` with length expression `len.get()`;
`Cell::get` is a `const fn` since Rust 1.88), safe code can store into it through such a reference. If the user writes `impl Unpin for S {}` (safe, and accepted for a struct of the user's crate),
`Pin<&mut S>` gives `&mut S`, and safe code can assign the field or swap two heads. Neither is prevented by varlen_macro/src/lib.rs. The theorems are about any such change of the head.
-/
namespace Varlen
variable {w : Nat}

/-- The field values with the header fields' taken from `o`. -/
def setHdr (o : View) : List (Fld w) → List V → List V
  | .normal R off :: fs, _ :: vs => .leaf (takeV o off R.size) :: setHdr o fs vs
  | .length R off :: fs, _ :: vs => .leaf (takeV o off R.size) :: setHdr o fs vs
  | _ :: fs, v :: vs => v :: setHdr o fs vs
  | _, vs => vs

theorem RepHdr.setHdr {o o' : View} : ∀ (fs : List (Fld w)) vs, RepHdr fs vs o →
    (∀ R off, Fld.normal R off ∈ fs ∨ Fld.length R off ∈ fs → R.valid (takeV o' off R.size) = true) → RepHdr fs (Varlen.setHdr o' fs vs) o' := by
  intro fs
  induction fs with
  | nil => intro vs h _; cases vs <;> simp [RepHdr] at h; trivial
  | cons f fs ih =>
    intro vs h hv
    have hv' : ∀ R off, Fld.normal R off ∈ fs ∨ Fld.length R off ∈ fs → R.valid (takeV o' off R.size) = true :=
      fun R off hm => hv R off (hm.imp (List.mem_cons_of_mem _) (List.mem_cons_of_mem _))
    cases vs with
    | nil => cases f <;> simp [RepHdr] at h
    | cons v vs =>
      cases f with
      | normal R off =>
        cases v <;> simp only [RepHdr] at h
        exact ⟨⟨rfl, hv R off (.inl (by simp))⟩, ih _ h.2 hv'⟩
      | length R off =>
        cases v <;> simp only [RepHdr] at h
        exact ⟨⟨rfl, hv R off (.inr (by simp))⟩, ih _ h.2 hv'⟩
      | varlen T => exact ih _ h hv'
      | array R len => exact ih _ h hv'

theorem RepTails.setHdr {lens : List Img} {o oh : View} : ∀ (fs : List (Fld w)) vs ls cur fin, RepTails lens fs vs ls cur fin o →
    RepTails lens fs (Varlen.setHdr oh fs vs) ls cur fin o := by
  intro fs
  induction fs with
  | nil => intro vs ls cur fin h; cases vs <;> exact h
  | cons f fs ih =>
    intro vs ls cur fin h
    cases vs with
    | nil => cases f <;> exact h
    | cons v vs =>
      cases f with
      | normal R off => exact ih _ _ _ _ h
      | length R off => exact ih _ _ _ _ h
      | varlen T =>
        rcases ls with _ | ⟨⟨o1, l⟩, ls⟩
        · simp [RepTails] at h
        · exact ⟨h.1, ih _ _ _ _ h.2⟩
      | array R len =>
        rcases ls with _ | ⟨⟨o1, l⟩, ls⟩
        · simp [RepTails] at h
        · cases v <;> cases l <;> simp only [RepTails] at h
          exact ⟨h.1, ih _ _ _ _ h.2⟩

theorem setHdr_get (o : View) : ∀ (fs : List (Fld w)) vs (i : Nat) f, fs[i]? = some f → i < vs.length →
    (setHdr o fs vs)[i]? = match f with
      | .normal R off | .length R off => some (.leaf (takeV o off R.size))
      | _ => vs[i]? := by
  intro fs
  induction fs with
  | nil => intro vs i f h; simp at h
  | cons g fs ih =>
    intro vs i f h hi
    cases vs with
    | nil => simp at hi
    | cons v vs =>
      cases i with
      | zero => simp only [List.getElem?_cons_zero, Option.some.injEq] at h; subst h; cases g <;> rfl
      | succ i =>
        simp only [List.getElem?_cons_succ] at h
        simp only [List.length_cons, Nat.add_lt_add_iff_right] at hi
        have := ih vs i f h hi
        cases g <;> simpa [setHdr] using this

/-- Two representations of tails at the same positions have the same array lengths. -/
theorem RepTails.lens_eq {lens lens' : List Img} {o o' : View} : ∀ (fs : List (Fld w)) vs vs' ls cur fin cur' fin', RepTails lens fs vs ls cur fin o →
    RepTails lens' fs vs' ls cur' fin' o' → arrayLens fs lens = arrayLens fs lens' := by
  intro fs
  induction fs with
  | nil => intros; rfl
  | cons f fs ih =>
    intro vs vs' ls cur fin cur' fin' h h'
    cases vs with
    | nil => cases f <;> simp [RepTails] at h
    | cons v vs =>
      cases vs' with
      | nil => cases f <;> simp [RepTails] at h'
      | cons v' vs' =>
        cases f with
        | normal R off => exact ih _ _ _ _ _ _ _ h h'
        | length R off => exact ih _ _ _ _ _ _ _ h h'
        | varlen T =>
          rcases ls with _ | ⟨⟨o1, l⟩, ls⟩
          · simp [RepTails] at h
          · exact ih _ _ _ _ _ _ _ h.2 h'.2
        | array R len =>
          rcases ls with _ | ⟨⟨o1, l⟩, ls⟩
          · simp [RepTails] at h
          · cases v <;> cases v' <;> cases l <;> simp only [RepTails] at h h'
            simp only [arrayLens, List.filterMap_cons, List.cons.injEq]
            exact ⟨h.1.2.1.symm.trans h'.1.2.1, ih _ _ _ _ _ _ _ h.2 h'.2⟩

/-! ## C57 -/

/-- The values of the `#[controls_layout]` fields of the struct at `p`. -/
def controllersAt (fs : List (Fld w)) (s : St) (p : Ptr) : List Img := fs.filterMap fun f => match f with
  | .length R off => some (takeV (viewAt s (p.add off)) 0 R.size)
  | _ => none

theorem controllersAt_eq (fs : List (Fld w)) (s : St) (p : Ptr) : controllersAt fs s p = lengthsOf fs (viewAt s p) := by
  unfold controllersAt lengthsOf
  congr 1
  funext f
  cases f <;> simp [viewAt_add, takeV_shift]

/-- Let some code change the head of a struct, and nothing else, so that every header field still holds a value of its type. If the length expression of every array field returns the same length as before, then the
object is valid, with the same layout, the tail fields have their old values and the header fields the values now in memory.
(Missing: changes of the `#[controls_layout]` fields that change a length, where the claim is false: `C57_controller_write_unsound`, `C57_layout_lost`.) -/
theorem C57_head_rewrite_partial {headSize headAlign : Nat} {fs : List (Fld w)} (hh : HeaderOk headSize headAlign fs) (hT : ∀ T, Fld.varlen T ∈ fs → LibType T)
    {s s' : St} {p : Ptr} {vs : List V} {l : Layout w} (h : Valid (Struct w headSize headAlign fs) s p (.node vs) l) (ht : Touch s s' p headSize (fun _ => False))
    (hv : ∀ R off, Fld.normal R off ∈ fs ∨ Fld.length R off ∈ fs → R.valid (takeV (viewAt s' (p.add off)) 0 R.size) = true)
    (hlen : ∀ R len, Fld.array R len ∈ fs → len.defd (controllersAt fs s' p) = true ∧ len (controllersAt fs s' p) = len (controllersAt fs s p)) :
    ∃ vs', Valid (Struct w headSize headAlign fs) s' p (.node vs') l ∧ vs'.length = vs.length ∧ ∀ (i : Nat) f, fs[i]? = some f →
      match f with
      | .normal R off | .length R off => vs'[i]? = some (.leaf (takeV (viewAt s' (p.add off)) 0 R.size))
      | _ => vs'[i]? = vs[i]? := by
  have hok : StructOk headSize headAlign fs := hh.structOk fun T h => (hT T h).lawful
  obtain ⟨ha, hal, vs0, ls, size, e1, rfl, r1, r2⟩ := h
  cases e1
  have hal2 : ∀ off : Nat, ∀ R : RTy, takeV (viewAt s' (p.add off)) 0 R.size = takeV (viewAt s' p) off R.size := by
    intro off R; rw [viewAt_add, takeV_shift]; simp
  have hl : arrayLens fs (lengthsOf fs (viewAt s p)) = arrayLens fs (lengthsOf fs (viewAt s' p)) := by
    rw [arrayLens_eq_iff]
    intro R len hm
    have := (hlen R len hm).2
    rw [controllersAt_eq, controllersAt_eq] at this
    exact this.symm
  have hd : LensDefd fs (lengthsOf fs (viewAt s' p)) := by
    intro R len hm
    have := (hlen R len hm).1
    rwa [controllersAt_eq] at this
  have hvl : vs.length = fs.length := (Struct.accessIx hok (⟨ha, hal, vs, ls, size, rfl, rfl, r1, r2⟩ : Valid (Struct w headSize headAlign fs) s p (.node vs) (.fields size ls))).elim
    fun vs' h => by obtain ⟨rs, sh, e, _, _, hacc⟩ := h; cases e; exact hacc.vlen
  have hle : headSize ≤ size.toNat := RepTails.le _ _ _ _ _ hok.flds r2
  refine ⟨setHdr (viewAt s' p) fs vs, ⟨ht.acc (fun h => h) ha, ht.aligned (fun h => h) hal, _, ls, size, rfl, rfl, ?_, ?_⟩, ?_, ?_⟩
  · exact RepHdr.setHdr fs vs r1 fun R off hm => by rw [← hal2]; exact hv R off hm
  · apply RepTails.setHdr
    have hr := RepTails.setCtl (lens' := lengthsOf fs (viewAt s' p)) (o' := viewAt s' p) fs vs ls headSize size.toNat (lengthsOf fs (viewAt s p)) hok.flds hd hl
      (fun i h1 _ => (ht.view (q := p) (fun h => h) i (by simp; omega)).symm) r2
    have hsame : ∀ (fs : List (Fld w)) vs, RepHdr fs vs (viewAt s p) → setCtl fs vs (lengthsOf fs (viewAt s p)) = vs := by
      intro fs
      induction fs with
      | nil => intro vs _; cases vs <;> rfl
      | cons f fs ih =>
        intro vs hr
        cases vs with
        | nil => cases f <;> simp [RepHdr] at hr
        | cons v vs =>
          unfold lengthsOf at ih ⊢
          cases f with
          | normal R off => cases v <;> simp only [RepHdr] at hr; simp [setCtl, ih vs hr.2]
          | length R off => cases v <;> simp only [RepHdr] at hr; simp [setCtl, hr.1.1, ih vs hr.2]
          | varlen T => simp only [RepHdr] at hr; simp [setCtl, ih vs hr]
          | array R len => simp only [RepHdr] at hr; simp [setCtl, ih vs hr]
    rw [hsame fs vs r1] at hr
    exact hr
  · have : ∀ (fs : List (Fld w)) vs, (setHdr (viewAt s' p) fs vs).length = vs.length := by
      intro fs
      induction fs with
      | nil => intro vs; cases vs <;> rfl
      | cons f fs ih => intro vs; cases vs <;> cases f <;> simp [setHdr, ih]
    exact this fs vs
  · intro i f hi
    have hlt : i < vs.length := by rw [hvl]; exact (List.getElem?_eq_some_iff.1 hi).1
    have := setHdr_get (viewAt s' p) fs vs i f hi hlt
    cases f with
    | normal R off => simp only at this ⊢; rw [this, hal2]
    | length R off => simp only at this ⊢; rw [this, hal2]
    | varlen T => exact this
    | array R len => exact this

/-- Conversely, if the length expression of some array field panics after the change or gives another length, the object does not have its layout any more, whatever its fields hold: the box or sequence around it, which keeps the old layout's extent, is broken. -/
theorem C57_layout_lost {headSize headAlign : Nat} {fs : List (Fld w)} {s s' : St} {p : Ptr} {v : V} {l : Layout w} (h : Valid (Struct w headSize headAlign fs) s p v l)
    {R : RTy} {len : LenFn w} (hm : Fld.array R len ∈ fs)
    (hne : len.defd (controllersAt fs s' p) = false ∨ len (controllersAt fs s' p) ≠ len (controllersAt fs s p)) :
    ∀ v', ¬ Valid (Struct w headSize headAlign fs) s' p v' l := by
  rintro v' ⟨_, _, vs', ls', size', _, e', _, r2'⟩
  obtain ⟨_, _, vs, ls, size, _, e, _, r2⟩ := h
  rw [e] at e'
  cases e'
  have hd := RepTails.defd _ _ _ _ _ r2' R len hm
  have := RepTails.lens_eq _ _ _ _ _ _ _ _ r2 r2'
  rw [arrayLens_eq_iff] at this
  rw [controllersAt_eq, controllersAt_eq] at hne
  rcases hne with hne | hne
  · rw [hd] at hne; cases hne
  · exact hne (this R len hm).symm

/-- The claim fails. A struct with a `u8` length controller is put in a box; a value of the controller's type is stored through the reference that `refs()` gives to it. Then `refs()` and dropping the box are undefined behaviour. -/
theorem C57_controller_write_unsound :
    ∃ p s rs q s', VBox.new Demo.alloc Demo.S (Demo.sInit 7 3 [1, 2] [10, 11, 12] [5]) Demo.st0 = .ok p s ∧ aggRefs 8 Demo.sFs p s = .ok rs s ∧ Demo.sFs[1]? = some (.length u8Ty 4) ∧ rs[1]? = some (.val q) ∧
      u8Ty.valid (encLE 1 200) = true ∧ writeVal u8Ty q (encLE 1 200) s = .ok () s' ∧
      aggRefs 8 Demo.sFs p s' = .ub .outOfBounds ∧ VBox.drop Demo.S p s' = .ub .outOfBounds := by
  have run : ∀ {α : Type} (x : M α) (d : α) (s : St), Demo.isOk (x s) = true → x s = .ok (Demo.result d x s) (Demo.after x s) := fun x d s => Demo.run_eq d x s
  have ub : ∀ {α : Type} {r : Res St α} {k : UB}, Demo.ubOf r = some k → r = .ub k := by
    intro α r k h
    cases r with
    | ok => cases h
    | panic => cases h
    | ub k' => cases h; rfl
  have hlib := Demo.sInit_lib 7 3 [1, 2] [10, 11, 12] [5]
  have e1 := run (VBox.new Demo.alloc Demo.S (Demo.sInit 7 3 [1, 2] [10, 11, 12] [5])) ⟨0, 0⟩ Demo.st0 (by decide +kernel)
  have hp : Demo.result ⟨0, 0⟩ (VBox.new Demo.alloc Demo.S (Demo.sInit 7 3 [1, 2] [10, 11, 12] [5])) Demo.st0 = ⟨1, 0⟩ := by decide +kernel
  rw [hp] at e1
  have hval : ∃ v l, BoxHas Demo.S (Demo.after (VBox.new Demo.alloc Demo.S (Demo.sInit 7 3 [1, 2] [10, 11, 12] [5])) Demo.st0) ⟨1, 0⟩ v l := by
    rcases VBox.new_cases Demo.alloc hlib.lib.1.lawful hlib.lib.2 (Demo.sInit_pre 7 3 [1, 2] [10, 11, 12] [5] Demo.st0) with ⟨m, s', e, _⟩ | ⟨k, e⟩ | ⟨p, s', v, l, e, _, hb, _⟩ | ⟨m, s', e, _⟩ <;> rw [e1] at e <;> cases e
    exact ⟨v, l, hb⟩
  obtain ⟨v, l, hb⟩ := hval
  obtain ⟨vs, rs, _, _, e2, _⟩ := Struct.accessIx (Demo.sHeader.structOk (fun T hT => by
    simp only [List.mem_cons, List.mem_nil_iff, or_false, reduceCtorEq, false_or, Fld.varlen.injEq] at hT
    rcases hT with rfl | rfl <;> exact Demo.ArrT_lib.lawful)) hb.valid
  have hq : ((Demo.okOf (aggRefs (w := 64) 8 Demo.sFs ⟨1, 0⟩ (Demo.after (VBox.new Demo.alloc Demo.S (Demo.sInit 7 3 [1, 2] [10, 11, 12] [5])) Demo.st0))).bind fun r => r.1[1]?.bind fun
      | .val q => some q
      | _ => none) = some ⟨1, 4⟩ := by decide +kernel
  rw [e2] at hq
  refine ⟨⟨1, 0⟩, _, rs, ⟨1, 4⟩, _, e1, e2, rfl, ?_, rfl, run (writeVal u8Ty ⟨1, 4⟩ (encLE 1 200)) () _ (by decide +kernel), ub (by decide +kernel), ub (by decide +kernel)⟩
  obtain ⟨r, h1, h2⟩ := Option.bind_eq_some_iff.1 hq
  cases h1
  obtain ⟨r, h3, h4⟩ := Option.bind_eq_some_iff.1 h2
  cases r <;> simp only [Option.some.injEq, reduceCtorEq] at h4
  rw [h3, h4]

-- storing `3` again is an instance of the positive theorem, storing `200` of the negative one
example : let s' := Demo.sSt.write ⟨1, 4⟩ (encLE 1 3)
    (∃ vs', Valid Demo.S s' Demo.p1 (.node vs') Demo.sLay) ∧ ∀ v', ¬ Valid Demo.S (Demo.sSt.write ⟨1, 4⟩ (encLE 1 200)) Demo.p1 v' Demo.sLay := by
  constructor
  · obtain ⟨vs', h, _⟩ := C57_head_rewrite_partial (s' := Demo.sSt.write ⟨1, 4⟩ (encLE 1 3)) Demo.sHeader (fun T hT => by
      simp only [List.mem_cons, List.mem_nil_iff, or_false, reduceCtorEq, false_or, Fld.varlen.injEq] at hT
      rcases hT with rfl | rfl <;> exact Demo.ArrT_lib) Demo.sSt_valid (Touch.sub (o := 4) (n := 1) (Touch.write (s := Demo.sSt) (p := Demo.p1.add 4) (img := encLE 1 3)) (by decide)) (by
        intro R off h
        simp only [List.mem_cons, List.mem_nil_iff, or_false, reduceCtorEq, false_or, Fld.normal.injEq, Fld.length.injEq] at h
        rcases h with ⟨rfl, rfl⟩ | ⟨rfl, rfl⟩ <;> decide +kernel) (by
        intro R len h
        simp only [List.mem_cons, List.mem_nil_iff, or_false, reduceCtorEq, false_or, Fld.array.injEq] at h
        obtain ⟨rfl, rfl⟩ := h
        decide +kernel)
    exact ⟨vs', h⟩
  · exact C57_layout_lost Demo.sSt_valid (R := u8Ty) (len := Demo.u8Len) (by simp [Demo.sFs]) (.inr (by decide +kernel))

end Varlen
