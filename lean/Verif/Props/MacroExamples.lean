import Verif.Props.MacroSem
/-!
# The declarations in the project's own examples and tests, run through the model of the macro

varlen_example/src/lib.rs has structs that the macro accepts, varlen_example/shouldfail/*.rs some that must not compile, with the expected messages in the *.stderr files beside them.
-/
namespace Varlen.Macro

/-- Declarations that `C40_accepts`, `C50_names` (and so C49) apply to. -/
structure Fine (d : Item) (fs : List Field) : Prop where
  data : d.data = .named fs
  vis : d.vis.Allowed
  fields : ∀ f ∈ fs, f.Acceptable
  names : NamesOk id fs

theorem Fine.output {d : Item} {fs : List Field} (h : Fine d fs) : ∃ o, defineVarlen id id d = .generated o ∧ WellNamed o := by
  obtain ⟨o, ho⟩ := (C40_accepts id id d).1 ⟨fs, h.data, h.vis, h.fields⟩
  exact ⟨o, ho, (C50_names h.data ho).2 h.names⟩

/-- `CoolStruct` (varlen_example/src/lib.rs:5-26). -/
def coolFields : List Field := [
  ⟨["#[doc = \"This length controls the first two arrays.\"]", "#[controls_layout]"], .pub, "small_len", .other "u8"⟩,
  ⟨["#[doc = \"This length controls the last array.\"]", "#[controls_layout]"], .pub, "big_len", .other "usize"⟩,
  ⟨["#[varlen_array]", "#[doc = \"An array.\"]"], .pub, "arr1", .array (.other "u8") "*small_len as usize"⟩,
  ⟨["#[varlen_array]", "#[doc = \"Another array.\"]"], .pub, "arr2", .array (.other "u8") "*small_len as usize"⟩,
  ⟨["#[varlen_array]", "#[doc = \"A third array.\"]"], .pub, "arr3", .array (.other "u16") "*big_len"⟩]

/-- `CoolStructWithMutableFields` (varlen_example/src/lib.rs:28-53). -/
def coolMutFields : List Field := coolFields.take 2 ++ [
  ⟨["#[doc = \"This field can be modified on an existing object.\"]"], .pub, "some_string", .other "String"⟩,
  ⟨["#[doc = \"So can this.\"]"], .pub, "some_int", .other "i16"⟩] ++ coolFields.drop 2

/-- `VisibilityScenarios` (varlen_example/src/lib.rs, tests). -/
def visFields : List Field := [
  ⟨["#[controls_layout]"], .inherited, "len", .other "usize"⟩,
  ⟨["#[controls_layout]"], .restricted false ["self"], "len2", .other "usize"⟩,
  ⟨["#[controls_layout]"], .restricted false ["super"], "len3", .other "usize"⟩,
  ⟨["#[controls_layout]"], .restricted false ["crate"], "len4", .other "usize"⟩,
  ⟨["#[controls_layout]"], .pub, "len5", .other "usize"⟩,
  ⟨["#[varlen_array]"], .inherited, "arr1", .array (.other "MyType") "MY_CONSTANT * *len"⟩]

theorem acceptable_of {f : Field} (h : f.marks.length ≤ 1) (hv : f.vis = .inherited ∨ f.vis = .pub ∨ f.vis = .restricted false ["crate"] ∨ f.vis = .restricted false ["self"] ∨ f.vis = .restricted false ["super"])
    (ha : f.kind ≠ .varlenArray ∨ f.ty ≠ .other (match f.ty with | .other t => t | _ => "")) : f.Acceptable := by
  refine ⟨h, ?_, fun hk => ?_⟩
  · unfold Vis.Allowed
    rcases hv with h | h | h | h | h <;> simp [h]
  · rcases ha with ha | ha
    · exact absurd hk ha
    · cases ht : f.ty with
      | array e n => exact ⟨e, n, rfl⟩
      | other t => rw [ht] at ha; exact absurd rfl ha

theorem cool_fine : Fine ⟨.pub, "CoolStruct", .named coolFields⟩ coolFields := by
  refine ⟨rfl, Or.inr (Or.inl rfl), fun f hf => ?_, ⟨by decide +kernel, by decide +kernel, by decide +kernel, by decide +kernel, by decide +kernel⟩⟩
  simp only [coolFields, List.mem_cons, List.mem_nil_iff, or_false] at hf
  rcases hf with rfl | rfl | rfl | rfl | rfl <;> exact acceptable_of (by decide) (by decide) (by decide)

theorem coolMut_fine : Fine ⟨.pub, "CoolStructWithMutableFields", .named coolMutFields⟩ coolMutFields := by
  refine ⟨rfl, Or.inr (Or.inl rfl), fun f hf => ?_, ⟨by decide +kernel, by decide +kernel, by decide +kernel, by decide +kernel, by decide +kernel⟩⟩
  simp only [coolMutFields, coolFields, List.take, List.drop, List.cons_append, List.nil_append, List.mem_cons, List.mem_nil_iff, or_false] at hf
  rcases hf with rfl | rfl | rfl | rfl | rfl | rfl | rfl <;> exact acceptable_of (by decide) (by decide) (by decide)

theorem vis_fine : Fine ⟨.pub, "VisibilityScenarios", .named visFields⟩ visFields := by
  refine ⟨rfl, Or.inr (Or.inl rfl), fun f hf => ?_, ⟨by decide +kernel, by decide +kernel, by decide +kernel, by decide +kernel, by decide +kernel⟩⟩
  simp only [visFields, List.mem_cons, List.mem_nil_iff, or_false] at hf
  rcases hf with rfl | rfl | rfl | rfl | rfl | rfl <;> exact acceptable_of (by decide) (by decide) (by decide)

/-! ## Running the project's tests -/

/-- `u16`. -/
def u16Ty : RTy where
  size := 2
  align := 2
  valid := fun img => img.length == 2 && img.all (·.isSome)
  needsDrop := false
  dropEv := fun _ => []

/-- The declaration of `T` in varlen_example/src/lib.rs:60-70. -/
def tFields : List Field := [
  ⟨["#[controls_layout]"], .inherited, "len", .other "usize"⟩,
  ⟨["#[varlen_array]"], .inherited, "arr", .array (.other "u8") "*len"⟩,
  ⟨["#[varlen_array]"], .inherited, "arr2", .array (.other "u16") "*len * 4"⟩]

theorem t_fine : Fine ⟨.inherited, "T", .named tFields⟩ tFields := by
  refine ⟨rfl, Or.inl rfl, fun f hf => ?_, ⟨by decide +kernel, by decide +kernel, by decide +kernel, by decide +kernel, by decide +kernel⟩⟩
  simp only [tFields, List.mem_cons, List.mem_nil_iff, or_false] at hf
  rcases hf with rfl | rfl | rfl <;> exact acceptable_of (by decide) (by decide) (by decide)

/-- What its names mean; `*len * 4` panics if it overflows. -/
def tMeaning : Meaning 64 where
  rty t := if t = .other "u8" then u8Ty else if t = .other "usize" then Demo.lenUsize.ty else u16Ty
  vty _ := Demo.ArrT
  expr e env :=
    let n := decLE ((env.lookup "len").getD [])
    if e = "*len" then some (BitVec.ofNat 64 n) else if 4 * n < 2 ^ 64 then some (BitVec.ofNat 64 (4 * n)) else none
  headSize := 8
  bareHeadSize := 8
  headAlign := 8
  off _ := 0

theorem u16Ty_ok : u16Ty.Ok 64 where
  align_pow2 := ⟨1, by decide, rfl⟩
  dvd := ⟨1, rfl⟩
  size_lt := by decide
  valid_len := by
    intro img h
    simp only [u16Ty, Bool.and_eq_true, beq_iff_eq] at h
    exact h.1

theorem tCompiled : Compiled tMeaning tFields := by
  refine ⟨?_, rfl, fun f hf hk => ?_⟩
  · refine ⟨⟨3, by decide, rfl⟩, by decide, ?_, ?_, ?_, ?_⟩
    · intro R off h
      obtain ⟨f, hf, he⟩ := List.mem_map.1 h
      simp only [tFields, List.mem_cons, List.mem_nil_iff, or_false] at hf
      rcases hf with rfl | rfl | rfl <;> cases he
    · intro R off h
      obtain ⟨f, hf, he⟩ := List.mem_map.1 h
      simp only [tFields, List.mem_cons, List.mem_nil_iff, or_false] at hf
      rcases hf with rfl | rfl | rfl <;> cases he
      exact ⟨Demo.lenUsize_ok.ty, by decide, by decide, by decide⟩
    · intro R len h
      obtain ⟨f, hf, he⟩ := List.mem_map.1 h
      simp only [tFields, List.mem_cons, List.mem_nil_iff, or_false] at hf
      rcases hf with rfl | rfl | rfl <;> cases he
      · exact u8Ty_ok (by decide)
      · exact u16Ty_ok
    · simp [meaning, tFields, Field.meaning, Field.kind, Field.marks, attrKind, Fld.range]
  · simp only [tFields, List.mem_cons, List.mem_nil_iff, or_false] at hf
    rcases hf with rfl | rfl | rfl <;> exact absurd hk (by decide)

/-- `t::Init { len: n, arr: FillSequentially(|i| i as u8), arr2: FillSequentially(|i| i as u16) }` (varlen_example/src/lib.rs:74-78). -/
def tArgs (n : Nat) : InitArgs 64 where
  value _ := encLE 8 n
  init _ := Demo.arrInit []
  array x := if x = "arr" then FillSequentially u8Ty ⟨fun t i => (some (encLE 1 i), t), fun _ => []⟩ () else FillSequentially u16Ty ⟨fun t i => (some (encLE 2 i), t), fun _ => []⟩ ()

theorem tLiteral (n : Nat) : LiteralOk tMeaning tFields (tArgs n) := by
  refine ⟨?_, ?_, ?_⟩
  · intro f hf hk
    simp only [tFields, List.mem_cons, List.mem_nil_iff, or_false] at hf
    rcases hf with rfl | rfl | rfl <;> first | exact absurd hk (by decide) | exact encLE_valid Demo.lenUsize n
  · intro f hf hk
    simp only [tFields, List.mem_cons, List.mem_nil_iff, or_false] at hf
    rcases hf with rfl | rfl | rfl <;> exact absurd hk (by decide)
  · intro f hf hk e m he
    simp only [tFields, List.mem_cons, List.mem_nil_iff, or_false] at hf
    rcases hf with rfl | rfl | rfl <;> first | exact absurd hk (by decide) | (cases he; refine .fillSequentially fun t i img t' h => ?_)
    · cases h; exact Demo.encLE1_valid i
    · cases h; simp [tMeaning, u16Ty, encLE]

/-- The contracts hold for the struct of the test, whatever length the initializer is given. -/
example (n : Nat) : ∃ o, defineVarlen id id ⟨.inherited, "T", .named tFields⟩ = .generated o ∧ Lawful (genVarLen tMeaning o tFields) ∧
    InitLawful (genVarLen tMeaning o tFields) (genInitializer tMeaning o tFields (tArgs n)) := by
  obtain ⟨o, ho, hw⟩ := t_fine.output
  exact ⟨o, ho, (C49_contract rfl ho hw tCompiled).1, C49_init_contract rfl ho hw tCompiled (tLiteral n)⟩

/-- The slice `refs().x` or `muts().x`. -/
def sliceOf (x : Ident) (rs : List (Ident × GenTy × FRef)) : Slice :=
  match rs.lookup x with
  | some (_, .slice sl) => sl
  | _ => ⟨⟨0, 0⟩, 0⟩

/-- The test `field_access_and_modify` (varlen_example/src/lib.rs:72-92), run on the printed code: the values that its assertions compare. -/
def testFieldAccess (o : Output) : M (List (List Nat)) := do
  let p ← VBox.new Demo.alloc (genVarLen tMeaning o tFields) (genInitializer tMeaning o tFields (tArgs 4))
  let rs ← genRefs tMeaning o p
  let a1 ← (sliceOf "arr" rs).read u8Ty
  let ms ← genMuts tMeaning o p
  (sliceOf "arr" ms).set u8Ty 2 (encLE 1 4)
  let rs ← genRefs tMeaning o p
  let a2 ← (sliceOf "arr" rs).read u8Ty
  let b1 ← (sliceOf "arr2" rs).read u16Ty
  let ms ← genMuts tMeaning o p
  (sliceOf "arr2" ms).set u16Ty 2 (encLE 2 4)
  let rs ← genRefs tMeaning o p
  let b2 ← (sliceOf "arr2" rs).read u16Ty
  VBox.drop (genVarLen tMeaning o tFields) p
  pure ([a1, a2, b1, b2].map (·.map decLE))

/-- The assertions of the test. -/
example : (match defineVarlen id id ⟨.inherited, "T", .named tFields⟩ with
    | .generated o => (Demo.okOf (testFieldAccess o Demo.st0)).map fun r => (r.1, r.2.blocks.map Block.live)
    | _ => none) = some ([[0, 1, 2, 3], [0, 1, 4, 3], List.range 16, (List.range 16).set 2 4], [false]) := by decide +kernel

/-- A length for which `*len * 4` overflows: making the object panics, nothing is undefined. -/
example : (match defineVarlen id id ⟨.inherited, "T", .named tFields⟩ with
    | .generated o => Demo.panicOf (VBox.new Demo.alloc (genVarLen tMeaning o tFields) (genInitializer tMeaning o tFields (tArgs (2 ^ 62))) Demo.st0) |>.map Prod.fst
    | _ => none) = some PanicMsg.user := by decide +kernel

/-- `PartialModifyLayout` (varlen_example/src/lib.rs:124-131). -/
def pmFields : List Field := [
  ⟨["#[controls_layout]"], .inherited, "header", .other "u64"⟩,
  ⟨["#[varlen_array]"], .inherited, "arr", .array (.other "u8") "(*header % 4) as usize"⟩]

/-- What its names mean. -/
def pmMeaning : Meaning 64 where
  rty t := if t = .other "u8" then u8Ty else Demo.lenUsize.ty
  vty _ := Demo.ArrT
  expr _ env := some (BitVec.ofNat 64 (decLE ((env.lookup "header").getD []) % 4))
  headSize := 8
  bareHeadSize := 8
  headAlign := 8
  off _ := 0

/-- `partial_modify_layout::Init { header: (123 * 4) + 2, arr: MoveFrom([4, 5]) }`. -/
def pmArgs : InitArgs 64 where
  value _ := encLE 8 (123 * 4 + 2)
  init _ := Demo.arrInit []
  array _ := MoveFrom u8Ty [encLE 1 4, encLE 1 5]

/-- The tests `modify_header_field_checked` and `modify_header_field_bad_layout_panics` (varlen_example/src/lib.rs:133-166): `try_set_layout_controllers` with `header + add`, then the header and the array. -/
def testModify (o : Output) (add : Nat) : M (Bool × Nat × List Nat) := do
  let p ← VBox.new Demo.alloc (genVarLen pmMeaning o pmFields) (genInitializer pmMeaning o pmFields pmArgs)
  let h ← readVal Demo.lenUsize.ty p
  let ok ← genTrySet pmMeaning o p fun _ => encLE 8 (decLE h + add)
  let h ← readVal Demo.lenUsize.ty p
  let rs ← genRefs pmMeaning o p
  let a ← (sliceOf "arr" rs).read u8Ty
  pure (ok, decLE h, a.map decLE)

example : (match defineVarlen id id ⟨.pub, "PartialModifyLayout", .named pmFields⟩ with
    | .generated o => ((Demo.okOf (testModify o (5 * 4) Demo.st0)).map Prod.fst, (Demo.okOf (testModify o 2 Demo.st0)).map Prod.fst)
    | _ => (none, none)) = (some (true, 128 * 4 + 2, [4, 5]), some (false, 123 * 4 + 2, [4, 5])) := by decide +kernel

/-! ## Declarations that must not compile (varlen_example/shouldfail) -/

/-- The message that the macro reports. -/
def messageOf (d : Item) : Option String :=
  match defineVarlen id id d with
  | .compileError _ e => some e.msg
  | .generated _ => none

/-- unsupported_syntax.rs, with the messages of unsupported_syntax.stderr (the last item there, a function, is not parsed as a struct; parsing is not modelled). -/
example : [
    ⟨.inherited, "UnnamedStruct", .unnamed⟩,
    ⟨.inherited, "Enum", .notStruct⟩,
    ⟨.inherited, "Union", .notStruct⟩,
    ⟨.pub, "UnsupportedVisibility", .named [⟨[], .restricted false ["crate", "foo", "bar"], "x", .other "u8"⟩]⟩,
    ⟨.pub, "NotAnArray", .named [⟨["#[varlen_array]"], .inherited, "x", .other "u8"⟩]⟩,
    ⟨.pub, "TooManyAttributes", .named [⟨["#[varlen_array]", "#[controls_layout]"], .inherited, "x", .array (.other "u8") "4"⟩]⟩].map messageOf =
  [some "define_varlen requires named fields", some "define_varlen requires a struct", some "define_varlen requires a struct",
    some "Visibility must be one of: (none), pub, pub(crate), pub(self), pub(super)", some "Fields annotated with #[varlen_array] must be of array type",
    some "Field must have at most one of #[varlen], #[varlen_array], #[controls_layout] attributes"] := by decide +kernel

/-- bad_names.rs: the macro accepts it, the compiler does not. -/
example : (∃ o, defineVarlen id id ⟨.inherited, "StructWithBadNames", .named [⟨["#[controls_layout]"], .inherited, "x", .other "u8"⟩, ⟨["#[controls_layout]"], .inherited, "x", .other "u8"⟩]⟩ = .generated o ∧
    ¬ WellNamed o) := by
  obtain ⟨o, ho⟩ := (C40_accepts id id ⟨.inherited, "StructWithBadNames",
    .named [⟨["#[controls_layout]"], .inherited, "x", .other "u8"⟩, ⟨["#[controls_layout]"], .inherited, "x", .other "u8"⟩]⟩).1 ⟨_, rfl, Or.inl rfl, by
      intro f hf
      simp only [List.mem_cons, List.mem_nil_iff, or_false, or_self] at hf
      subst hf
      exact acceptable_of (by decide) (by decide) (by decide)⟩
  exact ⟨o, ho, fun hw => absurd ((C50_names rfl ho).1 hw).distinct (by decide)⟩

/-- Two things wrong with a declaration: the first one is reported (`C40_error`). -/
example : messageOf ⟨.restricted true ["a"], "S", .named [⟨["#[varlen]", "#[varlen]"], .pub, "x", .other "u8"⟩]⟩ = some Error.badVisibility.msg ∧
    messageOf ⟨.pub, "S", .named [⟨["#[varlen]", "#[varlen]"], .restricted true ["a"], "x", .other "u8"⟩, ⟨["#[varlen_array]"], .pub, "y", .other "u8"⟩]⟩ = some Error.multipleAttributes.msg := by decide +kernel

end Varlen.Macro
