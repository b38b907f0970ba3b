import Verif.Props.ClientPanic
import Verif.Props.Str
import Verif.Props.Struct
/-!
# C81: what a newtype keeps private stays true

The documentation of `define_varlen_newtype!` (varlen/src/newtype.rs:6-8): "To ensure these stay in sync, we allow the users of our library to access the codepoint count in immutable form (read access) but not mutable
form (write access). The newtype wrapper helps us ensure this visibility as desired". `inv` is what the module that defines the newtype wants to stay true of its values. `NewtypeInv T inv` is the newtype: the printed code is
that of `Newtype T`, and its values are those of `T` that satisfy `inv`.
-/
namespace Varlen
variable {w : Nat} {inv : V → Prop}

/-- The code that the macro prints is that of any newtype: the invariant plays no part in what runs. -/
theorem C81_same_code (T : VarLen w) : (NewtypeInv T inv).calculateLayout = (Newtype T).calculateLayout ∧ (NewtypeInv T inv).vdrop = (Newtype T).vdrop ∧ (NewtypeInv T inv).ALIGN = (Newtype T).ALIGN ∧
    (NewtypeInv T inv).headSize = (Newtype T).headSize ∧ (NewtypeInv T inv).NEEDS_VDROP = (Newtype T).NEEDS_VDROP := ⟨rfl, rfl, rfl, rfl, rfl⟩

/-- It keeps the contract of `VarLen` for the values that satisfy the invariant, so all that is proved for library types holds for the newtype. -/
theorem C81_type {T : VarLen w} (hT : LibType T) : LibType (NewtypeInv T inv) := .user (NewtypeInv.lawful hT.lawful inv)

/-- An initializer in the (private) wrapper of the newtype keeps the contract if the module uses the wrapper only for values that satisfy the invariant; … -/
theorem C81_init {T : VarLen w} {I : Init w} (hI : LibInit T I) (hv : ∀ v, I.val = some v → inv v) : LibInit (NewtypeInv T inv) (Newtype.init I) :=
  .user (C81_type hI.lib.1) (NewtypeInv.init_lawful hI.lib.2 hv)

/-- … with it, a program can do what it can do with the initializer inside. -/
theorem C81_arg {W : World w} {T : VarLen w} {I : Init w} {moved : List (Handle w)} {own mk : List Event} (ha : Arg W T I moved own mk) (hv : ∀ v, I.val = some v → inv v) :
    Arg W (NewtypeInv T inv) (Newtype.init I) moved own mk := by
  obtain ⟨held, hacc, hp⟩ := ha.holds
  have hs := hacc.sums
  exact ⟨C81_init ha.lib hv, ha.usable, ⟨held, .user hs.owes hs.ok hs.panic, hp⟩, ha.kinds, ha.mods, ha.boxes⟩

/-- So does cloning, if clones of values that satisfy the invariant do. -/
theorem C81_clone {T : VarLen w} {C : VClone w} (hC : LibClone T C) (hv : ∀ v v', inv v → C.cloneV v = some v' → inv v') : LibClone (NewtypeInv T inv) (Newtype.vclone C) :=
  .user (C81_type hC.lib.1) (NewtypeInv.vclone_lawful hC.lib.2 fun v v' _ _ _ => hv v v')

/-- Whatever programs do with objects of the type (any number of boxes, owned values, sequences; moves between them, copies, clones, modifications through the mutable references the module hands out, destructors that panic):
every object of the type that a program holds, in whatever object of the library, satisfies the invariant. -/
theorem C81_always (hw : 8 ≤ w) {boom : DP.Boom} {W : World w} (hr : PReach boom W) {T : VarLen w} {v : V} (hm : (NewtypeInv T inv, v) ∈ W.objs.flatMap Handle.vals) : inv v := by
  obtain ⟨h, hh, hm⟩ := List.mem_flatMap.1 hm
  have hk := (hr.inv hw).ok h hh
  cases h with
  | box T' p v' =>
    simp only [Handle.vals, List.mem_singleton] at hm
    injection hm with h1 h2
    subst h1 h2
    obtain ⟨_, l, hb⟩ := hk
    exact hb.valid.rep.2
  | owned T' p v' =>
    simp only [Handle.vals, List.mem_singleton] at hm
    injection hm with h1 h2
    subst h1 h2
    obtain ⟨_, ⟨l, hv⟩, _⟩ := hk
    exact hv.rep.2
  | seq chk T' q h t =>
    simp only [Handle.vals, List.mem_map] at hm
    obtain ⟨⟨o, v'⟩, he, hm⟩ := hm
    injection hm with h1 h2
    subst h1 h2
    obtain ⟨hT, m, hh⟩ := hk
    obtain ⟨i, hi⟩ := List.mem_iff_getElem?.1 he
    obtain ⟨p, _, ⟨l, hv⟩, _⟩ := C20_offset_names_element hT hw hh hi
    exact hv.rep.2
  | drain chk T' q items it =>
    have hint := Handle.Ok.intact hw hk
    obtain ⟨_, xs, ys, hd⟩ := hk
    simp only [Handle.vals, List.mem_append, List.mem_map] at hm
    rcases hm with ⟨⟨p, v'⟩, he, hm⟩ | hm
    · injection hm with h1 h2
      subst h1 h2
      obtain ⟨_, h2, _⟩ := hint
      obtain ⟨l, hv⟩ := h2 _ he
      exact hv.rep.2
    · cases it with
      | none => cases hm
      | some it =>
        obtain ⟨it, vs⟩ := it
        simp only [Option.elim, List.mem_map] at hm
        obtain ⟨v', he, hm⟩ := hm
        injection hm with h1 h2
        subst h1 h2
        obtain ⟨rfl, cur, fin, h3, _⟩ := hd.iter it vs rfl
        obtain ⟨x, hx, rfl⟩ := List.mem_map.1 he
        exact (h3.valid x hx).rep.2

/-- The same for objects of the type inside others: any reference to one, e.g. one that `refs()` returns for a field, is to a value that satisfies the invariant. -/
theorem C81_reference {T : VarLen w} {s : St} {p : Ptr} {v : V} (h : RefTo (NewtypeInv T inv) s p v) : inv v ∧ RefTo T s p v := by
  obtain ⟨l, hv⟩ := h
  exact ⟨hv.rep.2, l, NewtypeInv.valid_inner hv⟩

/-! ## The example of the documentation, for all strings -/

/-- The alignment of `usize` is this here. -/
abbrev usizeL : LenTy := .usize 64 8

/-- The fields of the tuple in `CountedStr` (varlen/src/newtype.rs:17-23). -/
def countedFs : List (VarLen 64) := [FixedLen 64 usizeL.ty, Str 64 usizeL]

/-- The count is that of the code points of the text. -/
def counted (v : V) : Prop := ∃ t : String, v = .node [.leaf (encLE 8 t.length), .arr (strBytes t)]

/-- `CountedStr` -/
def CountedStr : VarLen 64 := NewtypeInv (Tuple 64 countedFs) counted

/-- `CountedStr::from_str(src)` (varlen/src/newtype.rs:30-38). -/
def CountedStr.fromStr (src : Ptr) (t : String) : M (Init 64) := do
  let count := t.length
  let I ← Str.copy 64 8 src t
  pure (Newtype.init (Tuple.init [(FixedLen 64 usizeL.ty, FixedLen.init 64 usizeL.ty (encLE 8 count)), (Str 64 usizeL, I)]))

/-- `self.inner().refs()` -/
def CountedStr.refs (p : Ptr) : M (Ptr × Ptr) := do
  let q ← Newtype.inner (Tuple 64 countedFs) p
  match ← aggRefs 0 (countedFs.map .varlen) q with
  | [.field a, .field b] => pure (a, b)
  | _ => ubM .invalidValue

/-- `char_count()` (varlen/src/newtype.rs:40-42). -/
def CountedStr.charCount (p : Ptr) : M Img := do
  let r ← CountedStr.refs p
  readVal usizeL.ty r.1

/-- `str()` (varlen/src/newtype.rs:44-46). -/
noncomputable def CountedStr.str (p : Ptr) : M Slice := do
  let r ← CountedStr.refs p
  Str.deref 64 usizeL r.2

theorem length_le_bytes (t : String) : t.length ≤ t.utf8ByteSize := by
  refine String.push_induction t (fun t => t.length ≤ t.utf8ByteSize) (by simp) fun b c h => ?_
  rw [String.length_push, String.utf8ByteSize_push]
  have := c.utf8Size_pos
  omega

theorem usizeL_ok : usizeL.Ok 64 := ⟨⟨3, by decide, rfl⟩, ⟨1, rfl⟩, by decide, fun _ => rfl⟩
theorem usizeTy_ok : usizeL.ty.Ok 64 := usizeL_ok.ty

theorem countedFs_lib : ∀ T ∈ countedFs, LibType T := by
  intro T hT
  simp only [countedFs, List.mem_cons, List.not_mem_nil, or_false] at hT
  rcases hT with rfl | rfl
  · exact .fixedLen usizeTy_ok
  · exact .str (by decide) usizeL_ok

/-- The initializer that `from_str` returns is one that programs may use for the type, for every text (that fits in memory). -/
theorem C81_counted_from_str {t : String} (ht : t.utf8ByteSize < 2 ^ 64) (src : Ptr) (s : St) :
    ∃ I, CountedStr.fromStr src t s = .ok I s ∧ LibInit CountedStr I ∧ I.val = some (.node [.leaf (encLE 8 t.length), .arr (strBytes t)]) ∧
      ∀ W : World 64, SliceHas u8Ty W.st src (strBytes t) → Arg W CountedStr I [] [] [] := by
  obtain ⟨J, h1, h2⟩ := C09_copy_never_rejects (w := 64) (usizeAlign := 8) (src := src) (t := t) s
  obtain ⟨_, h3⟩ := Str.tryCopy_spec (w := 64) (by decide) usizeL_ok (src := src) ht
  obtain ⟨_, h4, h5, h6, h7⟩ := h3 J h2
  have hT : LibInit (Tuple 64 countedFs) (Tuple.init [(FixedLen 64 usizeL.ty, FixedLen.init 64 usizeL.ty (encLE 8 t.length)), (Str 64 usizeL, J)]) := by
    refine LibInit.tuple (fis := [(FixedLen 64 usizeL.ty, FixedLen.init 64 usizeL.ty (encLE 8 t.length)), (Str 64 usizeL, J)]) (by simp) ?_
    intro f hf
    simp only [List.mem_cons, List.not_mem_nil, or_false] at hf
    rcases hf with rfl | rfl
    · exact .fixedLen usizeTy_ok (encLE_valid usizeL _)
    · exact .str (by decide) usizeL_ok ht h2
  have hval : (Tuple.init [(FixedLen 64 usizeL.ty, FixedLen.init 64 usizeL.ty (encLE 8 t.length)), (Str 64 usizeL, J)]).val = some (.node [.leaf (encLE 8 t.length), .arr (strBytes t)]) := by
    simp [Tuple.init, aggInitializer, valFields, FixedLen.init, h4]
  have hinv : ∀ v, (Tuple.init [(FixedLen 64 usizeL.ty, FixedLen.init 64 usizeL.ty (encLE 8 t.length)), (Str 64 usizeL, J)]).val = some v → counted v := fun v hv => by
    rw [hval] at hv
    cases hv
    exact ⟨t, rfl⟩
  refine ⟨_, by simp only [CountedStr.fromStr, bind_apply, h1, Res.bind_ok]; rfl, C81_init hT hinv, hval, fun W hW => C81_arg ⟨hT, ?_, ?_, by simp, ?_, by simp⟩ hinv⟩
  · rw [← h5] at hW
    simp only [Tuple.init, aggInitializer, List.map_cons, List.map_nil, List.mem_cons, List.not_mem_nil, or_false, forall_eq_or_imp, forall_eq, List.pairwise_cons,
      List.Pairwise.nil, and_true]
    exact ⟨⟨trivial, hW⟩, fun x => ⟨fun h => h.elim, fun h => (h7 x h).elim⟩, fun _ h => h.elim⟩
  · refine ⟨[], ?_, .refl _⟩
    have := Accounts.tuple (fis := [(FixedLen 64 usizeL.ty, FixedLen.init 64 usizeL.ty (encLE 8 t.length)), (Str 64 usizeL, J)]) (.varlen .fixedLen (.varlen (.str h2) .nil))
    exact this
  · rintro b ⟨f, hf, hb⟩
    simp only [List.map_cons, List.map_nil, List.mem_cons, List.not_mem_nil, or_false] at hf
    rcases hf with rfl | rfl
    · exact hb.elim
    · exact (h7 b hb).elim

/-- Every `CountedStr` there is, however it was made and wherever it is: `char_count()` is the number of code points of what `str()` returns. -/
theorem C81_counted_in_sync {s : St} {p : Ptr} {v : V} (h : RefTo CountedStr s p v) :
    ∃ (t : String) (n : Img) (sl : Slice), CountedStr.charCount p s = .ok n s ∧ decLE n = t.length ∧
      CountedStr.str p s = .ok sl s ∧ sl.len = t.utf8ByteSize ∧ Slice.read u8Ty sl s = .ok (strBytes t) s := by
  obtain ⟨⟨t, rfl⟩, l, hv⟩ := C81_reference h
  obtain ⟨vs, rs, shapes, e1, e2, _, hacc⟩ := Tuple.accessIx (by simp [countedFs]) (fun T hT => (countedFs_lib T hT).lawful) hv
  cases e1
  have hl1 := hacc.rlen
  have hl2 := hacc.slen
  rcases rs with _ | ⟨r0, _ | ⟨r1, _ | _⟩⟩ <;> simp [countedFs] at hl1
  rcases shapes with _ | ⟨l0, _ | ⟨l1, _ | _⟩⟩ <;> simp [countedFs] at hl2
  have g0 := hacc.sees 0 _ r0 _ l0 rfl rfl rfl rfl
  have g1 := hacc.sees 1 _ r1 _ l1 rfl rfl rfl rfl
  cases r0 with
  | val q => exact g0.elim
  | slice q => exact g0.elim
  | field a =>
  cases r1 with
  | val q => exact g1.elim
  | slice q => exact g1.elim
  | field b =>
  have hr : CountedStr.refs p s = .ok (a, b) s := by
    simp only [CountedStr.refs, bind_apply, Newtype.inner_ok (Tuple.lawful (by simp [countedFs]) fun T hT => (countedFs_lib T hT).lawful) hv, Res.bind_ok, e2]
    rfl
  have g0 : Valid (FixedLen 64 usizeL.ty) s a (.leaf (encLE 8 t.length)) l0 := g0
  have g1 : Valid (Str 64 usizeL) s b (.arr (strBytes t)) l1 := g1
  obtain ⟨sl, k1, k2, k3⟩ := g1.strReads (by decide) usizeL_ok
  refine ⟨t, encLE 8 t.length, sl, ?_, ?_, ?_, k2, k3⟩
  · simp only [CountedStr.charCount, bind_apply, hr, Res.bind_ok]
    obtain ⟨img, e, el, hi, hval⟩ := g0.rep
    cases e
    subst el
    rw [← hi] at hval
    have hal : Aligned s a usizeL.ty.align := g0.aligned
    rw [readVal_ok (R := usizeL.ty) g0.acc hal hval, hi]
  · rw [decLE_encLE]
    refine Nat.mod_eq_of_lt (Nat.lt_of_le_of_lt (length_le_bytes t) ?_)
    obtain ⟨⟨off, n, size, xs, e, _, _, _, _, _, hx, _⟩, _⟩ := g1.rep
    injection e with e
    have : xs.length = n.toNat := by rw [← hx]; simp [elemsV]
    rw [← strBytes_length, e, this]
    exact n.isLt
  · simp only [CountedStr.str, bind_apply, hr, Res.bind_ok, k1]

namespace Demo

/-- A string literal at block 1. -/
def cText : String := "hellö wörld"
def cSt : St := ⟨[⟨4096, 13, 1, true, fun i => (strBytes cText).flatten.getD i none⟩], [], 0⟩
theorem cText_at : SliceHas u8Ty cSt ⟨1, 0⟩ (strBytes cText) := ⟨by decide +kernel, by decide +kernel, by decide +kernel, by decide +kernel, by decide +kernel⟩

def cInit : Init 64 := result (FixedLen.init 64 u8Ty []) (CountedStr.fromStr ⟨1, 0⟩ cText) cSt
def cPtr : Ptr := result ⟨0, 0⟩ (VBox.new alloc CountedStr cInit) cSt
def cStBox : St := Demo.after (VBox.new alloc CountedStr cInit) cSt

theorem cInit_eq : CountedStr.fromStr ⟨1, 0⟩ cText cSt = .ok cInit cSt := by
  obtain ⟨I, h1, _⟩ := C81_counted_from_str (t := cText) (by decide +kernel) ⟨1, 0⟩ cSt
  have : cInit = I := by simp only [cInit, result, h1]
  rw [this]; exact h1

/-- A program makes a box of it. -/
theorem counted_reach : ∃ v E, Reach (⟨cStBox, [.box CountedStr cPtr v], [], false, false, E⟩ : World 64) := by
  obtain ⟨I, h1, h2, h3, h4⟩ := C81_counted_from_str (t := cText) (by decide +kernel) ⟨1, 0⟩ cSt
  rw [cInit_eq] at h1
  cases h1
  have ha := h4 (World.start 64 cSt) cText_at
  exact ⟨_, _, .step (.start cSt) (step_ok (.newBox alloc (moved := []) (rest := []) (.refl _) ha) (run_eq ⟨0, 0⟩ (VBox.new alloc CountedStr cInit) cSt (by decide +kernel)))⟩

-- what the theorems say about the box, and the results that the documentation asserts: 11 code points, 13 bytes
example : ∃ v, counted v ∧ RefTo CountedStr cStBox cPtr v := by
  obtain ⟨v, E, h⟩ := counted_reach
  have hr := (C80_base_model (boom := boom2) (by decide)).1 h
  obtain ⟨l, hb⟩ := C80_intact (by decide) hr _ (List.mem_singleton_self _)
  exact ⟨v, C81_always (T := Tuple 64 countedFs) (by decide) hr (by simp [Handle.vals]; rfl), l, hb.valid⟩
example : (okOf (CountedStr.charCount cPtr cStBox)).map (fun r => decLE r.1) = some 11 ∧ (strBytes cText).length = 13 := by decide +kernel

-- it is not so for a newtype whose constructor can be used by everyone: the value does not satisfy the invariant
example : ¬ counted (.node [.leaf (encLE 8 3), .arr (strBytes "ab")]) := by
  rintro ⟨t, h⟩
  simp only [V.node.injEq, List.cons.injEq, V.leaf.injEq, V.arr.injEq, and_true] at h
  cases strBytes_inj h.2
  exact absurd h.1 (by decide +kernel)

end Demo

end Varlen
