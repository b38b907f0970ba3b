import Verif.Spec.Variance
/-!
# C83: shortening lifetimes

The compiler lets a program use a `Seq<T>` as a `Seq<U>` when `T` is a subtype of `U`, if it finds the struct covariant. That is sound for handles that own the objects or only read them, not for those through which the objects of another
owner are changed: a short-lived value could be stored where a long-lived one is expected.
-/
namespace Varlen
variable {w : Nat}

theorem pair_get {α : Type} {a b c d : α} {R : α → α → Prop} (h1 : R a c) (h2 : R b d) : ∀ (i : Nat) (t u : α), [a, b][i]? = some t → [c, d][i]? = some u → R t u
  | 0, _, _, ht, hu => by cases ht; cases hu; exact h1
  | 1, _, _, ht, hu => by cases ht; cases hu; exact h2
  | i + 2, _, _, ht, _ => by simp at ht

theorem one_get {α : Type} {a c : α} {R : α → α → Prop} (h1 : R a c) : ∀ (i : Nat) (t u : α), [a][i]? = some t → [c][i]? = some u → R t u
  | 0, _, _, ht, hu => by cases ht; cases hu; exact h1
  | i + 1, _, _, ht, _ => by simp at ht

section
variable {le : Plain → Plain → Prop}

theorem sub_nonNull {t u : RTm w} (h : Sub le (.nonNull t) (.nonNull u)) : Sub le t u := by cases h; assumption
theorem sub_phantom {t u : RTm w} (h : Sub le (.phantom t) (.phantom u)) : Sub le t u := by cases h; assumption
theorem sub_slice {t u : RTm w} (h : Sub le (.slice t) (.slice u)) : Sub le t u := by cases h; assumption
theorem sub_ref {t u : RTm w} (h : Sub le (.ref t) (.ref u)) : Sub le t u := by cases h; assumption
theorem sub_mutRef {t u : RTm w} (h : Sub le (.mutRef t) (.mutRef u)) : Sub le t u ∧ Sub le u t := by cases h; constructor <;> assumption
theorem sub_plain {P Q : Plain} (h : Sub le (.plain P : RTm w) (.plain Q)) : le P Q := by cases h; assumption
theorem sub_struct {fs gs : List (RTm w)} (h : Sub le (.struct fs) (.struct gs)) : fs.length = gs.length ∧ ∀ (i : Nat) (t u : RTm w), fs[i]? = some t → gs[i]? = some u → Sub le t u := by
  cases h; constructor <;> assumption

theorem sub_arrayMarker {P Q : Plain} (h : Sub le (arrayMarker P : RTm w) (arrayMarker Q)) : le P Q :=
  sub_plain (sub_slice (sub_phantom ((sub_struct h).2 1 _ _ rfl rfl)))

/-- From the compiler's rules to the ordinary types inside. -/
theorem sub_shrinks_aux {t u : RTm w} (h : Sub le t u) : ∀ T U, (t = .obj T → u = .obj U → Shrinks le T U) ∧ (t = .phantom (.obj T) → u = .phantom (.obj U) → Shrinks le T U) ∧
    (t = fieldMarker T → u = fieldMarker U → Shrinks le T U) := by
  induction h with
  | plain _ => intro T U; exact ⟨fun e => (by cases e), fun e => (by cases e), fun e => (by cases e)⟩
  | phantomPinned => intro T U; exact ⟨fun e => (by cases e), fun e => (by cases e), fun e => (by cases e)⟩
  | slice _ _ => intro T U; exact ⟨fun e => (by cases e), fun e => (by cases e), fun e => (by cases e)⟩
  | nonNull _ _ => intro T U; exact ⟨fun e => (by cases e), fun e => (by cases e), fun e => (by cases e)⟩
  | ref _ _ => intro T U; exact ⟨fun e => (by cases e), fun e => (by cases e), fun e => (by cases e)⟩
  | mutRef _ _ _ _ => intro T U; exact ⟨fun e => (by cases e), fun e => (by cases e), fun e => (by cases e)⟩
  | phantom _ ih =>
    intro T U
    refine ⟨fun e => (by cases e), fun e e' => ?_, fun e => (by cases e)⟩
    injection e with e; injection e' with e'
    exact (ih T U).1 e e'
  | struct _ _ ih =>
    intro T U
    refine ⟨fun e => (by cases e), fun e => (by cases e), fun e e' => ?_⟩
    injection e with e; injection e' with e'
    subst e; subst e'
    exact (ih 1 _ _ rfl rfl T U).2.1 rfl rfl
  | @obj T' U' hs hl hd ih =>
    intro T U
    refine ⟨fun e e' => ?_, fun e => (by cases e), fun e => (by cases e)⟩
    injection e with e; injection e' with e'
    subst e; subst e'
    cases hs with
    | fixedLen => exact .fixedLen (sub_plain (hd 0 _ _ rfl rfl))
    | array => exact .array (sub_arrayMarker (hd 1 _ _ rfl rfl))
    | str => exact .str
    | newtype => exact .newtype ((ih 0 _ _ rfl rfl _ _).1 rfl rfl)
    | @tuple Ts Us =>
      simp only [Ty.decl, List.length_map] at hl
      refine .tuple hl fun i T U hT hU => ?_
      exact (ih i (fieldMarker T) (fieldMarker U) (by simp [Ty.decl, hT]) (by simp [Ty.decl, hU]) T U).2.2 rfl rfl
    | @struct hs ha fs gs hsf =>
      simp only [Ty.decl, List.length_map] at hl
      refine .struct hl hsf ?_ ?_ ?_ ?_
      · exact fun i P Q off hf hg => sub_plain (hd i (.plain P) (.plain Q) (by simp [Ty.decl, hf, TyFld.decl]) (by simp [Ty.decl, hg, TyFld.decl]))
      · exact fun i P Q off hf hg => sub_plain (hd i (.plain P) (.plain Q) (by simp [Ty.decl, hf, TyFld.decl]) (by simp [Ty.decl, hg, TyFld.decl]))
      · exact fun i P Q len hf hg => sub_arrayMarker (hd i (arrayMarker P) (arrayMarker Q) (by simp [Ty.decl, hf, TyFld.decl]) (by simp [Ty.decl, hg, TyFld.decl]))
      · exact fun i T U hf hg => (ih i (fieldMarker T) (fieldMarker U) (by simp [Ty.decl, hf, TyFld.decl]) (by simp [Ty.decl, hg, TyFld.decl]) T U).2.2 rfl rfl

theorem sub_shrinks {T U : Ty w} (h : Sub le (.obj T) (.obj U)) : Shrinks le T U := (sub_shrinks_aux h T U).1 rfl rfl

theorem sub_refl_plain (hr : ∀ P, le P P) (P : Plain) : Sub le (.plain P : RTm w) (.plain P) := .plain (hr P)

theorem sub_arrayMarker_intro {P Q : Plain} (h : le P Q) : Sub le (arrayMarker P : RTm w) (arrayMarker Q) :=
  .struct rfl (pair_get .phantomPinned (.phantom (.slice (.plain h))))

theorem sub_fieldMarker_intro {T U : Ty w} (h : Sub le (.obj T) (.obj U)) : Sub le (fieldMarker T) (fieldMarker U) :=
  .struct rfl (pair_get .phantomPinned (.phantom h))

theorem shrinks_sub (hr : ∀ P, le P P) {T U : Ty w} (h : Shrinks le T U) : Sub le (.obj T) (.obj U) := by
  induction h with
  | fixedLen h => exact .obj .fixedLen rfl (one_get (.plain h))
  | array h => exact .obj .array rfl (pair_get (.plain (hr _)) (sub_arrayMarker_intro h))
  | str => exact .obj .str rfl (one_get (.obj .array rfl (pair_get (.plain (hr _)) (sub_arrayMarker_intro (hr _)))))
  | newtype _ ih => exact .obj .newtype rfl (one_get ih)
  | @tuple Ts Us hl _ ih =>
    refine .obj .tuple (by simp [Ty.decl, hl]) fun i t u ht hu => ?_
    simp only [Ty.decl, List.getElem?_map, Option.map_eq_some_iff] at ht hu
    obtain ⟨T, hT, rfl⟩ := ht
    obtain ⟨U, hU, rfl⟩ := hu
    exact sub_fieldMarker_intro (ih i T U hT hU)
  | @struct hs ha fs gs hl hsf h1 h2 h3 _ ih =>
    refine .obj (.struct hsf) (by simp [Ty.decl, hl]) fun i t u ht hu => ?_
    simp only [Ty.decl, List.getElem?_map, Option.map_eq_some_iff] at ht hu
    obtain ⟨f, hf, rfl⟩ := ht
    obtain ⟨g, hg, rfl⟩ := hu
    cases hsf i f g hf hg with
    | normal => exact .plain (h1 i _ _ _ hf hg)
    | length => exact .plain (h2 i _ _ _ hf hg)
    | varlen => exact sub_fieldMarker_intro (ih i _ _ hf hg)
    | array => exact sub_arrayMarker_intro (h3 i _ _ _ hf hg)

theorem get_struct {fs gs : List (RTm w)} (h : fs.length = gs.length) (hi : ∀ x ∈ fs.zip gs, Sub le x.1 x.2) : Sub le (.struct fs) (.struct gs) :=
  .struct h fun i t u ht hu => hi (t, u) (List.mem_of_getElem? (i := i) (by rw [List.getElem?_zip_eq_some]; exact ⟨ht, hu⟩))

variable (hr : ∀ P, le P P)
include hr

/-- **C83**: lifetimes inside the elements can be shortened in a `VBox`, an `Owned`, a `Seq`, and its iterators by shared reference and by value, and in shared references to objects: they are covariant. -/
theorem C83_covariant {T U : Ty w} :
    (Sub le (VBox.decl T) (VBox.decl U) ↔ Shrinks le T U) ∧ (Sub le (Owned.decl T) (Owned.decl U) ↔ Shrinks le T U) ∧ (Sub le (Seq.decl T) (Seq.decl U) ↔ Shrinks le T U) ∧
    (Sub le (Iter.decl T) (Iter.decl U) ↔ Shrinks le T U) ∧ (Sub le (OwnedElems.decl T) (OwnedElems.decl U) ↔ Shrinks le T U) ∧ (Sub le (.ref (.obj T)) (.ref (.obj U)) ↔ Shrinks le T U) := by
  have first : ∀ {fs gs : List (RTm w)}, Sub le (.struct (.nonNull (.obj T) :: fs)) (.struct (.nonNull (.obj U) :: gs)) → Shrinks le T U := fun h => sub_shrinks (sub_nonNull ((sub_struct h).2 0 _ _ rfl rfl))
  have hu : Sub le (usizeTy w) (usizeTy w) := .plain (hr _)
  have hp : Sub le (.phantom (.ref (.slice (.plain u8Plain))) : RTm w) (.phantom (.ref (.slice (.plain u8Plain)))) := .phantom (.ref (.slice (.plain (hr _))))
  refine ⟨⟨first, fun h => ?_⟩, ⟨first, fun h => ?_⟩, ⟨first, fun h => ?_⟩, ⟨first, fun h => ?_⟩, ⟨first, fun h => ?_⟩, ⟨fun h => sub_shrinks (sub_ref h), fun h => .ref (shrinks_sub hr h)⟩⟩ <;>
    have hn : Sub le (.nonNull (.obj T)) (.nonNull (.obj U)) := .nonNull (shrinks_sub hr h)
  · exact get_struct rfl (by simpa using hn)
  · exact get_struct rfl (by simpa using ⟨hn, hp⟩)
  · exact get_struct rfl (by simpa using ⟨hn, hu, get_struct rfl (by simp)⟩)
  · exact get_struct rfl (by simpa using ⟨hn, hu, .phantom (.ref (.slice (shrinks_sub hr h)))⟩)
  · exact get_struct rfl (by simpa using ⟨hn, hu, hp⟩)

/-- **C83**: an `IterMut`, and a mutable reference to an object, a box, an `Owned` or a sequence, are invariant: lifetimes inside can only be replaced by equal ones. -/
theorem C83_invariant {T U : Ty w} :
    (Sub le (IterMut.decl T) (IterMut.decl U) ↔ Shrinks le T U ∧ Shrinks le U T) ∧ (Sub le (.mutRef (.obj T)) (.mutRef (.obj U)) ↔ Shrinks le T U ∧ Shrinks le U T) ∧
    (Sub le (.mutRef (VBox.decl T)) (.mutRef (VBox.decl U)) ↔ Shrinks le T U ∧ Shrinks le U T) ∧ (Sub le (.mutRef (Owned.decl T)) (.mutRef (Owned.decl U)) ↔ Shrinks le T U ∧ Shrinks le U T) ∧
    (Sub le (.mutRef (Seq.decl T)) (.mutRef (Seq.decl U)) ↔ Shrinks le T U ∧ Shrinks le U T) := by
  have hm : ∀ {t u : RTm w}, Sub le (.mutRef t) (.mutRef u) ↔ Sub le t u ∧ Sub le u t := ⟨sub_mutRef, fun h => .mutRef h.1 h.2⟩
  have ho : ∀ {T U : Ty w}, Sub le (.obj T) (.obj U) ↔ Shrinks le T U := ⟨sub_shrinks, shrinks_sub hr⟩
  refine ⟨⟨fun h => ?_, fun h => ?_⟩, by rw [hm, ho, ho], ?_, ?_, ?_⟩
  · obtain ⟨h1, h2⟩ := sub_mutRef (sub_phantom ((sub_struct h).2 2 _ _ rfl rfl))
    exact ⟨sub_shrinks (sub_slice h1), sub_shrinks (sub_slice h2)⟩
  · have h1 := shrinks_sub hr h.1
    have h2 := shrinks_sub hr h.2
    exact get_struct rfl (by simpa using ⟨.nonNull h1, .plain (hr _), .phantom (.mutRef (.slice h1) (.slice h2))⟩)
  · rw [hm, (C83_covariant hr).1, (C83_covariant hr).1]
  · rw [hm, (C83_covariant hr).2.1, (C83_covariant hr).2.1]
  · rw [hm, (C83_covariant hr).2.2.1, (C83_covariant hr).2.2.1]

omit hr in
/-- **C83**: the fields of what `muts()` returns: invariant where they can be written to. -/
theorem C83_muts {f g : TyFld w} (hs : SameField f g) (h : Sub le f.mutDecl g.mutDecl) :
    (∀ P Q off, f = .normal P off → g = .normal Q off → le P Q ∧ le Q P) ∧ (∀ P Q len, f = .array P len → g = .array Q len → le P Q ∧ le Q P) ∧ (∀ P Q off, f = .length P off → g = .length Q off → le P Q) ∧
    (∀ T U, f = .varlen T → g = .varlen U → Shrinks le T U ∧ Shrinks le U T) := by
  cases hs with
  | normal =>
    refine ⟨fun P Q off e e' => ?_, fun P Q len e => (by cases e), fun P Q off e => (by cases e), fun T U e => (by cases e)⟩
    cases e; cases e'
    exact ⟨sub_plain (sub_mutRef h).1, sub_plain (sub_mutRef h).2⟩
  | length =>
    refine ⟨fun P Q off e => (by cases e), fun P Q len e => (by cases e), fun P Q off e e' => ?_, fun T U e => (by cases e)⟩
    cases e; cases e'
    exact sub_plain (sub_ref h)
  | varlen =>
    refine ⟨fun P Q off e => (by cases e), fun P Q len e => (by cases e), fun P Q off e => (by cases e), fun T U e e' => ?_⟩
    cases e; cases e'
    exact ⟨sub_shrinks (sub_mutRef h).1, sub_shrinks (sub_mutRef h).2⟩
  | array =>
    refine ⟨fun P Q off e => (by cases e), fun P Q len e e' => ?_, fun P Q off e => (by cases e), fun T U e => (by cases e)⟩
    cases e; cases e'
    exact ⟨sub_plain (sub_slice (sub_mutRef h).1), sub_plain (sub_slice (sub_mutRef h).2)⟩
end

/-! ## What this means for values -/

section
variable {le : Plain → Plain → Prop} {ok : Plain → Img → Prop}

theorem Shrinks.part {T U : Ty w} (h : Shrinks le T U) : ∀ {v Q x}, PartOf U v Q x → ∃ P, PartOf T v P x ∧ (P = Q ∨ le P Q) := by
  induction h with
  | fixedLen h => intro v Q x hp; cases hp; exact ⟨_, .fixedLen, .inr h⟩
  | array h => intro v Q x hp; cases hp with | array hx => exact ⟨_, .array hx, .inr h⟩
  | str => intro v Q x hp; exact ⟨Q, hp, .inl rfl⟩
  | newtype _ ih =>
    intro v Q x hp
    cases hp with | newtype hp => obtain ⟨P, h1, h2⟩ := ih hp; exact ⟨P, .newtype h1, h2⟩
  | @tuple Ts Us hl _ ih =>
    intro v Q x hp
    cases hp with
    | @tuple _ vs i U v P x hU hv hp =>
      have : i < Ts.length := by rw [hl]; exact (List.getElem?_eq_some_iff.1 hU).1
      obtain ⟨P, h1, h2⟩ := ih i Ts[i] U (List.getElem?_eq_getElem this) hU hp
      exact ⟨P, .tuple (List.getElem?_eq_getElem this) hv h1, h2⟩
  | @struct hs ha fs gs hl hsf h1 h2 h3 _ ih =>
    have get : ∀ (i : Nat) (g : TyFld w), gs[i]? = some g → ∃ f, fs[i]? = some f ∧ SameField f g := by
      intro i g hg
      have : i < fs.length := by rw [hl]; exact (List.getElem?_eq_some_iff.1 hg).1
      exact ⟨fs[i], List.getElem?_eq_getElem this, hsf i _ _ (List.getElem?_eq_getElem this) hg⟩
    intro v Q x hp
    cases hp with
    | normal hg hv =>
      obtain ⟨f, hf, hs⟩ := get _ _ hg
      cases hs
      exact ⟨_, .normal hf hv, .inr (h1 _ _ _ _ hf hg)⟩
    | length hg hv =>
      obtain ⟨f, hf, hs⟩ := get _ _ hg
      cases hs
      exact ⟨_, .length hf hv, .inr (h2 _ _ _ _ hf hg)⟩
    | varlen hg hv hp =>
      obtain ⟨f, hf, hs⟩ := get _ _ hg
      cases hs
      obtain ⟨P, p1, p2⟩ := ih _ _ _ hf hg hp
      exact ⟨P, .varlen hf hv p1, p2⟩
    | arrayField hg hv hx =>
      obtain ⟨f, hf, hs⟩ := get _ _ hg
      cases hs
      exact ⟨_, .arrayField hf hv hx, .inr (h3 _ _ _ _ hf hg)⟩

theorem Shrinks.allOk (hmono : ∀ P Q x, le P Q → ok P x → ok Q x) {T U : Ty w} (h : Shrinks le T U) {v : V} (hv : AllOk ok T v) : AllOk ok U v := by
  intro Q x hp
  obtain ⟨P, h1, h2⟩ := h.part hp
  rcases h2 with rfl | h2
  · exact hv P x h1
  · exact hmono P Q x h2 (hv P x h1)

variable (hr : ∀ P, le P P) (hmono : ∀ P Q x, le P Q → ok P x → ok Q x)
include hr hmono

/-- **C83**: using a handle at a supertype, one reads only good values: wherever the compiler allows it, a good value of the type `T` of the objects is a good value of the type `U` at which they are read. -/
theorem C83_read {T U : Ty w} {h : Ty w → RTm w} (hh : h ∈ [VBox.decl, Owned.decl, Seq.decl, Iter.decl, IterMut.decl, OwnedElems.decl, (RTm.ref <| .obj ·), (RTm.mutRef <| .obj ·)]) (hs : Sub le (h T) (h U))
    {v : V} (hv : AllOk ok T v) : AllOk ok U v := by
  obtain ⟨c1, c2, c3, c4, c5, c6⟩ := C83_covariant hr (T := T) (U := U)
  obtain ⟨i1, i2, _⟩ := C83_invariant hr (T := T) (U := U)
  simp only [List.mem_cons, List.mem_nil_iff, or_false] at hh
  rcases hh with rfl | rfl | rfl | rfl | rfl | rfl | rfl | rfl
  · exact (c1.1 hs).allOk hmono hv
  · exact (c2.1 hs).allOk hmono hv
  · exact (c3.1 hs).allOk hmono hv
  · exact (c4.1 hs).allOk hmono hv
  · exact (i1.1 hs).1.allOk hmono hv
  · exact (c5.1 hs).allOk hmono hv
  · exact (c6.1 hs).allOk hmono hv
  · exact (i2.1 hs).1.allOk hmono hv

/-- **C83**: and through a handle that changes objects of another owner, used at a supertype, one stores only values that are good for the owner: a good value of `U`, at which the handle is used, is a good value of `T`, at which the
owner reads it. -/
theorem C83_write {T U : Ty w} {h : Ty w → RTm w} (hh : h ∈ [IterMut.decl, (RTm.mutRef <| .obj ·), (RTm.mutRef <| VBox.decl ·), (RTm.mutRef <| Owned.decl ·), (RTm.mutRef <| Seq.decl ·)])
    (hs : Sub le (h T) (h U)) {v : V} (hv : AllOk ok U v) : AllOk ok T v := by
  obtain ⟨i1, i2, i3, i4, i5⟩ := C83_invariant hr (T := T) (U := U)
  simp only [List.mem_cons, List.mem_nil_iff, or_false] at hh
  rcases hh with rfl | rfl | rfl | rfl | rfl
  · exact (i1.1 hs).2.allOk hmono hv
  · exact (i2.1 hs).2.allOk hmono hv
  · exact (i3.1 hs).2.allOk hmono hv
  · exact (i4.1 hs).2.allOk hmono hv
  · exact (i5.1 hs).2.allOk hmono hv
end

namespace VarianceDemo
/-- `&'static u8` and `&'a u8`, with `'a` shorter. -/
def refTy : RTy := { size := 8, align := 8, valid := fun img => img.length == 8 && img.all (·.isSome), needsDrop := false, dropEv := fun _ => [] }
def long : Plain := ⟨"&'static u8", refTy⟩
def short : Plain := ⟨"&'a u8", refTy⟩
def le (P Q : Plain) : Prop := P = Q ∨ (P = long ∧ Q = short)
/-- After the end of `'a`, a reference to a local variable, which was a `&'a u8`, is no `&'static u8`. -/
def ok (P : Plain) (x : Img) : Prop := P = long → x = encLE 8 1000
def len : LenTy := LenTy.usize 64 8
abbrev LongArr : Ty 64 := .tuple [.array long len, .str len]
abbrev ShortArr : Ty 64 := .tuple [.array short len, .str len]

theorem le_refl (P : Plain) : le P P := .inl rfl
theorem ne : short ≠ long := by intro h; injection h with h; exact absurd h (by decide)
theorem shrinks : Shrinks le LongArr ShortArr := .tuple rfl (pair_get (.array (.inr ⟨rfl, rfl⟩)) .str)
/-- A sequence of the one is a sequence of the other. -/
example : Sub le (Seq.decl LongArr) (Seq.decl ShortArr) := (C83_covariant le_refl).2.2.1.2 shrinks
/-- Not so for `IterMut`. -/
example : ¬ Sub le (IterMut.decl LongArr) (IterMut.decl ShortArr) := by
  intro h
  have := ((C83_invariant le_refl).1.1 h).2
  cases this with
  | tuple _ h =>
    have := h 0 _ _ rfl rfl
    cases this with
    | array h =>
      rcases h with h | ⟨h, _⟩
      · exact ne h
      · exact ne h
/-- The hypotheses of `C83_read`. -/
example : ∀ P Q x, le P Q → ok P x → ok Q x := by
  rintro P Q x (rfl | ⟨rfl, rfl⟩) h
  · exact h
  · exact fun e => absurd e ne
end VarianceDemo

end Varlen
