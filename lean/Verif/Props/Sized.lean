import Verif.Spec.Sized
import Verif.Props.Boxes
import Verif.Props.SeqIndex
import Verif.Props.SeqZero
/-!
# C42, C47, C33: which types have a size

`VBox::new` of an object of size zero is undefined (C42), and so are sequences of such objects (C47); the claims about sequences (C19 to C34) are for elements of non-zero size. Whether an object has size
zero is a matter of its type: it can be read off the declaration.
-/
namespace Varlen
variable {w : Nat}

theorem repTails_pos {lens : List Img} {o : View} {hs ha : Nat} {P : Fld w → Prop} (hv : ∀ T, P (.varlen T) → ∀ v l o, T.Rep v l o → 0 < l.size.toNat)
    (hr : ∀ R len, P (.array R len) → 0 < (len lens).toNat * R.size) (hn : ∀ R off, ¬ P (.normal R off)) (hl : ∀ R off, ¬ P (.length R off)) :
    ∀ (fs : List (Fld w)) vs ls cur fin, (∀ f ∈ fs, f.Ok hs ha) → RepTails lens fs vs ls cur fin o → (∃ f ∈ fs, P f) → 0 < fin := by
  intro fs
  induction fs with
  | nil => intro vs ls cur fin _ _ h; obtain ⟨f, hf, _⟩ := h; cases hf
  | cons f fs ih =>
    intro vs ls cur fin hok h hP
    have hok' : ∀ f ∈ fs, f.Ok hs ha := fun g hg => hok g (by simp [hg])
    obtain ⟨g, hg, hPg⟩ := hP
    cases vs with
    | nil => cases f <;> simp [RepTails] at h
    | cons v vs =>
      cases f with
      | normal R off =>
        rcases List.mem_cons.1 hg with rfl | hg
        · exact absurd hPg (hn _ _)
        · exact ih _ _ _ _ hok' h ⟨g, hg, hPg⟩
      | length R off =>
        rcases List.mem_cons.1 hg with rfl | hg
        · exact absurd hPg (hl _ _)
        · exact ih _ _ _ _ hok' h ⟨g, hg, hPg⟩
      | varlen T =>
        cases ls with
        | nil => simp [RepTails] at h
        | cons x ls =>
          obtain ⟨off, l⟩ := x
          obtain ⟨⟨_, h2⟩, h3⟩ := h
          rcases List.mem_cons.1 hg with rfl | hg
          · have := hv T hPg _ _ _ h2
            have := RepTails.le _ _ _ _ _ hok' h3
            omega
          · exact ih _ _ _ _ hok' h3 ⟨g, hg, hPg⟩
      | array R len =>
        cases v with
        | leaf x => simp [RepTails] at h
        | node x => simp [RepTails] at h
        | arr xs =>
        cases ls with
        | nil => simp [RepTails] at h
        | cons x ls =>
          obtain ⟨off, l⟩ := x
          cases l with
          | len n =>
            obtain ⟨⟨_, h2, _⟩, h3⟩ := h
            rcases List.mem_cons.1 hg with rfl | hg
            · have h4 := hr R len hPg
              have := RepTails.le _ _ _ _ _ hok' h3
              rw [← h2] at h4
              omega
            · exact ih _ _ _ _ hok' h3 ⟨g, hg, hPg⟩
          | _ => simp [RepTails] at h

theorem repTails_zero {lens : List Img} {o : View} :
    ∀ (fs : List (Fld w)) vs ls fin, (∀ T, Fld.varlen T ∈ fs → ∀ v l o, T.Rep v l o → l.size.toNat = 0) → (∀ R len, Fld.array R len ∈ fs → (len lens).toNat * R.size = 0) →
      RepTails lens fs vs ls 0 fin o → fin = 0 := by
  intro fs
  induction fs with
  | nil => intro vs ls fin _ _ h; cases vs <;> cases ls <;> simp [RepTails] at h; omega
  | cons f fs ih =>
    intro vs ls fin hv hr h
    have hv' : ∀ T, Fld.varlen T ∈ fs → ∀ v l o, T.Rep v l o → l.size.toNat = 0 := fun T hT => hv T (by simp [hT])
    have hr' : ∀ R len, Fld.array R len ∈ fs → (len lens).toNat * R.size = 0 := fun R len hT => hr R len (by simp [hT])
    have hz : ∀ a, roundUpN 0 a = 0 := fun a => by
      rcases Nat.eq_zero_or_pos a with rfl | ha
      · simp [roundUpN]
      · exact Nat.le_zero.1 (roundUpN_least ha (Nat.dvd_zero a) (Nat.le_refl 0))
    cases vs with
    | nil => cases f <;> simp [RepTails] at h
    | cons v vs =>
      cases f with
      | normal R off => exact ih _ _ _ hv' hr' h
      | length R off => exact ih _ _ _ hv' hr' h
      | varlen T =>
        cases ls with
        | nil => simp [RepTails] at h
        | cons x ls =>
          obtain ⟨off, l⟩ := x
          obtain ⟨⟨h1, h2⟩, h3⟩ := h
          rw [hz] at h1
          rw [h1, hv T (by simp) _ _ _ h2] at h3
          exact ih _ _ _ hv' hr' h3
      | array R len =>
        cases v with
        | leaf x => simp [RepTails] at h
        | node x => simp [RepTails] at h
        | arr xs =>
        cases ls with
        | nil => simp [RepTails] at h
        | cons x ls =>
          obtain ⟨off, l⟩ := x
          cases l with
          | len n =>
            obtain ⟨⟨h1, h2, _⟩, h3⟩ := h
            rw [hz] at h1
            have h4 := hr R len (by simp)
            rw [← h2] at h4
            rw [h1, h4] at h3
            exact ih _ _ _ hv' hr' h3
          | _ => simp [RepTails] at h

/-- With an empty head, the layout-controlling fields have size zero. -/
theorem lengthsOf_empty {fs : List (Fld w)} (h : ∀ R off, Fld.length R off ∈ fs → R.size = 0) (o : View) : lengthsOf fs o = zeroLens fs := by
  induction fs with
  | nil => rfl
  | cons f fs ih =>
    have ih := ih fun R off hm => h R off (by simp [hm])
    cases f with
    | length R off =>
      have e : R.size = 0 := h R off (by simp)
      simp only [lengthsOf, zeroLens, List.filterMap_cons] at ih ⊢
      rw [ih, e]
      rfl
    | _ => simpa only [lengthsOf, zeroLens, List.filterMap_cons] using ih

/-- Every object of a type with a size has a positive size. -/
theorem C47_has_size {T : VarLen w} (h : HasSize T) : ∀ {v : V} {l : Layout w} {o : View}, T.Rep v l o → 0 < l.size.toNat := by
  induction h with
  | head hT h => exact fun hr => Nat.lt_of_lt_of_le h (hT.lawful.head_le _ _ _ hr)
  | newtype _ ih => exact fun hr => ih hr.1
  | @tuple Ts T hTs hm _ ih =>
    rintro v l o ⟨vs, ls, size, -, rfl, -, h⟩
    have hne : Ts ≠ [] := fun e => by rw [e] at hm; cases hm
    refine repTails_pos (hs := 0) (ha := 1) (P := fun f => f = .varlen T) ?_ (by simp) (by simp) (by simp) _ _ _ _ _ ?_ h ⟨_, List.mem_map_of_mem hm, rfl⟩
    · rintro T' e v l o hr
      cases e
      exact ih hr
    · intro f hf
      obtain ⟨T', hT', rfl⟩ := List.mem_map.1 hf
      exact (hTs T' hT').lawful
  | @varlen hs ha fs T hh hTs hm _ ih =>
    rintro v l o ⟨vs, ls, size, -, rfl, -, h⟩
    refine repTails_pos (P := fun f => f = .varlen T) ?_ (by simp) (by simp) (by simp) _ _ _ _ _ (hh.structOk fun T hT => (hTs T hT).lawful).flds h ⟨_, hm, rfl⟩
    rintro T' e v l o hr
    cases e
    exact ih hr
  | @array ha fs R len hh hTs hm hR hlen =>
    rintro v l o ⟨vs, ls, size, -, rfl, -, h⟩
    refine repTails_pos (P := fun f => f = .array R len) (by simp) ?_ (by simp) (by simp) _ _ _ _ _ (hh.structOk fun T hT => (hTs T hT).lawful).flds h ⟨_, hm, rfl⟩
    rintro R' len' e
    cases e
    rw [lengthsOf_empty fun R off hm => by have := (hh.length R off hm).2.1; omega]
    refine Nat.mul_pos (Nat.pos_of_ne_zero fun e => hlen ?_) hR
    exact BitVec.eq_of_toNat_eq (by simpa using e)

/-- Every object of a type without one has size zero. -/
theorem C47_no_size {T : VarLen w} (h : NoSize T) : ∀ {v : V} {l : Layout w} {o : View}, T.Rep v l o → l.size.toNat = 0 := by
  induction h with
  | fixedLen h =>
    rintro v l o ⟨img, -, rfl, -⟩
    simp [Layout.size, RTy.sizeOf, h]
  | newtype _ ih => exact fun hr => ih hr.1
  | @tuple Ts _ ih =>
    rintro v l o ⟨vs, ls, size, -, rfl, -, h⟩
    refine repTails_zero _ _ _ _ ?_ (fun R len hm => by simp at hm) h
    intro T hT v l o hr
    obtain ⟨T', hT', e⟩ := List.mem_map.1 hT
    cases e
    exact ih T hT' hr
  | @struct ha fs hh hT hA ih =>
    rintro v l o ⟨vs, ls, size, -, rfl, -, h⟩
    refine repTails_zero _ _ _ _ (fun T hT v l o hr => ih T hT hr) ?_ h
    intro R len hm
    rw [lengthsOf_empty fun R off hm => by have := (hh.length R off hm).2.1; omega]
    rcases hA R len hm with e | e <;> simp [e]

/-- Declared types are types of the library. -/
theorem Declared.lib {T : VarLen w} (h : Declared T) : LibType T := by
  induction h with
  | fixedLen h => exact .fixedLen h
  | array h1 h2 _ => exact .array h1 h2
  | str h1 h2 _ => exact .str h1 h2
  | newtype _ ih => exact .user (NewtypeInv.lawful ih.lawful _)
  | tuple h _ ih => exact .tuple h ih
  | struct h _ ih => exact .struct h ih

/-- Every type that can be declared is of one of the two kinds. (So a sequence cannot contain elements of size zero beside others.) -/
theorem C47_size_by_type {T : VarLen w} (h : Declared T) : HasSize T ∨ NoSize T := by
  induction h with
  | @fixedLen R h =>
    rcases Nat.eq_zero_or_pos R.size with e | e
    · exact .inr (.fixedLen e)
    · exact .inl (.head (.fixedLen h) e)
  | @array R L h1 h2 h3 => exact .inl (.head (.array h1 h2) h3)
  | @str L h1 h2 h3 => exact .inl (.head (.str h1 h2) h3)
  | newtype _ ih => exact ih.imp .newtype .newtype
  | @tuple Ts hne hd ih =>
    by_cases h : ∃ T ∈ Ts, HasSize T
    · obtain ⟨T, hm, h⟩ := h
      exact .inl (.tuple (fun T hT => (hd T hT).lib) hm h)
    · exact .inr (.tuple fun T hT => (ih T hT).resolve_left fun hs => h ⟨T, hT, hs⟩)
  | @struct hs ha fs hh hd ih =>
    have hl : LibType (Struct w hs ha fs) := .struct hh fun T hT => (hd T hT).lib
    rcases Nat.eq_zero_or_pos hs with rfl | e
    · by_cases h : ∃ T, Fld.varlen T ∈ fs ∧ HasSize T
      · obtain ⟨T, hm, h⟩ := h
        exact .inl (.varlen hh (fun T hT => (hd T hT).lib) hm h)
      by_cases h' : ∃ R len, Fld.array R len ∈ fs ∧ 0 < R.size ∧ len (zeroLens fs) ≠ 0
      · obtain ⟨R, len, hm, h1, h2⟩ := h'
        exact .inl (.array hh (fun T hT => (hd T hT).lib) hm h1 h2)
      refine .inr (.struct hh (fun T hT => (ih T hT).resolve_left fun hs => h ⟨T, hT, hs⟩) fun R len hm => ?_)
      rcases Nat.eq_zero_or_pos R.size with e | e
      · exact .inl e
      · exact .inr (Classical.byContradiction fun hn => h' ⟨R, len, hm, e, hn⟩)
    · exact .inl (.head hl e)

/-- The same for what initializers report: the layout is that of the object they make. -/
theorem C47_size_of_initializer {T : VarLen w} {I : Init w} (hI : InitLawful T I) {s : St} (hp : I.pre s) {l : Layout w} (hl : I.lay = some l) {v : V} (hv : I.val = some v) :
    (HasSize T → 0 < l.size.toNat) ∧ (NoSize T → l.size.toNat = 0) := by
  have hs : Same s (s.push ⟨0, l.size.toNat, 1, true, fun _ => none⟩) I.fp := fun b hb => by
    rw [St.blk_push, if_neg]
    rintro rfl
    exact hI.fp_exists s _ hp hb (by simp [St.blk, St.next])
  have hb : (s.push ⟨0, l.size.toNat, 1, true, fun _ => none⟩).blk s.next = some ⟨0, l.size.toNat, 1, true, fun _ => none⟩ := by rw [St.blk_push, if_pos rfl]
  obtain ⟨s', _, _, _, hr, _⟩ := hI.init_ok _ ⟨s.next, 0⟩ l v (hI.stable _ _ hp hs) hl hv (.inr ⟨_, hb, rfl, by simp⟩)
    (by simp [Aligned, St.addr, hb]) (fun hf => hI.fp_exists s _ hp hf (by simp [St.blk, St.next]))
  exact ⟨fun h => C47_has_size h hr, fun h => C47_no_size h hr⟩

/-- Boxes: for a type with a size, `VBox::new` (of an initializer that makes a value) is defined if the allocation succeeds; for a type without one, it never is. -/
theorem C42_by_type (A : Allocator) {T : VarLen w} {I : Init w} (h : LibInit T I) {s : St} (hp : I.pre s) {v : V} (hv : I.val = some v) :
    (HasSize T → (∀ n a, n ≠ 0 → pick w A s n a ≠ none) → ∀ k, VBox.new A T I s ≠ .ub k) ∧
    (NoSize T → ∀ l, I.cautious s = .ok (some l) s → T.ALIGN.toNat - 1 ≤ isizeMax w → ∃ k, VBox.new A T I s = .ub k) := by
  have hI := h.lib.2
  have hlay : ∀ l, I.cautious s = .ok (some l) s → I.lay = some l := fun l hl => by
    cases hb : I.bad with
    | false => rw [hI.calc_ok s hp hb] at hl; injection hl
    | true => rw [hI.calc_panic s hp hb] at hl; cases hl
  constructor
  · intro hs hA
    refine C42_vbox_new_defined_partial A h hp fun l hl => ?_
    have := (C47_size_of_initializer hI hp (hlay l hl) hv).1 hs
    exact ⟨by omega, hA _ _ (by omega)⟩
  · intro hs l hl ha
    have := (C47_size_of_initializer hI hp (hlay l hl) hv).2 hs
    exact (C42_undefined_iff A h hp).2 ⟨l, hl, by omega, .inl this⟩

/-- Sequences: for a type with a size, pushing any initializer of the library that makes a value meets the condition of C19 to C34 on sizes. -/
theorem C33_by_type {T : VarLen w} (hT : HasSize T) {I : Init w} (h : LibInit T I) {s : St} {q : SeqS w} (hp : I.pre s) (ha : ¬ I.fp q.ptr.blk) {v : V} (hv : I.val = some v) : PushArg T I s q :=
  ⟨h.lib.2, hp, ha, fun _ hl => (C47_size_of_initializer h.lib.2 hp hl hv).1 hT⟩

/-- … and for a type without one, pushing it onto a new `IndexableSeq` is undefined behaviour, always. -/
theorem C47_no_size_push {T : VarLen w} (hT : NoSize T) {I : Init w} (h : LibInit T I) (A : Allocator) {s : St} (hp : I.pre s) {l : Layout w} (hl : I.lay = some l) {v : V} (hv : I.val = some v) :
    Seq.push A true T I (s, Seq.new T) = .ub .outOfBounds :=
  C47_every_zero_size_checked_push_undefined h A hp hl ((C47_size_of_initializer h.lib.2 hp hl hv).2 hT)

namespace Demo

/-- `Tup2<FixedLen<()>, FixedLen<()>>` has no size, `Tup2<FixedLen<()>, Array<D4, u16>>` has one. -/
def unitTup : VarLen 64 := Tuple 64 [FixedLen 64 unitTy, FixedLen 64 unitTy]
def halfTup : VarLen 64 := Tuple 64 [FixedLen 64 unitTy, ArrT]

theorem unitTy_ok : unitTy.Ok 64 := ⟨⟨0, by decide, rfl⟩, ⟨0, rfl⟩, by decide, by simp [unitTy]⟩
theorem emptyHead {len : LenFn 64} : HeaderOk 0 1 [.array u8Ty len] where
  head_pow2 := ⟨0, by decide, rfl⟩
  head_lt := by decide
  normal := by simp
  length := by simp
  array := by
    intro R len h
    simp only [List.mem_singleton, Fld.array.injEq] at h
    rw [h.1]
    exact u8Ty_ok (by decide)
  disjoint := by simp

theorem unitTup_noSize : NoSize unitTup := .tuple fun T hT => by
  simp only [List.mem_cons, List.not_mem_nil, or_false, or_self] at hT
  rw [hT]
  exact .fixedLen rfl
theorem halfTup_hasSize : HasSize halfTup := by
  refine .tuple (T := ArrT) (fun T hT => ?_) (by simp) (.head (arrInit_lib [1]).lib.1 (by decide))
  simp only [List.mem_cons, List.not_mem_nil, or_false] at hT
  rcases hT with rfl | rfl
  · exact .fixedLen unitTy_ok
  · exact (arrInit_lib [1]).lib.1
example : HasSize ArrT := .head (arrInit_lib [1]).lib.1 (by decide)

/-- A struct with an empty head whose array has a constant length: `struct S { #[varlen_array] xs: [u8; 3] }`, and with length 0. -/
example : HasSize (Struct 64 0 1 [.array u8Ty (.total fun _ => 3)]) := .array emptyHead (by simp) (List.mem_singleton_self _) (by decide) (by decide)
example : NoSize (Struct 64 0 1 [.array u8Ty (.total fun _ => 0)]) := .struct emptyHead (by simp) (by simp)

end Demo

end Varlen
