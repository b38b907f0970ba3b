import Verif.Model.LayoutEq
import Verif.Props.Controls
import Verif.Props.Arrays
/-! # C68: comparing layouts -/
namespace Varlen
variable {w : Nat}

/-- The number of elements of an array or a string. -/
def V.count : V → Nat
  | .arr xs => xs.length
  | _ => 0

theorem array_compare {R : RTy} {L : LenTy} {v v' : V} {l l' : Layout w} {o o' : View} (h : (Array w R L).Rep v l o) (h' : (Array w R L).Rep v' l' o') :
    ∃ b, l.eqImpl l' = some b ∧ (b = true ↔ l = l') ∧ (b = true ↔ v.count = v'.count) := by
  obtain ⟨off, n, size, xs, rfl, rfl, -, -, h3, h4, h5, -⟩ := h
  obtain ⟨off', n', size', xs', rfl, rfl, -, -, g3, g4, g5, -⟩ := h'
  have hx : xs.length = n.toNat := by rw [← h5, elemsV_length]
  have gx : xs'.length = n'.toNat := by rw [← g5, elemsV_length]
  have ho : off = off' := BitVec.eq_of_toNat_eq (by omega)
  refine ⟨_, rfl, ?_, ?_⟩
  · simp [and_assoc]
  · simp only [V.count, hx, gx, Bool.and_eq_true, beq_iff_eq]
    constructor
    · rintro ⟨⟨-, rfl⟩, -⟩; rfl
    · intro e
      have : n = n' := BitVec.eq_of_toNat_eq e
      subst this
      exact ⟨⟨ho, rfl⟩, BitVec.eq_of_toNat_eq (by omega)⟩

theorem rep_compare {T : Ty w} (hT : HasLayoutEq T) : ∀ {v v' : V} {l l' : Layout w} {o o' : View}, T.sem.Rep v l o → T.sem.Rep v' l' o' →
    ∃ b, l.eqImpl l' = some b ∧ (b = true ↔ l = l') ∧ (b = true ↔ v.count = v'.count) := by
  induction hT with
  | fixedLen =>
    rintro _ _ _ _ _ _ ⟨_, rfl, rfl, -⟩ ⟨_, rfl, rfl, -⟩
    exact ⟨true, rfl, by simp, by simp [V.count]⟩
  | array => intro v v' l l' o o' h h'; exact array_compare h h'
  | str => intro v v' l l' o o' h h'; exact array_compare h.1 h'.1
  | newtype _ ih => intro v v' l l' o o' h h'; exact ih h.1 h'.1

/-- Comparing the layouts of two objects of a type whose layouts can be compared tells whether the layouts are the same, sizes and all; for arrays and strings, whether they have the same number of elements. -/
theorem C68_compare {T : Ty w} (hT : HasLayoutEq T) {s s' : St} {p p' : Ptr} {v v' : V} {l l' : Layout w} (h : Valid T.sem s p v l) (h' : Valid T.sem s' p' v' l') :
    ∃ b, l.eqImpl l' = some b ∧ (b = true ↔ l = l') ∧ (b = true ↔ v.count = v'.count) :=
  rep_compare hT h.rep h'.rep

namespace Demo

theorem arr_valid1 : ∃ s l, Valid ArrT s p1 (.arr [d4 7]) l := by
  have hl : Suitable ArrT (arrInit [7]) st1 p1 (.array 4 1 8) := ⟨trivial, rfl, by decide, by decide, fun h => h⟩
  rcases hl.run (arrInit_lib _).lib.2 with ⟨v, s', hv, _, _, _, h, _⟩ | ⟨m, s', h, _⟩
  · refine ⟨s', .array 4 1 8, ?_⟩
    have : (arrInit [7]).val = some (.arr [d4 7]) := rfl
    rw [this] at hv
    cases hv
    exact h
  · exact absurd h (by decide +kernel)

/-- The layouts of an array of three elements and of an array of one element are different, and comparing them says so. -/
example : ∃ (s s' : St) (l l' : Layout 64), Valid (Ty.array guardP lenU16).sem s p1 (.arr [d4 1, d4 2, d4 3]) l ∧ Valid (Ty.array guardP lenU16).sem s' p1 (.arr [d4 7]) l' ∧
    l.eqImpl l' = some false ∧ l ≠ l' ∧ l.eqImpl l = some true := by
  obtain ⟨s, l, h⟩ := arr_valid
  obtain ⟨s', l', h'⟩ := arr_valid1
  obtain ⟨b, e, e1, e2⟩ := C68_compare (T := .array guardP lenU16) .array h h'
  obtain ⟨c, f, f1, -⟩ := C68_compare (T := .array guardP lenU16) .array h h
  have hb : b = false := by
    cases b with
    | false => rfl
    | true => exact absurd (e2.1 rfl) (by decide)
  subst hb
  refine ⟨s, s', l, l', h, h', e, fun hh => absurd (e1.2 hh) (by decide), ?_⟩
  rw [f, f1.2 rfl]

end Demo

end Varlen
