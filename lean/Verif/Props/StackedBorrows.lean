import Verif.Proofs.StackedDrop
import Verif.Props.Threads
import Verif.Props.Arrays
/-!
# C76: the accessors under Stacked Borrows

Under the aliasing model that Miri uses by default, a reference to an object of variable length is a reference to the bytes of its head. So an accessor that reaches for bytes of the tail from there has undefined behaviour. The
theorems say exactly when: the accessors are fine only if there is nothing in the tail to refer to.
-/
namespace Varlen.SB
variable {w : Nat}

/-- `refs()` of a struct, called with a reference that may read the head, is fine if no `#[varlen]` field has bytes in its head (and so on, for fields of fields) and all array fields are empty; otherwise it is undefined. -/
theorem C76_refs_partial {hs ha : Nat} {fs : List (TyFld w)} (h : TyOk (.struct hs ha fs)) {s : St} {p : Ptr} {v : V} {size : BitVec w} {ls : List (BitVec w × Layout w)}
    (hv : Valid (Ty.struct hs ha fs).sem s p v (.fields size ls)) {σ : Stacks} (hσ : σ.Ok) {t lo : Nat} (ht : CanRead σ t lo hs) :
    (Headless (.struct hs ha fs) ∧ (∀ n ∈ arraySizes fs ls, n = 0) → Fine (refs hs fs t lo (.fields size ls)) σ) ∧
    (¬ (Headless (.struct hs ha fs) ∧ ∀ n ∈ arraySizes fs ls, n = 0) → Undefined (refs hs fs t lo (.fields size ls)) σ) := by
  obtain ⟨_, _, e, hf⟩ := struct_fits h ⟨v, _, hv.rep⟩
  cases e
  rw [headless_struct]
  exact refs_does hf hσ ht

/-- The same for `muts()`, whichever types are `Unpin`. -/
theorem C76_muts_partial {hs ha : Nat} {fs : List (TyFld w)} (h : TyOk (.struct hs ha fs)) {s : St} {p : Ptr} {v : V} {size : BitVec w} {ls : List (BitVec w × Layout w)}
    (hv : Valid (Ty.struct hs ha fs).sem s p v (.fields size ls)) {σ : Stacks} (hσ : σ.Ok) {t lo : Nat} (ht : CanWrite σ t lo hs) (U : Unpins w) :
    (Headless (.struct hs ha fs) ∧ (∀ n ∈ arraySizes fs ls, n = 0) → Fine (muts U (U.ty (.struct hs ha fs)) hs fs t lo (.fields size ls)) σ) ∧
    (¬ (Headless (.struct hs ha fs) ∧ ∀ n ∈ arraySizes fs ls, n = 0) → Undefined (muts U (U.ty (.struct hs ha fs)) hs fs t lo (.fields size ls)) σ) := by
  obtain ⟨_, _, e, hf⟩ := struct_fits h ⟨v, _, hv.rep⟩
  cases e
  rw [headless_struct]
  exact muts_does hf hσ ht

theorem arraySizes_varlen : ∀ (Ts : List (Ty w)) (ls : List (BitVec w × Layout w)), arraySizes (Ts.map .varlen) ls = []
  | [], _ => rfl
  | _ :: _, [] => rfl
  | _ :: Ts, _ :: ls => by rw [List.map_cons, arraySizes, arraySizes_varlen Ts ls]

/-- The same for tuples. The reference may come from anywhere: the head of a tuple has no bytes. -/
theorem C76_tuple_partial {Ts : List (Ty w)} (h : TyOk (.tuple Ts)) {s : St} {p : Ptr} {v : V} {l : Layout w} (hv : Valid (Ty.tuple Ts).sem s p v l) {σ : Stacks} (hσ : σ.Ok) (t lo : Nat) (U : Unpins w) :
    (Headless (.tuple Ts) → Fine (refs 0 (Ts.map .varlen) t lo l) σ ∧ Fine (muts U (U.ty (.tuple Ts)) 0 (Ts.map .varlen) t lo l) σ) ∧
    (¬ Headless (.tuple Ts) → Undefined (refs 0 (Ts.map .varlen) t lo l) σ ∧ Undefined (muts U (U.ty (.tuple Ts)) 0 (Ts.map .varlen) t lo l) σ) := by
  obtain ⟨size, ls, rfl, hf⟩ := tuple_fits h ⟨v, _, hv.rep⟩
  rw [headless_tuple]
  have h1 := refs_does (size := size) hf (t := t) (lo := lo) hσ (fun x h1 h2 => by omega)
  have h2 := muts_does (size := size) (U := U) (u := U.ty (.tuple Ts)) hf (t := t) (lo := lo) hσ (fun x h1 h2 => by omega)
  rw [arraySizes_varlen] at h1 h2
  exact ⟨fun hn => ⟨h1.1 ⟨hn, by simp⟩, h2.1 ⟨hn, by simp⟩⟩, fun hn => ⟨h1.2 fun h => hn h.1, h2.2 fun h => hn h.1⟩⟩

/-- `calculate_layout()`, of any type of the library. -/
theorem C76_layout_partial {T : Ty w} (h : TyOk T) {s : St} {p : Ptr} {v : V} {l : Layout w} (hv : Valid T.sem s p v l) {σ : Stacks} (hσ : σ.Ok) {t lo : Nat} (ht : CanRead σ t lo T.sem.headSize) :
    (Headless T → Fine (do let a ← retag t .shr lo T.sem.headSize; calcTy T a lo l) σ) ∧ (¬ Headless T → Undefined (do let a ← retag t .shr lo T.sem.headSize; calcTy T a lo l) σ) := by
  obtain ⟨σ1, e1, o1, _, _, c1, _⟩ := retag_shr hσ ht
  have h' := calcTy_does h σ.next lo l σ1 ⟨v, _, hv.rep⟩ o1 c1
  rw [Fine, Undefined, bind_ok e1]
  exact ⟨fun hn => by obtain ⟨r, σ2, e, _⟩ := h'.1 hn; exact ⟨_, e⟩, h'.2⟩

/-- Dereferencing an array is fine if it is empty, and undefined otherwise. -/
theorem C76_array_deref_partial {P : Plain} {L : LenTy} (hP : P.ty.Ok w) {s : St} {p : Ptr} {v : V} {o n size : BitVec w} (hv : Valid (Array w P.ty L) s p v (.array o n size))
    {σ : Stacks} (hσ : σ.Ok) {t lo : Nat} (ht : CanRead σ t lo L.bytes) :
    (n.toNat * P.ty.size = 0 → Fine (arrayDeref P L t lo (.array o n size)) σ) ∧ (n.toNat * P.ty.size ≠ 0 → Undefined (arrayDeref P L t lo (.array o n size)) σ) := by
  have ho : L.bytes ≤ o.toNat := by
    obtain ⟨_, _, _, _, _, e, _, _, ho, _⟩ := hv.rep
    cases e
    have := roundUpN_ge L.bytes P.ty.align hP.align_pos
    omega
  obtain ⟨σ1, e1, o1, _, _, c1, _⟩ := retag_shr hσ ht
  obtain ⟨σ2, e2, k2, _, _, c2⟩ := retag_clean o1 c1
  obtain ⟨σ3, e3, k3, _, w3, c3⟩ := retag_clean k2.ok (c1.keep k2)
  simp only [arrayDeref, Fine, Undefined]
  rw [bind_ok e1, bind_ok e2, bind_ok (read_clean c2), bind_ok e3]
  refine ⟨fun h0 => ?_, fun h0 => retag_out w3 rfl (by omega) (by omega)⟩
  obtain ⟨σ4, e4, _⟩ := retag_clean (t := σ2.next) (lo := lo + o.toNat) (n := n.toNat * P.ty.size) k3.ok (fun x h1 h2 => by omega)
  exact ⟨_, e4⟩

/-- The same for `mut_slice()`. -/
theorem C76_mut_slice_partial {P : Plain} {L : LenTy} (hP : P.ty.Ok w) {s : St} {p : Ptr} {v : V} {o n size : BitVec w} (hv : Valid (Array w P.ty L) s p v (.array o n size))
    {σ : Stacks} (hσ : σ.Ok) {t lo : Nat} (ht : CanWrite σ t lo L.bytes) (U : Unpins w) :
    (n.toNat * P.ty.size = 0 → Fine (arrayMutSlice U (U.ty (.array P L)) P L t lo (.array o n size)) σ) ∧
    (n.toNat * P.ty.size ≠ 0 → Undefined (arrayMutSlice U (U.ty (.array P L)) P L t lo (.array o n size)) σ) := by
  have ho : L.bytes ≤ o.toNat := by
    obtain ⟨_, _, _, _, _, e, _, _, ho, _⟩ := hv.rep
    cases e
    have := roundUpN_ge L.bytes P.ty.align hP.align_pos
    omega
  obtain ⟨σ1, e1, o1, _, _, c1, _⟩ := retag_mut (u := U.ty (.array P L)) hσ ht
  obtain ⟨σ2, e2, o2, _, _, c2, _, cw2⟩ := retag_shr o1 c1.canRead
  obtain ⟨σ3, e3, o3, _, w3, c3, _⟩ := retag_mut (u := U.ty (.array P L)) o2 (cw2 c1)
  simp only [arrayMutSlice, Fine, Undefined]
  rw [bind_ok e1, bind_ok e2, bind_ok (read_clean c2), bind_ok e3]
  refine ⟨fun h0 => ?_, fun h0 => retag_out w3 rfl (by omega) (by omega)⟩
  obtain ⟨σ4, e4, _⟩ := retag_mut (u := U.plain P) (t := σ2.next) (lo := lo + o.toNat) (n := n.toNat * P.ty.size) o3 (fun x h1 h2 => by omega)
  exact ⟨_, e4⟩

/-- `vdrop()`, of any type of the library: fine if destroying the object concerns its head only, otherwise undefined. -/
theorem C76_vdrop_partial {T : Ty w} (h : TyOk T) {s : St} {p : Ptr} {v : V} {l : Layout w} (hv : Valid T.sem s p v l) {σ : Stacks} (hσ : σ.Ok) {t lo : Nat} (ht : CanWrite σ t lo T.sem.headSize) (U : Unpins w) :
    (Idle T l → Fine (vdropTy U T t lo l) σ) ∧ (¬ Idle T l → Undefined (vdropTy U T t lo l) σ) := by
  have h' := vdropTy_does (U := U) h t lo l σ ⟨v, _, hv.rep⟩ hσ ht
  exact ⟨fun hi => by obtain ⟨r, σ1, e, _⟩ := h'.1 hi; exact ⟨_, e⟩, h'.2⟩

/-- Dropping a box, whose pointer is that of the allocation: fine if, besides, no `#[varlen]` field has bytes in its head (or the computation of the layout is undefined already); freeing the memory is never the problem. -/
theorem C76_box_drop_partial {T : Ty w} (h : TyOk T) {s : St} {p : Ptr} {v : V} {l : Layout w} (hv : Valid T.sem s p v l) {σ : Stacks} (hσ : σ.Ok) {t lo : Nat} (ht : Allocated σ t lo l.size.toNat) (U : Unpins w) :
    (Headless T ∧ Idle T l → Fine (boxDrop U T t lo l) σ) ∧ (¬ (Headless T ∧ Idle T l) → Undefined (boxDrop U T t lo l) σ) :=
  boxDrop_does h ⟨v, _, hv.rep⟩ (h.lib.lawful.head_le _ _ _ hv.rep) hσ ht

/-- For example, a box of an array: fine exactly if the elements have no destructor, or no bytes. -/
theorem C76_box_of_array_partial {P : Plain} {L : LenTy} (h : TyOk (.array P L : Ty w)) {s : St} {p : Ptr} {v : V} {o n size : BitVec w} (hv : Valid (Ty.array P L).sem s p v (.array o n size))
    {σ : Stacks} (hσ : σ.Ok) {t lo : Nat} (ht : Allocated σ t lo size.toNat) (U : Unpins w) :
    Fine (boxDrop U (.array P L) t lo (.array o n size)) σ ↔ (P.ty.needsDrop = false ∨ n.toNat = 0 ∨ P.ty.size = 0) := by
  obtain ⟨h1, h2⟩ := C76_box_drop_partial h hv hσ ht U
  have hi : Idle (.array P L) (.array o n size) ↔ (P.ty.needsDrop = false ∨ n.toNat = 0 ∨ P.ty.size = 0) := by
    constructor
    · intro h
      cases h with
      | array h =>
        cases hd : P.ty.needsDrop with
        | false => exact .inl rfl
        | true => exact .inr (Nat.mul_eq_zero.1 (h hd))
    · intro h
      refine .array fun hd => ?_
      rcases h with h | h
      · rw [hd] at h; cases h
      · exact Nat.mul_eq_zero.2 h
  rw [← hi]
  constructor
  · intro hf
    refine Classical.byContradiction fun hn => ?_
    obtain ⟨r, hr⟩ := hf
    have := h2 fun h => hn h.2
    rw [Undefined, hr] at this
    cases this
  · exact fun h => h1 ⟨.array .., h⟩

namespace Demo
open Varlen.Demo

/-- An allocation right after it was made: tag 0 may access everything. -/
def σ0 : Stacks := ⟨fun x => if x < 64 then [⟨0, .unique⟩] else [], 1⟩

theorem σ0_ok : σ0.Ok := by
  intro x i hi
  simp only [σ0] at hi ⊢
  split at hi
  · simp at hi; subst hi; decide
  · simp at hi

theorem σ0_write {lo n : Nat} (h : lo + n ≤ 64) : CanWrite σ0 0 lo n := fun x h1 h2 => ⟨⟨0, .unique⟩, by simp [σ0]; omega, rfl, .inl rfl⟩

/-- The struct of the other examples: its first `#[varlen]` field is an array, with a head of two bytes. -/
example (U : Unpins 64) : ∃ size ls, sLay = .fields size ls ∧
    Undefined (refs 8 [.normal guardP 0, .length u8Plain 4, .varlen (.array guardP lenU16), .array u8Plain u8Len, .varlen (.array guardP lenU16)] 0 0 (.fields size ls)) σ0 ∧
    Undefined (muts U (U.ty sT) 8 [.normal guardP 0, .length u8Plain 4, .varlen (.array guardP lenU16), .array u8Plain u8Len, .varlen (.array guardP lenU16)] 0 0 (.fields size ls)) σ0 := by
  have hn : ¬ Headless sT := by
    intro h
    have := (headless_struct.1 h (.array guardP lenU16) (by simp)).1
    revert this; decide +kernel
  exact ⟨_, _, rfl, (C76_refs_partial sT_ok sSt_valid σ0_ok (σ0_write (by decide)).canRead).2 fun h => hn h.1, (C76_muts_partial sT_ok sSt_valid σ0_ok (σ0_write (by decide)) U).2 fun h => hn h.1⟩

/-- An array with three elements. -/
example (U : Unpins 64) : ∃ s l o n size, l = .array o n size ∧ Valid ArrT s p1 (.arr [d4 1, d4 2, d4 3]) l ∧
    Undefined (arrayDeref guardP lenU16 0 0 l) σ0 ∧ Undefined (arrayMutSlice U (U.ty (.array guardP lenU16)) guardP lenU16 0 0 l) σ0 := by
  obtain ⟨s, l, h⟩ := arr_valid
  obtain ⟨o, n, size, xs, e, rfl, _, _, _, _, he, _⟩ := h.rep
  cases e
  have hn : n.toNat * guardP.ty.size ≠ 0 := by
    have := congrArg List.length he
    rw [elemsV_length] at this
    simp at this
    rw [this]; decide +kernel
  exact ⟨s, _, o, n, size, rfl, h, (C76_array_deref_partial (P := guardP) D4_ok h σ0_ok (σ0_write (by decide)).canRead).2 hn, (C76_mut_slice_partial (P := guardP) D4_ok h σ0_ok (σ0_write (by decide)) U).2 hn⟩

/-- Direct runs: an array field of 3 bytes; the same with length 0; the tail of an array with 2 elements, and of an empty one. -/
def arrF : List (TyFld 64) := [.length u8Plain 0, .array u8Plain u8Len]

/-- The outcome. -/
def undefined {α : Type} (m : S α) : Option Bool :=
  match m σ0 with
  | .ok _ => some false
  | .error .ub => some true
  | .error .confused => none

/-- Everything is `Unpin`, nothing is. -/
def allU : Unpins 64 := ⟨fun _ => true, fun _ => true⟩
def noU : Unpins 64 := ⟨fun _ => false, fun _ => false⟩

example : undefined (refs 1 arrF 0 0 (.fields 4 [(1, .len 3)])) = some true := by decide +kernel
example : undefined (refs 1 arrF 0 0 (.fields 1 [(1, .len 0)])) = some false := by decide +kernel
example : undefined (muts noU false 1 arrF 0 0 (.fields 4 [(1, .len 3)])) = some true := by decide +kernel
example : undefined (muts allU true 1 arrF 0 0 (.fields 1 [(1, .len 0)])) = some false := by decide +kernel
example : undefined (muts noU false 1 arrF 0 0 (.fields 1 [(1, .len 0)])) = some false := by decide +kernel
example : undefined (arrayDeref guardP lenU16 0 0 (.array 4 2 12 : Layout 64)) = some true := by decide +kernel
example : undefined (arrayDeref guardP lenU16 0 0 (.array 4 0 4 : Layout 64)) = some false := by decide +kernel
example : undefined (arrayMutSlice noU false guardP lenU16 0 0 (.array 4 2 12)) = some true := by decide +kernel
example : undefined (arrayMutSlice noU false guardP lenU16 0 0 (.array 4 0 4)) = some false := by decide +kernel
/-- A reference to the whole allocation, which is what the library does not have, would do. -/
example : undefined (do let a ← retag 0 .shr 0 12; retag a .shr 4 8) = some false := by decide +kernel
/-- Dropping boxes: of an array of three elements with destructors; of one without elements; of bytes; of a struct with bytes in an array field, and with a nested array. -/
example : undefined (boxDrop noU (.array guardP lenU16) 0 0 (.array 4 3 16)) = some true := by decide +kernel
example : undefined (boxDrop noU (.array guardP lenU16) 0 0 (.array 4 0 4)) = some false := by decide +kernel
example : undefined (boxDrop allU (.array u8Plain lenU16) 0 0 (.array 2 3 5)) = some false := by decide +kernel
example : undefined (boxDrop allU (.struct 1 1 arrF) 0 0 (.fields 4 [(1, .len 3)])) = some false := by decide +kernel
example : undefined (boxDrop noU (.tuple [.array u8Plain lenU16]) 0 0 (.fields 5 [(0, .array 2 3 5)])) = some true := by decide +kernel
/-- `vdrop` alone: that tuple has nothing to destroy, the same with `guard` elements does; the struct in a box of the other examples. -/
example : undefined (vdropTy noU (.tuple [.array u8Plain lenU16]) 0 0 (.fields 5 [(0, .array 2 3 5)])) = some false := by decide +kernel
example : undefined (vdropTy noU (.tuple [.array guardP lenU16]) 0 0 (.fields 5 [(0, .array 4 3 16)])) = some true := by decide +kernel
example (U : Unpins 64) : Undefined (boxDrop U sT 0 0 sLay) σ0 := by
  have hn : ¬ Headless sT := by
    intro h
    have := (headless_struct.1 h (.array guardP lenU16) (by simp)).1
    revert this; decide +kernel
  exact (C76_box_drop_partial sT_ok sSt_valid σ0_ok (fun x _ h => by
    have : sLay.size.toNat ≤ 64 := by decide +kernel
    have hx : x < 64 := by omega
    simp only [σ0, if_pos hx]; rfl) U).2 fun h => hn h.1
/-- The rules themselves: a shared reference dies with a write through its parent, a mutable one with a read. -/
example : undefined (do let a ← retag 0 .uniq 0 4; let r ← retag a .shr 0 4; let _ ← retag a .uniq 0 4; read r 0 4) = some true := by decide +kernel
example : undefined (do let a ← retag 0 .uniq 0 4; let m ← retag a .uniq 0 4; read a 0 4; let _ ← retag m .uniq 0 4) = some true := by decide +kernel
example : undefined (do let a ← retag 0 .uniq 0 4; let m ← retag a .raw 0 4; read a 0 4; let _ ← retag m .raw 0 4) = some false := by decide +kernel

end Demo

end Varlen.SB
