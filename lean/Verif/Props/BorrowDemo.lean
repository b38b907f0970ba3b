import Verif.Props.Borrow
import Verif.Props.Demo
/-! # C63: examples

The hypotheses of the theorems of C63 can be met, and the aliasing model does reject programs. -/
namespace Varlen.TB.Demo
open Varlen Varlen.Demo

/-- `Array<D4, u16>` -/
def arrB : BTy 64 := BTy.array true 64 D4 lenU16
/-- The fields of the demo struct (Props/Demo.lean). -/
def fs : List (BFld 64) := [.normal D4 0, .length u8Ty 4, .varlen arrB, .array u8Ty u8Len, .varlen arrB]

example : fs.map BFld.fld = sFs := rfl

theorem arrB_lib : LibBTy arrB := .array D4_ok lenU16_ok

theorem fs_lib : LibFields 8 fs := .struct (headAlign := 4) sHeader (by
  intro C h
  simp [fs] at h
  subst h
  exact arrB_lib)

theorem fs_layout : FieldsLayout 8 fs sLay := ⟨_, _, sSt_valid.rep⟩

/-- The struct at offset 0 of an allocation of 64 bytes. -/
def T0 : Tree := Tree.new 64

theorem T0_reach : Reach 64 T0 := .new 64

theorem T0_tag {i : Nat} {M : Tag} (h : T0.tag i = some M) : i = 0 ∧ M = ⟨[0], true, false, true, 0, 64, noIm⟩ := by
  cases i with
  | zero => cases h; exact ⟨rfl, rfl⟩
  | succ i => simp [Tree.tag, T0, Tree.new] at h

theorem T0_write (lo n : Nat) (h : lo + n ≤ 64) : CanWrite T0 0 lo n := by
  refine ⟨⟨_, rfl, rfl, rfl, Nat.zero_le _, by simpa using h⟩, ?_⟩
  intro i M hM _ _ hne
  exact absurd (T0_tag hM).1 hne

/-- `muts()` of the struct: what the theorem says. -/
example : ∃ rs S', muts true 8 fs 0 0 sLay T0 = some (rs, S') ∧
    Returns T0 S' 0 rs [⟨true, 0, 4, rustIm D4 0⟩, ⟨false, 4, 1, rustIm u8Ty 4⟩, ⟨true, 8, 12, arrB.im 8⟩, ⟨true, 20, 3, sliceIm u8Ty 20 3⟩, ⟨true, 24, 8, arrB.im 24⟩] :=
  C63_muts T0_reach fs_lib fs_layout (T0_write 0 32 (by decide))

example : ∃ rs S', refs 8 fs 0 0 sLay T0 = some (rs, S') ∧
    Returns T0 S' 0 rs ([⟨false, 0, 4, rustIm D4 0⟩, ⟨false, 4, 1, rustIm u8Ty 4⟩, ⟨false, 8, 12, arrB.im 8⟩, ⟨false, 20, 3, sliceIm u8Ty 20 3⟩, ⟨false, 24, 8, arrB.im 24⟩].map (Ext.within (aggIm 8 fs 0))) :=
  C63_refs T0_reach fs_lib fs_layout (T0_write 0 32 (by decide)).canRead

/-- Whether a program runs without undefined behaviour. -/
def fine (m : B Unit) (S : Tree) : Bool := (m S).isSome

/-- Using all fields given by `muts()`, in a mixed order. -/
def useMuts (pin : Bool) : B Unit := do
  let rs ← muts pin 8 fs 0 0 sLay
  match rs with
  | [a, n, s, xs, t] => do
    access t true 24 8
    access a true 0 4
    access s true 8 12
    access n false 4 1
    access xs true 20 3
    access a true 0 4
    access t true 24 8
  | _ => confused

example : fine (useMuts true) T0 = true := by decide +kernel
example : fine (useMuts false) T0 = true := by decide +kernel

/-- Using a field after the whole object was written: undefined. -/
example : fine (do
    let rs ← muts true 8 fs 0 0 sLay
    access 0 true 0 32
    match rs with
    | [_, _, s, _, _] => access s false 8 1
    | _ => confused) T0 = false := by decide +kernel

/-- Reading the object between two writes through a field: undefined. -/
example : fine (do
    let m ← retag 0 true false noIm 0 8 0 32
    let r ← retag m true false noIm 0 4 0 4
    access r true 0 4
    calcThrough (aggCalc 8 fs) noIm 8 m 0 sLay
    access r true 0 4) T0 = false := by decide +kernel

/-- Two mutable references to the same element: writing through one, then the other, is undefined. -/
example : fine (do
    let a ← iterMutNext arrB 0 8 (.array 4 2 12)
    let b ← iterMutNext arrB 0 8 (.array 4 2 12)
    access a true 8 12
    access b true 8 12) T0 = false := by decide +kernel

/-- Two elements: fine. -/
example : fine (do
    let a ← iterMutNext arrB 0 8 (.array 4 2 12)
    let b ← iterMutNext arrB 0 24 (.array 4 1 8)
    access a true 8 12
    access b true 24 8
    access a true 8 12) T0 = true := by decide +kernel

/-- There are such objects. -/
theorem arrB_layout : HasLayout arrB (.array 4 2 12) ∧ HasLayout arrB (.array 4 1 8) := by
  obtain ⟨vs, ls, size, e1, e2, -, h⟩ := sSt_valid.rep
  cases e1; cases e2
  exact ⟨⟨_, _, h.1.2⟩, ⟨_, _, h.2.2.1.2⟩⟩

theorem elems : Elems arrB [(8, .array 4 2 12), (24, .array 4 1 8)] 0 32 :=
  ⟨by decide, arrB_layout.1, by decide, arrB_layout.2, (by decide : 24 + 8 ≤ 32)⟩

/-- All items of `iter_mut()`. -/
example : ∃ rs S', iterAll (iterMutNext arrB 0) [(8, .array 4 2 12), (24, .array 4 1 8)] T0 = some (rs, S') ∧ Returns T0 S' 0 rs [⟨true, 8, 12, arrB.im 8⟩, ⟨true, 24, 8, arrB.im 24⟩] :=
  C63_iter_mut T0_reach arrB_lib elems (T0_write 0 32 (by decide))

/-- A program: `push` an element, borrow it mutably, borrow its elements. -/
example : ∃ S1 S2 S3, Step 64 T0 (some S1) ∧ Step 64 S1 (some S2) ∧ Step 64 S2 (some S3) ∧ Reach 64 S3 := by
  have h1 : Step 64 T0 _ := .seqPush (C := arrB) (I := sizedInit D4 lenU16 []) (srcs := []) (t := 0) (bit := 60) (lo := 8) (l := .array 4 2 12) (.array D4_ok lenU16_ok) arrB_layout.1
    (by intro s hs; cases hs) (T0_write 8 12 (by decide)) (T0_write 60 1 (by decide))
  obtain ⟨S1, e1, i1⟩ := h1.ok T0_reach.inv
  rw [e1] at h1
  have r1 := T0_reach.step h1
  have hq : Quiet (seqPush 60 (sizedInit D4 lenU16 []) 0 8 (.array 4 2 12 : Layout 64)) T0 := by
    obtain ⟨v, o, hrep⟩ := arrB_layout.1
    refine Quiet.bind (.access (wr := false) T0_reach.inv (T0_write 60 1 (by decide)).canRead) ?_
    intro S1 hi1 hg1
    refine Quiet.bind (.access (wr := true) hi1 ((T0_write 60 1 (by decide)).quiet hg1)) ?_
    intro S2 hi2 hg2
    exact (LibBInit.array (pin := true) D4_ok lenU16_ok).ok S2 _ _ v _ o hrep hi2 (((T0_write 8 12 (by decide)).quiet hg1).quiet hg2) (by intro s hs; cases hs)
  obtain ⟨S1', e1', -, hg⟩ := hq
  rw [e1'] at e1; cases e1
  have hw1 := (T0_write 8 12 (by decide)).quiet hg
  obtain ⟨v, o, hrep⟩ := arrB_layout.1
  obtain ⟨r, S2, e2, g2⟩ := asMut_ok (C := arrB) (l := .array 4 2 12) (arrB_lib.ok.1.head v _ o hrep) i1 hw1
  have h2 : Step 64 S1' _ := .asMut (C := arrB) (t := 0) (lo := 8) (l := .array 4 2 12) arrB_lib arrB_layout.1 hw1
  rw [e2] at h2
  have r2 := r1.step h2
  have hw2 := g2.canWrite i1
  have h3 : Step 64 S2 _ := .mutSlice (pin := true) (R := D4) (L := lenU16) (t := r) (lo := 8) (l := .array 4 2 12) D4_ok lenU16_ok arrB_layout.1 hw2
  obtain ⟨S3, e3, -⟩ := h3.ok r2.inv
  rw [e3] at h3
  exact ⟨S1', S2, S3, h1, h2, h3, r2.step h3⟩

/-- Dropping a sequence with these two elements and a bitmask of 2 bytes. -/
example : fine (seqDrop arrB 0 32 2 [(8, .array 4 2 12), (24, .array 4 1 8)]) T0 = true := by decide +kernel

end Varlen.TB.Demo
