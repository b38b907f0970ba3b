import Verif.Props.Boxes
import Verif.Proofs.CloneSpec
/-! # C13, C14: cloning and copying -/
namespace Varlen
variable {w : Nat}

/-! ## C13 -/

/-- `x.vclone()` is an initializer that reports the layout of the original. Run in suitable storage (anywhere but in the allocation of the original): if the leaf
clones return, the destination holds the clone of the value (`ClonedBy`, Spec/Clone.lean); if one panics, so does the initialization. Either way
the original is still valid with its value, no destructor ran, and only bytes of the destination changed. -/
theorem C13_clone {T : VarLen w} {C : VClone w} (h : LibClone T C) {s : St} {p : Ptr} {v : V} {l : Layout w} (hv : Valid T s p v l) (hb : s.blk p.blk ≠ none) :
    ∃ I, C.vclone p v s = .ok I s ∧ I.cautious s = .ok (some l) s ∧
      ∀ d, Acc s d l.size.toNat → Aligned s d T.ALIGN.toNat → d.blk ≠ p.blk →
        (∃ v' s', ClonedBy T C v v' ∧ I.initTo d l s = .ok () s' ∧ Valid T s' d v' l ∧ Valid T s' p v l ∧ s'.log = s.log ∧
          Touch s s' d l.size.toNat (fun _ => False)) ∨
        ((∀ v', ¬ ClonedBy T C v v') ∧ ∃ m s', I.initTo d l s = .panic m s' ∧ Valid T s' p v l ∧ s'.log = s.log ∧ Touch s s' d l.size.toNat (fun _ => False)) := by
  obtain ⟨hT, hC⟩ := h.lib
  obtain ⟨I, e, hI, hpre, hlay, hmod, hfp, hval, _, hleft, hlost⟩ := hC.ok s p v l hv hb
  have hl := hI.calc_some hpre hlay
  have hown : ∀ b, ¬ I.owns b := fun b h => hmod b (hI.owns_mods b h)
  refine ⟨I, e, hl, fun d ha hal hd => ?_⟩
  have hs : Suitable T I s d l := ⟨hpre, hl, ha, hal, fun h => hd (hfp _ h)⟩
  have mono : ∀ {s' own}, (∀ b, ¬ own b) → Touch s s' d l.size.toNat own → Touch s s' d l.size.toNat (fun _ => False) := fun ho ht =>
    ht.mono (.inr ⟨rfl, by omega, by omega⟩) fun b hb => ho b hb
  have hne : p.blk ≠ d.blk := fun h => hd h.symm
  rcases hs.run hI with ⟨v', s', ev, e, ht, _, hval', hlog, _⟩ | ⟨m, s', ev, e, ht, _, hlog, _⟩
  · rw [hval] at ev
    exact .inl ⟨v', s', h.clonedBy v v' ev, e, hval', hv.of_touch hT.lawful ht (hown _) (.inl hne), by simpa [hleft] using hlog, mono hown ht⟩
  · rw [hval] at ev
    refine .inr ⟨fun v' hc => ?_, m, s', e, hv.of_touch hT.lawful ht (hmod _) (.inl hne), by simpa [hlost] using hlog, mono hmod ht⟩
    rw [hc.cloneV] at ev
    cases ev

/-- Plain data: when every leaf type's `clone()` returns an equal value, the clone of the whole equals the original. -/
theorem C13_clone_eq {T : VarLen w} {C : VClone w} (h : PlainClone T C) {s : St} {p : Ptr} {v : V} {l : Layout w} (hv : Valid T s p v l) :
    ClonedBy T C v v ∧ ∀ v', ClonedBy T C v v' → v' = v := by
  have e := h.self v l _ hv.rep
  refine ⟨h.lib.clonedBy v v e, fun v' hc => ?_⟩
  have := hc.cloneV
  rw [e] at this
  injection this with this
  exact this.symm

/-- Original and clone are independent: whatever is later done to the bytes of one of them does not affect the other. -/
theorem C13_independent {T : VarLen w} (hT : LibType T) {s s' : St} {p d : Ptr} {v v' : V} {l l' : Layout w} (hp : Valid T s p v l) (hd : Valid T s d v' l')
    (hb : d.blk ≠ p.blk) :
    (Touch s s' p l.size.toNat (fun _ => False) → Valid T s' d v' l') ∧ (Touch s s' d l'.size.toNat (fun _ => False) → Valid T s' p v l) :=
  ⟨fun ht => hd.of_touch hT.lawful ht (fun h => h) (.inl hb), fun ht => hp.of_touch hT.lawful ht (fun h => h) (.inl fun h => hb h.symm)⟩

/-- `VBox::clone`: a second box with its own fresh allocation holding the clone; the original box is intact, so both can be dropped. -/
theorem C13_vbox_clone (A : Allocator) {T : VarLen w} {C : VClone w} (h : LibClone T C) {s : St} {p : Ptr} {v v' : V} {l : Layout w} (hv : BoxHas T s p v l)
    (hc : ClonedBy T C v v') (h0 : l.size.toNat ≠ 0)
    (hA : pick w A s l.size.toNat T.ALIGN.toNat ≠ none) :
    ∃ d s', VBox.clone A T C p v s = .ok d s' ∧ BoxHas T s' d v' l ∧ BoxHas T s' p v l ∧ s.blk d.blk = none ∧ s'.log = s.log ∧ Unchanged s s' (fun _ => False) := by
  obtain ⟨hT, hC⟩ := h.lib
  obtain ⟨I, e, hI, hpre, hlay, hmod, hfp, hval, _, hleft, hlost⟩ := hC.ok s p v l hv.valid hv.blk
  rw [hc.cloneV] at hval
  have hown : ∀ b, ¬ I.owns b := fun b h => hmod b (hI.owns_mods b h)
  have hs := VBox.new_spec A hT.lawful hI hpre
  rw [hlay] at hs
  have hf := hv.fits
  simp only [hf, if_true, if_neg h0] at hs
  cases ek : pick w A s l.size.toNat T.ALIGN.toNat with
  | none => exact absurd ek hA
  | some base =>
    rw [ek, hval] at hs
    obtain ⟨s', e1, e2, e3, _, e5, _⟩ := hs
    have hsame : s'.blk p.blk = s.blk p.blk := by
      cases hB : s.blk p.blk with
      | none => exact absurd hB hv.blk
      | some B => exact e5 _ B hB (hown _)
    refine ⟨_, s', ?_, e2, ?_, St.blk_next s, by simpa [hleft] using e3, fun b B hB _ => e5 b B hB (hown b)⟩
    · simp only [VBox.clone, bind_apply, derefBox_ok hT.lawful hv.valid, Res.bind_ok, e, e1]
    · exact hv.of_same (on := fun b => b = p.blk) (by rintro b rfl; exact hsame) rfl

namespace Demo

/-- A tuple of an array of `u8` and a string. -/
abbrev TupC : VarLen 64 := Tuple 64 [Array 64 u8Ty lenU8, Str 64 lenU8]
/-- Its `vclone`. -/
abbrev TupCl : VClone 64 := Tuple.vclone [(Array 64 u8Ty lenU8, Array.vcloneI 64 u8Ty lenU8 some), (Str 64 lenU8, Str.vclone 64 lenU8)]

theorem TupCl_plain : PlainClone TupC TupCl :=
  .tuple (ts := [(Array 64 u8Ty lenU8, Array.vcloneI 64 u8Ty lenU8 some), (Str 64 lenU8, Str.vclone 64 lenU8)]) (by simp) (by
    intro t ht
    simp only [List.mem_cons, List.mem_nil_iff, or_false] at ht
    rcases ht with rfl | rfl
    · exact .array (u8Ty_ok (by decide)) lenU8_ok fun x _ => rfl
    · exact .str (by decide) lenU8_ok)

/-- A clone that is not the identity (increments) and can panic (on 255). -/
def incr : CloneFn := fun x => match x with
  | [some b] => if b = 255#8 then none else some [some (b + 1)]
  | _ => none

theorem incr_ok : incr.Ok u8Ty := by
  intro a b _ e
  unfold incr at e
  split at e
  · split at e
    · cases e
    · cases e; rfl
  · cases e

example : LibClone (Array 64 u8Ty lenU8) (Array.vcloneI 64 u8Ty lenU8 incr) := .array (u8Ty_ok (by decide)) lenU8_ok incr_ok

-- cloning a box of `[1, 2]` with that clone gives a box of `[2, 3]`; the original still reads `[1, 2]`
example : (okOf ((do
    let p ← VBox.new alloc (Array 64 u8Ty lenU8) (SizedInit 64 u8Ty lenU8 (encLE 1 2) (MoveFrom u8Ty [encLE 1 1, encLE 1 2]))
    let d ← VBox.clone alloc (Array 64 u8Ty lenU8) (Array.vcloneI 64 u8Ty lenU8 incr) p (.arr [encLE 1 1, encLE 1 2])
    let a ← Array.deref 64 u8Ty lenU8 p
    let x ← Slice.read u8Ty a
    let b ← Array.deref 64 u8Ty lenU8 d
    let y ← Slice.read u8Ty b
    pure (x, y)) st0)).map (fun r => r.1) = some ([encLE 1 1, encLE 1 2], [encLE 1 2, encLE 1 3]) := by decide +kernel

/-- A box of an array, as the theorem about `VBox::clone` requires. -/
theorem u8_box : ∃ s p, BoxHas (Array 64 u8Ty lenU8) s p (.arr [encLE 1 1, encLE 1 2]) (.array 1 2 3) ∧
    pick 64 alloc s 3 (Array 64 u8Ty lenU8).ALIGN.toNat ≠ none := by
  have hI : LibInit (Array 64 u8Ty lenU8) (SizedInit 64 u8Ty lenU8 (encLE 1 2) (MoveFrom u8Ty [encLE 1 1, encLE 1 2])) :=
    .sized (u8Ty_ok (by decide)) lenU8_ok (encLE_valid lenU8 _) (.moveFrom (by
      intro x hx
      simp only [List.mem_cons, List.mem_nil_iff, or_false] at hx
      rcases hx with rfl | rfl <;> rfl))
  have hs := VBox.new_spec alloc hI.lib.1.lawful hI.lib.2 (s := st0) trivial
  obtain ⟨p, s', e, hk⟩ := ok_of_map (r := VBox.new alloc (Array 64 u8Ty lenU8) (SizedInit 64 u8Ty lenU8 (encLE 1 2) (MoveFrom u8Ty [encLE 1 1, encLE 1 2])) st0)
    (f := fun r => (pick 64 alloc r.2 3 (Array 64 u8Ty lenU8).ALIGN.toNat).isSome) (b := true) (by decide +kernel)
  rcases C10_vbox_new alloc hI (s := st0) trivial (l := .array 1 2 3) rfl (by decide) (by decide) (by decide +kernel) with
    ⟨p', s'', v, e', hv, h1, h2, _⟩ | ⟨m, s'', e', _⟩
  · rw [e] at e'
    cases e'
    cases hv
    refine ⟨s', p, ⟨h1, h2, by decide⟩, ?_⟩
    intro h
    simp [h] at hk
  · rw [e] at e'
    cases e'

example : ∃ s p v' , BoxHas (Array 64 u8Ty lenU8) s p (.arr [encLE 1 1, encLE 1 2]) (.array 1 2 3) ∧
    ClonedBy (Array 64 u8Ty lenU8) (Array.vcloneI 64 u8Ty lenU8 incr) (.arr [encLE 1 1, encLE 1 2]) v' ∧ v' = .arr [encLE 1 2, encLE 1 3] :=
  let ⟨s, p, h, _⟩ := u8_box
  ⟨s, p, _, h, LibClone.clonedBy (.array (u8Ty_ok (by decide)) lenU8_ok incr_ok) _ _ rfl, rfl⟩

end Demo

/-! ## C14 -/

/-- `x.vcopy()` reports the layout of the original; run in suitable storage it writes exactly the bytes of the original, so the destination holds the same value with the same
layout. The original is still valid, no destructor runs, and only bytes of the destination change. (The trait `VCopy` restricts this to types whose leaves are `Copy`; the
statement does not need that.) -/
theorem C14_vcopy {T : VarLen w} (hT : LibType T) {s : St} {p d : Ptr} {v : V} {l : Layout w} (hv : Valid T s p v l) (hp : s.blk p.blk ≠ none)
    (ha : Acc s d l.size.toNat) (hal : Aligned s d T.ALIGN.toNat) (hb : d.blk ≠ p.blk) :
    (VCopier T p v l).cautious s = .ok (some l) s ∧
    ∃ s', (VCopier T p v l).initTo d l s = .ok () s' ∧ takeV (viewAt s' d) 0 l.size.toNat = takeV (viewAt s p) 0 l.size.toNat ∧
      Valid T s' d v l ∧ Valid T s' p v l ∧ T.calculateLayout d s' = .ok l s' ∧ s'.log = s.log ∧ Touch s s' d l.size.toNat (fun _ => False) := by
  have hI := VCopier_lawful hT.lawful (src := p) (v := v) (l := l)
  refine ⟨hI.calc_some ⟨hv, hp⟩ rfl, ?_⟩
  obtain ⟨s', e, ht, _, hr, hlog, _⟩ := hI.init_ok s d l v ⟨hv, hp⟩ rfl rfl ha hal (fun h' => hb h')
  have hd : Valid T s' d v l := ⟨ht.acc (fun h => h) ha, ht.aligned (fun h => h) hal, hr⟩
  refine ⟨s', e, ?_, hd, hv.of_touch hT.lawful ht (fun h => h) (.inl fun h => hb h.symm), hT.lawful.calc_ok _ _ _ _ hd, by simpa [VCopier] using hlog, ht⟩
  have hlen : (takeV (viewAt s p) 0 l.size.toNat).length = l.size.toNat := by simp [takeV]
  have e' : (VCopier T p v l).initTo d l s = .ok () (s.write d (takeV (viewAt s p) 0 l.size.toNat)) :=
    copyNonoverlapping_ok (Aligned.one _ _) (Aligned.one _ _) hv.acc ha (.inr (.inl fun h' => hb h'.symm))
  rw [e'] at e
  injection e with _ e
  subst e
  have := takeV_viewAt_write (s := s) (p := d) (img := takeV (viewAt s p) 0 l.size.toNat) (by rw [hlen]; exact ha)
  rwa [hlen] at this

namespace Demo
-- copying the struct of one box into another; its `Valid` hypotheses are met by `box_has`
example : (okOf ((do
    let p ← VBox.new alloc S (sInit 7 3 [1, 2] [10, 11, 12] [5])
    let v : V := .node [.leaf (d4 7), .leaf (encLE 1 3), .arr [d4 1, d4 2], .arr [encLE 1 10, encLE 1 11, encLE 1 12], .arr [d4 5]]
    let d ← VBox.new alloc S (VCopier S p v (.fields 32 [(8, .array 4 2 12), (20, .len 3), (24, .array 4 1 8)]))
    let a ← readBytes p 32
    let b ← readBytes d 32
    pure (decide (a = b), decide (p = d), a.length)) st0)).map (fun r => r.1) = some (true, false, 32) := by decide +kernel
end Demo

end Varlen
