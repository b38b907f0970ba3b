import Verif.Props.Demo
import Verif.Proofs.NoDrop
/-! # C10–C12, C15–C18, C42, C46: `VBox` and `Owned` -/
namespace Varlen
variable {w : Nat}

/-- All memory that existed in `s` and is not in one of the blocks `except` is the same in `s'` (contents, address, size, liveness). -/
def Unchanged (s s' : St) (except : Nat → Prop) : Prop := ∀ b B, s.blk b = some B → ¬ except b → s'.blk b = some B

/-- The allocation `b` is freed in `s`. -/
def Freed (s : St) (b : Nat) : Prop := ∃ B, s.blk b = some B ∧ B.live = false

/-! ## C10 -/

/-- `VBox::new(init)`, when the layout overflows `usize` (the initializer reports `None`), the allocation would exceed `isize::MAX` bytes, or the layout computation panics: panics; the only thing that has
happened to the state is that the initializer was dropped (`Dropped`): nothing was allocated, nothing written, every value held by `init` destroyed and every box it owned freed. -/
theorem C10_overflow_panics (A : Allocator) {T : VarLen w} {I : Init w} (h : LibInit T I) {s : St} (hp : I.pre s) :
    (I.cautious s = .ok none s → ∃ s', VBox.new A T I s = .panic .layoutOverflow s' ∧ Dropped I s s') ∧
    (∀ l, I.cautious s = .ok (some l) s → isizeMax w < l.size.toNat + (T.ALIGN.toNat - 1) →
      ∃ s', VBox.new A T I s = .panic .layoutOverflow s' ∧ Dropped I s s') ∧
    (∀ m s1, I.cautious s = .panic m s1 → ∃ s', VBox.new A T I s = .panic m s' ∧ Dropped I s s') := by
  obtain ⟨hT, hI⟩ := h.lib
  have hs := VBox.new_spec A hT.lawful hI hp
  refine ⟨?_, ?_, ?_⟩
  · intro e
    obtain ⟨e, hb⟩ := hI.of_cautious hp e
    rw [e, hb] at hs
    exact hs
  · intro l e hbig
    obtain ⟨e, _⟩ := hI.of_cautious hp e
    rw [e] at hs
    have : fromSizeAlign w l.size.toNat T.ALIGN.toNat = false := by simp [fromSizeAlign]; omega
    simp only [this, Bool.false_eq_true, if_false] at hs
    exact hs
  · intro m s1 e
    rcases hI.cautious_cases hp with ⟨h1, _⟩ | ⟨h1, h2, h3⟩
    · rw [h1] at e; cases e
    · rw [h1] at e
      cases e
      rw [h3, h2] at hs
      exact hs

/-- Otherwise, if the size is not zero and the allocator provides memory: either `VBox::new` returns a pointer to a fresh allocation of exactly `size()` bytes with alignment
`ALIGN`, which holds the value described by `init` with the layout it reported; or `init`'s code itself panics. In both cases boxes owned by `init` are freed, no other memory changes (in the second case except storage of
values that `init` owned), and destructors run only for values held by `init` that did not become part of the new value (`left`, `lost`; see C51). -/
theorem C10_vbox_new (A : Allocator) {T : VarLen w} {I : Init w} (h : LibInit T I) {s : St} (hp : I.pre s) {l : Layout w} (hl : I.cautious s = .ok (some l) s)
    (hfit : l.size.toNat + (T.ALIGN.toNat - 1) ≤ isizeMax w) (h0 : l.size.toNat ≠ 0) (hA : pick w A s l.size.toNat T.ALIGN.toNat ≠ none) :
    (∃ p s' v, VBox.new A T I s = .ok p s' ∧ I.val = some v ∧ Valid T s' p v l ∧ ownsAlloc s' p l.size.toNat T.ALIGN.toNat ∧
      T.calculateLayout p s' = .ok l s' ∧ s.blk p.blk = none ∧ Unchanged s s' I.owns ∧ (∀ b, I.owns b → Freed s' b) ∧ s'.log = s.log ++ I.left) ∨
    (∃ m s', VBox.new A T I s = .panic m s' ∧ I.val = none ∧ Unchanged s s' I.mods ∧ (∀ b, I.owns b → Freed s' b) ∧ s'.log = s.log ++ I.lost) := by
  obtain ⟨hT, hI⟩ := h.lib
  have hs := VBox.new_spec A hT.lawful hI hp
  rw [(hI.of_cautious hp hl).1] at hs
  have : fromSizeAlign w l.size.toNat T.ALIGN.toNat = true := by simp [fromSizeAlign]; omega
  simp only [this, if_true, if_neg h0] at hs
  cases e : pick w A s l.size.toNat T.ALIGN.toNat with
  | none => exact absurd e hA
  | some base =>
    rw [e] at hs
    simp only at hs
    cases hv : I.val with
    | some v =>
      rw [hv] at hs
      obtain ⟨s', e1, e2, e3, e4, e5, e6⟩ := hs
      exact .inl ⟨_, s', v, e1, rfl, e2.valid, e2.owns, hT.lawful.calc_ok _ _ _ _ e2.valid, St.blk_next s, e5, e6, e3⟩
    | none =>
      rw [hv] at hs
      obtain ⟨m, s', e1, e2, e3, e4, e5⟩ := hs
      exact .inr ⟨m, s', e1, rfl, e4, e5, e2⟩

namespace Demo

theorem box_struct : ∃ p s', VBox.new alloc S (sInit 7 3 [1, 2] [10, 11, 12] [5]) st0 = .ok p s' :=
  of_okOf (by decide +kernel)

example : ∃ l, (sInit 7 3 [1, 2] [10, 11, 12] [5]).pre st0 ∧ (sInit 7 3 [1, 2] [10, 11, 12] [5]).cautious st0 = .ok (some l) st0 ∧
    l.size.toNat + (S.ALIGN.toNat - 1) ≤ isizeMax 64 ∧ l.size.toNat ≠ 0 ∧ pick 64 alloc st0 l.size.toNat S.ALIGN.toNat ≠ none :=
  ⟨.fields 32 [(8, .array 4 2 12), (20, .len 3), (24, .array 4 1 8)], sInit_pre .., rfl, by decide, by decide, by decide +kernel⟩

/-- A box holding the struct exists. -/
theorem box_has : ∃ s p v l, BoxHas S s p v l ∧ v = .node [.leaf (d4 7), .leaf (encLE 1 3), .arr [d4 1, d4 2], .arr [encLE 1 10, encLE 1 11, encLE 1 12], .arr [d4 5]] := by
  rcases C10_vbox_new alloc (sInit_lib 7 3 [1, 2] [10, 11, 12] [5]) (s := st0) (sInit_pre ..)
    (l := .fields 32 [(8, .array 4 2 12), (20, .len 3), (24, .array 4 1 8)]) rfl (by decide) (by decide) (by decide +kernel) with
    ⟨p, s', v, _, hv, h1, h2, _⟩ | ⟨m, s', _, hv, _⟩
  · refine ⟨s', p, v, _, ⟨h1, h2, by decide⟩, ?_⟩
    have : (sInit 7 3 [1, 2] [10, 11, 12] [5]).val =
      some (.node [.leaf (d4 7), .leaf (encLE 1 3), .arr [d4 1, d4 2], .arr [encLE 1 10, encLE 1 11, encLE 1 12], .arr [d4 5]]) := rfl
    rw [this] at hv
    cases hv
    rfl
  · exact absurd hv (by decide +kernel)

end Demo

/-! ## C11 -/

/-- Dropping a `VBox`: the destructors owed for the value run once, in order; the allocation is freed (`dealloc` is called with the size and alignment it was allocated with,
or the model would report undefined behaviour); no other memory changes. -/
theorem C11_vbox_drop {T : VarLen w} (hT : LibType T) {s : St} {p : Ptr} {v : V} {l : Layout w} (h : BoxHas T s p v l) :
    ∃ s', VBox.drop T p s = .ok () s' ∧ s'.log = s.log ++ T.drops v ∧ Freed s' p.blk ∧ (∀ b, b ≠ p.blk → s'.blk b = s.blk b) := by
  obtain ⟨s', h1, h2, _, h3, h4⟩ := VBox.drop_spec hT.lawful h
  exact ⟨s', h1, h2, h4, h3⟩

/-- New, then drop, as one program. -/
theorem C11_new_drop (A : Allocator) {T : VarLen w} {I : Init w} (h : LibInit T I) {s : St} (hp : I.pre s) {p : Ptr} {s1 : St} (e : VBox.new A T I s = .ok p s1) :
    ∃ v s2, I.val = some v ∧ VBox.drop T p s1 = .ok () s2 ∧ s2.log = s.log ++ I.left ++ T.drops v ∧ Freed s2 p.blk ∧ Unchanged s s2 I.owns := by
  obtain ⟨hT, hI⟩ := h.lib
  have hs := VBox.new_spec A hT.lawful hI hp
  cases hl : I.lay with
  | none => rw [hl] at hs; obtain ⟨s', e1, _⟩ := hs; rw [e1] at e; cases e
  | some l =>
    rw [hl] at hs
    simp only at hs
    split at hs
    · split at hs
      · rw [hs] at e; cases e
      · cases hk : pick w A s l.size.toNat T.ALIGN.toNat with
        | none => rw [hk] at hs; simp only at hs; rw [hs] at e; cases e
        | some base =>
          rw [hk] at hs
          simp only at hs
          cases hv : I.val with
          | none => rw [hv] at hs; obtain ⟨m, s', e1, _⟩ := hs; rw [e1] at e; cases e
          | some v =>
            rw [hv] at hs
            obtain ⟨s', e1, e2, e3, e4, e5, e6⟩ := hs
            rw [e1] at e
            cases e
            obtain ⟨s2, d1, d2, d3, d4⟩ := C11_vbox_drop hT e2
            refine ⟨v, s2, rfl, d1, by rw [d2, e3], d3, fun b B hB ho => ?_⟩
            have hne : b ≠ s.next := by
              rintro rfl
              rw [St.blk_next] at hB
              cases hB
            rw [d4 b hne, e5 b B hB ho]
    · obtain ⟨s', e1, _⟩ := hs; rw [e1] at e; cases e

-- the struct of the example owes the drops of its `D4`s, in field order
example : Demo.S.drops (.node [.leaf (Demo.d4 7), .leaf (encLE 1 3), .arr [Demo.d4 1, Demo.d4 2], .arr [encLE 1 10, encLE 1 11, encLE 1 12], .arr [Demo.d4 5]]) = [7, 1, 2, 5] := by
  decide +kernel

/-! ## C12 -/

/-- A `VBox` as an initializer: constructing from it in suitable storage writes the same bytes there, hence the same value with the same layout; no destructor
runs; exactly the source allocation is freed and no other memory changes. -/
theorem C12_vbox_moves {T : VarLen w} (hT : LibType T) {s : St} {p d : Ptr} {v : V} {l : Layout w} (h : BoxHas T s p v l) (ha : Acc s d l.size.toNat)
    (hal : Aligned s d T.ALIGN.toNat) (hb : d.blk ≠ p.blk) :
    (VBox.init T p v l).cautious s = .ok (some l) s ∧
    ∃ s', (VBox.init T p v l).initTo d l s = .ok () s' ∧ takeV (viewAt s' d) 0 l.size.toNat = takeV (viewAt s p) 0 l.size.toNat ∧ Valid T s' d v l ∧
      s'.log = s.log ∧ Freed s' p.blk ∧ Touch s s' d l.size.toNat (fun b => b = p.blk) := by
  have hI := VBox.init_lawful hT.lawful (p := p) (v := v) (l := l)
  refine ⟨hI.calc_some h rfl, ?_⟩
  obtain ⟨s', e, ht, hf, hr, hlog, _⟩ := hI.init_ok s d l v h rfl rfl ha hal (fun h' => hb h')
  refine ⟨s', e, ?_, ⟨ht.acc hb ha, ht.aligned hb hal, hr⟩, by simpa [VBox.init] using hlog, hf _ rfl, ht⟩
  have hlen : (takeV (viewAt s p) 0 l.size.toNat).length = l.size.toNat := by simp [takeV]
  have e' : (VBox.init T p v l).initTo d l s =
      .ok () ((s.write d (takeV (viewAt s p) 0 l.size.toNat)).free p.blk) := by
    have ho : ownsAlloc (s.write d (takeV (viewAt s p) 0 l.size.toNat)) p l.size.toNat T.ALIGN.toNat :=
      h.owns.of_touch (Touch.write (own := fun _ => False)) (fun h => h)
    simp only [VBox.init, bind_apply, layoutUnchecked, h.fits, if_true, copyNonoverlapping_ok (Aligned.one _ _) (Aligned.one _ _) h.valid.acc ha (.inr (.inl fun h' => hb h'.symm)), Res.bind_ok]
    exact deallocM_ok ho
  rw [e'] at e
  injection e with _ e
  subst e
  have hv : viewAt ((s.write d (takeV (viewAt s p) 0 l.size.toNat)).free p.blk) d = viewAt (s.write d (takeV (viewAt s p) 0 l.size.toNat)) d := by
    obtain ⟨_, B, hB, _⟩ := h.owns.of_touch (Touch.write (s := s) (p := d) (img := takeV (viewAt s p) 0 l.size.toNat) (own := fun _ => False)) (fun h => h)
    funext i
    simp only [viewAt, St.blk_free hB, if_neg hb]
  rw [hv]
  have := takeV_viewAt_write (s := s) (p := d) (img := takeV (viewAt s p) 0 l.size.toNat) (by rw [hlen]; exact ha)
  rwa [hlen] at this

namespace Demo
-- moving a box into a new box: one destructor run per value, in total
example : (okOf ((do
    let p ← VBox.new alloc ArrT (arrInit [1, 2, 3])
    let q ← VBox.new alloc ArrT (VBox.init ArrT p (.arr [d4 1, d4 2, d4 3]) (.array 4 3 16))
    VBox.drop ArrT q) st0)).map (fun r => (r.2.log, r.2.blocks.map (·.live))) = some ([1, 2, 3], [false, false]) := by decide +kernel
end Demo

/-! ## C15 -/

/-- Dropping an `Owned`: each destructor owed runs once, in order; only bytes of the object change; no allocation is freed or changes size or address. -/
theorem C15_owned_drop {T : VarLen w} (hT : LibType T) {s : St} {p : Ptr} {v : V} {l : Layout w} (h : Valid T s p v l) :
    ∃ s', Owned.drop T p s = .ok () s' ∧ s'.log = s.log ++ T.drops v ∧ Touch s s' p l.size.toNat (fun _ => False) ∧
      ∀ b B, s.blk b = some B → ∃ B', s'.blk b = some B' ∧ B'.live = B.live ∧ B'.size = B.size ∧ B'.base = B.base := by
  obtain ⟨s', h1, h2, h3, _⟩ := Owned.drop_spec hT.lawful h
  refine ⟨s', h1, h3, h2, fun b B hB => ?_⟩
  obtain ⟨d, hd, _⟩ := h2.blk b (fun h => h) B hB
  exact ⟨_, hd, rfl, rfl, rfl⟩

example : ∃ s p v l, Valid Demo.S s p v l ∧ Demo.S.drops v = [7, 1, 2, 5] :=
  let ⟨s, p, v, l, h, hv⟩ := Demo.box_has
  ⟨s, p, v, l, h.valid, by rw [hv]; decide +kernel⟩

/-! ## C16 -/

/-- `Owned::leak` does give up the value's destructors: it RUNS them. Building an array of three droppable values in an arena and leaking it logs the three drops, and the
returned reference points to destroyed values: reading them is undefined behaviour. -/
theorem C16_leak_drops : ∃ p s, Owned.newIn Demo.alloc Demo.ArrT (Demo.arrInit [1, 2, 3]) Demo.st0 = .ok p s ∧ s.log = [] ∧
    ∃ s', Owned.leak Demo.ArrT p s = .ok p s' ∧ s'.log = [1, 2, 3] ∧
      ((do let sl ← Array.deref 64 Demo.D4 Demo.lenU16 p; sl.get Demo.D4 0) s' : Res St Img) = .ub .invalidValue := by
  obtain ⟨p, s, e, h⟩ := Demo.ok_of_map (r := Owned.newIn Demo.alloc Demo.ArrT (Demo.arrInit [1, 2, 3]) Demo.st0) (f := fun r => (r.1, r.2.log)) (b := (⟨1, 0⟩, []))
    (by decide +kernel)
  simp only [Prod.mk.injEq] at h
  obtain ⟨rfl, hlog⟩ := h
  have h2 : (do let p ← Owned.newIn Demo.alloc Demo.ArrT (Demo.arrInit [1, 2, 3]); Owned.leak Demo.ArrT p : M Ptr) Demo.st0 = Owned.leak Demo.ArrT ⟨1, 0⟩ s := by
    rw [bind_apply, e, Res.bind_ok]
  obtain ⟨q, s', e', h'⟩ := Demo.ok_of_map (r := (do let p ← Owned.newIn Demo.alloc Demo.ArrT (Demo.arrInit [1, 2, 3]); Owned.leak Demo.ArrT p : M Ptr) Demo.st0)
    (f := fun r => (r.1, r.2.log, Demo.ubOf ((do let sl ← Array.deref 64 Demo.D4 Demo.lenU16 r.1; sl.get Demo.D4 0 : M Img) r.2)))
    (b := (⟨1, 0⟩, [1, 2, 3], some .invalidValue)) (by decide +kernel)
  simp only [Prod.mk.injEq] at h'
  obtain ⟨rfl, hlog', hub⟩ := h'
  rw [h2] at e'
  refine ⟨⟨1, 0⟩, s, e, hlog, s', e', hlog', ?_⟩
  revert hub
  cases (do let sl ← Array.deref 64 Demo.D4 Demo.lenU16 ⟨1, 0⟩; sl.get Demo.D4 0 : M Img) s' with
  | ok => intro h; cases h
  | panic => intro h; cases h
  | ub k => intro h; cases h; rfl

/-- In general: `leak` runs exactly the destructors that dropping would. -/
theorem C16_leak_is_drop {T : VarLen w} (hT : LibType T) {s : St} {p : Ptr} {v : V} {l : Layout w} (h : Valid T s p v l) :
    ∃ s', Owned.leak T p s = .ok p s' ∧ Owned.drop T p s = .ok () s' ∧ s'.log = s.log ++ T.drops v := by
  obtain ⟨s', h1, _, h2, _⟩ := Owned.drop_spec hT.lawful h
  refine ⟨s', ?_, h1, h2⟩
  simp only [Owned.leak, bind_apply, derefBox_ok hT.lawful h, Res.bind_ok, h1, pure_apply]

/-- What does hold: for types without anything to drop, `leak` returns a reference to the still valid value and changes nothing. (Missing: types with destructors,
where the claim is false by `C16_leak_drops`.) -/
theorem C16_leak_partial {T : VarLen w} (hT : NoDrop T) {s : St} {p : Ptr} {v : V} {l : Layout w} (h : Valid T s p v l) :
    Owned.leak T p s = .ok p s ∧ Valid T s p v l := by
  have hL := hT.lib.lawful
  refine ⟨?_, h⟩
  simp only [Owned.leak, Owned.drop, bind_apply, derefBox_ok hL h, hL.calc_ok _ _ _ _ h, Res.bind_ok, hT.vdrop _ _ _ _ h, pure_apply]

/-! ## C17 -/

/-- A tuple of one droppable value: its head has size 0. -/
abbrev Demo.Tup : VarLen 64 := Tuple 64 [FixedLen 64 Demo.D4]

/-- The claim fails. `VBox::new(Owned::new_in(init, &bump))` for an array with `u16` length (head size 2) is undefined behaviour: `initialize` copies `size() * 2`
bytes. For a tuple (head size 0) it copies nothing: the box is returned with uninitialised contents, and reading it is undefined behaviour. -/
theorem C17_owned_init_broken :
    (do let p ← Owned.newIn Demo.alloc Demo.ArrT (Demo.arrInit [1, 2, 3])
        VBox.new Demo.alloc Demo.ArrT (Owned.init Demo.ArrT p (.arr [Demo.d4 1, Demo.d4 2, Demo.d4 3]) (.array 4 3 16)) : M Ptr) Demo.st0 = .ub .outOfBounds ∧
    ∃ p s, (do let p ← Owned.newIn Demo.alloc Demo.Tup (Tuple.init [(FixedLen 64 Demo.D4, FixedLen.init 64 Demo.D4 (Demo.d4 5))])
               VBox.new Demo.alloc Demo.Tup (Owned.init Demo.Tup p (.node [.leaf (Demo.d4 5)]) (.fields 4 [(0, .fixed 4)])) : M Ptr) Demo.st0 = .ok p s ∧
      readVal Demo.D4 p s = .ub .invalidValue := by
  constructor
  · have : Demo.ubOf ((do let p ← Owned.newIn Demo.alloc Demo.ArrT (Demo.arrInit [1, 2, 3])
                          VBox.new Demo.alloc Demo.ArrT (Owned.init Demo.ArrT p (.arr [Demo.d4 1, Demo.d4 2, Demo.d4 3]) (.array 4 3 16)) : M Ptr) Demo.st0) = some .outOfBounds := by
      decide +kernel
    revert this
    cases (do let p ← Owned.newIn Demo.alloc Demo.ArrT (Demo.arrInit [1, 2, 3])
              VBox.new Demo.alloc Demo.ArrT (Owned.init Demo.ArrT p (.arr [Demo.d4 1, Demo.d4 2, Demo.d4 3]) (.array 4 3 16)) : M Ptr) Demo.st0 with
    | ok => intro h; cases h
    | panic => intro h; cases h
    | ub k => intro h; cases h; rfl
  · obtain ⟨p, s, e, h⟩ := Demo.ok_of_map
      (r := (do let p ← Owned.newIn Demo.alloc Demo.Tup (Tuple.init [(FixedLen 64 Demo.D4, FixedLen.init 64 Demo.D4 (Demo.d4 5))])
                VBox.new Demo.alloc Demo.Tup (Owned.init Demo.Tup p (.node [.leaf (Demo.d4 5)]) (.fields 4 [(0, .fixed 4)])) : M Ptr) Demo.st0)
      (f := fun r => Demo.ubOf (readVal Demo.D4 r.1 r.2)) (b := some .invalidValue) (by decide +kernel)
    refine ⟨p, s, e, ?_⟩
    simp only at h
    revert h
    cases readVal Demo.D4 p s with
    | ok => intro h; cases h
    | panic => intro h; cases h
    | ub k => intro h; cases h; rfl

/-- The first failure is not special: for every type whose head is at least 2 bytes, moving a non-empty object out of an allocation of exactly its size is undefined behaviour. -/
theorem C17_owned_init_out_of_bounds {T : VarLen w} (hT : LibType T) (hh : 2 ≤ T.headSize) {s : St} {p d : Ptr} {v : V} {l : Layout w} (h : Valid T s p v l)
    (h0 : l.size.toNat ≠ 0) (hown : ownsAlloc s p l.size.toNat T.ALIGN.toNat) (hal : Aligned s d T.ALIGN.toNat) :
    (Owned.init T p v l).initTo d l s = .ub .outOfBounds := by
  have hL := hT.lawful
  have hna : ¬ Acc s p (l.size.toNat * T.headSize) := by
    rintro (h1 | ⟨B, hB, _, h2⟩)
    · rcases Nat.mul_eq_zero.1 h1 with h | h <;> omega
    · obtain ⟨_, B', hB', _, hs, _⟩ := hown
      rw [hB] at hB'
      cases hB'
      have := Nat.mul_le_mul_left l.size.toNat hh
      omega
  simp only [Owned.init, copyNonoverlapping, bind_apply, checkAlign_ok (h.aligned.of_dvd hL.head_align), Res.bind_ok, checkAlign_ok (hal.of_dvd hL.head_align),
    readBytes, if_neg hna, Res.bind_ub]

theorem copy_oob {s : St} {src dst : Ptr} {a n : Nat} (hs : Aligned s src a) (hd : Aligned s dst a) (hb : src.blk ≠ dst.blk) (hn : ¬ Acc s dst n) : copyNonoverlapping src dst a n s = .ub .outOfBounds := by
  unfold copyNonoverlapping
  simp only [bind_apply, checkAlign_ok hs, checkAlign_ok hd, Res.bind_ok, readBytes]
  split
  · have hlen : (takeV (viewAt s src) 0 n).length = n := by simp [takeV]
    rw [Res.bind_ok, if_neg (fun h => hb h.2.1)]
    simp only [writeBytes]
    rw [if_neg (by rw [hlen]; exact hn)]
  · rfl

/-- Nor is the allocation that the object comes from: for every type whose head is at least 2 bytes, `VBox::new(owned)` of a non-empty object is undefined behaviour, whatever is behind the object. -/
theorem C17_box_of_owned_undefined (A : Allocator) {T : VarLen w} (hT : LibType T) (hh : 2 ≤ T.headSize) {s : St} {p : Ptr} {v : V} {l : Layout w} (h : Valid T s p v l)
    (hp : s.blk p.blk ≠ none) (h0 : l.size.toNat ≠ 0) (hfit : l.size.toNat + (T.ALIGN.toNat - 1) ≤ isizeMax w) (hA : pick w A s l.size.toNat T.ALIGN.toNat ≠ none) :
    VBox.new A T (Owned.init T p v l) s = .ub .outOfBounds := by
  have hL := hT.lawful
  have hc : (Owned.init T p v l).cautious s = .ok (some l) s := by
    simp [Owned.init, derefBox_ok hL h, hL.calc_ok _ _ _ _ h]
  have hf : fromSizeAlign w l.size.toNat T.ALIGN.toNat = true := by
    simp only [fromSizeAlign, decide_eq_true_eq]; omega
  cases hk : pick w A s l.size.toNat T.ALIGN.toNat with
  | none => exact absurd hk hA
  | some base =>
    have hne : p.blk ≠ s.next := by intro e; rw [e, St.blk_next] at hp; exact hp rfl
    have hb : (s.push ⟨base, l.size.toNat, T.ALIGN.toNat, true, fun _ => none⟩).blk s.next = some ⟨base, l.size.toNat, T.ALIGN.toNat, true, fun _ => none⟩ := by
      rw [St.blk_push, if_pos rfl]
    have hv : Valid T (s.push ⟨base, l.size.toNat, T.ALIGN.toNat, true, fun _ => none⟩) p v l :=
      h.of_same (on := fun b => b = p.blk) (by
        intro b hb
        rw [hb, St.blk_push, if_neg hne]) rfl
    have ha : Aligned (s.push ⟨base, l.size.toNat, T.ALIGN.toNat, true, fun _ => none⟩) ⟨s.next, 0⟩ T.ALIGN.toNat := by
      unfold Aligned St.addr
      rw [hb]
      simpa using (pick_some hk).2.1
    have hna : ¬ Acc (s.push ⟨base, l.size.toNat, T.ALIGN.toNat, true, fun _ => none⟩) ⟨s.next, 0⟩ (l.size.toNat * T.headSize) := by
      have := Nat.mul_le_mul_left l.size.toNat hh
      rintro (h1 | ⟨B, hB, _, h2⟩)
      · omega
      · rw [hb] at hB
        cases hB
        simp only at h2
        omega
    have hi : (Owned.init T p v l).initTo ⟨s.next, 0⟩ l (s.push ⟨base, l.size.toNat, T.ALIGN.toNat, true, fun _ => none⟩) = .ub .outOfBounds :=
      copy_oob (hv.aligned.of_dvd hL.head_align) (ha.of_dvd hL.head_align) hne hna
    unfold VBox.new
    simp only [bind_apply, onUnwind_ok hc, Res.bind_ok, hf, if_true, allocM, if_neg h0, reduceCtorEq, if_false, hk, hi, Res.bind_ub]

-- the struct of Demo, in a block of 64 bytes of which it occupies 32
example : VBox.new Demo.alloc Demo.S (Owned.init Demo.S Demo.p1 (.node Demo.sVal) Demo.sLay) Demo.sSt = .ub .outOfBounds :=
  C17_box_of_owned_undefined Demo.alloc Demo.S_lib (by decide) Demo.sSt_valid (Option.isSome_iff_ne_none.1 (by decide +kernel)) (by decide) (by decide) (Option.isSome_iff_ne_none.1 (by decide +kernel))

/-- And for every type whose head is zero-sized (tuples), nothing is copied: the destination keeps whatever bytes it had. -/
theorem C17_empty_head_copies_nothing {T : VarLen w} (hT : LibType T) (hh : T.headSize = 0) {s : St} {p d : Ptr} {v : V} {l : Layout w} (h : Valid T s p v l)
    (hal : Aligned s d T.ALIGN.toNat) : ∃ s', (Owned.init T p v l).initTo d l s = .ok () s' ∧ ∀ b i, (s'.blk b).map (·.data i) = (s.blk b).map (·.data i) := by
  have hL := hT.lawful
  refine ⟨s.write d [], ?_, fun b i => ?_⟩
  · simp only [Owned.init, hh, Nat.mul_zero, copyNonoverlapping, bind_apply, checkAlign_ok (h.aligned.of_dvd hL.head_align), checkAlign_ok (hal.of_dvd hL.head_align), Res.bind_ok,
      readBytes]
    rw [if_pos (show Acc s p 0 from Or.inl rfl), Res.bind_ok]
    simp [takeV, writeBytes, Acc]
  · unfold St.write
    split
    · rename_i B hB
      have ho : overwrite B.data d.off [] = B.data := by
        funext i
        unfold overwrite
        rw [if_neg (by simp)]
      rw [ho]
      by_cases hb : b = d.blk
      · subst hb
        cases hk : d.blk with
        | zero => rw [hk] at hB; cases hB
        | succ n =>
          rw [hk] at hB
          simp only [St.blk, St.setBlk] at hB ⊢
          have hlt : n < s.blocks.length := by
            rcases Nat.lt_or_ge n s.blocks.length with h | h
            · exact h
            · rw [List.getElem?_eq_none h] at hB; cases hB
          have hg : s.blocks[n] = B := by rw [List.getElem?_eq_getElem hlt] at hB; exact Option.some.inj hB
          simp [hlt, hg]
      · cases b with
        | zero => rfl
        | succ m =>
          cases hk : d.blk with
          | zero => rw [hk] at hB; cases hB
          | succ n =>
            simp only [St.blk, St.setBlk]
            rw [List.getElem?_set_ne (by simp; intro e; exact hb (by rw [hk, e]))]
    · rfl

/-- What does hold: for types whose head is exactly one byte, the move is right: the same bytes at the destination, no destructor run, nothing else changed.
(Missing: all other types, where it is false.) -/
theorem C17_owned_moves_partial {T : VarLen w} (hT : LibType T) (h1 : T.headSize = 1) {s : St} {p d : Ptr} {v : V} {l : Layout w} (h : Valid T s p v l)
    (hp : s.blk p.blk ≠ none) (ha : Acc s d l.size.toNat) (hal : Aligned s d T.ALIGN.toNat) (hb : d.blk ≠ p.blk) :
    ∃ s', (Owned.init T p v l).initTo d l s = .ok () s' ∧ takeV (viewAt s' d) 0 l.size.toNat = takeV (viewAt s p) 0 l.size.toNat ∧ Valid T s' d v l ∧
      s'.log = s.log ∧ Touch s s' d l.size.toNat (fun _ => False) := by
  have hI := Owned.init_lawful_of_head_one hT.lawful h1 (src := p) (v := v) (l := l)
  obtain ⟨s', e, ht, _, hr, hlog, _⟩ := hI.init_ok s d l v ⟨h, hp⟩ rfl rfl ha hal (fun h' => hb h')
  refine ⟨s', e, ?_, ⟨ht.acc (fun h => h) ha, ht.aligned (fun h => h) hal, hr⟩, by simpa [Owned.init] using hlog, ht⟩
  have hlen : (takeV (viewAt s p) 0 l.size.toNat).length = l.size.toNat := by simp [takeV]
  have hL := hT.lawful
  have e' : (Owned.init T p v l).initTo d l s = .ok () (s.write d (takeV (viewAt s p) 0 l.size.toNat)) := by
    simp only [Owned.init, h1, Nat.mul_one]
    exact copyNonoverlapping_ok (h.aligned.of_dvd hL.head_align) (hal.of_dvd hL.head_align) h.acc ha (.inr (.inl fun h' => hb h'.symm))
  rw [e'] at e
  injection e with _ e
  subst e
  have := takeV_viewAt_write (s := s) (p := d) (img := takeV (viewAt s p) 0 l.size.toNat) (by rw [hlen]; exact ha)
  rwa [hlen] at this

-- `Array<_, u8>` has a head of one byte
example : (Array 64 u8Ty Demo.lenU8).headSize = 1 ∧ (Str 64 Demo.lenU8).headSize = 1 := ⟨rfl, rfl⟩

/-! ## C18 -/

/-- `VBox::from_raw(b.into_raw())` is the same box, and nothing happens to memory or destructors; `Owned` likewise. -/
theorem C18_raw_round_trip (p : Ptr) (s : St) :
    (do let r ← VBox.intoRaw p; VBox.fromRaw r : M Ptr) s = .ok p s ∧ (do let r ← Owned.intoRaw p; Owned.fromRaw r : M Ptr) s = .ok p s := ⟨rfl, rfl⟩

/-- So a box that went through a raw pointer is dropped exactly once, by the final drop. -/
theorem C18_raw_then_drop {T : VarLen w} (hT : LibType T) {s : St} {p : Ptr} {v : V} {l : Layout w} (h : BoxHas T s p v l) :
    ∃ s', (do let r ← VBox.intoRaw p; let b ← VBox.fromRaw r; VBox.drop T b : M Unit) s = .ok () s' ∧ s'.log = s.log ++ T.drops v ∧ Freed s' p.blk := by
  obtain ⟨s', h1, h2, h3, _⟩ := C11_vbox_drop hT h
  exact ⟨s', h1, h2, h3⟩

/-! ## C42 -/

/-- A zero-sized type. -/
def Demo.unitTy : RTy := { size := 0, align := 1, valid := fun img => img.length == 0, needsDrop := false, dropEv := fun _ => [] }

/-- The claim "`VBox::new` is always defined" fails in two ways: for a zero-sized object it calls `alloc` with size 0; and if the allocator returns null, it makes
a `NonNull` from null. -/
theorem C42_vbox_new_undefined :
    VBox.new Demo.alloc (FixedLen 64 Demo.unitTy) (FixedLen.init 64 Demo.unitTy []) Demo.st0 = .ub .allocZero ∧
    VBox.new Demo.noMem Demo.ArrT (Demo.arrInit [1, 2, 3]) Demo.st0 = .ub .nullPtr ∧
    LibInit (FixedLen 64 Demo.unitTy) (FixedLen.init 64 Demo.unitTy []) ∧ LibInit Demo.ArrT (Demo.arrInit [1, 2, 3]) :=
  ⟨rfl, rfl, .fixedLen ⟨⟨0, by decide, rfl⟩, ⟨0, rfl⟩, by decide, by simp [Demo.unitTy]⟩ rfl, Demo.arrInit_lib _⟩

/-- For non-zero sizes and a successful allocation it is defined, for all initializers. (Missing: the two cases above, where it is not.) -/
theorem C42_vbox_new_defined_partial (A : Allocator) {T : VarLen w} {I : Init w} (h : LibInit T I) {s : St} (hp : I.pre s)
    (h0 : ∀ l, I.cautious s = .ok (some l) s → l.size.toNat ≠ 0 ∧ pick w A s l.size.toNat T.ALIGN.toNat ≠ none) :
    ∀ k, VBox.new A T I s ≠ .ub k := by
  intro k e
  cases hl : I.lay with
  | none =>
    rcases h.lib.2.cautious_cases hp with ⟨hc, _⟩ | ⟨hc, _⟩
    · rw [hl] at hc
      obtain ⟨s', e1, _⟩ := (C10_overflow_panics A h hp).1 hc
      rw [e1] at e
      cases e
    · obtain ⟨s', e1, _⟩ := (C10_overflow_panics A h hp).2.2 _ _ hc
      rw [e1] at e
      cases e
  | some l =>
    have hc := h.lib.2.calc_some hp hl
    by_cases hfit : l.size.toNat + (T.ALIGN.toNat - 1) ≤ isizeMax w
    · rcases C10_vbox_new A h hp hc hfit (h0 l hc).1 (h0 l hc).2 with ⟨p, s', v, e', _⟩ | ⟨m, s', e', _⟩ <;> rw [e'] at e <;> cases e
    · obtain ⟨s', e1, _⟩ := (C10_overflow_panics A h hp).2.1 l hc (by omega)
      rw [e1] at e
      cases e

/-- So these two cases are exactly those in which it is undefined. -/
theorem C42_undefined_iff (A : Allocator) {T : VarLen w} {I : Init w} (h : LibInit T I) {s : St} (hp : I.pre s) :
    (∃ k, VBox.new A T I s = .ub k) ↔
    ∃ l, I.cautious s = .ok (some l) s ∧ l.size.toNat + (T.ALIGN.toNat - 1) ≤ isizeMax w ∧ (l.size.toNat = 0 ∨ pick w A s l.size.toNat T.ALIGN.toNat = none) := by
  obtain ⟨hT, hI⟩ := h.lib
  have hs := VBox.new_spec A hT.lawful hI hp
  cases hl : I.lay with
  | none =>
    rw [hl] at hs
    obtain ⟨s', e, _⟩ := hs
    rcases hI.cautious_cases hp with ⟨hc, _⟩ | ⟨hc, _⟩
    · rw [hl] at hc
      simp [e, hc]
    · simp [e, hc]
  | some l =>
    have hc := hI.calc_some hp hl
    rw [hl] at hs
    simp only at hs
    have hf : fromSizeAlign w l.size.toNat T.ALIGN.toNat = true ↔ l.size.toNat + (T.ALIGN.toNat - 1) ≤ isizeMax w := by
      simp only [fromSizeAlign, decide_eq_true_eq]
    split at hs
    · rename_i hfs
      split at hs
      · rename_i h0
        exact ⟨fun _ => ⟨l, hc, hf.1 hfs, .inl h0⟩, fun _ => ⟨_, hs⟩⟩
      · rename_i h0
        cases hk : pick w A s l.size.toNat T.ALIGN.toNat with
        | none => rw [hk] at hs; exact ⟨fun _ => ⟨l, hc, hf.1 hfs, .inr hk⟩, fun _ => ⟨_, hs⟩⟩
        | some base =>
          rw [hk] at hs
          have : ∀ k, VBox.new A T I s ≠ .ub k := by
            intro k e
            simp only at hs
            split at hs
            · obtain ⟨s', e', _⟩ := hs; rw [e'] at e; cases e
            · obtain ⟨m, s', e', _⟩ := hs; rw [e'] at e; cases e
          constructor
          · rintro ⟨k, e⟩; exact absurd e (this k)
          · rintro ⟨l', e, _, h'⟩
            rw [hc] at e
            cases e
            rcases h' with h' | h'
            · exact absurd h' h0
            · rw [hk] at h'; cases h'
    · rename_i hfs
      obtain ⟨s', e, _⟩ := hs
      constructor
      · rintro ⟨k, e'⟩; rw [e] at e'; cases e'
      · rintro ⟨l', e', h', _⟩
        rw [hc] at e'
        cases e'
        exact absurd (hf.2 h') hfs

/-! ## C46 -/

/-- `Owned::new_in(init, &bump)`: panics, with `init` dropped and nothing else changed, if the layout overflows, its computation panics, or the arena is out of memory; otherwise returns a fresh,
suitably aligned object with the value described by `init`, or `init`'s own code panics. In these cases boxes owned by `init` are freed, no other memory changes (if it
panics, except storage of values that `init` owned), and destructors run only for values held by `init` that did not become part of the new value. It is defined for every
allocator and size. -/
theorem C46_owned_new_in (A : Allocator) {T : VarLen w} {I : Init w} (h : LibInit T I) {s : St} (hp : I.pre s) :
    (∃ p s' v l, Owned.newIn A T I s = .ok p s' ∧ I.cautious s = .ok (some l) s ∧ I.val = some v ∧ Valid T s' p v l ∧ ownsAlloc s' p l.size.toNat T.ALIGN.toNat ∧ T.calculateLayout p s' = .ok l s' ∧ s.blk p.blk = none ∧
      Unchanged s s' I.owns ∧ (∀ b, I.owns b → Freed s' b) ∧ s'.log = s.log ++ I.left) ∨
    (∃ m s', Owned.newIn A T I s = .panic m s' ∧ I.val = none ∧ Unchanged s s' I.mods ∧ (∀ b, I.owns b → Freed s' b) ∧ s'.log = s.log ++ I.lost) ∨
    (∃ m s', Owned.newIn A T I s = .panic m s' ∧ Dropped I s s' ∧
      (I.cautious s = .ok none s ∨ I.cautious s = .panic m s ∨ ∃ l, I.cautious s = .ok (some l) s ∧ (isizeMax w < l.size.toNat + (T.ALIGN.toNat - 1) ∨ pick w A s l.size.toNat T.ALIGN.toNat = none))) := by
  obtain ⟨hT, hI⟩ := h.lib
  have hs := Owned.newIn_spec A hT.lawful hI hp
  cases hl : I.lay with
  | none =>
    rw [hl] at hs
    obtain ⟨s', e1, e2⟩ := hs
    rcases hI.cautious_cases hp with ⟨hc, hb⟩ | ⟨hc, hb, _⟩
    · rw [hl] at hc
      exact .inr (.inr ⟨_, s', e1, e2, .inl hc⟩)
    · rw [hb] at e1
      exact .inr (.inr ⟨_, s', e1, e2, .inr (.inl hc)⟩)
  | some l =>
    have hc := hI.calc_some hp hl
    rw [hl] at hs
    simp only at hs
    split at hs
    · cases hk : pick w A s l.size.toNat T.ALIGN.toNat with
      | none =>
        rw [hk] at hs
        obtain ⟨s', e1, e2⟩ := hs
        exact .inr (.inr ⟨_, s', e1, e2, .inr (.inr ⟨l, hc, .inr hk⟩)⟩)
      | some base =>
        rw [hk] at hs
        simp only at hs
        cases hv : I.val with
        | none =>
          rw [hv] at hs
          obtain ⟨m, s', e1, e2, _, e3, e4⟩ := hs
          exact .inr (.inl ⟨m, s', e1, rfl, e3, e4, e2⟩)
        | some v =>
          rw [hv] at hs
          obtain ⟨s', e1, e2, e3, _, e4, e5⟩ := hs
          exact .inl ⟨_, s', v, l, e1, hc, rfl, e2.valid, e2.owns, hT.lawful.calc_ok _ _ _ _ e2.valid, St.blk_next s, e4, e5, e3⟩
    · rename_i hf
      obtain ⟨s', e1, e2⟩ := hs
      refine .inr (.inr ⟨_, s', e1, e2, .inr (.inr ⟨l, hc, .inl ?_⟩)⟩)
      simp [fromSizeAlign] at hf
      omega

example : (Demo.okOf (Owned.newIn Demo.alloc Demo.S (Demo.sInit 7 3 [1, 2] [10, 11, 12] [5]) Demo.st0)).isSome = true := by decide +kernel
example : (Demo.panicOf (Owned.newIn Demo.noMem Demo.S (Demo.sInit 7 3 [1, 2] [10, 11, 12] [5]) Demo.st0)).isSome = true := by decide +kernel

end Varlen
