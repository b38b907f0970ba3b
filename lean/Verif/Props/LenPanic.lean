import Verif.Props.Struct
import Verif.Props.Moves
import Verif.Props.Layout
import Verif.Props.Header
/-! # C60: length expressions and layout computations that panic -/
namespace Varlen
variable {w : Nat}

theorem badFields_iff {lens : List Img} : ∀ (fis : List (FI w)) (cur : BitVec w), badFields lens fis cur = true ↔
    ∃ pre f post, fis = pre ++ f :: post ∧ ∃ ls size, layFields lens pre cur = some (ls, size) ∧
      match f with
      | .array _ len _ => len.defd lens = false
      | .varlen T I => (∃ o, checkedAdd size (T.ALIGN - 1) = some o) ∧ I.bad = true
      | _ => False := by
  intro fis
  induction fis with
  | nil =>
    intro cur
    refine ⟨fun h => absurd h (by simp [badFields]), ?_⟩
    rintro ⟨pre, f, post, e, _⟩
    simp at e
  | cons g fis ih =>
    intro cur
    have key : ∀ {P : Prop} {cur' : BitVec w}, badFields lens (g :: fis) cur = badFields lens fis cur' →
        (∀ pre, (∃ ls size, layFields lens (g :: pre) cur = some (ls, size) ∧ (∃ ls', layFields lens pre cur' = some (ls', size))) ∨
          (layFields lens (g :: pre) cur = none ∧ layFields lens pre cur' = none)) → 
        (match (generalizing := false) g with
          | .array _ len _ => ¬ len.defd lens = false
          | .varlen T I => ¬ ((∃ o, checkedAdd cur (T.ALIGN - 1) = some o) ∧ I.bad = true)
          | _ => True) →
        (badFields lens (g :: fis) cur = true ↔ ∃ pre f post, g :: fis = pre ++ f :: post ∧ ∃ ls size, layFields lens pre cur = some (ls, size) ∧
          match f with
          | .array _ len _ => len.defd lens = false
          | .varlen T I => (∃ o, checkedAdd size (T.ALIGN - 1) = some o) ∧ I.bad = true
          | _ => False) := by
      intro P cur' h1 h2 h3
      rw [h1, ih cur']
      constructor
      · rintro ⟨pre, f, post, rfl, ls, size, hl, hf⟩
        rcases h2 pre with ⟨ls', size', e1, ls'', e2⟩ | ⟨_, e⟩
        · rw [hl] at e2
          cases e2
          exact ⟨g :: pre, f, post, rfl, ls', size, e1, hf⟩
        · rw [hl] at e; cases e
      · rintro ⟨pre, f, post, e, ls, size, hl, hf⟩
        cases pre with
        | nil =>
          simp only [List.nil_append, List.cons.injEq] at e
          obtain ⟨rfl, rfl⟩ := e
          cases hl
          cases g with
          | normal => exact hf.elim
          | length => exact hf.elim
          | varlen T I => exact absurd hf h3
          | array R len I => exact absurd hf h3
        | cons g' pre =>
          simp only [List.cons_append, List.cons.injEq] at e
          obtain ⟨rfl, rfl⟩ := e
          rcases h2 pre with ⟨ls', size', e1, ls'', e2⟩ | ⟨e, _⟩
          · rw [hl] at e1
            cases e1
            exact ⟨pre, f, post, rfl, ls'', size, e2, hf⟩
          · rw [hl] at e; cases e
    have stop : (∀ pre, layFields lens (g :: pre) cur = none) → badFields lens (g :: fis) cur = false →
        (match (generalizing := false) g with
          | .array _ len _ => ¬ len.defd lens = false
          | .varlen T I => ¬ ((∃ o, checkedAdd cur (T.ALIGN - 1) = some o) ∧ I.bad = true)
          | _ => True) →
        (badFields lens (g :: fis) cur = true ↔ ∃ pre f post, g :: fis = pre ++ f :: post ∧ ∃ ls size, layFields lens pre cur = some (ls, size) ∧
          match f with
          | .array _ len _ => len.defd lens = false
          | .varlen T I => (∃ o, checkedAdd size (T.ALIGN - 1) = some o) ∧ I.bad = true
          | _ => False) := by
      intro h1 h2 h3
      rw [h2]
      refine ⟨fun h => absurd h (by simp), ?_⟩
      rintro ⟨pre, f, post, e, ls, size, hl, hf⟩
      cases pre with
      | nil =>
        simp only [List.nil_append, List.cons.injEq] at e
        obtain ⟨rfl, rfl⟩ := e
        cases hl
        cases g with
        | normal => exact hf.elim
        | length => exact hf.elim
        | varlen T I => exact absurd hf h3
        | array R len I => exact absurd hf h3
      | cons g' pre =>
        simp only [List.cons_append, List.cons.injEq] at e
        obtain ⟨rfl, rfl⟩ := e
        rw [h1] at hl
        cases hl
    have both : ∀ pre (cur' : BitVec w), (∀ x, layFields lens pre cur' = x → layFields lens (g :: pre) cur = x) →
        ((∃ ls size, layFields lens (g :: pre) cur = some (ls, size) ∧ (∃ ls', layFields lens pre cur' = some (ls', size))) ∨
          (layFields lens (g :: pre) cur = none ∧ layFields lens pre cur' = none)) := by
      intro pre cur' h
      cases hl : layFields lens pre cur' with
      | none => exact .inr ⟨h _ hl, rfl⟩
      | some x => exact .inl ⟨x.1, x.2, h _ hl, x.1, rfl⟩
    cases g with
    | normal R off img => exact key (P := True) (cur' := cur) rfl (fun pre => both pre cur fun x hx => hx) trivial
    | length R off img => exact key (P := True) (cur' := cur) rfl (fun pre => both pre cur fun x hx => hx) trivial
    | varlen T I =>
      cases hc : checkedAdd cur (T.ALIGN - 1) with
      | none => exact stop (fun pre => by simp only [layFields, hc, if_true, if_false, Bool.false_eq_true]) (by simp only [badFields, hc, if_true, if_false, Bool.false_eq_true]) (by rintro ⟨⟨o, h⟩, _⟩; rw [hc] at h; cases h)
      | some o =>
        cases hb : I.bad with
        | true => exact ⟨fun _ => ⟨[], _, fis, rfl, _, _, rfl, ⟨o, hc⟩, hb⟩, fun _ => by simp only [badFields, hc, hb, if_true, if_false, Bool.false_eq_true]⟩
        | false =>
          have hnot : ¬ ((∃ o, checkedAdd cur (T.ALIGN - 1) = some o) ∧ I.bad = true) := by rw [hb]; rintro ⟨_, h⟩; cases h
          cases hl : I.lay with
          | none => exact stop (fun pre => by simp only [layFields, hc, hl, if_true, if_false, Bool.false_eq_true]) (by simp only [badFields, hc, hb, hl, if_true, if_false, Bool.false_eq_true]) hnot
          | some l =>
            cases hc2 : checkedAdd (maskDown o T.ALIGN) l.size with
            | none => exact stop (fun pre => by simp only [layFields, hc, hl, hc2, if_true, if_false, Bool.false_eq_true]) (by simp only [badFields, hc, hb, hl, hc2, if_true, if_false, Bool.false_eq_true]) hnot
            | some cur' =>
              refine key (P := True) (cur' := cur') (by simp only [badFields, hc, hb, hl, hc2, if_true, if_false, Bool.false_eq_true]) (fun pre => ?_) hnot
              cases h : layFields lens pre cur' with
              | none => exact .inr ⟨by simp only [layFields, hc, hl, hc2, h, if_true, if_false, Bool.false_eq_true], rfl⟩
              | some x => exact .inl ⟨_, x.2, by simp only [layFields, hc, hl, hc2, h]; rfl, x.1, rfl⟩
    | array R len I =>
      cases hd : len.defd lens with
      | false => exact ⟨fun _ => ⟨[], _, fis, rfl, _, _, rfl, hd⟩, fun _ => by simp only [badFields, hd, if_true, if_false, Bool.false_eq_true]⟩
      | true =>
        have hnot : ¬ len.defd lens = false := by rw [hd]; simp
        cases hc : catArrayFieldCautious R (len lens) cur with
        | none => exact stop (fun pre => by simp only [layFields, hd, hc, if_true, if_false, Bool.false_eq_true]) (by simp only [badFields, hd, hc, if_true, if_false, Bool.false_eq_true]) hnot
        | some x =>
          obtain ⟨o, n, cur'⟩ := x
          refine key (P := True) (cur' := cur') (by simp only [badFields, hd, hc, if_true, if_false, Bool.false_eq_true]) (fun pre => ?_) hnot
          cases h : layFields lens pre cur' with
          | none => exact .inr ⟨by simp only [layFields, hd, hc, h, if_true, if_false, Bool.false_eq_true], rfl⟩
          | some x => exact .inl ⟨_, x.2, by simp only [layFields, hd, hc, h, if_true]; rfl, x.1, rfl⟩

theorem fieldsEnd_iff {hs ha : Nat} {lens : List Img} {fis : List (FI w)} {cur : BitVec w} (hok : ∀ f ∈ fis, f.fld.Ok hs ha) {fin : Nat} :
    FieldsEnd lens cur.toNat fis fin ↔ ∃ ls size, layFields lens fis cur = some (ls, size) ∧ size.toNat = fin := by
  constructor
  · rintro ⟨r, fs, h1, h2, h3, h4⟩
    obtain ⟨fs', fin', k1, k2, k3⟩ := layFields_exact fis cur r hok h1
    obtain ⟨rfl, rfl⟩ := h2.unique k1 (h3.trans k2.symm)
    cases e : layFields lens fis cur with
    | none => rw [e] at k3; simp only at k3; omega
    | some x => rw [e] at k3; exact ⟨x.1, x.2, rfl, k3.1⟩
  · rintro ⟨ls, size, h1, rfl⟩
    cases hr : requested lens fis with
    | none => rw [layFields_none_of_requested _ _ hr] at h1; cases h1
    | some r =>
      obtain ⟨fs', fin', k1, k2, k3⟩ := layFields_exact fis cur r hok hr
      rw [h1] at k3
      simp only at k3
      exact ⟨r, fs', hr, k3.1 ▸ k1, k2, size.isLt⟩

/-! ## C60 -/

/-- When does `calculate_layout_cautious` of a `StructName::Init { … }` literal panic? Exactly if there is a field such that all fields before it can be laid out, and either it is a `#[varlen_array]` field whose length
expression panics on the values of the `#[controls_layout]` fields, or it is a `#[varlen]` field, there is room to align it, and its own initializer's `calculate_layout_cautious` panics. -/
theorem C60_struct_panics_exact {headSize headAlign : Nat} {fis : List (FI w)} (h : StructLit headSize headAlign fis) {s : St} (hp : (Struct.init headSize headAlign fis).pre s) :
    (∃ m s', (Struct.init headSize headAlign fis).cautious s = .panic m s') ↔
    ∃ pre f post fin, fis = pre ++ f :: post ∧ FieldsEnd (initLengths fis) headSize pre fin ∧
      match f with
      | .array _ len _ => len.defd (initLengths fis) = false
      | .varlen T I => fin + (T.ALIGN.toNat - 1) < 2 ^ w ∧ ∃ m s', I.cautious s = .panic m s'
      | _ => False := by
  have hI := h.lib.lib.2
  have hhs : (BitVec.ofNat w headSize).toNat = headSize := by
    rw [BitVec.toNat_ofNat]; exact Nat.mod_eq_of_lt h.header.head_lt
  have hfl : ∀ f ∈ fis, f.fld.Ok headSize headAlign := fun f hf => h.structOk.flds _ (List.mem_map_of_mem hf)
  have hleft : (∃ m s', (Struct.init headSize headAlign fis).cautious s = .panic m s') ↔ badFields (initLengths fis) fis (BitVec.ofNat w headSize) = true := by
    show _ ↔ (Struct.init headSize headAlign fis).bad = true
    constructor
    · rintro ⟨m, s', e⟩
      rcases hI.cautious_cases hp with ⟨h1, _⟩ | ⟨_, h1, _⟩
      · rw [h1] at e; cases e
      · exact h1
    · intro hb
      exact ⟨_, _, hI.calc_panic s hp hb⟩
  rw [hleft, badFields_iff]
  have hfield : ∀ T I, FI.varlen T I ∈ fis → (I.bad = true ↔ ∃ m s', I.cautious s = .panic m s') := by
    intro T I hm
    have hI' := (h.varlen T I hm).lib.2
    have hp' : I.pre s := hp.1 _ hm
    constructor
    · intro hb; exact ⟨_, _, hI'.calc_panic s hp' hb⟩
    · rintro ⟨m, s', e⟩
      rcases hI'.cautious_cases hp' with ⟨h1, _⟩ | ⟨_, h1, _⟩
      · rw [h1] at e; cases e
      · exact h1
  have hstep : ∀ T I (size : BitVec w), FI.varlen T I ∈ fis →
      (((∃ o, checkedAdd size (T.ALIGN - 1) = some o) ∧ I.bad = true) ↔ (size.toNat + (T.ALIGN.toNat - 1) < 2 ^ w ∧ ∃ m s', I.cautious s = .panic m s')) := by
    intro T I size hm
    have hp2 : IsPow2 T.ALIGN := (h.varlen T I hm).lib.1.lawful.align_pow2
    rw [hfield T I hm, ← hp2.sub_one]
    refine and_congr_left fun _ => ?_
    constructor
    · rintro ⟨o, e⟩
      have := checkedAdd_eq_some.1 e
      have := o.isLt
      omega
    · intro hlt
      cases e : checkedAdd size (T.ALIGN - 1) with
      | some o => exact ⟨o, rfl⟩
      | none => have := checkedAdd_eq_none.1 e; omega
  constructor
  · rintro ⟨pre, f, post, e, ls, size, hl, hf⟩
    have hpre : ∀ f ∈ pre, f.fld.Ok headSize headAlign := fun f hm => hfl f (by rw [e]; simp [hm])
    have hm : f ∈ fis := by rw [e]; simp
    refine ⟨pre, f, post, size.toNat, e, hhs ▸ (fieldsEnd_iff hpre).2 ⟨ls, size, hl, rfl⟩, ?_⟩
    cases f with
    | normal => exact hf
    | length => exact hf
    | array => exact hf
    | varlen T I => exact (hstep T I size hm).1 hf
  · rintro ⟨pre, f, post, fin, e, hfe, hf⟩
    have hpre : ∀ f ∈ pre, f.fld.Ok headSize headAlign := fun f hm => hfl f (by rw [e]; simp [hm])
    have hm : f ∈ fis := by rw [e]; simp
    rw [← hhs] at hfe
    obtain ⟨ls, size, hl, rfl⟩ := (fieldsEnd_iff hpre).1 hfe
    refine ⟨pre, f, post, e, ls, size, hl, ?_⟩
    cases f with
    | normal => exact hf
    | length => exact hf
    | array => exact hf
    | varlen T I => exact (hstep T I size hm).2 hf

/-- If computing the layout panics, then so do `VBox::new`, `Owned::new_in` and `Seq::push`, with that panic, and all that has happened is that the initializer was dropped: the values that it
held (`held`) are destroyed exactly once, the boxes that it owned are freed, nothing has been allocated and no other block has changed; the sequence is as before. -/
theorem C60_construction_panics {T : VarLen w} {I : Init w} (h : LibInit T I) {held made : List Event} (ha : Accounts T I held made) (A : Allocator) {s s1 : St} (hp : I.pre s) {m : PanicMsg}
    (hc : I.cautious s = .panic m s1) :
    (∃ s', VBox.new A T I s = .panic m s' ∧ s'.log = s.log ++ held ∧ s'.blocks.length = s.blocks.length ∧ (∀ b, I.owns b → ∃ B, s'.blk b = some B ∧ B.live = false) ∧
      ∀ b, ¬ I.mods b → s'.blk b = s.blk b) ∧
    (∃ s', Owned.newIn A T I s = .panic m s' ∧ s'.log = s.log ++ held ∧ s'.blocks.length = s.blocks.length ∧ (∀ b, I.owns b → ∃ B, s'.blk b = some B ∧ B.live = false) ∧
      ∀ b, ¬ I.mods b → s'.blk b = s.blk b) ∧
    ∀ (chk : Bool) (q : SeqS w), ∃ s', Seq.push A chk T I (s, q) = .panic m (s', q) ∧ s'.log = s.log ++ held ∧ s'.blocks.length = s.blocks.length ∧
      (∀ b, I.owns b → ∃ B, s'.blk b = some B ∧ B.live = false) ∧ ∀ b, ¬ I.mods b → s'.blk b = s.blk b := by
  obtain ⟨s', hd1, hd⟩ := h.lib.2.dropped hp
  have hs1 : s1 = s := by
    rcases h.lib.2.cautious_cases hp with ⟨h1, _⟩ | ⟨h1, _, _⟩ <;> rw [h1] at hc <;> cases hc
    rfl
  subst hs1
  have hu : onUnwind I.cautious I.dropI s1 = .panic m s' := onUnwind_panic hc hd1
  have hlog : s'.log = s1.log ++ held := by rw [hd.log, ha.sums.owes]
  refine ⟨⟨s', ?_, hlog, hd.size, hd.freed, hd.frame⟩, ⟨s', ?_, hlog, hd.size, hd.freed, hd.frame⟩, fun chk q => ⟨s', ?_, hlog, hd.size, hd.freed, hd.frame⟩⟩
  · unfold VBox.new
    simp only [bind_apply, hu, Res.bind_panic]
  · unfold Owned.newIn
    simp only [bind_apply, hu, Res.bind_panic]
  · unfold Seq.push Seq.tryPush
    simp only [bind_apply, liftQ_apply, hu, Res.bind_panic]

/-- In an object that exists, no length expression panics on the values that its `#[controls_layout]` fields have, and each gives the length of the slice that `refs()` returns for its field. So `calculate_layout`, and with it
`refs()`, `muts()` and dropping, never panic for this reason. -/
theorem C60_existing_defined {headSize headAlign : Nat} {fs : List (Fld w)} (hh : HeaderOk headSize headAlign fs) (hT : ∀ T, Fld.varlen T ∈ fs → LibType T) {s : St} {p : Ptr} {v : V} {l : Layout w}
    (h : Valid (Struct w headSize headAlign fs) s p v l) :
    (∀ R len, Fld.array R len ∈ fs → len.defd (controllersAt fs s p) = true) ∧ (Struct w headSize headAlign fs).calculateLayout p s = .ok l s ∧
    (∃ s', (Struct w headSize headAlign fs).vdrop p l s = .ok () s') ∧
    ∃ rs, aggRefs headSize fs p s = .ok rs s ∧ aggMuts headSize fs p s = .ok ((fs.map Fld.mutable).zip rs) s ∧
      ∀ (i : Nat) R len, fs[i]? = some (.array R len) → ∃ sl, rs[i]? = some (.slice sl) ∧ sl.len = (len (controllersAt fs s p)).toNat := by
  have hok : StructOk headSize headAlign fs := hh.structOk fun T h => (hT T h).lawful
  obtain ⟨vs0, rs, shapes, rfl, href, hmut, hacc⟩ := Struct.accessIx hok h
  obtain ⟨s2, hdrop, _⟩ := (Struct.lawful hok).vdrop_ok _ _ _ _ h
  refine ⟨?_, (Struct.lawful hok).calc_ok _ _ _ _ h, ⟨s2, hdrop⟩, rs, href, hmut, fun i R len hi => ?_⟩
  · obtain ⟨_, _, vs, ls, size, e, _, _, r2⟩ := h
    rw [controllersAt_eq]
    exact RepTails.defd _ _ _ _ _ r2
  · obtain ⟨sl, h1, h2⟩ := Struct.slice_len hok h href hi
    exact ⟨sl, h1, by rw [h2, controllersAt_eq]⟩

/-- `try_set_layout_controllers(new)`, when the length expression of some array field panics on `new`: the call panics, no memory has changed, and the values of `new` have been destroyed exactly once. -/
theorem C60_try_set {headSize headAlign : Nat} {fs : List (Fld w)} (hh : HeaderOk headSize headAlign fs) (hT : ∀ T, Fld.varlen T ∈ fs → LibType T) {s : St} {p : Ptr} {v : V} {l : Layout w}
    (h : Valid (Struct w headSize headAlign fs) s p v l) {new : List Img}
    (hlen : new.length = (controllerTypes fs).length) (hnew : ∀ (i : Nat) R x, (controllerTypes fs)[i]? = some R → new[i]? = some x → R.valid x = true)
    {R : RTy} {len : LenFn w} (hm : Fld.array R len ∈ fs) (hd : len.defd new = false) :
    ∃ s', trySetLayoutControllers fs p new s = .panic .user s' ∧ s'.blocks = s.blocks ∧ s'.log = s.log ++ (((controllerTypes fs).zip new).map fun x => x.1.dtor x.2).flatten ∧
      Valid (Struct w headSize headAlign fs) s' p v l := by
  obtain ⟨vs, _, _, rfl, _⟩ := C36_struct_muts hh hT h
  obtain ⟨_, _, _, _, _, _, hp⟩ := C38_try_set hh hT h hlen hnew
  obtain ⟨s', e, hb, hl⟩ := hp ⟨R, len, hm, hd⟩
  refine ⟨s', e, hb, hl, ?_⟩
  exact Valid.of_same (on := fun _ => True) (fun b _ => by simp [St.blk, hb]) trivial h

/-- The struct literal, all in one: if the length expression of the first array field panics on the values given for the `#[controls_layout]` fields, and the fields before it fit, then boxing the literal panics, nothing has been
allocated, and the values in the literal have been destroyed exactly once. -/
theorem C60_struct_box {headSize headAlign : Nat} {fis : List (FI w)} (h : StructLit headSize headAlign fis) {held made : List Event}
    (ha : Accounts (Struct w headSize headAlign (fis.map FI.fld)) (Struct.init headSize headAlign fis) held made) (A : Allocator) {s : St} (hp : (Struct.init headSize headAlign fis).pre s)
    {pre post : List (FI w)} {R : RTy} {len : LenFn w} {J : ArrInit} (e : fis = pre ++ .array R len J :: post) {fin : Nat} (hfit : FieldsEnd (initLengths fis) headSize pre fin)
    (hd : len.defd (initLengths fis) = false) :
    ∃ m s', VBox.new A (Struct w headSize headAlign (fis.map FI.fld)) (Struct.init headSize headAlign fis) s = .panic m s' ∧ s'.log = s.log ++ held ∧ s'.blocks.length = s.blocks.length := by
  obtain ⟨m, s1, hc⟩ := (C60_struct_panics_exact h hp).2 ⟨pre, _, post, fin, e, hfit, hd⟩
  obtain ⟨⟨s', e1, e2, e3, _⟩, _⟩ := C60_construction_panics h.lib ha A hp hc
  exact ⟨m, s', e1, e2, e3⟩

namespace Demo
/-- `100 / *n as usize`, which panics if `n` is zero. -/
def divLen : LenFn 64 := ⟨fun lens => BitVec.ofNat 64 (100 / decLE (lens.headD [])), fun lens => decLE (lens.headD []) != 0⟩

/-- `{ a: D4, #[controls_layout] n: u8, #[varlen_array] xs: [u8; 100 / *n as usize] }` -/
abbrev gFis (a n : Nat) (xs : List Nat) : List (FI 64) := [.normal D4 0 (d4 a), .length u8Ty 4 (encLE 1 n), .array u8Ty divLen (MoveFrom u8Ty (xs.map (encLE 1)))]
abbrev gFs : List (Fld 64) := [.normal D4 0, .length u8Ty 4, .array u8Ty divLen]

theorem gHeader : HeaderOk 8 4 gFs where
  head_pow2 := ⟨2, by decide, rfl⟩
  head_lt := by decide
  normal := by
    intro R off h
    simp at h
    obtain ⟨rfl, rfl⟩ := h
    exact ⟨D4_ok, by decide, by decide, by decide⟩
  length := by
    intro R off h
    simp at h
    obtain ⟨rfl, rfl⟩ := h
    exact ⟨u8Ty_ok (by decide), by decide, by decide, by decide⟩
  array := by
    intro R len h
    simp at h
    obtain ⟨rfl, rfl⟩ := h
    exact u8Ty_ok (by decide)
  disjoint := by simp [Fld.range, D4, u8Ty]

theorem gLit (a n : Nat) (xs : List Nat) : StructLit 8 4 (gFis a n xs) where
  header := gHeader
  normal := by
    intro R off img h
    simp at h
    obtain ⟨rfl, rfl, rfl⟩ := h
    exact d4_valid _
  length := by
    intro R off img h
    simp at h
    obtain ⟨rfl, rfl, rfl⟩ := h
    simp [u8Ty, encLE]
  varlen := by intro T I h; simp at h
  array := by
    intro R len I h
    simp at h
    obtain ⟨rfl, rfl, rfl⟩ := h
    refine .moveFrom fun x hx => ?_
    obtain ⟨n, _, rfl⟩ := List.mem_map.1 hx
    simp [u8Ty, encLE]

theorem gAccounts (a n : Nat) (xs : List Nat) : Accounts (Struct 64 8 4 gFs) (Struct.init 8 4 (gFis a n xs)) (D4.dtor (d4 a) ++ (u8Ty.dtor (encLE 1 n) ++ (((xs.map (encLE 1)).map u8Ty.dtor).flatten ++ [])))
    ([] ++ []) :=
  .struct (fis := gFis a n xs) (.normal (.length (.array .moveFrom .nil)))

theorem gPre (a n : Nat) (xs : List Nat) (s : St) : (Struct.init 8 4 (gFis a n xs)).pre s := by
  refine ⟨?_, ?_⟩
  · intro f hf
    simp only [List.mem_cons, List.mem_nil_iff, or_false] at hf
    rcases hf with rfl | rfl | rfl <;> exact trivial
  · simp [FI.mods]

/-- With `n = 0` boxing the literal panics and the value `a` is destroyed once. With `n = 25` it returns; and trying to set `n` to 0 afterwards panics. -/
example : (∃ m s', VBox.new alloc (Struct 64 8 4 gFs) (Struct.init 8 4 (gFis 7 0 [])) st0 = .panic m s' ∧ s'.log = [7] ∧ s'.blocks.length = 0) ∧
    (∃ p s, VBox.new alloc (Struct 64 8 4 gFs) (Struct.init 8 4 (gFis 7 25 [1, 2, 3, 4])) st0 = .ok p s ∧
      (panicOf (trySetLayoutControllers gFs p [encLE 1 0] s)).map (fun r => (r.1, r.2.blocks.length)) = some (.user, 1)) := by
  refine ⟨?_, ?_⟩
  · obtain ⟨m, s', e1, e2, e3⟩ := C60_struct_box (gLit 7 0 []) (gAccounts 7 0 []) alloc (gPre 7 0 [] st0) (pre := [.normal D4 0 (d4 7), .length u8Ty 4 (encLE 1 0)]) (post := []) rfl
      (fin := 8) ⟨[], [], rfl, .nil _, rfl, by decide⟩ (by decide)
    exact ⟨m, s', e1, by rw [e2]; decide, by rw [e3]; rfl⟩
  · have e := run_eq ⟨1, 0⟩ (VBox.new alloc (Struct 64 8 4 gFs) (Struct.init 8 4 (gFis 7 25 [1, 2, 3, 4]))) st0 (by decide +kernel)
    exact ⟨_, _, e, by decide +kernel⟩
end Demo

end Varlen
