import Verif.Model.VBox
import Verif.Proofs.Newtype
/-! # Proofs about `VBox` and `Owned` -/
namespace Varlen
variable {w : Nat}

theorem copy_rep {T : VarLen w} (hT : Lawful T) {s : St} {src p : Ptr} {v l} (hv : Valid T s src v l) (ha : Acc s p l.size.toNat) :
    T.Rep v l (viewAt (s.write p (takeV (viewAt s src) 0 l.size.toNat)) p) := by
  refine hT.rep_ext _ _ _ _ hv.rep fun i hi => ?_
  rw [viewAt_write (by simpa using ha)]
  have := overwrite_in (viewAt s p) 0 i (takeV (viewAt s src) 0 l.size.toNat) (by simpa using hi)
  rw [Nat.zero_add] at this
  rw [this, List.getD_eq_getElem?_getD, takeV_getElem?]
  simp [hi]

/-- Blocks untouched by an operation that works in block `p.blk`. -/
theorem Touch.blk_eq {s s' : St} {p n own b} (h : Touch s s' p n own) (ho : ¬ own b) (hb : b ≠ p.blk) : s'.blk b = s.blk b :=
  h.same (on := fun x => x = b) (by rintro _ rfl; exact ho) (fun e => hb e.symm) b rfl

/-- A change inside a block is a change of that block. -/
theorem Touch.own_blk {s s' : St} {p : Ptr} {n} (h : Touch s s' p n (fun _ => False)) : Touch s s' ⟨0, 0⟩ 0 (fun b => b = p.blk) := by
  refine ⟨h.len, fun b hb B hB => ?_⟩
  obtain ⟨d, e1, e2⟩ := h.blk b (fun h => h) B hB
  exact ⟨d, e1, fun i _ => e2 i fun e => hb e.1⟩

theorem blocks_length_eq {s s' : St} (h : ∀ b, s'.blk b = none ↔ s.blk b = none) : s'.blocks.length = s.blocks.length := by
  have h1 : ∀ n, s'.blocks.length ≤ n ↔ s.blocks.length ≤ n := by
    intro n
    have := h (n + 1)
    simpa [St.blk] using this
  have a := (h1 s.blocks.length).2 (Nat.le_refl _)
  have b := (h1 s'.blocks.length).1 (Nat.le_refl _)
  omega

theorem touch_of_blk_eq {s s' : St} {c : Nat} (h : ∀ b, b ≠ c → s'.blk b = s.blk b) (h1 : ∃ B, s'.blk c = some B ∧ B.live = false) (h2 : s.blk c ≠ none) :
    Touch s s' ⟨0, 0⟩ 0 (fun b => b = c) := by
  obtain ⟨B1, hB1, _⟩ := h1
  refine ⟨blocks_length_eq fun b => ?_, fun b hb B hB => ⟨B.data, by rw [h b hb, hB], fun _ _ => rfl⟩⟩
  by_cases hb : b = c
  · subst hb; simp [hB1, h2]
  · rw [h b hb]

theorem derefBox_ok {T : VarLen w} (hT : Lawful T) {s p v l} (h : Valid T s p v l) : derefBox T p s = .ok p s := by
  have ha : Acc s p T.headSize := h.acc.mono (hT.head_le v l _ h.rep)
  simp [derefBox, mkRef_ok ha (h.aligned.of_dvd hT.head_align)]

theorem Valid.push {T : VarLen w} {s : St} {p v l B} (h : Valid T s p v l) (hb : p.blk ≠ s.next) : Valid T (s.push B) p v l :=
  h.of_same (on := fun b => b = p.blk) (by rintro b rfl; rw [St.blk_push, if_neg hb]) rfl

/-- A freshly allocated block is suitable storage for an initializer. -/
theorem push_suitable {T : VarLen w} {I : Init w} (hI : InitLawful T I) {s : St} (hp : I.pre s) {base size align : Nat} {d : View}
    (hbase : base % align = 0) :
    I.pre (s.push ⟨base, size, align, true, d⟩) ∧ Acc (s.push ⟨base, size, align, true, d⟩) ⟨s.next, 0⟩ size ∧
    Aligned (s.push ⟨base, size, align, true, d⟩) ⟨s.next, 0⟩ align ∧ ¬ I.fp s.next := by
  have hfp : ¬ I.fp s.next := fun h => hI.fp_exists s _ hp h s.blk_next
  refine ⟨hI.stable s _ hp ?_, .inr ⟨⟨base, size, align, true, d⟩, by rw [St.blk_push]; simp, rfl, by simp⟩, ?_, hfp⟩
  · intro b hb
    rw [St.blk_push, if_neg]
    rintro rfl; exact hfp hb
  · unfold Aligned St.addr
    rw [St.blk_push]; simpa using hbase

theorem pick_some {w : Nat} {A : Allocator} {s : St} {size align base : Nat} (h : pick w A s size align = some base) : legalBase w s base size align := by
  unfold pick at h
  split at h
  · cases h
  · split at h
    · cases h; assumption
    · cases h

/-- What `VBox::new` and `Owned::new_in` do after a successful allocation. -/
theorem init_fresh {T : VarLen w} (_hT : Lawful T) {I : Init w} (hI : InitLawful T I) {s : St} (hp : I.pre s) {l : Layout w} (hl : I.lay = some l)
    {base : Nat} (hb : base % T.ALIGN.toNat = 0) (hfit : fromSizeAlign w l.size.toNat T.ALIGN.toNat = true) :
    (∀ v, I.val = some v → ∃ s', I.initTo ⟨s.next, 0⟩ l (s.push ⟨base, l.size.toNat, T.ALIGN.toNat, true, fun _ => none⟩) = .ok () s' ∧
      BoxHas T s' ⟨s.next, 0⟩ v l ∧ s'.log = s.log ++ I.left ∧ s'.copied = s.copied ∧
      (∀ b B, s.blk b = some B → ¬ I.owns b → s'.blk b = some B) ∧
      (∀ b, I.owns b → ∃ B, s'.blk b = some B ∧ B.live = false)) ∧
    (I.val = none → ∃ m s', I.initTo ⟨s.next, 0⟩ l (s.push ⟨base, l.size.toNat, T.ALIGN.toNat, true, fun _ => none⟩) = .panic m s' ∧
      s'.log = s.log ++ I.lost ∧ s'.copied = s.copied ∧ (∀ b B, s.blk b = some B → ¬ I.mods b → s'.blk b = some B) ∧
      (∀ b, I.owns b → ∃ B, s'.blk b = some B ∧ B.live = false)) := by
  obtain ⟨h1, h2, h3, h4⟩ := push_suitable hI hp (size := l.size.toNat) (d := fun _ => none) hb
  have hfr : ∀ own s', Touch (s.push ⟨base, l.size.toNat, T.ALIGN.toNat, true, fun _ => none⟩) s' ⟨s.next, 0⟩ l.size.toNat own →
      ∀ b B, s.blk b = some B → ¬ own b → s'.blk b = some B := by
    intro own s' ht b B hB ho
    have hne : b ≠ s.next := by rintro rfl; rw [St.blk_next] at hB; cases hB
    rw [ht.blk_eq ho hne, St.blk_push, if_neg hne, hB]
  have how : ¬ I.owns s.next := fun h => h4 (hI.owns_fp _ h)
  constructor
  · intro v hv
    obtain ⟨s', e1, e2, e3, e4, e5, e6⟩ := hI.init_ok _ _ l v h1 hl hv h2 h3 h4
    refine ⟨s', e1, ⟨⟨e2.acc how h2, e2.aligned how h3, e4⟩, ⟨rfl, ?_⟩, hfit⟩, by simpa using e5, by simpa using e6, hfr _ s' e2, e3⟩
    obtain ⟨d, h5, _⟩ := e2.blk s.next how _ (by rw [St.blk_push, if_pos rfl])
    exact ⟨_, h5, rfl, rfl, rfl⟩
  · intro hv
    obtain ⟨m, s', e1, e2, e3, e4, e5⟩ := hI.init_panic _ _ l h1 hl hv h2 h3 h4
    exact ⟨m, s', e1, by simpa using e4, by simpa using e5, hfr _ s' e2, e3⟩

/-- Complete behaviour of `VBox::new`. -/
theorem VBox.new_spec (A : Allocator) {T : VarLen w} (hT : Lawful T) {I : Init w} (hI : InitLawful T I) {s : St} (hp : I.pre s) :
    match I.lay with
    | none => ∃ s', VBox.new A T I s = .panic (bif I.bad then .user else .layoutOverflow) s' ∧ Dropped I s s'
    | some l =>
      if fromSizeAlign w l.size.toNat T.ALIGN.toNat then
        if l.size.toNat = 0 then VBox.new A T I s = .ub .allocZero
        else match pick w A s l.size.toNat T.ALIGN.toNat with
          | none => VBox.new A T I s = .ub .nullPtr
          | some _ =>
            match I.val with
            | some v => ∃ s', VBox.new A T I s = .ok ⟨s.next, 0⟩ s' ∧ BoxHas T s' ⟨s.next, 0⟩ v l ∧ s'.log = s.log ++ I.left ∧ s'.copied = s.copied ∧
                (∀ b B, s.blk b = some B → ¬ I.owns b → s'.blk b = some B) ∧
                (∀ b, I.owns b → ∃ B, s'.blk b = some B ∧ B.live = false)
            | none => ∃ m s', VBox.new A T I s = .panic m s' ∧ s'.log = s.log ++ I.lost ∧ s'.copied = s.copied ∧
                (∀ b B, s.blk b = some B → ¬ I.mods b → s'.blk b = some B) ∧
                (∀ b, I.owns b → ∃ B, s'.blk b = some B ∧ B.live = false)
      else ∃ s', VBox.new A T I s = .panic .layoutOverflow s' ∧ Dropped I s s' := by
  obtain ⟨sd, hd1, hd2⟩ := hI.dropped hp
  unfold VBox.new
  simp only [bind_apply]
  cases hl : I.lay with
  | none =>
    cases hb : I.bad with
    | true => exact ⟨sd, by rw [onUnwind_panic (hI.calc_panic s hp hb) hd1]; rfl, hd2⟩
    | false => exact ⟨sd, by rw [onUnwind_ok (hI.calc_ok s hp hb), hl]; exact onUnwind_panic rfl hd1, hd2⟩
  | some l =>
    rw [onUnwind_ok (hI.calc_some hp hl)]
    simp only [Res.bind_ok]
    by_cases hf : fromSizeAlign w l.size.toNat T.ALIGN.toNat = true
    · simp only [hf, if_true]
      by_cases h0 : l.size.toNat = 0
      · simp [h0, allocM]
      · simp only [h0, if_false]
        simp only [bind_apply, allocM, h0, hf, if_false, reduceCtorEq]
        cases hpk : pick w A s l.size.toNat T.ALIGN.toNat with
        | none => rfl
        | some base =>
          obtain ⟨k1, k2⟩ := init_fresh hT hI hp hl (pick_some hpk).2.1 hf
          simp only [Res.bind_ok, bind_apply]
          cases hv : I.val with
          | some v =>
            obtain ⟨s', e1, e2⟩ := k1 v hv
            refine ⟨s', ?_, e2⟩
            rw [e1]
            simp [derefBox_ok hT e2.1.valid, hT.calc_ok _ _ _ _ e2.1.valid]
          | none =>
            obtain ⟨m, s', e1, e2⟩ := k2 hv
            exact ⟨m, s', by rw [e1]; rfl, e2⟩
    · simp only [hf]; exact ⟨sd, onUnwind_panic rfl hd1, hd2⟩

theorem deallocM_ok {s : St} {p : Ptr} {n a : Nat} (h : ownsAlloc s p n a) : deallocM p n a s = .ok () (s.free p.blk) := by
  simp [deallocM, h]

theorem ownsAlloc.of_touch {s s' : St} {p q : Ptr} {n m a own} (h : ownsAlloc s p n a) (ht : Touch s s' q m own) (ho : ¬ own p.blk) :
    ownsAlloc s' p n a := by
  obtain ⟨h0, B, h1, h2, h3, h4⟩ := h
  obtain ⟨d, h5, _⟩ := ht.blk _ ho B h1
  exact ⟨h0, _, h5, h2, h3, h4⟩

theorem ownsAlloc.of_blk {s s' : St} {p : Ptr} {n a} (h : ownsAlloc s p n a) (hb : s'.blk p.blk = s.blk p.blk) : ownsAlloc s' p n a := by
  unfold ownsAlloc at h ⊢; rw [hb]; exact h

/-- Freeing after touching only the block. -/
theorem free_frame {s s' : St} {p : Ptr} {n a m : Nat} (h : ownsAlloc s p n a) (ht : Touch s s' p m (fun _ => False)) :
    (∀ b, b ≠ p.blk → (s'.free p.blk).blk b = s.blk b) ∧ ∃ B, (s'.free p.blk).blk p.blk = some B ∧ B.live = false := by
  obtain ⟨h0, B, h1, h2, h3, h4⟩ := h
  obtain ⟨d, h5, _⟩ := ht.blk p.blk (fun h => h) B h1
  constructor
  · intro b hb
    rw [St.blk_free h5, if_neg hb]
    exact ht.blk_eq (fun h => h) hb
  · exact ⟨_, by rw [St.blk_free h5, if_pos rfl], rfl⟩

theorem VBox.drop_spec {T : VarLen w} (hT : Lawful T) {s : St} {p v l} (h : BoxHas T s p v l) :
    ∃ s', VBox.drop T p s = .ok () s' ∧ s'.log = s.log ++ T.drops v ∧ s'.copied = s.copied ∧
      (∀ b, b ≠ p.blk → s'.blk b = s.blk b) ∧ ∃ B, s'.blk p.blk = some B ∧ B.live = false := by
  obtain ⟨s1, e1, e2, e3, e4⟩ := hT.vdrop_ok s p v l h.valid
  have ho : ownsAlloc s1 p l.size.toNat T.ALIGN.toNat := h.owns.of_touch e2 (fun h => h)
  obtain ⟨f1, f2⟩ := free_frame h.owns e2
  refine ⟨s1.free p.blk, ?_, by simpa using e3, by simpa using e4, f1, f2⟩
  simp [VBox.drop, layoutUnchecked, h.fits, derefBox_ok hT h.valid, hT.calc_ok _ _ _ _ h.valid, e1, deallocM_ok ho]

theorem layoutUnchecked_ok {w size align : Nat} {s : St} (h : size + (align - 1) ≤ isizeMax w) : layoutUnchecked w size align s = .ok () s := by
  simp [layoutUnchecked, fromSizeAlign, h]

theorem BoxHas.of_same {T : VarLen w} {s s' : St} {p v l} {on : Nat → Prop} (h : BoxHas T s p v l) (hs : Same s s' on) (ho : on p.blk) :
    BoxHas T s' p v l := ⟨h.valid.of_same hs ho, h.owns.of_blk (hs _ ho), h.fits⟩

theorem BoxHas.blk {T : VarLen w} {s : St} {p v l} (h : BoxHas T s p v l) : s.blk p.blk ≠ none := by
  obtain ⟨_, B, h1, _⟩ := h.owns; simp [h1]

theorem VBox.init_lawful {T : VarLen w} (hT : Lawful T) {p : Ptr} {v l} : InitLawful T (VBox.init T p v l) where
  owns_mods := fun _ h => h
  mods_fp := fun _ h => h
  drop_ok := by
    intro s h
    obtain ⟨s', e1, e2, e3, e4, e5⟩ := VBox.drop_spec hT h
    refine ⟨s', e1, ?_, by rintro b rfl; exact e5, e2, e3⟩
    exact touch_of_blk_eq e4 e5 (BoxHas.blk h)
  fp_exists := by rintro s b h rfl; exact BoxHas.blk h
  stable := fun s s' h hs => BoxHas.of_same h hs rfl
  calc_panic := fun _ _ h => nomatch h
  bad_lay := fun h => nomatch h
  calc_ok := by
    intro s h _
    simp [VBox.init, derefBox_ok hT (BoxHas.valid h), hT.calc_ok _ _ _ _ (BoxHas.valid h)]
  init_ok := by
    intro s q l' v' h hl hv ha hal hfp
    cases hl; cases hv
    have hv := BoxHas.valid h
    have hne : p.blk ≠ q.blk := fun h => hfp h.symm
    have ht : Touch s (s.write q (takeV (viewAt s p) 0 l.size.toNat)) q l.size.toNat (fun b => b = p.blk) :=
      Touch.write.mono (.inr ⟨rfl, Nat.le_refl _, by simp⟩) (fun _ h => h)
    have hb : (s.write q (takeV (viewAt s p) 0 l.size.toNat)).blk p.blk = s.blk p.blk :=
      (Touch.write (own := fun _ => False)).blk_eq (fun h => h) hne
    have ho := (BoxHas.owns h).of_blk hb
    obtain ⟨_, B, h1, _⟩ := ho
    refine ⟨(s.write q (takeV (viewAt s p) 0 l.size.toNat)).free p.blk, ?_, ?_, ?_, ?_, by simp [VBox.init], by simp⟩
    · simp [VBox.init, layoutUnchecked, BoxHas.fits h, copyNonoverlapping_ok (Aligned.one _ _) (Aligned.one _ _) hv.acc ha (.inr (.inl hne)),
        deallocM_ok ((BoxHas.owns h).of_blk hb)]
    · refine ⟨by simp, fun b hb' B' hB' => ?_⟩
      obtain ⟨d, e1, e2⟩ := ht.blk b hb' B' hB'
      exact ⟨d, by rw [St.blk_free h1, if_neg (show ¬ b = p.blk from hb')]; exact e1, e2⟩
    · rintro b rfl
      exact ⟨_, by rw [St.blk_free h1, if_pos rfl], rfl⟩
    · have : viewAt ((s.write q (takeV (viewAt s p) 0 l.size.toNat)).free p.blk) q = viewAt (s.write q (takeV (viewAt s p) 0 l.size.toNat)) q := by
        refine Same.viewAt (on := fun b => b = q.blk) ?_ rfl
        rintro b rfl
        rw [St.blk_free h1, if_neg (fun e => hne e.symm)]
      rw [this]
      exact copy_rep hT hv ha
  init_panic := by intro s p l' _ _ h; cases h

/-! ## `Owned` -/
theorem Owned.drop_spec {T : VarLen w} (hT : Lawful T) {s : St} {p v l} (h : Valid T s p v l) :
    ∃ s', Owned.drop T p s = .ok () s' ∧ Touch s s' p l.size.toNat (fun _ => False) ∧ s'.log = s.log ++ T.drops v ∧ s'.copied = s.copied := by
  obtain ⟨s1, e1, e2, e3, e4⟩ := hT.vdrop_ok s p v l h
  refine ⟨s1, ?_, e2, e3, e4⟩
  simp [Owned.drop, derefBox_ok hT h, hT.calc_ok _ _ _ _ h, e1]

/-- What `leak` does: it returns the pointer, after dropping the value. -/
theorem Owned.leak_spec {T : VarLen w} (hT : Lawful T) {s : St} {p v l} (h : Valid T s p v l) :
    ∃ s', Owned.leak T p s = .ok p s' ∧ Touch s s' p l.size.toNat (fun _ => False) ∧ s'.log = s.log ++ T.drops v ∧ s'.copied = s.copied := by
  obtain ⟨s1, e1, e2⟩ := Owned.drop_spec hT h
  refine ⟨s1, ?_, e2⟩
  simp [Owned.leak, derefBox_ok hT h, e1]

theorem Owned.newIn_spec (A : Allocator) {T : VarLen w} (hT : Lawful T) {I : Init w} (hI : InitLawful T I) {s : St} (hp : I.pre s) :
    match I.lay with
    | none => ∃ s', Owned.newIn A T I s = .panic (bif I.bad then .user else .unwrapNone) s' ∧ Dropped I s s'
    | some l =>
      if fromSizeAlign w l.size.toNat T.ALIGN.toNat then
        match pick w A s l.size.toNat T.ALIGN.toNat with
          | none => ∃ s', Owned.newIn A T I s = .panic .oom s' ∧ Dropped I s s'
          | some _ =>
            match I.val with
            | some v => ∃ s', Owned.newIn A T I s = .ok ⟨s.next, 0⟩ s' ∧ BoxHas T s' ⟨s.next, 0⟩ v l ∧ s'.log = s.log ++ I.left ∧ s'.copied = s.copied ∧
                (∀ b B, s.blk b = some B → ¬ I.owns b → s'.blk b = some B) ∧
                (∀ b, I.owns b → ∃ B, s'.blk b = some B ∧ B.live = false)
            | none => ∃ m s', Owned.newIn A T I s = .panic m s' ∧ s'.log = s.log ++ I.lost ∧ s'.copied = s.copied ∧
                (∀ b B, s.blk b = some B → ¬ I.mods b → s'.blk b = some B) ∧
                (∀ b, I.owns b → ∃ B, s'.blk b = some B ∧ B.live = false)
      else ∃ s', Owned.newIn A T I s = .panic .unwrapNone s' ∧ Dropped I s s' := by
  obtain ⟨sd, hd1, hd2⟩ := hI.dropped hp
  unfold Owned.newIn
  simp only [bind_apply]
  cases hl : I.lay with
  | none =>
    cases hb : I.bad with
    | true => exact ⟨sd, by rw [onUnwind_panic (hI.calc_panic s hp hb) hd1]; rfl, hd2⟩
    | false => exact ⟨sd, by rw [onUnwind_ok (hI.calc_ok s hp hb), hl]; exact onUnwind_panic rfl hd1, hd2⟩
  | some l =>
    rw [onUnwind_ok (hI.calc_some hp hl)]
    simp only [Res.bind_ok]
    by_cases hf : fromSizeAlign w l.size.toNat T.ALIGN.toNat = true
    · simp only [hf, if_true]
      simp only [bind_apply]
      cases hpk : pick w A s l.size.toNat T.ALIGN.toNat with
      | none => exact ⟨sd, by rw [onUnwind_panic (by simp [bumpAlloc, hpk, hf]; rfl) hd1]; rfl, hd2⟩
      | some base =>
        have hba : bumpAlloc w A l.size.toNat T.ALIGN.toNat s = .ok ⟨s.next, 0⟩ (s.push ⟨base, l.size.toNat, T.ALIGN.toNat, true, fun _ => none⟩) := by
          simp [bumpAlloc, hpk, hf]
        rw [onUnwind_ok hba]
        obtain ⟨k1, k2⟩ := init_fresh hT hI hp hl (pick_some hpk).2.1 hf
        simp only [Res.bind_ok, bind_apply]
        cases hv : I.val with
        | some v =>
          obtain ⟨s', e1, e2, e3⟩ := k1 v hv
          exact ⟨s', by rw [e1]; rfl, e2, e3⟩
        | none =>
          obtain ⟨m, s', e1, e2⟩ := k2 hv
          exact ⟨m, s', by rw [e1]; rfl, e2⟩
    · simp only [hf]; exact ⟨sd, onUnwind_panic rfl hd1, hd2⟩

/-- `Owned` is a lawful initializer when the head is one byte. -/
theorem Owned.init_lawful_of_head_one {T : VarLen w} (hT : Lawful T) (h1 : T.headSize = 1) {src : Ptr} {v l} :
    InitLawful T (Owned.init T src v l) where
  owns_mods := fun _ h => h.elim
  mods_fp := fun _ h => h
  drop_ok := by
    rintro s ⟨h, _⟩
    obtain ⟨s', e1, e2, e3, e4⟩ := Owned.drop_spec hT h
    exact ⟨s', e1, e2.own_blk, fun _ h => h.elim, e3, e4⟩
  fp_exists := by rintro s b ⟨_, h⟩ rfl; exact h
  stable := by
    rintro s s' ⟨h, h2⟩ hs
    exact ⟨h.of_same hs rfl, by rw [hs _ rfl]; exact h2⟩
  calc_panic := fun _ _ h => nomatch h
  bad_lay := fun h => nomatch h
  calc_ok := by
    rintro s ⟨h, _⟩ _
    simp [Owned.init, derefBox_ok hT h, hT.calc_ok _ _ _ _ h]
  init_ok := by
    rintro s p l' v' ⟨hv, _⟩ hl hvv ha hal hfp
    cases hl; cases hvv
    have hne : src.blk ≠ p.blk := fun h => hfp h.symm
    have hc := copyNonoverlapping_ok (hv.aligned.of_dvd hT.head_align) (hal.of_dvd hT.head_align) hv.acc ha (.inr (.inl hne))
    refine ⟨_, by simpa [Owned.init, h1] using hc, ?_, fun _ h => h.elim, copy_rep hT hv ha, by simp [Owned.init], by simp⟩
    exact Touch.write.mono (.inr ⟨rfl, Nat.le_refl _, by simp⟩) (fun _ h => h)
  init_panic := by intro s p l' _ _ h; cases h

end Varlen
