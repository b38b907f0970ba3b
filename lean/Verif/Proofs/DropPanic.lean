import Verif.Spec.DropPanic
import Verif.Proofs.LibType
import Verif.Proofs.SeqOps
namespace Varlen.DP
variable {w : Nat}

/-- The program outcome `r`, from state `s`, is what `o` (effects and fate) says, and only the `n` bytes at `p` have changed. -/
def Ends (r : Res St Unit) (s : St) (p : Ptr) (n : Nat) (o : List Event × Fate) : Prop :=
  ∃ s', r = o.2.res s' ∧ Touch s s' p n noOwn ∧ s'.log = s.log ++ o.1 ∧ s'.copied = s.copied

theorem Ends.mono {r s p n o q m} (h : Ends r s p n o) (h1 : p.blk = q.blk) (h2 : q.off ≤ p.off) (h3 : p.off + n ≤ q.off + m) : Ends r s q m o := by
  obtain ⟨s', e1, e2, e3, e4⟩ := h
  exact ⟨s', e1, e2.mono (.inr ⟨h1, h2, h3⟩) (fun _ h => h), e3, e4⟩

/-- Sequencing two outcomes. -/
def seqO (a b : List Event × Fate) : List Event × Fate :=
  match a.2 with
  | .done => (a.1 ++ b.1, b.2)
  | f => (a.1, f)

theorem run_cons (boom : Boom) (g : Group) (gs) : run boom (g :: gs) = seqO (group boom false g) (run boom gs) := by
  simp only [run, seqO]
  rcases group boom false g with ⟨es, _ | _ | _⟩ <;> rfl

theorem run_append (boom : Boom) : ∀ gs hs, run boom (gs ++ hs) = seqO (run boom gs) (run boom hs)
  | [], hs => rfl
  | g :: gs, hs => by
    rw [List.cons_append, run_cons, run_cons, run_append boom gs hs]
    unfold seqO
    rcases group boom false g with ⟨es, _ | _ | _⟩
    · rcases run boom gs with ⟨es2, _ | _ | _⟩ <;> simp
    · rfl
    · rfl

theorem Ends.bind {x : M Unit} {k : Unit → M Unit} {s : St} {p n a b} (h : Ends (x s) s p n a)
    (hk : ∀ s', a.2 = .done → x s = .ok () s' → Touch s s' p n noOwn → s'.log = s.log ++ a.1 → s'.copied = s.copied → Ends (k () s') s' p n b) :
    Ends ((x >>= k) s) s p n (seqO a b) := by
  obtain ⟨s', e1, e2, e3, e4⟩ := h
  rw [bind_apply, e1]
  rcases a with ⟨es, f⟩
  simp only at e1 e3 hk
  cases f with
  | done =>
    obtain ⟨s2, f1, f2, f3, f4⟩ := hk s' rfl e1 e2 e3 e4
    exact ⟨s2, by simpa [Fate.res, seqO] using f1, e2.trans f2, by simp [seqO, f3, e3], by rw [f4, e4]⟩
  | panicked => exact ⟨s', rfl, e2, e3, e4⟩
  | aborted => exact ⟨s', rfl, e2, e3, e4⟩

/-- One destructor. -/
theorem dropInPlace_spec (boom : Boom) {s : St} {R : RTy} {p : Ptr} {img : Img} (ha : Acc s p R.size) (hal : Aligned s p R.align)
    (hi : takeV (viewAt s p) 0 R.size = img) (hv : R.valid img = true) : Ends (dropInPlace boom R p s) s p R.size (group boom false [(R, img)]) := by
  subst hi
  unfold dropInPlace group
  cases hd : R.needsDrop
  · exact ⟨s, by simp [checkAlign_ok hal, group, Fate.res], Touch.refl _ _ _ _, by simp [group], rfl⟩
  · have ht : Touch s ((s.logged (R.dropEv (takeV (viewAt s p) 0 R.size))).write p (List.replicate R.size none)) p R.size noOwn :=
      (Touch.logged s (R.dropEv (takeV (viewAt s p) 0 R.size)) _ _ _).trans
        ((Touch.write (own := noOwn)).mono (.inr ⟨rfl, Nat.le_refl _, by simp⟩) (fun _ h => h))
    have hw : writeBytes p (List.replicate R.size none) (s.logged (R.dropEv (takeV (viewAt s p) 0 R.size))) = _ := writeBytes_ok (by simpa using ha)
    cases hb : boom R (takeV (viewAt s p) 0 R.size)
    · refine ⟨_, ?_, ht, by simp [group], by simp⟩
      simp only [if_true, bind_apply, checkAlign_ok hal, Res.bind_ok, readVal_ok ha hal hv, emit_apply, hw, hb]
      rfl
    · refine ⟨_, ?_, ht, by simp [group], by simp⟩
      simp only [if_true, bind_apply, checkAlign_ok hal, Res.bind_ok, readVal_ok ha hal hv, emit_apply, hw, hb]
      rfl

theorem group_cons (boom : Boom) (u : Bool) (x : RTy × Img) (g : Group) : group boom u (x :: g) =
    match group boom false [x] with
    | (es, .done) => (es ++ (group boom u g).1, (group boom u g).2)
    | (es, _) => if u = true then (es, .aborted) else (es ++ (group boom true g).1, (group boom true g).2) := by
  obtain ⟨R, x⟩ := x
  cases hd : R.needsDrop
  · simp [group, hd]
  · cases hb : boom R x <;> simp [group, hd, hb]

theorem group_one (boom : Boom) (x : RTy × Img) : (group boom false [x]).2 ≠ .aborted := by
  obtain ⟨R, x⟩ := x
  cases hd : R.needsDrop <;> cases hb : boom R x <;> simp [group, hd, hb]

theorem group_true (boom : Boom) : ∀ g : Group, (group boom true g).2 ≠ .done
  | [] => by simp [group]
  | (R, x) :: g => by
    have := group_true boom g
    cases hd : R.needsDrop <;> cases hb : boom R x <;> simp [group, hd, hb, this]

section
variable {R : RTy} (hR : R.Ok w)
include hR

/-- The elements after one that panicked. -/
theorem dropRest_spec (boom : Boom) : ∀ n p s, Acc s p (n * R.size) → Aligned s p R.align →
    (∀ x ∈ elemsV (viewAt s p) 0 R.size n, R.valid x = true) →
    ∃ s', (dropRest boom R p n s = match (group boom true ((elemsV (viewAt s p) 0 R.size n).map fun x => (R, x))).2 with
        | .aborted => .panic .abort s'
        | _ => .ok () s') ∧ Touch s s' p (n * R.size) noOwn ∧
      s'.log = s.log ++ (group boom true ((elemsV (viewAt s p) 0 R.size n).map fun x => (R, x))).1 ∧ s'.copied = s.copied := by
  intro n
  induction n with
  | zero => intro p s _ _ _; exact ⟨s, rfl, Touch.refl _ _ _ _, by simp [elemsV, group], rfl⟩
  | succ n ih =>
    intro p s ha hal hv
    obtain ⟨ha1, ha2, hal2⟩ := elems_rest hR ha hal
    have hmul : (n + 1) * R.size = n * R.size + R.size := Nat.succ_mul n _
    rw [elemsV_succ] at hv
    rw [elemsV_succ, List.map_cons, group_cons]
    obtain ⟨s1, h1, h2, h3, h4⟩ := dropInPlace_spec boom (img := takeV (viewAt s p) 0 R.size) ha1 hal rfl (hv _ (by simp))
    have h2' : Touch s s1 p ((n + 1) * R.size) noOwn := h2.mono (.inr ⟨rfl, Nat.le_refl _, by omega⟩) (fun _ h => h)
    have hg := group_one boom (R, takeV (viewAt s p) 0 R.size)
    generalize group boom false [(R, takeV (viewAt s p) 0 R.size)] = r at h1 h3 hg ⊢
    rcases r with ⟨es, _ | _ | _⟩
    · have hview : elemsV (viewAt s1 (p.add R.size)) 0 R.size n = elemsV (viewAt s p) (0 + R.size) R.size n := by
        rw [viewAt_add, elemsV_shift]
        apply elemsV_congr
        intro i hi
        simp only [Nat.add_zero, Nat.zero_add]
        exact h2.view (fun h => h) _ (by omega)
      obtain ⟨s2, h5, h6, h7, h8⟩ := ih (p.add R.size) s1 (h2.acc (fun h => h) ha2) (h2.aligned (fun h => h) hal2)
        (by rw [hview]; intro x hx; exact hv x (by simp only [Nat.zero_add] at hx; simp [hx]))
      rw [hview] at h5 h7
      refine ⟨s2, ?_, ?_, ?_, h8.trans h4⟩
      · simp only [dropRest, bind_apply, unwinding, h1, Fate.res, Res.bind_ok, h5]
      · exact h2'.trans (h6.mono (.inr ⟨rfl, by simp, by simp; omega⟩) (fun _ h => h))
      · rw [h7, h3]; simp
    · refine ⟨s1, ?_, h2', h3, h4⟩
      simp only [dropRest, bind_apply, unwinding, h1, Fate.res, Res.bind_panic, if_true]
    · exact absurd rfl hg

/-- Dropping the elements of a slice. -/
theorem dropElems_spec (boom : Boom) : ∀ n p s xs, Acc s p (n * R.size) → Aligned s p R.align → elemsV (viewAt s p) 0 R.size n = xs →
    (∀ x ∈ xs, R.valid x = true) → Ends (dropElems boom R p n s) s p (n * R.size) (group boom false (xs.map fun x => (R, x))) := by
  intro n
  induction n with
  | zero => intro p s xs _ _ hx _; subst hx; exact ⟨s, rfl, Touch.refl _ _ _ _, by simp [elemsV, group], rfl⟩
  | succ n ih =>
    intro p s xs ha hal hx hv
    subst hx
    obtain ⟨ha1, ha2, hal2⟩ := elems_rest hR ha hal
    have hmul : (n + 1) * R.size = n * R.size + R.size := Nat.succ_mul n _
    rw [elemsV_succ] at hv
    rw [elemsV_succ, List.map_cons, group_cons]
    obtain ⟨s1, h1, h2, h3, h4⟩ := dropInPlace_spec boom (img := takeV (viewAt s p) 0 R.size) ha1 hal rfl (hv _ (by simp))
    have h2' : Touch s s1 p ((n + 1) * R.size) noOwn := h2.mono (.inr ⟨rfl, Nat.le_refl _, by omega⟩) (fun _ h => h)
    have hg := group_one boom (R, takeV (viewAt s p) 0 R.size)
    have hview : elemsV (viewAt s1 (p.add R.size)) 0 R.size n = elemsV (viewAt s p) (0 + R.size) R.size n := by
      rw [viewAt_add, elemsV_shift]
      apply elemsV_congr
      intro i hi
      simp only [Nat.add_zero, Nat.zero_add]
      exact h2.view (fun h => h) _ (by omega)
    have hv2 : ∀ x ∈ elemsV (viewAt s p) (0 + R.size) R.size n, R.valid x = true := fun x hx => hv x (by simp only [Nat.zero_add] at hx; simp [hx])
    generalize group boom false [(R, takeV (viewAt s p) 0 R.size)] = r at h1 h3 hg ⊢
    rcases r with ⟨es, _ | _ | _⟩
    · obtain ⟨s2, h5, h6, h7, h8⟩ := ih (p.add R.size) s1 _ (h2.acc (fun h => h) ha2) (h2.aligned (fun h => h) hal2) hview hv2
      refine ⟨s2, ?_, ?_, ?_, h8.trans h4⟩
      · simp only [dropElems, bind_apply, onUnwind, h1, Fate.res, Res.bind_ok, h5]
      · exact h2'.trans (h6.mono (.inr ⟨rfl, by simp, by simp; omega⟩) (fun _ h => h))
      · rw [h7, h3]; simp
    · obtain ⟨s2, h5, h6, h7, h8⟩ := dropRest_spec hR boom n (p.add R.size) s1 (h2.acc (fun h => h) ha2) (h2.aligned (fun h => h) hal2)
        (by rw [hview]; exact hv2)
      rw [hview] at h5 h7
      have hgt := group_true boom ((elemsV (viewAt s p) (0 + R.size) R.size n).map fun x => (R, x))
      refine ⟨s2, ?_, ?_, ?_, h8.trans h4⟩
      · simp only [dropElems, bind_apply, onUnwind, h1, Fate.res, h5, if_neg (show ¬ (false = true) by simp)]
        generalize (group boom true ((elemsV (viewAt s p) (0 + R.size) R.size n).map fun x => (R, x))).2 = f at hgt ⊢
        cases f with
        | done => exact absurd rfl hgt
        | panicked => rfl
        | aborted => rfl
      · exact h2'.trans (h6.mono (.inr ⟨rfl, by simp, by simp; omega⟩) (fun _ h => h))
      · rw [h7, h3]; simp
    · exact absurd rfl hg
end

/-- Values without destructors. -/
def Quiet (gs : List Group) : Prop := ∀ g ∈ gs, ∀ x ∈ g, x.1.needsDrop = false

theorem group_quiet (boom : Boom) : ∀ g : Group, (∀ x ∈ g, x.1.needsDrop = false) → group boom false g = ([], .done)
  | [], _ => rfl
  | (R, x) :: g, h => by
    have h1 : R.needsDrop = false := h (R, x) (by simp)
    simp [group, h1, group_quiet boom g (fun y hy => h y (by simp [hy]))]

theorem run_quiet (boom : Boom) : ∀ gs, Quiet gs → run boom gs = ([], .done)
  | [], _ => rfl
  | g :: gs, h => by
    rw [run_cons, group_quiet boom g (h g (by simp)), run_quiet boom gs (fun g hg => h g (by simp [hg]))]; rfl

/-- The events of a group all of whose destructors run. -/
def owed (gs : List Group) : List Event := gs.flatten.flatMap fun x => x.1.drops x.2

/-- The contract of a type with panicking destructors. -/
structure PLawful (T : Ty w) : Prop where
  law : Lawful T.T
  vdrop : ∀ boom s p v l, Valid T.T s p v l → Ends (T.vdrop boom p l s) s p l.size.toNat (run boom (T.plan v))
  drops : ∀ v l o, T.T.Rep v l o → T.T.drops v = owed (T.plan v)
  quiet : T.T.NEEDS_VDROP = false → ∀ v l o, T.T.Rep v l o → Quiet (T.plan v)

theorem run_one (boom : Boom) (g : Group) : run boom [g] = group boom false g := by
  rw [run_cons]
  rcases group boom false g with ⟨es, _ | _ | _⟩ <;> simp [seqO, run]

theorem fixedLen_law {R : RTy} (hR : R.Ok w) : PLawful (fixedLen w R) where
  law := FixedLen.lawful hR
  vdrop := by
    rintro boom s p v l ⟨ha, hal, img, rfl, rfl, h1, h2⟩
    simp only [Layout.size, hR.sizeOf_toNat] at ha ⊢
    simp only [fixedLen, FixedLen, hR.alignOf_toNat] at hal
    show Ends _ _ _ _ (run boom [[(R, img)]])
    rw [run_one]
    exact dropInPlace_spec boom ha hal h1 h2
  drops := by
    rintro v l o ⟨img, rfl, rfl, h1, h2⟩
    simp [fixedLen, FixedLen, owed]
  quiet := by
    intro h
    cases h

theorem owed_map (R : RTy) (xs : List Img) : owed [xs.map fun x => (R, x)] = xs.flatMap R.drops := by
  simp [owed, List.flatMap_map]

theorem array_law {R : RTy} {L : LenTy} (hR : R.Ok w) (hL : L.Ok w) : PLawful (array w R L) where
  law := Array.lawful hR hL
  vdrop := by
    rintro boom s p v l ⟨ha, hal, off, n, size, xs, rfl, rfl, hv, hn, ho, hs, hx, hxv⟩
    simp only [Layout.size] at ha ⊢
    have hal' : Aligned s (p.add off.toNat) R.align :=
      (hal.of_dvd (Array.align_spec hR hL).2.2).add (by rw [ho]; exact roundUpN_mod _ _)
    have hview : elemsV (viewAt s (p.add off.toNat)) 0 R.size n.toNat = xs := by
      rw [viewAt_add, elemsV_shift]; simpa using hx
    show Ends _ _ _ _ (run boom [xs.map fun x => (R, x)])
    rw [run_one]
    exact (dropElems_spec hR boom n.toNat (p.add off.toNat) s xs (ha.sub (by omega)) hal' hview hxv).mono rfl (by simp) (by simp; omega)
  drops := by
    rintro v l o ⟨off, n, size, xs, rfl, _⟩
    exact (owed_map R xs).symm
  quiet := by
    rintro h v l o ⟨off, n, size, xs, rfl, _⟩ g hg x hx
    obtain rfl : g = xs.map fun x => (R, x) := by simpa [array] using hg
    obtain ⟨y, hy, rfl⟩ := List.mem_map.1 hx
    exact h

theorem newtypeInv_law {T : Ty w} (hT : PLawful T) (inv : V → Prop) : PLawful (newtypeInv T inv) where
  law := NewtypeInv.lawful hT.law inv
  vdrop := by
    intro boom s p v l h
    by_cases hn : T.T.NEEDS_VDROP = false
    · show Ends _ _ _ _ (run boom (T.plan v))
      rw [run_quiet boom _ (hT.quiet hn v l _ h.rep.1)]
      exact ⟨s, by simp [newtypeInv, hn, Fate.res], Touch.refl _ _ _ _, by simp, rfl⟩
    · have := hT.vdrop boom s p v l (NewtypeInv.valid_inner h)
      simpa [newtypeInv, hn] using this
  drops := fun v l o h => hT.drops v l o h.1
  quiet := fun h v l o hr => hT.quiet h v l o hr.1

section fields
variable {hs ha : Nat}

theorem vdropFields_spec (boom : Boom) {lens : List Img} {p : Ptr} {fin : Nat} :
    ∀ (fs : List (Fld w)) vs ls cur s, (∀ f ∈ fs.map Fld.fld, f.Ok hs ha) → (∀ T, Fld.varlen T ∈ fs → PLawful T) →
    ((fs.map Fld.fld).Pairwise fun a b => a.range.2 = 0 ∨ b.range.2 = 0 ∨ a.range.1 + a.range.2 ≤ b.range.1 ∨
      b.range.1 + b.range.2 ≤ a.range.1) →
    Acc s p fin → Aligned s p ha → (∀ a ∈ tailAligns (fs.map Fld.fld), Aligned s p a.toNat) → hs ≤ cur →
    RepHdr (fs.map Fld.fld) vs (viewAt s p) → RepTails lens (fs.map Fld.fld) vs ls cur fin (viewAt s p) →
    Ends (vdropFields boom p fs ls s) s p fin (run boom (planFields fs vs)) := by
  intro fs
  induction fs with
  | nil =>
    intro vs ls cur s _ _ _ _ _ _ _ _ h
    cases vs <;> cases ls <;> simp [RepTails] at h
    exact ⟨s, rfl, Touch.refl _ _ _ _, by simp [planFields, run], rfl⟩
  | cons f fs ih =>
    intro vs ls cur s hok hpl hdj hacc hal halt hcur hr h
    rw [List.map_cons] at hok hdj halt hr h
    have hpl' : ∀ T, Fld.varlen T ∈ fs → PLawful T := fun T hT => hpl T (by simp [hT])
    have hok' : ∀ f ∈ fs.map Fld.fld, f.Ok hs ha := fun g hg => hok g (by simp only [List.mem_cons]; exact .inr hg)
    have hf := hok f.fld (by simp)
    obtain ⟨hdj1, hdj2⟩ := List.pairwise_cons.1 hdj
    cases vs with
    | nil => cases f <;> simp [RepTails, Fld.fld] at h
    | cons v vs =>
      have hdr : ∀ (R : RTy) (off : Nat) (img : Img), f.fld.range = (off, R.size) →
          (R.Ok w ∧ off + R.size ≤ hs ∧ off % R.align = 0 ∧ R.align ∣ ha) →
          takeV (viewAt s p) off R.size = img ∧ R.valid img = true →
          RepHdr (fs.map Fld.fld) vs (viewAt s p) → RepTails lens (fs.map Fld.fld) vs ls cur fin (viewAt s p) →
          (∀ a ∈ tailAligns (fs.map Fld.fld), Aligned s p a.toNat) →
          Ends ((dropInPlace boom R (p.add off) >>= fun _ => vdropFields boom p fs ls) s) s p fin (run boom ([(R, img)] :: planFields fs vs)) := by
        intro R off img hrange hfo hi hr2 ht2 halt2
        obtain ⟨hR, h1, h2, h3⟩ := hfo
        have hle := RepTails.le _ _ _ _ _ hok' ht2
        have hv : takeV (viewAt s (p.add off)) 0 R.size = img := by
          rw [viewAt_add, takeV_shift]; exact hi.1
        rw [run_cons]
        have e0 := dropInPlace_spec boom (R := R) (hacc.sub (o := off) (by omega)) ((hal.of_dvd h3).add h2) hv hi.2
        refine Ends.bind (e0.mono rfl (by simp) (by simp; omega)) ?_
        obtain ⟨s0, g1, e2, _, _⟩ := e0
        intro s1 hfa g2 _ _ _
        rw [g2, hfa] at g1
        obtain rfl : s1 = s0 := by cases g1; rfl
        have hview : ∀ i, ¬ (off ≤ i ∧ i < off + R.size) → viewAt s p i = viewAt s1 p i := fun i hi =>
          (e2.view (q := p) (fun h => h) i (by simp; omega)).symm
        exact ih vs ls cur s1 hok' hpl' hdj2 (e2.acc (fun h => h) hacc)
          (e2.aligned (fun h => h) hal) (fun a ha => e2.aligned (fun h => h) (halt2 a ha)) hcur
          (RepHdr.congr _ _ (fun g hg i hi => hview _ (by
            have := hdj1 g hg
            rw [hrange] at this
            simp only at this
            omega)) hr2)
          (RepTails.congr _ _ _ _ _ hok' (fun i hi hi' => hview i (by omega)) ht2)
      cases f with
      | normal R off =>
        cases v <;> simp only [RepHdr, Fld.fld] at hr
        exact hdr R off _ rfl hf hr.1 hr.2 h halt
      | length R off =>
        cases v <;> simp only [RepHdr, Fld.fld] at hr
        exact hdr R off _ rfl hf hr.1 hr.2 h halt
      | varlen T =>
        simp only [RepHdr, Fld.fld] at hr
        rcases ls with _ | ⟨⟨o1, l⟩, ls⟩
        · simp [RepTails, Fld.fld] at h
        simp only [RepTails, Fld.fld] at h
        obtain ⟨⟨h1, h2⟩, h3⟩ := h
        have hp := hpl T (by simp)
        have hle := RepTails.le _ _ _ _ _ hok' h3
        have hge := roundUpN_ge cur T.T.ALIGN.toNat (Lawful.align_pow2 hp.law).pos
        have hal1 : Aligned s (p.add o1.toNat) T.T.ALIGN.toNat :=
          (halt T.T.ALIGN (by simp [tailAligns, Fld.fld])).add (by rw [h1]; exact roundUpN_mod _ _)
        have hacc1 : Acc s (p.add o1.toNat) l.size.toNat := hacc.sub (by omega)
        have hval : Valid T.T s (p.add o1.toNat) v l := ⟨hacc1, hal1, by rw [viewAt_add]; exact h2⟩
        show Ends _ _ _ _ (run boom (T.plan v ++ planFields fs vs))
        rw [run_append]
        have e0 : Ends (vdropField boom T p o1 l s) s (p.add o1.toNat) l.size.toNat (run boom (T.plan v)) := by
          have := hp.vdrop boom _ _ _ _ hval
          simp only [vdropField, bind_apply, mkRef_ok (hacc1.mono (Lawful.head_le hp.law _ _ _ h2)) (hal1.of_dvd (Lawful.head_align hp.law)), Res.bind_ok]
          exact this
        refine Ends.bind (e0.mono rfl (by simp) (by simp; omega)) ?_
        obtain ⟨s0, g1, e2, _, _⟩ := e0
        intro s1 hfa g2 _ _ _
        rw [g2, hfa] at g1
        obtain rfl : s1 = s0 := by cases g1; rfl
        have hview : ∀ i, ¬ (o1.toNat ≤ i ∧ i < o1.toNat + l.size.toNat) → viewAt s p i = viewAt s1 p i := fun i hi =>
          (e2.view (q := p) (fun h => h) i (by simp; omega)).symm
        exact ih vs ls _ s1 hok' hpl' hdj2 (e2.acc (fun h => h) hacc)
          (e2.aligned (fun h => h) hal) (fun a ha => e2.aligned (fun h => h) (halt a (by simp [tailAligns, Fld.fld, ha])))
          (by omega)
          (RepHdr.congr _ _ (fun g hg i hi => hview _ (by
            have := (hok' g hg).range_le (by omega)
            omega)) hr)
          (RepTails.congr _ _ _ _ _ hok' (fun i hi hi' => hview i (by omega)) h3)
      | array R len =>
        simp only [RepHdr, Fld.fld] at hr
        rcases ls with _ | ⟨⟨o1, l⟩, ls⟩
        · simp [RepTails, Fld.fld] at h
        cases v <;> cases l <;> simp only [RepTails, Fld.fld] at h
        rename_i xs n
        obtain ⟨⟨h1, h2, h4, h5⟩, h3⟩ := h
        have hle := RepTails.le _ _ _ _ _ hok' h3
        have hge := roundUpN_ge cur R.align (RTy.Ok.align_pos hf)
        have hal1 : Aligned s (p.add o1.toNat) R.align := by
          have := halt (R.alignOf w) (by simp [tailAligns, Fld.fld])
          rw [RTy.Ok.alignOf_toNat hf] at this
          exact this.add (by rw [h1]; exact roundUpN_mod _ _)
        have hacc1 : Acc s (p.add o1.toNat) (n.toNat * R.size) := hacc.sub (by omega)
        have hv : elemsV (viewAt s (p.add o1.toNat)) 0 R.size n.toNat = xs := by
          rw [viewAt_add, elemsV_shift]; exact h4
        show Ends _ _ _ _ (run boom ((xs.map fun x => (R, x)) :: planFields fs vs))
        rw [run_cons]
        have e0 : Ends (dropArray boom R p o1 n s) s (p.add o1.toNat) (n.toNat * R.size) (group boom false (xs.map fun x => (R, x))) :=
          dropElems_spec hf boom n.toNat _ _ xs hacc1 hal1 hv h5.1
        refine Ends.bind (e0.mono rfl (by simp) (by simp; omega)) ?_
        obtain ⟨s0, g1, e2, _, _⟩ := e0
        intro s1 hfa g2 _ _ _
        rw [g2, hfa] at g1
        obtain rfl : s1 = s0 := by cases g1; rfl
        have hview : ∀ i, ¬ (o1.toNat ≤ i ∧ i < o1.toNat + n.toNat * R.size) → viewAt s p i = viewAt s1 p i := fun i hi =>
          (e2.view (q := p) (fun h => h) i (by simp; omega)).symm
        exact ih vs ls _ s1 hok' hpl' hdj2 (e2.acc (fun h => h) hacc)
          (e2.aligned (fun h => h) hal) (fun a ha => e2.aligned (fun h => h) (halt a (by simp [tailAligns, Fld.fld, ha])))
          (by omega)
          (RepHdr.congr _ _ (fun g hg i hi => hview _ (by
            have := (hok' g hg).range_le (by omega)
            omega)) hr)
          (RepTails.congr _ _ _ _ _ hok' (fun i hi hi' => hview i (by omega)) h3)

theorem owed_cons (g gs) : owed (g :: gs) = (g.flatMap fun x => x.1.drops x.2) ++ owed gs := by simp [owed]
theorem owed_append (a b) : owed (a ++ b) = owed a ++ owed b := by simp [owed]

theorem planFields_drops {lens : List Img} {o : View} : ∀ (fs : List (Fld w)) vs ls cur fin, (∀ T, Fld.varlen T ∈ fs → PLawful T) →
    RepHdr (fs.map Fld.fld) vs o → RepTails lens (fs.map Fld.fld) vs ls cur fin o → fieldDrops (fs.map Fld.fld) vs = owed (planFields fs vs) := by
  intro fs
  induction fs with
  | nil => intro vs ls cur fin _ _ _; cases vs <;> rfl
  | cons f fs ih =>
    intro vs ls cur fin hpl hr h
    have hpl' : ∀ T, Fld.varlen T ∈ fs → PLawful T := fun T hT => hpl T (by simp [hT])
    cases vs with
    | nil => cases f <;> exact hr.elim
    | cons v vs =>
      cases f with
      | normal R off =>
        cases v <;> simp only [List.map_cons, Fld.fld, RepHdr] at hr
        simp only [List.map_cons, Fld.fld, fieldDrops, planFields, owed_cons, ih vs ls cur fin hpl' hr.2 h]; simp
      | length R off =>
        cases v <;> simp only [List.map_cons, Fld.fld, RepHdr] at hr
        simp only [List.map_cons, Fld.fld, fieldDrops, planFields, owed_cons, ih vs ls cur fin hpl' hr.2 h]; simp
      | varlen T =>
        rcases ls with _ | ⟨⟨o1, l⟩, ls⟩
        · exact h.elim
        simp only [List.map_cons, Fld.fld, RepTails, RepHdr] at h hr
        simp only [List.map_cons, Fld.fld, fieldDrops, planFields, owed_append, ih vs ls _ fin hpl' hr h.2, (hpl T (by simp)).drops _ _ _ h.1.2]
      | array R len =>
        rcases ls with _ | ⟨⟨o1, l⟩, ls⟩
        · cases v <;> exact h.elim
        cases v <;> cases l <;> simp only [List.map_cons, Fld.fld, RepTails, RepHdr] at h hr
        simp only [List.map_cons, Fld.fld, fieldDrops, planFields, owed_cons, ih vs ls _ fin hpl' hr h.2]
        simp [List.flatMap_map]

theorem planFields_quiet {lens : List Img} {o : View} : ∀ (fs : List (Fld w)) vs ls cur fin, (∀ T, Fld.varlen T ∈ fs → PLawful T) →
    (fs.map Fld.fld).any Varlen.Fld.needsVdrop = false →
    RepHdr (fs.map Fld.fld) vs o → RepTails lens (fs.map Fld.fld) vs ls cur fin o → Quiet (planFields fs vs) := by
  intro fs
  induction fs with
  | nil => intro vs ls cur fin _ _ _ _; cases vs <;> (intro g hg; cases hg)
  | cons f fs ih =>
    intro vs ls cur fin hpl hn hr h
    have hpl' : ∀ T, Fld.varlen T ∈ fs → PLawful T := fun T hT => hpl T (by simp [hT])
    simp only [List.map_cons, List.any_cons, Bool.or_eq_false_iff] at hn
    have cons : ∀ (g0 : Group) gs, (∀ x ∈ g0, x.1.needsDrop = false) → Quiet gs → Quiet (g0 :: gs) := by
      intro g0 gs h1 h2 g hg
      rcases List.mem_cons.1 hg with rfl | hg
      · exact h1
      · exact h2 g hg
    cases vs with
    | nil => cases f <;> exact hr.elim
    | cons v vs =>
      cases f with
      | normal R off =>
        cases v <;> simp only [List.map_cons, Fld.fld, RepHdr] at hr
        exact cons _ _ (fun x hx => by obtain rfl := List.mem_singleton.1 hx; exact hn.1) (ih vs ls cur fin hpl' hn.2 hr.2 h)
      | length R off =>
        cases v <;> simp only [List.map_cons, Fld.fld, RepHdr] at hr
        exact cons _ _ (fun x hx => by obtain rfl := List.mem_singleton.1 hx; exact hn.1) (ih vs ls cur fin hpl' hn.2 hr.2 h)
      | varlen T =>
        rcases ls with _ | ⟨⟨o1, l⟩, ls⟩
        · exact h.elim
        simp only [List.map_cons, Fld.fld, RepTails, RepHdr] at h hr
        intro g hg
        rcases List.mem_append.1 hg with hg | hg
        · exact (hpl T (by simp)).quiet hn.1 _ _ _ h.1.2 g hg
        · exact ih vs ls _ fin hpl' hn.2 hr h.2 g hg
      | array R len =>
        rcases ls with _ | ⟨⟨o1, l⟩, ls⟩
        · cases v <;> exact h.elim
        cases v <;> cases l <;> simp only [List.map_cons, Fld.fld, RepTails, RepHdr] at h hr
        exact cons _ _ (fun x hx => by obtain ⟨y, hy, rfl⟩ := List.mem_map.1 hx; exact hn.1) (ih vs ls _ fin hpl' hn.2 hr h.2)
end fields

theorem agg_law {hs ha : Nat} {fs : List (Fld w)} (hok : StructOk hs ha (fs.map Fld.fld)) (hpl : ∀ T, Fld.varlen T ∈ fs → PLawful T)
    {T : Ty w} (hT : Lawful T.T) (hRep : T.T.Rep = aggRep hs (fs.map Fld.fld)) (hD : T.T.drops = aggDrops (fs.map Fld.fld)) (hP : T.plan = aggPlan fs)
    (hA : ha ∣ T.T.ALIGN.toNat) (hta : ∀ a ∈ tailAligns (fs.map Fld.fld), a.toNat ∣ T.T.ALIGN.toNat)
    (hnv : T.T.NEEDS_VDROP = (fs.map Fld.fld).any Varlen.Fld.needsVdrop)
    (hvd : ∀ boom p l, T.vdrop boom p l = aggVdrop boom fs p l ∨ (T.T.NEEDS_VDROP = false ∧ T.vdrop boom p l = pure ())) : PLawful T where
  law := hT
  vdrop := by
    rintro boom s p v l ⟨hacc, hal, hrep⟩
    rw [hRep] at hrep
    obtain ⟨vs, ls, size, rfl, rfl, hr, ht⟩ := hrep
    rw [hP]
    show Ends _ _ _ _ (run boom (planFields fs vs))
    rcases hvd boom p (.fields size ls) with hvd | ⟨hn, hvd⟩
    · rw [hvd]
      exact vdropFields_spec boom fs vs ls _ s hok.flds hpl hok.disjoint hacc (hal.of_dvd hA) (fun a ha' => hal.of_dvd (hta a ha')) (Nat.le_refl _) hr ht
    · rw [run_quiet boom _ (planFields_quiet fs vs ls _ _ hpl (by rw [← hnv]; exact hn) hr ht), hvd]
      exact ⟨s, rfl, Touch.refl _ _ _ _, by simp, rfl⟩
  drops := by
    intro v l o h
    rw [hRep] at h
    obtain ⟨vs, ls, size, rfl, rfl, hr, ht⟩ := h
    rw [hD, hP]
    exact planFields_drops fs vs ls _ _ hpl hr ht
  quiet := by
    intro hn v l o h
    rw [hRep] at h
    obtain ⟨vs, ls, size, rfl, rfl, hr, ht⟩ := h
    rw [hP]
    exact planFields_quiet fs vs ls _ _ hpl (by rw [← hnv]; exact hn) hr ht

theorem struct_law {hs ha : Nat} {fs : List (Fld w)} (hok : StructOk hs ha (fs.map Fld.fld)) (hpl : ∀ T, Fld.varlen T ∈ fs → PLawful T) :
    PLawful (struct w hs ha fs) := by
  obtain ⟨_, h2, h3⟩ := Struct.aligns hok
  exact agg_law hok hpl (Struct.lawful hok) rfl rfl rfl h2 h3 rfl (fun _ _ _ => .inl rfl)

theorem tuple_law {Ts : List (Ty w)} (hne : Ts ≠ []) (hT : ∀ T ∈ Ts, PLawful T) : PLawful (tuple w Ts) := by
  have hm : (Ts.map Fld.varlen).map Fld.fld = (Ts.map (·.T)).map Varlen.Fld.varlen := by simp [Fld.fld]
  have hl : ∀ T ∈ Ts.map (·.T), Lawful T := by
    intro T h
    obtain ⟨T', h', rfl⟩ := List.mem_map.1 h
    exact (hT T' h').law
  have hne' : Ts.map (·.T) ≠ [] := by simpa using hne
  obtain ⟨h1, h2⟩ := Tuple.aligns hne' hl
  refine agg_law (hs := 0) (ha := 1) (fs := Ts.map .varlen) (by rw [hm]; exact Tuple.structOk h1.wpos hl) ?_ (Tuple.lawful hne' hl) ?_ ?_ rfl (Nat.one_dvd _) ?_ ?_ ?_
  · intro T h
    obtain ⟨T', h', e⟩ := List.mem_map.1 h
    cases e
    exact hT T h'
  · rw [hm]; rfl
  · rw [hm]; rfl
  · rw [hm, tailAligns_map]
    intro a ha
    obtain ⟨T, hT', rfl⟩ := List.mem_map.1 ha
    exact h2 T hT'
  · rw [hm, needs_map]; rfl
  · intro boom p l
    have e : Ts.any (·.T.NEEDS_VDROP) = (tuple w Ts).T.NEEDS_VDROP := by
      show _ = (Ts.map (·.T)).any (·.NEEDS_VDROP)
      rw [List.any_map]; rfl
    by_cases h : Ts.any (·.T.NEEDS_VDROP) = false
    · right; exact ⟨by rw [← e]; exact h, by simp [tuple, h]⟩
    · left; simp [tuple, h]

theorem LibT.structOk {hs ha : Nat} {fs : List (Fld w)} (hh : HeaderOk hs ha (fs.map Fld.fld)) (hpl : ∀ T, Fld.varlen T ∈ fs → PLawful T) :
    StructOk hs ha (fs.map Fld.fld) := by
  refine HeaderOk.structOk hh ?_
  intro T hT
  obtain ⟨f, hf, e⟩ := List.mem_map.1 hT
  cases f <;> simp only [Fld.fld] at e <;> cases e
  exact (hpl _ hf).law

theorem LibT.law {T : Ty w} (h : LibT T) : PLawful T := by
  induction h with
  | fixedLen hR => exact fixedLen_law hR
  | array hR hL => exact array_law hR hL
  | str hw hL => exact newtypeInv_law (array_law (u8Ty_ok hw) hL) _
  | newtype _ ih => exact newtypeInv_law ih _
  | tuple hne _ ih => exact tuple_law hne ih
  | struct hh _ ih => exact struct_law (LibT.structOk hh ih) ih

/-! ## The plan of a value -/

theorem Plan.eq {T : Ty w} {v : V} {gs : List Group} (h : Plan T v gs) : T.plan v = gs := by
  refine Plan.rec (motive_1 := fun T v gs _ => T.plan v = gs) (motive_2 := fun fs vs gs _ => planFields fs vs = gs) ?_ ?_ ?_ ?_ ?_ ?_ ?_ ?_ ?_ ?_ ?_ h
  · intro R img; rfl
  · intro R L xs; rfl
  · intro L xs; rfl
  · intro T v es _ ih; exact ih
  · intro Ts vs es _ ih; exact ih
  · intro hs ha fs vs es _ ih; exact ih
  · rfl
  · intro R off img fs vs es _ ih; simp only [planFields, ih]
  · intro R off img fs vs es _ ih; simp only [planFields, ih]
  · intro T v es' fs vs es _ _ ih1 ih2; simp only [planFields, ih1, ih2]
  · intro R len xs fs vs es _ ih; simp only [planFields, ih]

theorem Plans.eq {T : Ty w} {vs : List V} {gss} (h : Plans T vs gss) : vs.map T.plan = gss := by
  induction h with
  | nil => rfl
  | cons h _ ih => rw [List.map_cons, h.eq, ih]

theorem planFields_exists {lens : List Img} {o : View} : ∀ (fs : List (Fld w)) vs ls cur fin,
    (∀ T, Fld.varlen T ∈ fs → ∀ v l o, T.T.Rep v l o → ∃ gs, Plan T v gs) → RepHdr (fs.map Fld.fld) vs o → RepTails lens (fs.map Fld.fld) vs ls cur fin o →
    ∃ gs, PlanFields fs vs gs := by
  intro fs
  induction fs with
  | nil => intro vs ls cur fin _ h _; cases vs with
    | nil => exact ⟨_, .nil⟩
    | cons v vs => exact h.elim
  | cons f fs ih =>
    intro vs ls cur fin hT h1 h2
    have hT' : ∀ T, Fld.varlen T ∈ fs → ∀ v l o, T.T.Rep v l o → ∃ gs, Plan T v gs := fun T hm => hT T (by simp [hm])
    cases vs with
    | nil => cases f <;> exact h1.elim
    | cons v vs =>
    cases f with
    | normal R off =>
      cases v with
      | leaf img =>
        obtain ⟨es, h⟩ := ih vs ls cur fin hT' h1.2 h2
        exact ⟨_, .normal h⟩
      | arr xs => exact h1.elim
      | node xs => exact h1.elim
    | length R off =>
      cases v with
      | leaf img =>
        obtain ⟨es, h⟩ := ih vs ls cur fin hT' h1.2 h2
        exact ⟨_, .length h⟩
      | arr xs => exact h1.elim
      | node xs => exact h1.elim
    | varlen T =>
      rcases ls with _ | ⟨⟨o1, l⟩, ls⟩
      · exact h2.elim
      · obtain ⟨⟨_, hr⟩, h2⟩ := h2
        obtain ⟨es, h⟩ := ih vs ls _ fin hT' h1 h2
        obtain ⟨es', h'⟩ := hT T (by simp) v l _ hr
        exact ⟨_, .varlen h' h⟩
    | array R len =>
      rcases ls with _ | ⟨⟨o1, l⟩, ls⟩
      · cases v <;> exact h2.elim
      · cases v <;> cases l <;> simp only [List.map_cons, Fld.fld, RepTails] at h2
        obtain ⟨es, h⟩ := ih vs ls _ fin hT' h1 h2.2
        exact ⟨_, .array h⟩

theorem LibT.plan_exists {T : Ty w} (h : LibT T) : ∀ v l o, T.T.Rep v l o → ∃ gs, Plan T v gs := by
  induction h with
  | fixedLen hR => rintro v l o ⟨img, rfl, _⟩; exact ⟨_, .fixedLen⟩
  | array hR hL => rintro v l o ⟨off, n, size, xs, rfl, _⟩; exact ⟨_, .array⟩
  | str hw hL => rintro v l o ⟨⟨off, n, size, xs, rfl, _⟩, _⟩; exact ⟨_, .str⟩
  | newtype _ ih => rintro v l o ⟨h, _⟩; obtain ⟨es, h⟩ := ih v l o h; exact ⟨_, .newtype h⟩
  | @tuple Ts hne _ ih =>
    rintro v l o ⟨vs, ls, size, rfl, rfl, h1, h2⟩
    have hm : (Ts.map Fld.varlen).map Fld.fld = (Ts.map (·.T)).map Varlen.Fld.varlen := by simp [Fld.fld]
    rw [← hm] at h1 h2
    obtain ⟨es, h⟩ := planFields_exists _ vs ls _ _ (by
      intro T hT
      obtain ⟨T', hT', e⟩ := List.mem_map.1 hT
      cases e
      exact ih T hT') h1 h2
    exact ⟨_, .tuple h⟩
  | struct hh _ ih =>
    rintro v l o ⟨vs, ls, size, rfl, rfl, h1, h2⟩
    obtain ⟨es, h⟩ := planFields_exists _ vs ls _ _ ih h1 h2
    exact ⟨_, .struct h⟩

/-! ## What runs is part of what is owed -/

theorem group_prefix (boom : Boom) : ∀ (g : Group) u, (group boom u g).1 <+: g.flatMap fun x => x.1.drops x.2
  | [], u => by simp [group]
  | (R, x) :: g, u => by
    cases hd : R.needsDrop
    · simp only [group, hd, Bool.false_eq_true, if_false, List.flatMap_cons, RTy.drops]
      exact group_prefix boom g u
    · have hc : ∀ u, R.dropEv x ++ (group boom u g).1 <+: ((R, x) :: g).flatMap fun x => x.1.drops x.2 := by
        intro u
        simp only [List.flatMap_cons, RTy.drops, hd, if_true]
        exact (List.prefix_append_right_inj _).2 (group_prefix boom g u)
      cases hb : boom R x
      · simpa [group, hd, hb] using hc u
      · cases u with
        | false => simpa [group, hd, hb] using hc true
        | true =>
          simp only [group, hd, hb, if_true, List.flatMap_cons, RTy.drops]
          exact List.prefix_append _ _

theorem group_done (boom : Boom) : ∀ (g : Group), (group boom false g).2 = .done → (group boom false g).1 = g.flatMap fun x => x.1.drops x.2
  | [], _ => by simp [group]
  | (R, x) :: g, h => by
    cases hd : R.needsDrop
    · simp only [group, hd, Bool.false_eq_true, if_false] at h
      simpa [group, hd, RTy.drops] using group_done boom g h
    · cases hb : boom R x
      · simp only [group, hd, hb, Bool.false_eq_true, if_false, if_true] at h
        simpa [group, hd, hb, RTy.drops] using group_done boom g h
      · simp only [group, hd, hb, Bool.false_eq_true, if_false, if_true] at h
        exact absurd h (group_true boom g)

theorem run_prefix (boom : Boom) : ∀ gs, (run boom gs).1 <+: owed gs
  | [] => by simp [run]
  | g :: gs => by
    rw [run_cons, owed_cons]
    have h1 := group_prefix boom g false
    have h2 := group_done boom g
    have h3 := run_prefix boom gs
    generalize group boom false g = r at h1 h2 ⊢
    rcases r with ⟨es, _ | _ | _⟩
    · have : es = _ := h2 rfl
      simp only [seqO, this]
      exact (List.prefix_append_right_inj _).2 h3
    · exact h1.trans (List.prefix_append _ _)
    · exact h1.trans (List.prefix_append _ _)

/-- All destructors run, and return, if none panics. -/
theorem group_calm (boom : Boom) : ∀ g : Group, (∀ x ∈ g, x.1.needsDrop = true → boom x.1 x.2 = false) → group boom false g = (g.flatMap fun x => x.1.drops x.2, .done)
  | [], _ => rfl
  | (R, x) :: g, h => by
    have ih := group_calm boom g (fun y hy => h y (by simp [hy]))
    cases hd : R.needsDrop
    · simp [group, hd, ih, RTy.drops]
    · simp [group, hd, h (R, x) (by simp) hd, ih, RTy.drops]

theorem run_calm (boom : Boom) : ∀ gs, (∀ g ∈ gs, ∀ x ∈ g, x.1.needsDrop = true → boom x.1 x.2 = false) → run boom gs = (owed gs, .done)
  | [], _ => rfl
  | g :: gs, h => by
    rw [run_cons, group_calm boom g (h g (by simp)), run_calm boom gs (fun g hg => h g (by simp [hg])), owed_cons]; rfl

/-- …and only then. -/
theorem run_done_iff (boom : Boom) (gs) : (run boom gs).2 = .done ↔ ∀ g ∈ gs, ∀ x ∈ g, x.1.needsDrop = true → boom x.1 x.2 = false := by
  constructor
  · induction gs with
    | nil => simp
    | cons g gs ih =>
      intro h
      rw [run_cons] at h
      have hg : (group boom false g).2 = .done := by
        generalize group boom false g = r at h ⊢
        rcases r with ⟨es, _ | _ | _⟩ <;> first | rfl | exact absurd h (by simp [seqO])
      have hr : (run boom gs).2 = .done := by simpa [seqO, hg] using h
      intro g' hg'
      rcases List.mem_cons.1 hg' with rfl | hg'
      · clear ih h hr hg'
        induction g' with
        | nil => simp
        | cons y g ih2 =>
          obtain ⟨R, x⟩ := y
          cases hd : R.needsDrop
          · simp only [group, hd, Bool.false_eq_true, if_false] at hg
            intro z hz
            rcases List.mem_cons.1 hz with rfl | hz
            · intro h; rw [hd] at h; cases h
            · exact ih2 hg z hz
          · cases hb : boom R x
            · simp only [group, hd, hb, Bool.false_eq_true, if_false, if_true] at hg
              intro z hz
              rcases List.mem_cons.1 hz with rfl | hz
              · intro _; exact hb
              · exact ih2 hg z hz
            · simp only [group, hd, hb, Bool.false_eq_true, if_false, if_true] at hg
              exact absurd hg (group_true boom g)
      · exact ih hr g' hg'
  · intro h; rw [run_calm boom gs h]

/-! ## Without panics, the programs are those of the base model -/

/-- No destructor panics. -/
def calm : Boom := fun _ _ => false

theorem bind_pure_unit (x : M Unit) : (x >>= fun _ => pure ()) = x := by
  funext s
  rw [bind_apply]
  cases x s <;> rfl

theorem dropInPlace_calm (R : RTy) (p : Ptr) : dropInPlace calm R p = Varlen.dropInPlace R p := by
  unfold dropInPlace Varlen.dropInPlace calm
  simp only [Bool.false_eq_true, if_false, bind_pure_unit]

/-- The program never panics. -/
def NoPanic (x : M Unit) : Prop := ∀ s m s', x s ≠ .panic m s'

theorem onUnwind_noPanic {x : M Unit} (h : NoPanic x) (c : M Unit) : onUnwind x c = x := by
  funext s
  unfold onUnwind
  have := h s
  generalize x s = r at this ⊢
  cases r with
  | ok a s' => rfl
  | panic m s' => exact absurd rfl (this m s')
  | ub k => rfl

theorem dropInPlace_noPanic (R : RTy) (p : Ptr) : NoPanic (Varlen.dropInPlace R p) := by
  intro s m s'
  unfold Varlen.dropInPlace
  rw [bind_apply]
  by_cases ha : Aligned s p R.align
  · rw [checkAlign_ok ha]
    cases R.needsDrop
    · simp
    · simp only [if_true, Res.bind_ok, bind_apply, readVal, checkAlign_ok ha, readBytes]
      split
      · simp only [Res.bind_ok]
        split
        · simp only [pure_apply, Res.bind_ok, bind_apply, emit_apply, writeBytes]
          split <;> simp
        · simp [ubM]
      · simp
  · simp [checkAlign, ha]

theorem dropElems_calm (R : RTy) : ∀ n p, dropElems calm R p n = Varlen.dropElems R p n
  | 0, _ => rfl
  | n + 1, p => by
    simp only [dropElems, Varlen.dropElems, dropInPlace_calm, onUnwind_noPanic (dropInPlace_noPanic R p), dropElems_calm R n]

theorem vdropFields_calm (p : Ptr) : ∀ (fs : List (Fld w)) ls, (∀ T, Fld.varlen T ∈ fs → T.vdrop calm = T.T.vdrop) →
    vdropFields calm p fs ls = Varlen.vdropFields p (fs.map Fld.fld) ls
  | [], _, _ => rfl
  | .normal R off :: fs, ls, h => by
    simp only [vdropFields, List.map_cons, Fld.fld, Varlen.vdropFields, dropInPlace_calm, vdropFields_calm p fs ls (fun T hT => h T (by simp [hT]))]
  | .length R off :: fs, ls, h => by
    simp only [vdropFields, List.map_cons, Fld.fld, Varlen.vdropFields, dropInPlace_calm, vdropFields_calm p fs ls (fun T hT => h T (by simp [hT]))]
  | .varlen T :: fs, (o, l) :: ls, h => by
    simp only [vdropFields, List.map_cons, Fld.fld, Varlen.vdropFields, vdropField, Varlen.vdropField, h T (by simp), vdropFields_calm p fs ls (fun T hT => h T (by simp [hT]))]
  | .varlen T :: fs, [], _ => rfl
  | .array R len :: fs, [], _ => rfl
  | .array R len :: fs, (o, l) :: ls, h => by
    cases l <;> first
      | rfl
      | simp only [vdropFields, List.map_cons, Fld.fld, Varlen.vdropFields, dropArray, Varlen.dropArray, dropElems_calm, vdropFields_calm p fs ls (fun T hT => h T (by simp [hT]))]

theorem aggVdrop_calm {fs : List (Fld w)} (h : ∀ T, Fld.varlen T ∈ fs → T.vdrop calm = T.T.vdrop) : aggVdrop calm fs = Varlen.aggVdrop (fs.map Fld.fld) := by
  funext p l
  unfold aggVdrop Varlen.aggVdrop
  cases l <;> first | rfl | exact vdropFields_calm p fs _ h

theorem newtypeInv_calm {T : Ty w} (h : T.vdrop calm = T.T.vdrop) (inv) : (newtypeInv T inv).vdrop calm = (newtypeInv T inv).T.vdrop := by
  funext p l
  show (if _ then _ else T.vdrop calm p l) = (if _ then _ else T.T.vdrop p l)
  rw [h]

theorem array_calm {R : RTy} {L : LenTy} : (array w R L).vdrop calm = (array w R L).T.vdrop := by
  funext p l
  cases l <;> first | rfl | exact dropElems_calm _ _ _

theorem LibT.calm {T : Ty w} (h : LibT T) : T.vdrop calm = T.T.vdrop := by
  induction h with
  | fixedLen hR => funext p l; exact dropInPlace_calm _ _
  | array hR hL => exact array_calm
  | str hw hL => exact newtypeInv_calm array_calm _
  | newtype _ ih => exact newtypeInv_calm ih _
  | @tuple Ts hne _ ih =>
    have e : aggVdrop DP.calm (Ts.map Fld.varlen) = Varlen.aggVdrop ((Ts.map (·.T)).map Varlen.Fld.varlen) := by
      rw [aggVdrop_calm]
      · have hm : (Ts.map Fld.varlen).map Fld.fld = (Ts.map (·.T)).map Varlen.Fld.varlen := by simp [Fld.fld]
        rw [hm]
      · intro T hT
        obtain ⟨T', hT', e⟩ := List.mem_map.1 hT
        cases e
        exact ih T hT'
    funext p l
    show (if Ts.any (·.T.NEEDS_VDROP) = false then _ else aggVdrop DP.calm (Ts.map Fld.varlen) p l) = (if (Ts.map (·.T)).any (·.NEEDS_VDROP) = false then _ else _)
    rw [e, List.any_map]; rfl
  | struct hh _ ih => exact aggVdrop_calm ih

/-! ## Boxes, owned values, sequences -/

theorem Owned.drop_ends {T : Ty w} (hT : PLawful T) (boom : Boom) {s : St} {p v l} (h : Valid T.T s p v l) :
    Ends (Owned.drop boom T p s) s p l.size.toNat (run boom (T.plan v)) := by
  have := hT.vdrop boom s p v l h
  simpa [Owned.drop, derefBox_ok hT.law h, hT.law.calc_ok _ _ _ _ h] using this

theorem VBox.drop_spec {T : Ty w} (hT : PLawful T) (boom : Boom) {s : St} {p v l} (h : BoxHas T.T s p v l) :
    ∃ s', VBox.drop boom T p s = (run boom (T.plan v)).2.res s' ∧ s'.log = s.log ++ (run boom (T.plan v)).1 ∧ s'.copied = s.copied ∧
      (∀ b, b ≠ p.blk → s'.blk b = s.blk b) ∧ ((run boom (T.plan v)).2 = .done → ∃ B, s'.blk p.blk = some B ∧ B.live = false) ∧
      ((run boom (T.plan v)).2 ≠ .done → ownsAlloc s' p l.size.toNat T.T.ALIGN.toNat) := by
  obtain ⟨s1, e1, e2, e3, e4⟩ := hT.vdrop boom s p v l h.valid
  have ho : ownsAlloc s1 p l.size.toNat T.T.ALIGN.toNat := h.owns.of_touch e2 (fun h => h)
  obtain ⟨f1, f2⟩ := free_frame h.owns e2
  have hk : ∀ b, b ≠ p.blk → s1.blk b = s.blk b := by
    intro b hb
    cases hB : s.blk b with
    | none => exact e2.none.2 hB
    | some B =>
      obtain ⟨d, g1, g2⟩ := e2.blk b (fun h => h) B hB
      have : d = B.data := by funext i; exact g2 i (by omega)
      rw [g1, this]
  have hb : VBox.drop boom T p s = ((run boom (T.plan v)).2.res s1).bind fun _ => deallocM p l.size.toNat T.T.ALIGN.toNat := by
    simp [VBox.drop, layoutUnchecked, h.fits, derefBox_ok hT.law h.valid, hT.law.calc_ok _ _ _ _ h.valid, e1]
  rw [hb]
  generalize run boom (T.plan v) = r at *
  rcases r with ⟨es, _ | _ | _⟩
  · refine ⟨s1.free p.blk, ?_, by simpa using e3, by simpa using e4, f1, fun _ => f2, fun h => absurd rfl h⟩
    simp only [Fate.res, Res.bind_ok, deallocM_ok ho]
  · exact ⟨s1, rfl, e3, e4, hk, fun h => (by cases h), fun _ => ho⟩
  · exact ⟨s1, rfl, e3, e4, hk, fun h => (by cases h), fun _ => ho⟩

section
variable {T : Ty w} (hT : PLawful T)
include hT

theorem IterAt.after {s s1 : St} {b : Ptr} {it : IterS w} {e : Elem w} {es : List (Elem w)} {cur cur' fin}
    (hp : Packed T.T.ALIGN.toNat cur (e :: es) fin) (h1 : IterAt T.T s b it cur' es fin)
    (t1 : Touch s s1 (e.at T.T b) e.l.size.toNat noOwn) : IterAt T.T s1 b it cur' es fin := by
  have hpos := hT.law.align_pow2.pos
  have hd := Packed.pairwise hpos hp
  rw [List.pairwise_cons] at hd
  refine h1.of_valid fun x hx => ?_
  refine (h1.valid x hx).of_touch hT.law t1 (fun h => h) (.inr ?_)
  simp only [Elem.at, Ptr.add_off]
  rcases (hd.1 x hx).bytes hpos with h | h <;> omega

theorem elem_inside {e : Elem w} {es : List (Elem w)} {cur fin b} (hp : Packed T.T.ALIGN.toNat cur (e :: es) fin) :
    (e.at T.T b).blk = b.blk ∧ b.off ≤ (e.at T.T b).off ∧ (e.at T.T b).off + e.l.size.toNat ≤ b.off + fin * T.T.ALIGN.toNat := by
  have hpos := hT.law.align_pow2.pos
  have h2 := (Packed.mem hpos hp e (by simp)).2.1
  have := units_mul_ge hpos e.l.size.toNat
  have h3 := Nat.mul_le_mul_right T.T.ALIGN.toNat h2
  rw [Nat.add_mul] at h3
  simp only [Elem.at, Ptr.add_off]
  refine ⟨rfl, by omega, by omega⟩

theorem OwnedElems.dropLoop_ends (hw : 8 ≤ w) (boom : Boom) {b : Ptr} {fin} : ∀ {es : List (Elem w)} {fuel : Nat} {s : St} {it : IterS w} {cur},
    IterAt T.T s b it cur es fin → es.length < fuel →
    Ends (OwnedElems.dropLoop boom T fuel it s) s b (fin * T.T.ALIGN.toNat) (run boom (es.flatMap fun e => T.plan e.v))
  | _, 0, _, _, _, _, hf => by simp at hf
  | [], fuel + 1, s, it, cur, h, _ => ⟨s, by simp [OwnedElems.dropLoop, Iter.next_nil h, run, Fate.res], Touch.refl _ _ _ _, by simp [run], rfl⟩
  | e :: es, fuel + 1, s, it, cur, h, hf => by
    obtain ⟨it1, e1, h1⟩ := Iter.next_cons hT.law hw h
    obtain ⟨i1, i2, i3⟩ := elem_inside hT (b := b) h.packed
    have e0 := Owned.drop_ends hT boom (h.valid e (by simp))
    have hprog : OwnedElems.dropLoop boom T (fuel + 1) it s = (Owned.drop boom T (e.at T.T b) >>= fun _ => OwnedElems.dropLoop boom T fuel it1) s := by
      simp only [OwnedElems.dropLoop, bind_apply, e1, Res.bind_ok]
    rw [hprog, List.flatMap_cons, run_append]
    refine Ends.bind (e0.mono i1 i2 i3) ?_
    obtain ⟨s0, g1, e2, _, _⟩ := e0
    intro s1 hfa g2 _ _ _
    rw [g2, hfa] at g1
    obtain rfl : s1 = s0 := by cases g1; rfl
    exact OwnedElems.dropLoop_ends hw boom (IterAt.after hT h.packed h1 e2) (by simp at hf; omega)

theorem OwnedElems.drop_ends (hw : 8 ≤ w) (boom : Boom) {b : Ptr} {fin cur} {es : List (Elem w)} {s : St} {it : IterS w} (h : IterAt T.T s b it cur es fin) :
    Ends (OwnedElems.drop boom T it s) s b (fin * T.T.ALIGN.toNat) (run boom (es.flatMap fun e => T.plan e.v)) := by
  unfold OwnedElems.drop
  by_cases hn : (T.T.headNeedsDrop || T.T.NEEDS_VDROP) = true
  · rw [if_pos hn]
    exact OwnedElems.dropLoop_ends hT hw boom h (by rw [h.len]; omega)
  · rw [if_neg hn]
    have hv : T.T.NEEDS_VDROP = false := by simp at hn; exact hn.2
    rw [run_quiet]
    · exact ⟨s, rfl, Touch.refl _ _ _ _, by simp, rfl⟩
    · intro g hg
      obtain ⟨e, he, hg⟩ := List.mem_flatMap.1 hg
      exact hT.quiet hv _ _ _ (h.valid e he).rep g hg

theorem OwnedElems.forEach_ends (hw : 8 ≤ w) (boom : Boom) {b : Ptr} {fin} : ∀ {es : List (Elem w)} {fuel : Nat} {s : St} {it : IterS w} {cur},
    IterAt T.T s b it cur es fin → es.length < fuel →
    Ends (OwnedElems.forEach boom T fuel it s) s b (fin * T.T.ALIGN.toNat) (each boom (es.map fun e => T.plan e.v))
  | _, 0, _, _, _, _, hf => by simp at hf
  | [], fuel + 1, s, it, cur, h, _ => ⟨s, by simp [OwnedElems.forEach, Iter.next_nil h, each, Fate.res], Touch.refl _ _ _ _, by simp [each], rfl⟩
  | e :: es, fuel + 1, s, it, cur, h, hf => by
    obtain ⟨it1, e1, h1⟩ := Iter.next_cons hT.law hw h
    obtain ⟨i1, i2, i3⟩ := elem_inside hT (b := b) h.packed
    obtain ⟨s1, g1, g2, g3, g4⟩ := Owned.drop_ends hT boom (h.valid e (by simp))
    have h2 := IterAt.after hT h.packed h1 g2
    have g2' : Touch s s1 b (fin * T.T.ALIGN.toNat) noOwn := g2.mono (.inr ⟨i1, i2, i3⟩) (fun _ h => h)
    have hprog : OwnedElems.forEach boom T (fuel + 1) it s =
        (onUnwind (Owned.drop boom T (e.at T.T b)) (OwnedElems.drop boom T it1) >>= fun _ => OwnedElems.forEach boom T fuel it1) s := by
      simp only [OwnedElems.forEach, bind_apply, e1, Res.bind_ok]
    rw [hprog, bind_apply]
    unfold onUnwind
    rw [show Owned.drop boom T (e.at T.T b) s = _ from g1]
    simp only [List.map_cons, each]
    generalize run boom (T.plan e.v) = r at *
    rcases r with ⟨ev, _ | _ | _⟩
    · obtain ⟨s2, k1, k2, k3, k4⟩ := OwnedElems.forEach_ends hw boom h2 (fuel := fuel) (by simp at hf; omega)
      exact ⟨s2, by simpa [Fate.res] using k1, g2'.trans k2, by simp [k3, g3], by rw [k4, g4]⟩
    · obtain ⟨s2, k1, k2, k3, k4⟩ := OwnedElems.drop_ends hT hw boom h2
      rw [List.flatMap_def] at k1 k3
      refine ⟨s2, ?_, g2'.trans k2, by simp [k3, g3], by rw [k4, g4]⟩
      simp only [Fate.res, k1]
      generalize (run boom (es.map fun e => T.plan e.v).flatten).2 = f
      cases f <;> rfl
    · exact ⟨s1, rfl, g2', g3, g4⟩

theorem Seq.drop_ends (hw : 8 ≤ w) (boom : Boom) {chk : Bool} {s : St} {q : SeqS w} {es : List (Elem w)} (h : SeqInv T.T chk s q es) :
    ∃ s' q', Seq.drop boom chk T (s, q) = (match (run boom (es.flatMap fun e => T.plan e.v)).2 with
        | .done => .ok () (s', q')
        | .panicked => .panic .user (s', q')
        | .aborted => .panic .abort (s', q')) ∧ s'.log = s.log ++ (run boom (es.flatMap fun e => T.plan e.v)).1 ∧ s'.copied = s.copied ∧
      (∀ b, b ≠ q.ptr.blk → s'.blk b = s.blk b) ∧
      (q.cap.toNat ≠ 0 → if (run boom (es.flatMap fun e => T.plan e.v)).2 = .done then ∃ B, s'.blk q.ptr.blk = some B ∧ B.live = false
        else ownsAlloc s' q.ptr (storageSize chk T.T.ALIGN.toNat q.cap.toNat) T.T.ALIGN.toNat) := by
  unfold Seq.drop
  simp only [bind_apply, getQ_apply, Res.bind_ok]
  by_cases hc : q.cap = 0
  · have hc' : q.cap.toNat = 0 := by rw [hc]; simp
    have := h.empty_of_cap hT.law hc'
    subst this
    rw [if_pos hc]
    exact ⟨s, q, rfl, by simp [run], rfl, fun _ _ => rfl, fun h => absurd hc' h⟩
  · have hc' : q.cap.toNat ≠ 0 := by
      intro h0; exact hc (BitVec.eq_of_toNat_eq (by simpa using h0))
    rw [if_neg hc]
    obtain ⟨s1, f1, t1, l1, c1⟩ := OwnedElems.drop_ends hT hw boom (h.iterAt hT.law)
    have hown := (h.store.owns hc').of_touch t1 (fun h => h)
    obtain ⟨g1, g2⟩ := free_frame (h.store.owns hc') t1
    have hk : ∀ b, b ≠ q.ptr.blk → s1.blk b = s.blk b := by
      intro b hb
      cases hB : s.blk b with
      | none => exact t1.none.2 hB
      | some B =>
        obtain ⟨d, g1, g2⟩ := t1.blk b (fun h => h) B hB
        have : d = B.data := by funext i; exact g2 i (by omega)
        rw [g1, this]
    simp only [bind_apply, Seq.takeElems_spec hw, Res.bind_ok, liftQ_apply, f1, getQ_apply]
    generalize run boom (es.flatMap fun e => T.plan e.v) = r at *
    rcases r with ⟨ev, _ | _ | _⟩
    · refine ⟨s1.free q.ptr.blk, { q with len := 0, occ := 0 }, ?_, by simpa using l1, by simpa using c1, g1, fun _ => by rw [if_pos rfl]; exact g2⟩
      have hfit := h.store.fits
      obtain ⟨hcb, _⟩ := h.cap_bytes hT.law
      have hm : (q.cap * T.T.ALIGN).toNat = q.cap.toNat * T.T.ALIGN.toNat := by rw [BitVec.toNat_mul, Nat.mod_eq_of_lt hcb]
      have hext : ∃ sz : BitVec w, extendedSize chk (q.cap * T.T.ALIGN) T.T.ALIGN s1 = .ok sz s1 ∧ sz.toNat = storageSize chk T.T.ALIGN.toNat q.cap.toNat := by
        unfold extendedSize
        cases chk with
        | false => exact ⟨_, rfl, by simp [storageSize, bitmaskBytes, Nat.mod_eq_of_lt hcb]⟩
        | true =>
          have := addBitmask_spec hw hT.law.align_pow2 hm (by have := storageSize_ge true T.T.ALIGN.toNat q.cap.toNat; omega) s1
          rw [if_pos hfit] at this
          obtain ⟨full, bm, e1, e2, e3⟩ := this
          exact ⟨full, by simp [e1], e3⟩
      obtain ⟨sz, e1, e2⟩ := hext
      have hlu : layoutUnchecked w (q.cap * T.T.ALIGN).toNat T.T.ALIGN.toNat s1 = .ok () s1 :=
        layoutUnchecked_ok (by rw [hm]; have := storageSize_ge chk T.T.ALIGN.toNat q.cap.toNat; omega)
      simp only [Fate.res, Res.bind_ok, bind_apply, getQ_apply, hlu, e1, e2, liftQ_apply, deallocM_ok hown]
    · exact ⟨s1, { q with len := 0, occ := 0 }, rfl, l1, c1, hk, fun _ => by rw [if_neg (by simp)]; exact hown⟩
    · exact ⟨s1, { q with len := 0, occ := 0 }, rfl, l1, c1, hk, fun _ => by rw [if_neg (by simp)]; exact hown⟩
end

end Varlen.DP
