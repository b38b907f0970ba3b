import Verif.Proofs.UserAgg
/-!
# Proofs: the contracts of the library's initializers in a world of user code
-/
namespace Varlen.Eff
variable {w : Nat}

/-! ## Initializers without user code -/

/-- A pure initializer, in any world. -/
theorem pure_initOk (U : World) {T : VarLen w} {I : Init w} (h : InitLawful T I) :
    InitOk U T I (fun v es => I.val = some v ∧ es = I.left) (fun es => I.val = none ∧ es = I.lost) (fun es => es = I.owes) where
  owns_mods := h.owns_mods
  mods_fp := h.mods_fp
  fp_exists := h.fp_exists
  stable := h.stable
  calc_ok := h.calc_ok
  calc_panic := h.calc_panic
  bad_lay := h.bad_lay
  drop_ok := fun s prot hU hfp hpre => by
    obtain ⟨s', e1, e2, e3, e4, _⟩ := h.drop_ok s hpre
    exact ⟨s', _, e1, .ofTouch e2 hU (fun h => (h rfl).elim) (fun b hb => hfp b (h.mods_fp b hb)) e4, e3, rfl⟩
  init_ok := fun s prot p l hU hfp hp hpre hl hacc hal hap => by
    cases hv : I.val with
    | some v =>
      obtain ⟨s', e1, e2, e3, e4, e5, _⟩ := h.init_ok s p l v hpre hl hv hacc hal hap
      exact .inl ⟨s', v, _, e1, .ofTouch e2 hU (fun _ => hp) (fun b hb => hfp b (h.mods_fp b (h.owns_mods b hb))) e5, e3, e4, rfl, rfl⟩
    | none =>
      obtain ⟨m, s', e1, e2, e3, e4, _⟩ := h.init_panic s p l hpre hl hv hacc hal hap
      exact .inr ⟨m, s', _, e1, .ofTouch e2 hU (fun _ => hp) (fun b hb => hfp b (h.mods_fp b hb)) e4, e3, rfl, rfl⟩

theorem pure_arrOk (U : World) {R : RTy} {I : ArrInit} (h : ArrInitLawful R I) :
    ArrOk U R I (fun n xs es => I.vals n = some xs ∧ es = I.left n) (fun n es => I.vals n = none ∧ es = I.lost n) (fun es => es = I.owes) where
  fp_exists := h.fp_exists
  stable := h.stable
  drop_ok := fun s prot hU hfp hpre => by
    obtain ⟨s', e1, e2, e3, _⟩ := h.drop_ok s hpre
    have hw : Wrote U prot s s' ⟨0, 0⟩ 0 (fun _ => False) I.owes := .ofTouch e2 hU (fun h => (h rfl).elim) (fun b hb => hb.elim) e3
    exact ⟨s', _, e1, ⟨hw.ok, fun b hb => hw.same hb (fun h => h) (.inl rfl), e3⟩, rfl⟩
  run_ok := fun s prot p n hU hfp hp hpre hacc hal hap => by
    cases hv : I.vals n with
    | some xs =>
      obtain ⟨s', e1, e2, e3, e4, _⟩ := h.run_ok s p n xs hpre hv hacc hal hap
      refine .inl ⟨s', _, e1, .ofTouch e2 hU (fun _ => hp) (fun b hb => hb.elim) e4, ?_, by rw [e3], rfl⟩
      rw [e3]; exact (h.vals_ok n xs hv).2
    | none =>
      obtain ⟨m, s', e1, e2, e3, _⟩ := h.run_panic s p n hpre hv hacc hal hap
      exact .inr ⟨m, s', _, e1, .ofTouch e2 hU (fun _ => hp) (fun b hb => hb.elim) e3, rfl, rfl⟩

/-! ## The loops -/

/-- User code, then an element is written. -/
theorem wrote_elem {U : World} {prot : Nat → Prop} {R : RTy} {s s1 : St} {es : List Event} {p : Ptr} {n : Nat} {img : Img} (h : Ran U prot s s1 es) (hp : prot p.blk) (hlen : img.length = R.size) :
    Wrote U prot s (s1.write p img) p ((n + 1) * R.size) (fun _ => False) es := by
  have h1 : Wrote U prot s1 (s1.write p img) p R.size (fun _ => False) [] :=
    .ofTouch (by rw [← hlen]; exact Touch.write) h.ok (fun _ => hp) (fun b hb => hb.elim) (by simp)
  have hmul : (n + 1) * R.size = n * R.size + R.size := Nat.succ_mul n _
  simpa using (h.wrote p _ _).trans (h1.mono (q := p) (m := (n + 1) * R.size) (.inr ⟨rfl, Nat.le_refl _, by omega⟩))

/-- An element is written at `p`, and the others after it. -/
theorem wrote_cons {U : World} {prot : Nat → Prop} {R : RTy} {s s2 s' : St} {es es' : List Event} {p : Ptr} {n : Nat}
    (h : Wrote U prot s s2 p ((n + 1) * R.size) (fun _ => False) es) (h' : Wrote U prot s2 s' (p.add R.size) (n * R.size) (fun _ => False) es') :
    Wrote U prot s s' p ((n + 1) * R.size) (fun _ => False) (es ++ es') := by
  have hmul : (n + 1) * R.size = n * R.size + R.size := Nat.succ_mul n _
  exact h.trans (h'.mono (.inr ⟨rfl, by simp, by simp; omega⟩))

/-- The elements, then. -/
theorem elems_cons {U : World} {prot : Nat → Prop} {R : RTy} {s1 s' : St} {es' : List Event} {p : Ptr} {n : Nat} {img : Img} (hp : prot p.blk) (hlen : img.length = R.size) (ha : Acc s1 p R.size)
    (h' : Wrote U prot (s1.write p img) s' (p.add R.size) (n * R.size) (fun _ => False) es') :
    elemsV (viewAt s' p) 0 R.size (n + 1) = img :: elemsV (viewAt s' (p.add R.size)) 0 R.size n := by
  rw [elemsV_succ, viewAt_add, elemsV_shift, Nat.zero_add, Nat.add_zero]
  congr 1
  rw [← takeV_viewAt_write (s := s1) (p := p) (img := img) (by rw [hlen]; exact ha), hlen]
  refine takeV_congr fun i hi => ?_
  exact h'.view hp (fun h => h) _ (by simp; omega)

theorem fillLoop_ok {U : World} {R : RTy} (hR : R.Ok w) {τ : Type} {f : Closure τ} {P : τ → List Img → List Event → Prop} {L : τ → List Event → Prop}
    {Out : List Img → List Event → Prop} {Lost : List Event → Prop} (hf : ClosureOk U R f P L Out Lost) {prot : Nat → Prop} :
    ∀ n t xs es p s, U.ok s prot → prot p.blk → P t xs es → Acc s p (n * R.size) → Aligned s p R.align →
    (∃ s' es', fillLoop R f t p xs.length n s = .ok () s' ∧ Wrote U prot s s' p (n * R.size) (fun _ => False) es' ∧
      (∀ x ∈ elemsV (viewAt s' p) 0 R.size n, R.valid x = true) ∧ Out (xs ++ elemsV (viewAt s' p) 0 R.size n) (es ++ es')) ∨
    (∃ m s' es', fillLoop R f t p xs.length n s = .panic m s' ∧ Wrote U prot s s' p (n * R.size) (fun _ => False) es' ∧ Lost (es ++ es')) := by
  intro n
  induction n with
  | zero =>
    intro t xs es p s hU hp hP _ _
    obtain ⟨s', es', e1, e2, e3⟩ := hf.drop s prot t xs es hU hP
    exact .inl ⟨s', es', e1, e2.wrote _ _ _, by simp [elemsV], by simpa [elemsV] using e3⟩
  | succ n ih =>
    intro t xs es p s hU hp hP ha hal
    obtain ⟨r, t', s1, es1, e1, e2, e3⟩ := hf.call s prot t xs es hU hP
    have w1 := e2.wrote p ((n + 1) * R.size) (fun _ => False)
    have ha1 := w1.acc hp (fun h => h) ha
    have hal1 := w1.aligned hp (fun h => h) hal
    simp only [fillLoop, bind_apply, e1, Res.bind_ok]
    cases r with
    | none =>
      obtain ⟨s2, es2, f1, f2, f3⟩ := hf.lost s1 prot t' _ e2.ok e3
      refine .inr ⟨_, s2, es1 ++ es2, onUnwind_panic rfl f1, w1.trans (f2.wrote _ _ _), ?_⟩
      rw [← List.append_assoc]; exact f3
    | some img =>
      obtain ⟨hv, hP'⟩ := e3
      have hlen := hR.valid_len _ hv
      obtain ⟨hb1, hb2, hb3⟩ := elems_rest hR ha1 hal1
      have hw := wrote_elem (n := n) e2 hp hlen
      have ht1 : Touch s1 (s1.write p img) p img.length noOwn := Touch.write
      have hi := ih t' (xs ++ [img]) (es ++ es1) (p.add R.size) (s1.write p img) hw.ok hp hP' (ht1.acc (fun h => h) hb2) (ht1.aligned (fun h => h) hb3)
      simp only [List.length_append, List.length_cons, List.length_nil, Nat.zero_add] at hi
      simp only [bind_apply, writeVal_ok (img := img) (by rw [hlen]; exact hb1) hal1, Res.bind_ok]
      rcases hi with ⟨s', es', f1, f2, f3, f4⟩ | ⟨m, s', es', f1, f2, f3⟩
      · refine .inl ⟨s', es1 ++ es', f1, wrote_cons hw f2, ?_, ?_⟩
        · rw [elems_cons hp hlen hb1 f2]
          intro x hx
          rcases List.mem_cons.1 hx with rfl | hx
          · exact hv
          · exact f3 x hx
        · rw [elems_cons hp hlen hb1 f2]
          simpa using f4
      · exact .inr ⟨m, s', es1 ++ es', f1, wrote_cons hw f2, by simpa using f3⟩

theorem FillSequentially_ok {U : World} {R : RTy} (hR : R.Ok w) {τ : Type} {f : Closure τ} {P : τ → List Img → List Event → Prop} {L : τ → List Event → Prop}
    {Out : List Img → List Event → Prop} {Lost : List Event → Prop} (hf : ClosureOk U R f P L Out Lost) {t : τ} (ht : P t [] []) :
    ArrOk U R (FillSequentially R f t) (fun n xs es => xs.length = n ∧ Out xs es) (fun _ es => Lost es) (Out []) where
  fp_exists := fun _ _ _ h => h.elim
  stable := fun _ _ _ _ => trivial
  drop_ok := fun s prot hU _ _ => by
    obtain ⟨s', es, e1, e2, e3⟩ := hf.drop s prot t [] [] hU ht
    exact ⟨s', es, e1, e2, e3⟩
  run_ok := fun s prot p n hU _ hp _ hacc hal _ => by
    rcases fillLoop_ok hR hf n t [] [] p s hU hp ht hacc hal with ⟨s', es, e1, e2, e3, e4⟩ | ⟨m, s', es, e1, e2, e3⟩
    · exact .inl ⟨s', es, e1, e2, e3, by simp, e4⟩
    · exact .inr ⟨m, s', es, e1, e2, e3⟩

/-- `R::default` in a world: `D img es`: it may return `img` with effects `es`; `L es`: it may panic. -/
theorem default_closure {U : World} {R : RTy} {dflt : M (Option Img)} {D : Img → List Event → Prop} {L : List Event → Prop} (h : DefaultOk U R dflt D L) :
    ClosureOk U R { call := fun (_ : Unit) _ => do { let r ← dflt; pure (r, ()) }, drop := fun _ => pure () } (fun _ => Answers D)
      (fun _ es => ∃ xs es1 es2, es = es1 ++ es2 ∧ Answers D xs es1 ∧ L es2) (Answers D) (fun es => ∃ xs es1 es2, es = es1 ++ es2 ∧ Answers D xs es1 ∧ L es2) where
  call := fun s prot t xs es hU hP => by
    obtain ⟨r, s', es', e1, e2, e3⟩ := h s prot hU
    refine ⟨r, (), s', es', by simp [e1], e2, ?_⟩
    cases r with
    | some img => exact ⟨e3.1, .snoc hP e3.2⟩
    | none => exact ⟨xs, es, es', rfl, hP, e3⟩
  drop := fun s prot t xs es hU hP => ⟨s, [], rfl, ⟨hU, fun _ _ => rfl, by simp⟩, by simpa using hP⟩
  lost := fun s prot t es hU hP => ⟨s, [], rfl, ⟨hU, fun _ _ => rfl, by simp⟩, by simpa using hP⟩

theorem FillWithDefault_ok {U : World} {R : RTy} (hR : R.Ok w) {dflt : M (Option Img)} {D : Img → List Event → Prop} {L : List Event → Prop} (h : DefaultOk U R dflt D L) :
    ArrOk U R (FillWithDefault R dflt) (fun n xs es => xs.length = n ∧ Answers D xs es) (fun _ es => ∃ xs es1 es2, es = es1 ++ es2 ∧ Answers D xs es1 ∧ L es2) (Answers D []) :=
  FillSequentially_ok hR (default_closure h) .nil

theorem iterLoop_ok {U : World} {R : RTy} (hR : R.Ok w) {τ : Type} {it : IterFn τ} {P : τ → List Img → List Event → Prop} {L : τ → List Event → Prop}
    {Out : List Img → List Event → Prop} {Lost : List Event → Prop} (hf : IterOk U R it P L Out Lost) {prot : Nat → Prop} :
    ∀ n t xs es p s, U.ok s prot → prot p.blk → P t xs es → Acc s p (n * R.size) → Aligned s p R.align →
    (∃ s' es', iterLoop R it t p n s = .ok () s' ∧ Wrote U prot s s' p (n * R.size) (fun _ => False) es' ∧
      (∀ x ∈ elemsV (viewAt s' p) 0 R.size n, R.valid x = true) ∧ Out (xs ++ elemsV (viewAt s' p) 0 R.size n) (es ++ es')) ∨
    (∃ m s' es', iterLoop R it t p n s = .panic m s' ∧ Wrote U prot s s' p (n * R.size) (fun _ => False) es' ∧ Lost (es ++ es')) := by
  intro n
  induction n with
  | zero =>
    intro t xs es p s hU hp hP _ _
    obtain ⟨s', es', e1, e2, e3⟩ := hf.drop s prot t xs es hU hP
    exact .inl ⟨s', es', e1, e2.wrote _ _ _, by simp [elemsV], by simpa [elemsV] using e3⟩
  | succ n ih =>
    intro t xs es p s hU hp hP ha hal
    obtain ⟨r, t', s1, es1, e1, e2, e3⟩ := hf.next s prot t xs es hU hP
    have w1 := e2.wrote p ((n + 1) * R.size) (fun _ => False)
    have ha1 := w1.acc hp (fun h => h) ha
    have hal1 := w1.aligned hp (fun h => h) hal
    simp only [iterLoop, bind_apply, e1, Res.bind_ok]
    cases r with
    | panic =>
      obtain ⟨s2, es2, f1, f2, f3⟩ := hf.lost s1 prot t' _ e2.ok e3
      refine .inr ⟨_, s2, es1 ++ es2, onUnwind_panic rfl f1, w1.trans (f2.wrote _ _ _), ?_⟩
      rw [← List.append_assoc]; exact f3
    | done =>
      obtain ⟨s2, es2, f1, f2, f3⟩ := hf.lost s1 prot t' _ e2.ok e3
      refine .inr ⟨_, s2, es1 ++ es2, onUnwind_panic rfl f1, w1.trans (f2.wrote _ _ _), ?_⟩
      rw [← List.append_assoc]; exact f3
    | yield img =>
      obtain ⟨hv, hP'⟩ := e3
      have hlen := hR.valid_len _ hv
      obtain ⟨hb1, hb2, hb3⟩ := elems_rest hR ha1 hal1
      have hw := wrote_elem (n := n) e2 hp hlen
      have ht1 : Touch s1 (s1.write p img) p img.length noOwn := Touch.write
      have hi := ih t' (xs ++ [img]) (es ++ es1) (p.add R.size) (s1.write p img) hw.ok hp hP' (ht1.acc (fun h => h) hb2) (ht1.aligned (fun h => h) hb3)
      simp only [bind_apply, writeVal_ok (img := img) (by rw [hlen]; exact hb1) hal1, Res.bind_ok]
      rcases hi with ⟨s', es', f1, f2, f3, f4⟩ | ⟨m, s', es', f1, f2, f3⟩
      · refine .inl ⟨s', es1 ++ es', f1, wrote_cons hw f2, ?_, ?_⟩
        · rw [elems_cons hp hlen hb1 f2]
          intro x hx
          rcases List.mem_cons.1 hx with rfl | hx
          · exact hv
          · exact f3 x hx
        · rw [elems_cons hp hlen hb1 f2]
          simpa using f4
      · exact .inr ⟨m, s', es1 ++ es', f1, wrote_cons hw f2, by simpa using f3⟩

theorem FromIterPrefix_ok {U : World} {R : RTy} (hR : R.Ok w) {τ : Type} {it : IterFn τ} {P : τ → List Img → List Event → Prop} {L : τ → List Event → Prop}
    {Out : List Img → List Event → Prop} {Lost : List Event → Prop} (hf : IterOk U R it P L Out Lost) {t : τ} (ht : P t [] []) :
    ArrOk U R (FromIterPrefix R it t) (fun n xs es => xs.length = n ∧ Out xs es) (fun _ es => Lost es) (Out []) where
  fp_exists := fun _ _ _ h => h.elim
  stable := fun _ _ _ _ => trivial
  drop_ok := fun s prot hU _ _ => by
    obtain ⟨s', es, e1, e2, e3⟩ := hf.drop s prot t [] [] hU ht
    exact ⟨s', es, e1, e2, e3⟩
  run_ok := fun s prot p n hU _ hp _ hacc hal _ => by
    rcases iterLoop_ok hR hf n t [] [] p s hU hp ht hacc hal with ⟨s', es, e1, e2, e3, e4⟩ | ⟨m, s', es, e1, e2, e3⟩
    · exact .inl ⟨s', es, e1, e2, e3, by simp, e4⟩
    · exact .inr ⟨m, s', es, e1, e2, e3⟩

theorem cloneLoop_ok {U : World} {R : RTy} (hR : R.Ok w) {c : CloneFn} {C : Img → Img → List Event → Prop} {L : Img → List Event → Prop} (hc : CloneOk U R c C L) {prot : Nat → Prop} :
    ∀ (xs : List Img) src p s, U.ok s prot → prot p.blk → prot src.blk → SliceHas R s src xs → Acc s p (xs.length * R.size) → Aligned s p R.align → src.blk ≠ p.blk →
    (∃ s' es', cloneLoop R c src p xs.length s = .ok () s' ∧ Wrote U prot s s' p (xs.length * R.size) (fun _ => False) es' ∧
      (∀ x ∈ elemsV (viewAt s' p) 0 R.size xs.length, R.valid x = true) ∧ Clones C xs (elemsV (viewAt s' p) 0 R.size xs.length) es') ∨
    (∃ m s' es', cloneLoop R c src p xs.length s = .panic m s' ∧ Wrote U prot s s' p (xs.length * R.size) (fun _ => False) es' ∧ ClonesLost C L xs es') := by
  intro xs
  induction xs with
  | nil =>
    intro src p s hU hp hq _ _ _ _
    exact .inl ⟨s, [], rfl, .refl hU _ _ _, by simp [elemsV], .nil⟩
  | cons x xs ih =>
    intro src p s hU hp hq hs ha hal hne
    obtain ⟨hrd, hs2⟩ := hs.head hR
    obtain ⟨r, s1, es1, e1, e2, e3⟩ := hc s prot x hU (hs.valid x (by simp))
    rw [List.length_cons] at ha
    have w1 := e2.wrote p ((xs.length + 1) * R.size) (fun _ => False)
    have ha1 := w1.acc hp (fun h => h) ha
    have hal1 := w1.aligned hp (fun h => h) hal
    simp only [List.length_cons, cloneLoop, bind_apply, hrd, Res.bind_ok, e1]
    cases r with
    | none => exact .inr ⟨_, s1, es1, rfl, w1, .here e3⟩
    | some y =>
      obtain ⟨hv, hC⟩ := e3
      have hlen := hR.valid_len _ hv
      obtain ⟨hb1, hb2, hb3⟩ := elems_rest hR ha1 hal1
      have hw := wrote_elem (n := xs.length) e2 hp hlen
      have ht1 : Touch s1 (s1.write p y) p y.length noOwn := Touch.write
      have hsame : Same s (s1.write p y) (fun b => b = src.blk) := by
        rintro b rfl
        rw [hw.same hq (fun h => h) (.inr hne)]
      have hi := ih (src.add R.size) (p.add R.size) (s1.write p y) hw.ok hp hq (hs2.of_same hsame rfl) (ht1.acc (fun h => h) hb2) (ht1.aligned (fun h => h) hb3) hne
      simp only [bind_apply, writeVal_ok (img := y) (by rw [hlen]; exact hb1) hal1, Res.bind_ok]
      rcases hi with ⟨s', es', f1, f2, f3, f4⟩ | ⟨m, s', es', f1, f2, f3⟩
      · refine .inl ⟨s', es1 ++ es', f1, wrote_cons hw f2, ?_, ?_⟩
        · rw [elems_cons hp hlen hb1 f2]
          intro z hz
          rcases List.mem_cons.1 hz with rfl | hz
          · exact hv
          · exact f3 z hz
        · rw [elems_cons hp hlen hb1 f2]
          exact .cons hC f4
      · exact .inr ⟨m, s', es1 ++ es', f1, wrote_cons hw f2, .later hC f3⟩

theorem CloneFrom_ok {U : World} {R : RTy} (hR : R.Ok w) {c : CloneFn} {C : Img → Img → List Event → Prop} {L : Img → List Event → Prop} (hc : CloneOk U R c C L) {src : Ptr} {xs : List Img} :
    ArrOk U R (CloneFrom R c src xs) (fun n ys es => ys.length = n ∧ Clones C xs ys es) (fun n es => (n ≠ xs.length ∧ es = []) ∨ (n = xs.length ∧ ClonesLost C L xs es)) (fun es => es = []) where
  fp_exists := by rintro s b h rfl; exact h.blk
  stable := fun _ _ h hs => SliceHas.of_same h hs rfl
  drop_ok := fun s prot hU _ _ => ⟨s, [], rfl, ⟨hU, fun _ _ => rfl, by simp⟩, rfl⟩
  run_ok := fun s prot p n hU hfp hp hpre hacc hal hap => by
    simp only [CloneFrom]
    by_cases hn : xs.length = n
    · subst hn
      simp only [ne_eq, not_true_eq_false, if_false]
      rcases cloneLoop_ok hR hc xs src p s hU hp (hfp _ rfl) hpre hacc hal (fun h => hap h.symm) with ⟨s', es, e1, e2, e3, e4⟩ | ⟨m, s', es, e1, e2, e3⟩
      · exact .inl ⟨s', es, e1, e2, e3, by simp, e4⟩
      · exact .inr ⟨m, s', es, e1, e2, .inr ⟨trivial, e3⟩⟩
    · simp only [ne_eq, hn, not_false_eq_true, if_true]
      exact .inr ⟨_, s, [], rfl, .refl hU _ _ _, .inl ⟨fun h => hn h.symm, rfl⟩⟩

theorem cloner_ok {U : World} {R : RTy} (hR : R.Ok w) {c : CloneFn} {C : Img → Img → List Event → Prop} {L : Img → List Event → Prop} (hc : CloneOk U R c C L) {src : Ptr} {img : Img} :
    InitOk U (Varlen.FixedLen w R) (FixedLen.cloner w R c src img) (fun v es => ∃ b, v = .leaf b ∧ C img b es) (L img) (fun es => es = []) where
  owns_mods := fun _ h => h
  mods_fp := fun _ h => h.elim
  fp_exists := by rintro s b h rfl; exact h.2
  stable := fun s s' h hs => ⟨h.1.of_same hs rfl, by rw [hs _ rfl]; exact h.2⟩
  calc_ok := fun _ _ _ => rfl
  calc_panic := fun _ _ h => by cases h
  bad_lay := fun h => by cases h
  drop_ok := fun s prot hU _ _ => ⟨s, [], rfl, .refl hU _ _ _, fun _ h => h.elim, rfl⟩
  init_ok := fun s prot p l hU hfp hp hpre hl hacc hal hap => by
    obtain ⟨⟨sa, sal, img', h0, h0', h1, h2⟩, _⟩ := hpre
    cases hl; cases h0
    simp only [Layout.size, hR.sizeOf_toNat] at hacc sa ⊢
    simp only [Varlen.FixedLen, hR.alignOf_toNat] at hal sal
    subst h1
    obtain ⟨r, s1, es, e1, e2, e3⟩ := hc s prot _ hU h2
    have w1 := e2.wrote p R.size (fun _ => False)
    have ha1 := w1.acc hp (fun h => h) hacc
    have hal1 := w1.aligned hp (fun h => h) hal
    simp only [FixedLen.cloner, bind_apply, readVal_ok sa sal h2, Res.bind_ok, e1]
    cases r with
    | none => exact .inr ⟨_, s1, es, rfl, w1, fun _ h => h.elim, e3⟩
    | some b =>
      have hlen := hR.valid_len _ e3.1
      have hw := wrote_elem (n := 0) e2 hp hlen
      rw [Nat.zero_add, Nat.one_mul] at hw
      refine .inl ⟨s1.write p b, .leaf b, es, writeVal_ok (by rw [hlen]; exact ha1) hal1, hw, fun _ h => h.elim, ⟨b, rfl, rfl, ?_, e3.1⟩, b, rfl, e3.2⟩
      rw [← hlen]; exact takeV_viewAt_write (by rw [hlen]; exact ha1)

end Varlen.Eff
