import Verif.Model.Array
import Verif.Proofs.Traits
namespace Varlen
variable {w : Nat}

/-! ## Element lists -/
@[simp] theorem elemsV_length (o : View) (off sz n) : (elemsV o off sz n).length = n := by simp [elemsV]

theorem elemsV_getElem? (o : View) (off sz n i) :
    (elemsV o off sz n)[i]? = if i < n then some (takeV o (off + i * sz) sz) else none := by
  unfold elemsV; by_cases h : i < n <;> simp [h]

@[simp] theorem elemsV_zero (o : View) (off sz) : elemsV o off sz 0 = [] := rfl

theorem elemsV_succ (o : View) (off sz n) :
    elemsV o off sz (n + 1) = takeV o off sz :: elemsV o (off + sz) sz n := by
  unfold elemsV
  rw [List.range_succ_eq_map, List.map_cons, List.map_map]
  congr 1
  · simp
  · apply List.map_congr_left
    intro i _
    simp only [Function.comp]
    rw [show off + (i + 1) * sz = off + sz + i * sz by rw [Nat.succ_mul]; omega]

theorem elemsV_congr {o o' : View} {off off' sz n : Nat}
    (h : ∀ i, i < n * sz → o (off + i) = o' (off' + i)) : elemsV o off sz n = elemsV o' off' sz n := by
  unfold elemsV
  apply List.map_congr_left
  intro i hi
  apply takeV_congr
  intro j hj
  rw [Nat.add_assoc, Nat.add_assoc]
  apply h
  have hi := List.mem_range.1 hi
  calc i * sz + j < i * sz + sz := by omega
    _ = (i + 1) * sz := by rw [Nat.succ_mul]
    _ ≤ n * sz := Nat.mul_le_mul_right _ hi

theorem elemsV_shift (o : View) (d off sz n) : elemsV (shift d o) off sz n = elemsV o (d + off) sz n :=
  elemsV_congr fun i _ => by simp [shift, Nat.add_assoc]

theorem elemsV_mem_len {o : View} {off sz n : Nat} {x : Img} (h : x ∈ elemsV o off sz n) : x.length = sz := by
  simp only [elemsV, List.mem_map] at h
  obtain ⟨i, _, rfl⟩ := h; simp

/-- One step of a loop that writes elements front to back. -/
theorem elems_step {s s2 : St} {p : Ptr} {sz n : Nat} {img : Img} {xs : List Img} (hl : img.length = sz)
    (ha : Acc s p ((n + 1) * sz)) (ht : Touch (s.write p img) s2 (p.add sz) (n * sz) noOwn)
    (he : elemsV (viewAt s2 (p.add sz)) 0 sz n = xs) :
    Touch s s2 p ((n + 1) * sz) noOwn ∧ elemsV (viewAt s2 p) 0 sz (n + 1) = img :: xs := by
  have hmul : (n + 1) * sz = n * sz + sz := Nat.succ_mul n sz
  constructor
  · refine (Touch.write.mono (.inr ⟨rfl, Nat.le_refl _, by rw [hl, hmul]; omega⟩) (fun _ h => h)).trans
      (ht.mono (.inr ⟨rfl, by simp, by simp [hmul]; omega⟩) (fun _ h => h))
  · rw [elemsV_succ]
    congr 1
    · have : takeV (viewAt s2 p) 0 sz = takeV (viewAt (s.write p img) p) 0 sz := by
        apply takeV_congr
        intro i hi
        exact ht.view (fun h => h) _ (by simp; omega)
      rw [this, ← hl]
      exact takeV_viewAt_write (ha.mono (by rw [hl, hmul]; omega))
    · rw [← he, viewAt_add, elemsV_shift]; simp

theorem elems_step_touch {s s2 : St} {p : Ptr} {sz n : Nat} {img : Img} (hl : img.length = sz)
    (ht : Touch (s.write p img) s2 (p.add sz) (n * sz) noOwn) :
    Touch s s2 p ((n + 1) * sz) noOwn := by
  have hmul : (n + 1) * sz = n * sz + sz := Nat.succ_mul n sz
  exact (Touch.write.mono (.inr ⟨rfl, Nat.le_refl _, by rw [hl, hmul]; omega⟩) (fun _ h => h)).trans
      (ht.mono (.inr ⟨rfl, by simp, by simp [hmul]; omega⟩) (fun _ h => h))

/-- Preconditions for the rest of a front-to-back loop over elements, after some change `Touch`. -/
theorem elems_rest {s : St} {p : Ptr} {R : RTy} {n : Nat} (hR : R.Ok w) (ha : Acc s p ((n + 1) * R.size))
    (hal : Aligned s p R.align) : Acc s p R.size ∧ Acc s (p.add R.size) (n * R.size) ∧ Aligned s (p.add R.size) R.align := by
  have hmul : (n + 1) * R.size = n * R.size + R.size := Nat.succ_mul n _
  exact ⟨ha.mono (by omega), ha.sub (by omega), hal.add (Nat.mod_eq_zero_of_dvd hR.dvd)⟩

section loops
variable {R : RTy} (hR : R.Ok w)
include hR

theorem fillLoop_spec {τ : Type} {f : Closure τ}
    (hf : ∀ t i img t', f.call t i = (some img, t') → R.valid img = true) :
    ∀ n t p i s, Acc s p (n * R.size) → Aligned s p R.align →
    match callSeq f t i n with
    | some xs => ∃ s', fillLoop R f t p i n s = .ok () s' ∧ Touch s s' p (n * R.size) noOwn ∧
        elemsV (viewAt s' p) 0 R.size n = xs ∧ s'.log = s.log ++ f.drops (callState f t i n) ∧ s'.copied = s.copied
    | none => ∃ s', fillLoop R f t p i n s = .panic .user s' ∧ Touch s s' p (n * R.size) noOwn ∧
        s'.log = s.log ++ f.drops (callState f t i n) ∧ s'.copied = s.copied := by
  intro n
  induction n with
  | zero => intro t p i s _ _; exact ⟨_, rfl, Touch.logged _ _ _ _ _, rfl, rfl, rfl⟩
  | succ n ih =>
    intro t p i s ha hal
    obtain ⟨ha1, ha2, hal2⟩ := elems_rest hR ha hal
    simp only [callSeq, fillLoop, callState]
    rcases hft : f.call t i with ⟨r, t'⟩
    cases r with
    | none => exact ⟨_, onUnwind_panic rfl rfl, Touch.logged _ _ _ _ _, rfl, rfl⟩
    | some img =>
      have hlen := hR.valid_len _ (hf _ _ _ _ hft)
      rw [← hlen] at ha1
      have ht1 : Touch s (s.write p img) p img.length noOwn := Touch.write
      have := ih t' (p.add R.size) (i + 1) (s.write p img) (ht1.acc (fun h => h) ha2) (ht1.aligned (fun h => h) hal2)
      simp only [bind_apply, writeVal_ok ha1 hal, Res.bind_ok]
      cases hc : callSeq f t' (i + 1) n with
      | none =>
        rw [hc] at this
        obtain ⟨s', h1, h2, h3, h4⟩ := this
        exact ⟨s', h1, elems_step_touch hlen h2, by simpa using h3, by simpa using h4⟩
      | some xs =>
        rw [hc] at this
        obtain ⟨s', h1, h2, h3, h4, h5⟩ := this
        obtain ⟨h6, h7⟩ := elems_step hlen ha h2 h3
        exact ⟨s', h1, h6, h7, by simpa using h4, by simpa using h5⟩

theorem iterLoop_spec {τ : Type} {it : IterFn τ}
    (hf : ∀ t img t', it.next t = (.yield img, t') → R.valid img = true) :
    ∀ n t p s, Acc s p (n * R.size) → Aligned s p R.align →
    match iterTake it t n with
    | some xs => ∃ s', iterLoop R it t p n s = .ok () s' ∧ Touch s s' p (n * R.size) noOwn ∧
        elemsV (viewAt s' p) 0 R.size n = xs ∧ s'.log = s.log ++ it.drops (iterState it t n) ∧ s'.copied = s.copied
    | none => ∃ m s', iterLoop R it t p n s = .panic m s' ∧ Touch s s' p (n * R.size) noOwn ∧
        s'.log = s.log ++ it.drops (iterState it t n) ∧ s'.copied = s.copied := by
  intro n
  induction n with
  | zero => intro t p s _ _; exact ⟨_, rfl, Touch.logged _ _ _ _ _, rfl, rfl, rfl⟩
  | succ n ih =>
    intro t p s ha hal
    obtain ⟨ha1, ha2, hal2⟩ := elems_rest hR ha hal
    simp only [iterTake, iterLoop, iterState]
    rcases hft : it.next t with ⟨r, t'⟩
    cases r with
    | panic => exact ⟨_, _, onUnwind_panic rfl rfl, Touch.logged _ _ _ _ _, rfl, rfl⟩
    | done => exact ⟨_, _, onUnwind_panic rfl rfl, Touch.logged _ _ _ _ _, rfl, rfl⟩
    | yield img =>
      have hlen := hR.valid_len _ (hf _ _ _ hft)
      rw [← hlen] at ha1
      have ht1 : Touch s (s.write p img) p img.length noOwn := Touch.write
      have := ih t' (p.add R.size) (s.write p img) (ht1.acc (fun h => h) ha2) (ht1.aligned (fun h => h) hal2)
      simp only [bind_apply, writeVal_ok ha1 hal, Res.bind_ok]
      cases hc : iterTake it t' n with
      | none =>
        rw [hc] at this
        obtain ⟨m, s', h1, h2, h3, h4⟩ := this
        exact ⟨m, s', h1, elems_step_touch hlen h2, by simpa using h3, by simpa using h4⟩
      | some xs =>
        rw [hc] at this
        obtain ⟨s', h1, h2, h3, h4, h5⟩ := this
        obtain ⟨h6, h7⟩ := elems_step hlen ha h2 h3
        exact ⟨s', h1, h6, h7, by simpa using h4, by simpa using h5⟩

theorem moveLoop_spec : ∀ (xs : List Img) p s, (∀ x ∈ xs, R.valid x = true) →
    Acc s p (xs.length * R.size) → Aligned s p R.align →
    ∃ s', moveLoop R p xs s = .ok () s' ∧ Touch s s' p (xs.length * R.size) noOwn ∧
        elemsV (viewAt s' p) 0 R.size xs.length = xs ∧ s'.log = s.log ∧ s'.copied = s.copied := by
  intro xs
  induction xs with
  | nil => intro p s _ _ _; exact ⟨s, rfl, Touch.refl _ _ _ _, rfl, rfl, rfl⟩
  | cons x xs ih =>
    intro p s hv ha hal
    obtain ⟨ha1, ha2, hal2⟩ := elems_rest hR ha hal
    have hlen := hR.valid_len _ (hv x (by simp))
    rw [← hlen] at ha1
    have ht1 : Touch s (s.write p x) p x.length noOwn := Touch.write
    obtain ⟨s', h1, h2, h3, h4, h5⟩ := ih (p.add R.size) (s.write p x) (fun y hy => hv y (by simp [hy]))
      (ht1.acc (fun h => h) ha2) (ht1.aligned (fun h => h) hal2)
    obtain ⟨h6, h7⟩ := elems_step hlen ha h2 h3
    refine ⟨s', ?_, h6, h7, by simpa using h4, by simpa using h5⟩
    simp only [moveLoop, bind_apply, writeVal_ok ha1 hal, Res.bind_ok, h1]

theorem SliceHas.head {s : St} {src : Ptr} {x : Img} {xs : List Img} (h : SliceHas R s src (x :: xs)) :
    readVal R src s = .ok x s ∧ SliceHas R s (src.add R.size) xs := by
  obtain ⟨ha1, ha2, hal2⟩ := elems_rest hR h.acc h.aligned
  have he := h.elems
  rw [List.length_cons, elemsV_succ] at he
  injection he with he1 he2
  have hv := h.valid x (by simp)
  constructor
  · rw [readVal_ok ha1 h.aligned (by rw [he1]; exact hv), he1]
  · refine ⟨ha2, hal2, ?_, fun y hy => h.valid y (by simp [hy]), h.blk⟩
    rw [viewAt_add, elemsV_shift]; simpa using he2

omit hR in
theorem SliceHas.of_same {s s' : St} {on : Nat → Prop} {src : Ptr} {xs : List Img} (h : SliceHas R s src xs)
    (hs : Same s s' on) (ho : on src.blk) : SliceHas R s' src xs :=
  ⟨(hs.acc ho).2 h.acc, (hs.aligned ho).2 h.aligned, by rw [hs.viewAt ho]; exact h.elems, h.valid,
    by rw [hs _ ho]; exact h.blk⟩

theorem cloneLoop_spec {c : CloneFn} (hc : c.Ok R) : ∀ (xs : List Img) src p s, SliceHas R s src xs →
    Acc s p (xs.length * R.size) → Aligned s p R.align → src.blk ≠ p.blk →
    match cloneAll c xs with
    | some ys => ∃ s', cloneLoop R c src p xs.length s = .ok () s' ∧ Touch s s' p (xs.length * R.size) noOwn ∧
        elemsV (viewAt s' p) 0 R.size xs.length = ys ∧ s'.log = s.log ∧ s'.copied = s.copied
    | none => ∃ s', cloneLoop R c src p xs.length s = .panic .user s' ∧ Touch s s' p (xs.length * R.size) noOwn ∧
        s'.log = s.log ∧ s'.copied = s.copied := by
  intro xs
  induction xs with
  | nil => intro src p s _ _ _ _; exact ⟨s, rfl, Touch.refl _ _ _ _, rfl, rfl, rfl⟩
  | cons x xs ih =>
    intro src p s hs ha hal hne
    obtain ⟨ha1, ha2, hal2⟩ := elems_rest hR ha hal
    obtain ⟨hrd, hs2⟩ := hs.head hR
    simp only [List.length_cons, cloneAll, cloneLoop, bind_apply, hrd, Res.bind_ok, runClone]
    cases hcx : c x with
    | none => exact ⟨s, rfl, Touch.refl _ _ _ _, rfl, rfl⟩
    | some y =>
      have hlen := hR.valid_len _ (hc _ _ (hs.valid x (by simp)) hcx)
      rw [← hlen] at ha1
      have ht1 : Touch s (s.write p y) p y.length noOwn := Touch.write
      have hsame : Same s (s.write p y) (fun b => b = src.blk) :=
        ht1.same (fun _ _ h => h) (fun h => hne h.symm)
      have := ih (src.add R.size) (p.add R.size) (s.write p y) (hs2.of_same hsame rfl)
        (ht1.acc (fun h => h) ha2) (ht1.aligned (fun h => h) hal2) hne
      simp only [pure_apply, Res.bind_ok, bind_apply, writeVal_ok ha1 hal, Option.bind_some]
      cases hca : cloneAll c xs with
      | none =>
        rw [hca] at this
        obtain ⟨s', h1, h2, h3, h4⟩ := this
        exact ⟨s', h1, elems_step_touch hlen h2, by simpa using h3, by simpa using h4⟩
      | some ys =>
        rw [hca] at this
        obtain ⟨s', h1, h2, h3, h4, h5⟩ := this
        obtain ⟨h6, h7⟩ := elems_step hlen ha h2 h3
        exact ⟨s', h1, h6, h7, by simpa using h4, by simpa using h5⟩

/-- Dropping the elements of a slice. -/
theorem dropElems_spec : ∀ n p s, Acc s p (n * R.size) → Aligned s p R.align →
    (∀ x ∈ elemsV (viewAt s p) 0 R.size n, R.valid x = true) →
    ∃ s', dropElems R p n s = .ok () s' ∧ Touch s s' p (n * R.size) noOwn ∧
      s'.log = s.log ++ (elemsV (viewAt s p) 0 R.size n).flatMap R.drops ∧ s'.copied = s.copied := by
  intro n
  induction n with
  | zero => intro p s _ _ _; exact ⟨s, rfl, Touch.refl _ _ _ _, by simp, rfl⟩
  | succ n ih =>
    intro p s ha hal hv
    obtain ⟨ha1, ha2, hal2⟩ := elems_rest hR ha hal
    have hmul : (n + 1) * R.size = n * R.size + R.size := Nat.succ_mul n _
    rw [elemsV_succ] at hv
    obtain ⟨s1, h1, h2, h3, h4⟩ := dropInPlace_ok ha1 hal (hv _ (by simp))
    have hview : elemsV (viewAt s1 (p.add R.size)) 0 R.size n = elemsV (viewAt s p) (0 + R.size) R.size n := by
      rw [viewAt_add, elemsV_shift]
      apply elemsV_congr
      intro i hi
      simp only [Nat.add_zero, Nat.zero_add]
      exact h2.view (fun h => h) _ (by omega)
    obtain ⟨s2, h5, h6, h7, h8⟩ := ih (p.add R.size) s1 (h2.acc (fun h => h) ha2) (h2.aligned (fun h => h) hal2)
      (by rw [hview]; intro x hx; exact hv x (by simp only [Nat.zero_add] at hx; simp [hx]))
    refine ⟨s2, ?_, ?_, ?_, h8.trans h4⟩
    · simp only [dropElems, bind_apply, h1, Res.bind_ok, h5]
    · exact (h2.mono (.inr ⟨rfl, Nat.le_refl _, by omega⟩) (fun _ h => h)).trans
        (h6.mono (.inr ⟨rfl, by simp, by simp; omega⟩) (fun _ h => h))
    · rw [h7, h3, hview, elemsV_succ]; simp

/-- Reading the elements of a slice. -/
theorem readElems_spec : ∀ n p s, Acc s p (n * R.size) → Aligned s p R.align →
    (∀ x ∈ elemsV (viewAt s p) 0 R.size n, R.valid x = true) →
    readElems R p n s = .ok (elemsV (viewAt s p) 0 R.size n) s := by
  intro n
  induction n with
  | zero => intro p s _ _ _; rfl
  | succ n ih =>
    intro p s ha hal hv
    obtain ⟨ha1, ha2, hal2⟩ := elems_rest hR ha hal
    rw [elemsV_succ] at hv
    have hview : elemsV (viewAt s (p.add R.size)) 0 R.size n = elemsV (viewAt s p) (0 + R.size) R.size n := by
      rw [viewAt_add, elemsV_shift]; simp
    have := ih (p.add R.size) s ha2 hal2 (by
      rw [hview]; intro x hx; exact hv x (by simp only [Nat.zero_add] at hx; simp [hx]))
    rw [hview] at this
    simp only [readElems, bind_apply, readVal_ok ha1 hal (hv _ (by simp)), Res.bind_ok, this, pure_apply, elemsV_succ]

end loops

/-! ## The initializers satisfy the contract -/

theorem callSeq_ok {R : RTy} {τ : Type} {f : Closure τ}
    (hf : ∀ t i img t', f.call t i = (some img, t') → R.valid img = true) :
    ∀ n t i xs, callSeq f t i n = some xs → xs.length = n ∧ ∀ x ∈ xs, R.valid x = true := by
  intro n
  induction n with
  | zero => intro t i xs h; cases h; simp
  | succ n ih =>
    intro t i xs h
    simp only [callSeq] at h
    rcases hft : f.call t i with ⟨r, t'⟩
    rw [hft] at h
    cases r with
    | none => cases h
    | some img =>
      simp only [Option.map_eq_some_iff] at h
      obtain ⟨ys, h1, rfl⟩ := h
      obtain ⟨h2, h3⟩ := ih _ _ _ h1
      refine ⟨by simp [h2], ?_⟩
      intro x hx
      rcases List.mem_cons.1 hx with rfl | hx
      · exact hf _ _ _ _ hft
      · exact h3 x hx

theorem iterTake_ok {R : RTy} {τ : Type} {it : IterFn τ}
    (hf : ∀ t img t', it.next t = (.yield img, t') → R.valid img = true) :
    ∀ n t xs, iterTake it t n = some xs → xs.length = n ∧ ∀ x ∈ xs, R.valid x = true := by
  intro n
  induction n with
  | zero => intro t xs h; cases h; simp
  | succ n ih =>
    intro t xs h
    simp only [iterTake] at h
    rcases hft : it.next t with ⟨r, t'⟩
    rw [hft] at h
    cases r with
    | panic => cases h
    | done => cases h
    | yield img =>
      simp only [Option.map_eq_some_iff] at h
      obtain ⟨ys, h1, rfl⟩ := h
      obtain ⟨h2, h3⟩ := ih _ _ h1
      refine ⟨by simp [h2], ?_⟩
      intro x hx
      rcases List.mem_cons.1 hx with rfl | hx
      · exact hf _ _ _ hft
      · exact h3 x hx

theorem cloneAll_ok {R : RTy} {c : CloneFn} (hc : c.Ok R) : ∀ xs ys, (∀ x ∈ xs, R.valid x = true) →
    cloneAll c xs = some ys → ys.length = xs.length ∧ ∀ y ∈ ys, R.valid y = true := by
  intro xs
  induction xs with
  | nil => intro ys _ h; cases h; simp
  | cons x xs ih =>
    intro ys hv h
    simp only [cloneAll, Option.bind_eq_some_iff, Option.map_eq_some_iff] at h
    obtain ⟨y, h1, zs, h2, rfl⟩ := h
    obtain ⟨h3, h4⟩ := ih _ (fun z hz => hv z (by simp [hz])) h2
    refine ⟨by simp [h3], ?_⟩
    intro z hz
    rcases List.mem_cons.1 hz with rfl | hz
    · exact hc _ _ (hv _ (by simp)) h1
    · exact h4 z hz

theorem FillSequentially_lawful {R : RTy} (hR : R.Ok w) {τ : Type} {f : Closure τ} {t : τ}
    (hf : ∀ t i img t', f.call t i = (some img, t') → R.valid img = true) : ArrInitLawful R (FillSequentially R f t) where
  fp_exists := fun _ _ _ h => h.elim
  stable := fun _ _ _ _ => trivial
  vals_ok := fun n xs h => callSeq_ok hf n t 0 xs h
  drop_ok := fun s _ => ⟨_, rfl, Touch.logged _ _ _ _ _, rfl, rfl⟩
  run_ok := by
    intro s p n xs _ hv ha hal _
    have := fillLoop_spec hR hf n t p 0 s ha hal
    simp only [FillSequentially] at hv
    rw [hv] at this; exact this
  run_panic := by
    intro s p n _ hv ha hal _
    have := fillLoop_spec hR hf n t p 0 s ha hal
    simp only [FillSequentially] at hv
    rw [hv] at this; exact ⟨_, this⟩

theorem FillWithDefault_lawful {R : RTy} (hR : R.Ok w) {d : Option Img} (hd : ∀ x, d = some x → R.valid x = true) :
    ArrInitLawful R (FillWithDefault R d) :=
  FillSequentially_lawful hR (by
    intro t i img t' h
    simp only [Prod.mk.injEq, and_true] at h
    exact hd _ h)

theorem FromIterPrefix_lawful {R : RTy} (hR : R.Ok w) {τ : Type} {it : IterFn τ} {t : τ}
    (hf : ∀ t img t', it.next t = (.yield img, t') → R.valid img = true) : ArrInitLawful R (FromIterPrefix R it t) where
  fp_exists := fun _ _ _ h => h.elim
  stable := fun _ _ _ _ => trivial
  vals_ok := fun n xs h => iterTake_ok hf n t xs h
  drop_ok := fun s _ => ⟨_, rfl, Touch.logged _ _ _ _ _, rfl, rfl⟩
  run_ok := by
    intro s p n xs _ hv ha hal _
    have := iterLoop_spec hR hf n t p s ha hal
    simp only [FromIterPrefix] at hv
    rw [hv] at this; exact this
  run_panic := by
    intro s p n _ hv ha hal _
    have := iterLoop_spec hR hf n t p s ha hal
    simp only [FromIterPrefix] at hv
    rw [hv] at this; exact this

theorem MoveFrom_lawful {R : RTy} (hR : R.Ok w) {xs : List Img} (hx : ∀ x ∈ xs, R.valid x = true) :
    ArrInitLawful R (MoveFrom R xs) where
  fp_exists := fun _ _ _ h => h.elim
  stable := fun _ _ _ _ => trivial
  vals_ok := by
    intro n ys h
    simp only [MoveFrom] at h
    split at h <;> cases h
    subst_vars; exact ⟨rfl, hx⟩
  drop_ok := fun s _ => ⟨_, rfl, Touch.logged _ _ _ _ _, rfl, rfl⟩
  run_ok := by
    intro s p n ys _ hv ha hal _
    simp only [MoveFrom] at hv ⊢
    split at hv <;> cases hv
    subst_vars
    simp only [ne_eq, not_true_eq_false, if_false]
    simpa using moveLoop_spec hR xs p s hx ha hal
  run_panic := by
    intro s p n _ hv ha hal _
    simp only [MoveFrom] at hv ⊢
    split at hv <;> cases hv
    rename_i h
    simp only [ne_eq, h, not_false_eq_true, if_true]
    exact ⟨_, _, onUnwind_panic rfl rfl, Touch.logged _ _ _ _ _, rfl, rfl⟩

theorem CloneFrom_lawful {R : RTy} (hR : R.Ok w) {c : CloneFn} (hc : c.Ok R) {src : Ptr} {xs : List Img}
    (hx : ∀ x ∈ xs, R.valid x = true) : ArrInitLawful R (CloneFrom R c src xs) where
  fp_exists := by rintro s b h rfl; exact h.blk
  stable := fun _ _ h hs => SliceHas.of_same h hs rfl
  vals_ok := by
    intro n ys h
    simp only [CloneFrom] at h
    split at h
    · subst_vars; exact cloneAll_ok hc _ _ hx h
    · cases h
  drop_ok := fun s _ => ⟨s, rfl, Touch.refl _ _ _ _, (List.append_nil _).symm, rfl⟩
  run_ok := by
    intro s p n ys hp hv ha hal hfp
    simp only [CloneFrom] at hv ⊢
    split at hv
    · subst_vars
      simp only [ne_eq, not_true_eq_false, if_false]
      have := cloneLoop_spec hR hc xs src p s hp ha hal (fun h => hfp h.symm)
      rw [hv] at this; simpa using this
    · cases hv
  run_panic := by
    intro s p n hp hv ha hal hfp
    simp only [CloneFrom] at hv ⊢
    split at hv
    · subst_vars
      simp only [ne_eq, not_true_eq_false, if_false]
      have := cloneLoop_spec hR hc xs src p s hp ha hal (fun h => hfp h.symm)
      rw [hv] at this; simpa using ⟨_, this⟩
    · rename_i h
      simp only [ne_eq, Ne.symm h, not_false_eq_true, if_true]
      exact ⟨_, s, rfl, Touch.refl _ _ _ _, (List.append_nil _).symm, rfl⟩

theorem CopyFrom_lawful {R : RTy} {src : Ptr} {xs : List Img}
    (hx : ∀ x ∈ xs, R.valid x = true) : ArrInitLawful R (CopyFrom R src xs) where
  fp_exists := by rintro s b h rfl; exact h.blk
  stable := fun _ _ h hs => SliceHas.of_same h hs rfl
  vals_ok := by
    intro n ys h
    simp only [CopyFrom] at h
    split at h <;> cases h
    subst_vars; exact ⟨rfl, hx⟩
  drop_ok := fun s _ => ⟨s, rfl, Touch.refl _ _ _ _, (List.append_nil _).symm, rfl⟩
  run_ok := by
    intro s p n ys hp hv ha hal hfp
    simp only [CopyFrom] at hv ⊢
    split at hv <;> cases hv
    subst_vars
    simp only [ne_eq, not_true_eq_false, if_false]
    refine ⟨_, copyNonoverlapping_ok hp.aligned hal hp.acc ha (.inr (.inl fun h => hfp h.symm)),
      Touch.write.mono (.inr ⟨rfl, Nat.le_refl _, by simp⟩) (fun _ h => h), ?_, by simp, by simp⟩
    refine Eq.trans (elemsV_congr fun i hi => ?_) hp.elems
    rw [viewAt_write (by simpa using ha), overwrite_in _ _ _ _ (by simpa using hi),
      List.getD_eq_getElem?_getD, takeV_getElem?]
    simp [hi]
  run_panic := by
    intro s p n _ hv ha hal _
    simp only [CopyFrom] at hv ⊢
    split at hv <;> cases hv
    rename_i h
    simp only [ne_eq, h, not_false_eq_true, if_true]
    exact ⟨_, s, rfl, Touch.refl _ _ _ _, (List.append_nil _).symm, rfl⟩

end Varlen
