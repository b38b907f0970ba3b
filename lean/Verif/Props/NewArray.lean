import Verif.Proofs.NewArray
import Verif.Proofs.Moves
import Verif.Props.Arrays
/-!
# C55: `new_array`

`base` is the address of the function's own array, chosen by the compiler: a multiple of the alignment.
-/
namespace Varlen
variable {w : Nat} {R : RTy} {s : St} {base : Nat}

/-- `new_array::<R, N>(FillSequentially(f))` returns `[f(0), …, f(N-1)]`, called once each in this order; the closure is dropped. If a call panics, so does `new_array`, the closure
having been dropped and the results of the earlier calls leaked. -/
theorem C55_fillSequentially (hR : R.Ok w) (hb : base % R.align = 0) {τ : Type} {f : Closure τ} (hf : ∀ t i img t', f.call t i = (some img, t') → R.valid img = true)
    {t t' : τ} {xs : List Img} (h : Calls f t 0 xs t') :
    ReturnsArray (newArray base R xs.length (FillSequentially R f t) s) s xs (f.drops t') ∧
    (∀ t'', f.call t' xs.length = (none, t'') → ∀ N, xs.length < N → PanicsWith .user (newArray base R N (FillSequentially R f t) s) s (f.drops t'')) := by
  constructor
  · refine newArray_filled hR hb ?_ ((C07_fillSequentially hR hf h).1 (framed_writable hb))
    generalize 0 = i at h
    induction h with
    | nil => simp
    | cons e _ ih => simpa using ⟨hf _ _ _ _ e, ih⟩
  · intro t'' hn N hlt
    obtain ⟨s1, e1, _, e3, e4⟩ := (C07_fillSequentially hR hf h).2 t'' hn N hlt (framed_writable (s := s) hb)
    exact newArray_panicked e1 e3 e4

/-- `new_array::<R, N>(FillWithDefault)` is `N` times the default value; if `default()` panics (and `N > 0`), so does `new_array`. -/
theorem C55_fillWithDefault (hR : R.Ok w) (hb : base % R.align = 0) (N : Nat) :
    (∀ d, R.valid d = true → ReturnsArray (newArray base R N (FillWithDefault R (some d)) s) s (List.replicate N d) []) ∧
    (0 < N → PanicsWith .user (newArray base R N (FillWithDefault R none) s) s []) := by
  constructor
  · intro d hd
    have := newArray_filled (s := s) (base := base) (I := FillWithDefault R (some d)) (xs := List.replicate N d) (ev := []) hR hb
      (fun x hx => by rw [(List.mem_replicate.1 hx).2]; exact hd)
    simp only [List.length_replicate] at this
    exact this ((C07_fillWithDefault hR (framed_writable hb)).1 d hd)
  · intro hN
    obtain ⟨s1, e1, _, e3, e4⟩ := (C07_fillWithDefault hR (framed_writable (s := s) (N := N) hb)).2 hN
    exact newArray_panicked e1 e3 e4

/-- `new_array::<R, N>(FromIterPrefix(iter))` is the first `N` items; the rest of the iterator is dropped. If there are fewer, it panics, having dropped the iterator. -/
theorem C55_fromIterPrefix (hR : R.Ok w) (hb : base % R.align = 0) {τ : Type} {it : IterFn τ} (hf : ∀ t img t', it.next t = (.yield img, t') → R.valid img = true)
    {t t' : τ} {xs : List Img} (h : Yields it t xs t') :
    ReturnsArray (newArray base R xs.length (FromIterPrefix R it t) s) s xs (it.drops t') ∧
    (∀ N, xs.length < N → ∀ t'',
      (it.next t' = (.done, t'') → PanicsWith .iterEnded (newArray base R N (FromIterPrefix R it t) s) s (it.drops t'')) ∧
      (it.next t' = (.panic, t'') → PanicsWith .user (newArray base R N (FromIterPrefix R it t) s) s (it.drops t''))) := by
  constructor
  · refine newArray_filled hR hb ?_ ((C07_fromIterPrefix hR hf h).1 (framed_writable hb))
    induction h with
    | nil => simp
    | cons e _ ih => simpa using ⟨hf _ _ _ e, ih⟩
  · intro N hlt t''
    have hc := (C07_fromIterPrefix hR hf h).2 N hlt (framed_writable (s := s) hb) t''
    constructor <;> intro hn
    · obtain ⟨s1, e1, _, e3, e4⟩ := hc.1 hn
      exact newArray_panicked e1 e3 e4
    · obtain ⟨s1, e1, _, e3, e4⟩ := hc.2 hn
      exact newArray_panicked e1 e3 e4

/-- A source slice outside the function's own array. -/
theorem SliceHas.framed {src : Ptr} {xs : List Img} (h : SliceHas R s src xs) (N : Nat) : SliceHas R (framed s base R N) src xs ∧ s.next ≠ src.blk := by
  refine ⟨h.of_same (on := fun b => b = src.blk) (by rintro b rfl; exact framed_same h.blk) rfl, ?_⟩
  intro e
  exact h.blk (by rw [← e]; exact s.blk_next)

/-- `new_array::<R, N>(CopyFrom(src))` is a copy of `src` if its length is `N`; otherwise it panics. The source is as before. -/
theorem C55_copyFrom (hR : R.Ok w) (hb : base % R.align = 0) {src : Ptr} {xs : List Img} (hs : SliceHas R s src xs) :
    ReturnsArray (newArray base R xs.length (CopyFrom R src xs) s) s xs [] ∧
    (∀ N, N ≠ xs.length → PanicsWith .lengthMismatch (newArray base R N (CopyFrom R src xs) s) s []) := by
  constructor
  · exact newArray_filled hR hb hs.valid ((C07_copyFrom (hs.framed _).1 (framed_writable hb) (hs.framed (base := base) 0).2).1 rfl)
  · intro N hN
    exact newArray_panicked (n := 0) ((C07_copyFrom (hs.framed _).1 (framed_writable hb) (hs.framed (base := base) 0).2).2 hN) (Touch.refl ..) (by simp [Varlen.framed])

/-- `new_array::<R, N>(CloneFrom(src))` is the clones, in order, if the length of `src` is `N` and all clones return; otherwise it panics. The source is as before. -/
theorem C55_cloneFrom (hR : R.Ok w) (hb : base % R.align = 0) {c : CloneFn} (hc : c.Ok R) {src : Ptr} {xs : List Img} (hs : SliceHas R s src xs) :
    (∀ ys, xs.map c = ys.map some → ReturnsArray (newArray base R xs.length (CloneFrom R c src xs) s) s ys []) ∧
    ((∃ x ∈ xs, c x = none) → PanicsWith .user (newArray base R xs.length (CloneFrom R c src xs) s) s []) ∧
    (∀ N, N ≠ xs.length → PanicsWith .lengthMismatch (newArray base R N (CloneFrom R c src xs) s) s []) := by
  have hfr := fun N => hs.framed (base := base) N
  refine ⟨fun ys hys => ?_, fun hx => ?_, fun N hN => ?_⟩
  · have hlen : xs.length = ys.length := by simpa using congrArg List.length hys
    have hf := (C07_cloneFrom hR hc (hfr xs.length).1 (hfr 0).2 (p := ⟨s.next, 0⟩)).1 ys hys (framed_writable hb)
    rw [hlen] at hf ⊢
    refine newArray_filled hR hb (fun y hy => ?_) hf
    have : some y ∈ xs.map c := by rw [hys]; exact List.mem_map.2 ⟨y, hy, rfl⟩
    obtain ⟨x, hx, e⟩ := List.mem_map.1 this
    exact hc x y (hs.valid x hx) e
  · obtain ⟨m, s1, e1, e3, e4, _⟩ := (CloneFrom_lawful hR hc hs.valid).run_panic (framed s base R xs.length) ⟨s.next, 0⟩ xs.length (hfr _).1
      (by simp [CloneFrom, cloneAll_eq_none hx]) (framed_writable hb).acc (framed_writable hb).aligned (hfr 0).2
    have : m = .user := by
      -- the first element whose clone panics
      have hsplit : ∀ zs : List Img, (∃ x ∈ zs, c x = none) → ∃ (i : Nat) (x : Img) (ys : List Img), zs[i]? = some x ∧ c x = none ∧ (zs.take i).map c = ys.map some := by
        intro zs
        induction zs with
        | nil => simp
        | cons z zs ih =>
          intro h
          cases hz : c z with
          | none => exact ⟨0, z, [], rfl, hz, rfl⟩
          | some y =>
            have : ∃ x ∈ zs, c x = none := by
              obtain ⟨x, hx, e⟩ := h
              rcases List.mem_cons.1 hx with rfl | hx
              · rw [hz] at e; cases e
              · exact ⟨x, hx, e⟩
            obtain ⟨i, x, ys, h1, h2, h3⟩ := ih this
            exact ⟨i + 1, x, y :: ys, by simpa using h1, h2, by simp [hz, h3]⟩
      obtain ⟨i, x, ys, h1, h2, h3⟩ := hsplit xs hx
      obtain ⟨s2, e5, _⟩ := (C07_cloneFrom hR hc (hfr xs.length).1 (hfr 0).2 (p := ⟨s.next, 0⟩)).2.1 i x ys h1 h2 h3 (framed_writable hb)
      rw [e1] at e5
      injection e5
    subst this
    exact newArray_panicked e1 e3 e4
  · exact newArray_panicked (n := 0) ((C07_cloneFrom hR hc (hfr N).1 (hfr 0).2 (p := ⟨s.next, 0⟩)).2.2 N hN) (Touch.refl ..) (by simp [framed])

/-- `new_array::<R, N>(MoveFrom(arr))` is `arr` itself if it has length `N`, without running a destructor; otherwise it panics, having dropped the values of `arr`. -/
theorem C55_moveFrom (hR : R.Ok w) (hb : base % R.align = 0) {xs : List Img} (hx : ∀ x ∈ xs, R.valid x = true) :
    ReturnsArray (newArray base R xs.length (MoveFrom R xs) s) s xs [] ∧
    (∀ N, N ≠ xs.length → PanicsWith .lengthMismatch (newArray base R N (MoveFrom R xs) s) s (xs.map R.dtor).flatten) := by
  constructor
  · exact newArray_filled hR hb hx ((C07_moveFrom hR hx (framed_writable hb)).1 rfl)
  · intro N hN
    obtain ⟨s1, e1, _, e3, e4⟩ := (C07_moveFrom hR hx (framed_writable (s := s) (N := N) hb)).2 hN
    have hd : xs.flatMap R.drops = (xs.map R.dtor).flatten := by rw [List.flatMap_def]; rfl
    rw [hd] at e4
    exact newArray_panicked e1 e3 e4

/-- For every array initializer, also a user-written one that satisfies the contract, `new_array::<R, N>` is free of undefined behaviour and leaves memory as it was: it returns an array of
`N` valid values, or panics. Every value the initializer held or made is then in the array or has been destroyed, exactly once; after a panic none has been destroyed twice. -/
theorem C55_each_once (hR : R.Ok w) (hb : base % R.align = 0) {I : ArrInit} (hI : LibArrInit R I) (hp : I.pre s) (N : Nat) {held made : List Event} (ha : ArrAccounts R N I held made) :
    (∃ xs es, ReturnsArray (newArray base R N I s) s xs es ∧ xs.length = N ∧ (∀ x ∈ xs, R.valid x = true) ∧ (es ++ (xs.map R.dtor).flatten).Perm (held ++ made)) ∨
    (∃ m es, PanicsWith m (newArray base R N I s) s es ∧ AtMost es (held ++ made)) := by
  have hl := hI.lawful hR
  have hw := framed_writable (R := R) (s := s) (N := N) hb
  have hpre : I.pre (framed s base R N) := hl.stable s _ hp fun b h => framed_same (hl.fp_exists s b hp h)
  have hfp : ¬ I.fp s.next := fun h => hl.fp_exists s _ hp h s.blk_next
  cases hv : I.vals N with
  | some xs =>
    obtain ⟨h1, h2⟩ := hl.vals_ok N xs hv
    obtain ⟨s1, e1, e2, e3, e4, _⟩ := hl.run_ok _ ⟨s.next, 0⟩ N xs hpre hv hw.acc hw.aligned hfp
    subst h1
    exact .inl ⟨xs, I.left xs.length, newArray_filled hR hb h2 ⟨s1, e1, e3, e2, e4⟩, rfl, h2, ha.sums.ok xs hv⟩
  | none =>
    obtain ⟨m, s1, e1, e3, e4, _⟩ := hl.run_panic _ ⟨s.next, 0⟩ N hpre hv hw.acc hw.aligned hfp
    exact .inr ⟨m, I.lost N, newArray_panicked e1 e3 e4, ha.sums.panic hv⟩

namespace Demo

example : ReturnsArray (newArray 65536 D4 4 (FillSequentially D4 counter 7) st1) st1 [d4 70, d4 81, d4 92, d4 103] (D4.drops (d4 11)) ∧
    PanicsWith .user (newArray 65536 D4 6 (FillSequentially D4 counter 7) st1) st1 (D4.drops (d4 11)) := by
  have h := C55_fillSequentially (base := 65536) D4_ok (f := counter) (s := st1) (by decide) (fun t i img t' h => by
    simp only [counter] at h; split at h <;> simp at h; rw [← h.1]; exact d4_valid _) counter_calls
  exact ⟨h.1, h.2 11 rfl 6 (by decide)⟩

-- the two items beyond the array are dropped; an iterator of two items does not fill an array of three
example : ReturnsArray (newArray 65536 D4 2 (FromIterPrefix D4 listIter [1, 2, 3, 4]) st1) st1 [d4 1, d4 2] [3, 4] ∧
    PanicsWith .iterEnded (newArray 65536 D4 3 (FromIterPrefix D4 listIter [1, 2]) st1) st1 [] :=
  ⟨(C55_fromIterPrefix D4_ok (by decide) listIter_valid (listIter_yields [3, 4])).1,
   ((C55_fromIterPrefix D4_ok (by decide) listIter_valid (listIter_yields [])).2 3 (by decide) []).1 rfl⟩

example : ReturnsArray (newArray 65536 D4 3 (CopyFrom D4 ⟨1, 0⟩ [d4 1, d4 2, d4 3]) stSrc) stSrc [d4 1, d4 2, d4 3] [] :=
  (C55_copyFrom D4_ok (by decide) stSrc_has).1

example : ReturnsArray (newArray 65536 D4 3 (CloneFrom D4 some ⟨1, 0⟩ [d4 1, d4 2, d4 3]) stSrc) stSrc [d4 1, d4 2, d4 3] [] ∧
    PanicsWith .user (newArray 65536 D4 3 (CloneFrom D4 (fun x => if x = d4 2 then none else some x) ⟨1, 0⟩ [d4 1, d4 2, d4 3]) stSrc) stSrc [] :=
  ⟨(C55_cloneFrom D4_ok (by decide) (fun a b ha h => by cases h; exact ha) stSrc_has).1 _ rfl,
   (C55_cloneFrom D4_ok (by decide) (fun a b ha h => by split at h <;> simp at h; rw [← h]; exact ha) stSrc_has).2.1 ⟨d4 2, by simp, by simp⟩⟩

example : PanicsWith .lengthMismatch (newArray 65536 D4 2 (MoveFrom D4 [d4 1, d4 2, d4 3]) st1) st1 [1, 2, 3] :=
  (C55_moveFrom D4_ok (by decide) (by decide +kernel)).2 2 (by decide)

example : ReturnsArray (newArray 65536 D4 2 (FillWithDefault D4 (some (d4 5))) st1) st1 [d4 5, d4 5] [] :=
  (C55_fillWithDefault D4_ok (by decide) 2).1 _ (d4_valid _)

example : ∃ xs es, ReturnsArray (newArray 65536 D4 2 (FromIterPrefix D4 listIter [1, 2, 3, 4]) st1) st1 xs es ∧ (es ++ (xs.map D4.dtor).flatten).Perm [1, 2, 3, 4] := by
  rcases C55_each_once (s := st1) (base := 65536) D4_ok (by decide) (.fromIterPrefix listIter_valid) trivial 2
    (.fromIterPrefix (it := listIter) (t := [1, 2, 3, 4]) (.yield rfl (by exact (List.Perm.refl [1, 2, 3, 4])) (.yield rfl (by exact List.Perm.refl [2, 3, 4]) .stop)))
    with ⟨xs, es, h1, _, _, h4⟩ | ⟨m, es, ⟨s', h, _⟩, _⟩
  · exact ⟨xs, es, h1, h4⟩
  · obtain ⟨s2, e, _⟩ := (C55_fromIterPrefix (s := st1) (base := 65536) D4_ok (by decide) listIter_valid (listIter_yields [3, 4])).1
    cases e.symm.trans h

end Demo
end Varlen
