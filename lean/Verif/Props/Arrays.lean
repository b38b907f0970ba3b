import Verif.Props.Demo
import Verif.Proofs.Slice
/-! # C06, C07, C08, C43, C45: arrays, their initializers and their length types -/
namespace Varlen
variable {w : Nat}

/-! ## C06 -/

/-- `Array::try_copy(src)` is `None` iff the length does not fit the length type. Otherwise, constructing it in any suitable storage gives an array that dereferences
to exactly the elements of `src` (and the source is left as it was, being outside the destination). -/
theorem C06_tryCopy {R : RTy} {L : LenTy} (hR : R.Ok w) (hL : L.Ok w) {src : Ptr} {xs : List Img} (hlen : xs.length < 2 ^ w)
    (hx : ∀ x ∈ xs, R.valid x = true) :
    (Array.tryCopy w R L src xs = none ↔ 2 ^ (8 * L.bytes) ≤ xs.length) ∧
    ∀ I, Array.tryCopy w R L src xs = some I → ∀ (s : St) (p : Ptr) (l : Layout w), SliceHas R s src xs → I.cautious s = .ok (some l) s →
      Acc s p l.size.toNat → Aligned s p (Array w R L).ALIGN.toNat → p.blk ≠ src.blk →
      ∃ s' sl, I.initTo p l s = .ok () s' ∧ Array.deref w R L p s' = .ok sl s' ∧ sl.len = xs.length ∧ Slice.read R sl s' = .ok xs s' ∧
        Touch s s' p l.size.toNat (fun _ => False) := by
  obtain ⟨h1, h2⟩ := Array.tryCopy_spec hR hL (src := src) hx hlen
  refine ⟨h1, fun I hI s p l hsl hl ha hal hb => ?_⟩
  obtain ⟨hIl, hv, hpre, hfp, hown⟩ := h2 I hI
  have hs : Suitable (Array w R L) I s p l := ⟨(hpre s).2 hsl, hl, ha, hal, fun h => hb ((hfp _).1 h)⟩
  rcases hs.run hIl with ⟨v, s', ev, e, ht, _, hval, _⟩ | ⟨m, s', ev, _⟩
  · rw [hv] at ev; cases ev
    obtain ⟨sl, d1, d2, d3, _⟩ := Array.deref_spec hR hL hval
    exact ⟨s', sl, e, d1, d2, d3, ht.mono (.inr ⟨rfl, by omega, by omega⟩) fun b h => hown b (hIl.owns_mods b h)⟩
  · rw [hv] at ev; cases ev

/-- The same for `try_clone_from_slice`: if all leaf clones return (`ys`), the array dereferences to the clones. -/
theorem C06_tryCloneFromSlice {R : RTy} {L : LenTy} (hR : R.Ok w) (hL : L.Ok w) {c : CloneFn} (hc : c.Ok R) {src : Ptr} {xs : List Img} (hlen : xs.length < 2 ^ w)
    (hx : ∀ x ∈ xs, R.valid x = true) :
    (Array.tryCloneFromSlice w R L c src xs = none ↔ 2 ^ (8 * L.bytes) ≤ xs.length) ∧
    ∀ I, Array.tryCloneFromSlice w R L c src xs = some I → ∀ ys, xs.map c = ys.map some → ∀ (s : St) (p : Ptr) (l : Layout w), SliceHas R s src xs →
      I.cautious s = .ok (some l) s → Acc s p l.size.toNat → Aligned s p (Array w R L).ALIGN.toNat → p.blk ≠ src.blk →
      ∃ s' sl, I.initTo p l s = .ok () s' ∧ Array.deref w R L p s' = .ok sl s' ∧ sl.len = xs.length ∧ Slice.read R sl s' = .ok ys s' ∧
        Touch s s' p l.size.toNat (fun _ => False) := by
  have hs := LenTy.fromUsize_spec hL (BitVec.ofNat w xs.length)
  have ht : (BitVec.ofNat w xs.length).toNat = xs.length := by simp [Nat.mod_eq_of_lt hlen]
  rw [ht] at hs
  unfold Array.tryCloneFromSlice
  refine ⟨?_, ?_⟩
  · rw [← hs.1]
    cases L.fromUsize (BitVec.ofNat w xs.length) <;> simp
  · intro I hI ys hys s p l hsl hl ha hal hb
    cases hf : L.fromUsize (BitVec.ofNat w xs.length) with
    | none => rw [hf] at hI; simp at hI
    | some len =>
      rw [hf] at hI
      simp only [Option.bind_eq_bind, Option.bind_some, Option.some.injEq] at hI
      obtain ⟨h1, h2, h3⟩ := hs.2 len hf
      subst hI
      have hclone : cloneAll c xs = some ys := by
        clear hlen hx hs ht hl h3 hsl hf h2
        induction xs generalizing ys with
        | nil => cases ys <;> simp_all [cloneAll]
        | cons x xs ih =>
          cases ys with
          | nil => simp at hys
          | cons y ys =>
            simp only [List.map_cons, List.cons.injEq] at hys
            simp [cloneAll, hys.1, ih ys hys.2]
      have hv : (SizedInit w R L len (CloneFrom R c src xs)).val = some (.arr ys) := by
        simp [SizedInit, CloneFrom, h3, Nat.mod_eq_of_lt hlen, hclone]
      have hsu : Suitable (Array w R L) (SizedInit w R L len (CloneFrom R c src xs)) s p l := ⟨hsl, hl, ha, hal, hb⟩
      rcases hsu.run (SizedInit_lawful hR hL h1 (CloneFrom_lawful hR hc hx)) with ⟨v, s', ev, e, ht, _, hval, _⟩ | ⟨m, s', ev, _⟩
      · rw [hv] at ev; cases ev
        obtain ⟨sl, d1, d2, d3, _⟩ := Array.deref_spec hR hL hval
        refine ⟨s', sl, e, d1, ?_, d3, ht⟩
        rw [d2]; simpa using (congrArg List.length hys).symm
      · rw [hv] at ev; cases ev

/-- `Array::copy` and `Array::clone_from_slice` (length type `usize`, on a target whose `usize` is a whole number of bytes) never reject a slice. -/
theorem C06_copy_never_rejects {R : RTy} {usizeAlign : Nat} (hw : w % 8 = 0) {src : Ptr} {xs : List Img} (c : CloneFn) (s : St) :
    (∃ I, Array.copy w R usizeAlign src xs s = .ok I s ∧ Array.tryCopy w R (.usize w usizeAlign) src xs = some I) ∧
    (∃ I, Array.cloneFromSlice w R usizeAlign c src xs s = .ok I s ∧ Array.tryCloneFromSlice w R (.usize w usizeAlign) c src xs = some I) := by
  have h : (LenTy.usize w usizeAlign).fromUsize (BitVec.ofNat w xs.length) = some (encLE (w / 8) (BitVec.ofNat w xs.length).toNat) := rfl
  have h8 : 8 * (LenTy.usize w usizeAlign).bytes = w := by simp only [LenTy.usize]; omega
  constructor
  · cases e : Array.tryCopy w R (.usize w usizeAlign) src xs with
    | none => simp [Array.tryCopy, h] at e
    | some I => exact ⟨I, by simp [Array.copy, e], rfl⟩
  · cases e : Array.tryCloneFromSlice w R (.usize w usizeAlign) c src xs with
    | none => simp [Array.tryCloneFromSlice, h] at e
    | some I => exact ⟨I, by simp [Array.cloneFromSlice, e], rfl⟩

namespace Demo

/-- A block holding the three `D4` values 1, 2, 3, and a free block. -/
def stSrc : St := ⟨[⟨4096, 12, 4, true, fun i => (d4 1 ++ d4 2 ++ d4 3).getD i none⟩, ⟨8192, 64, 8, true, fun _ => none⟩], [], 0⟩

theorem stSrc_has : SliceHas D4 stSrc ⟨1, 0⟩ [d4 1, d4 2, d4 3] := ⟨by decide, by decide, by decide +kernel, by decide +kernel, by decide +kernel⟩

example : ∃ I l s' sl, Array.tryCopy 64 D4 lenU16 ⟨1, 0⟩ [d4 1, d4 2, d4 3] = some I ∧ I.initTo ⟨2, 0⟩ l stSrc = .ok () s' ∧
    Array.deref 64 D4 lenU16 ⟨2, 0⟩ s' = .ok sl s' ∧ sl.len = 3 ∧ Slice.read D4 sl s' = .ok [d4 1, d4 2, d4 3] s' := by
  obtain ⟨s', sl, h⟩ := (C06_tryCopy D4_ok lenU16_ok (xs := [d4 1, d4 2, d4 3]) (src := ⟨1, 0⟩) (by decide) (by decide +kernel)).2 _ rfl stSrc ⟨2, 0⟩ (.array 4 3 16)
    stSrc_has rfl (by decide) (by decide) (by decide)
  exact ⟨_, _, s', sl, rfl, h.1, h.2.1, h.2.2.1, h.2.2.2.1⟩

-- a slice of 256 elements is rejected at length type `u8`
example : (Array.tryCopy 64 D4 lenU8 ⟨1, 0⟩ (List.replicate 256 (d4 0))).isNone = true := by decide +kernel

end Demo

/-! ## C07 -/

/-- `FillSequentially(f)` on `n` slots: if the `n` calls `f(0), …, f(n-1)`, made once each in this order, return `xs`, the slots hold `xs`, and the closure
is dropped. If a call panics, `initialize` panics, with the slots before it filled and the others untouched; the closure is dropped, the filled slots are not. -/
theorem C07_fillSequentially {R : RTy} (hR : R.Ok w) {τ : Type} {f : Closure τ} (hf : ∀ t i img t', f.call t i = (some img, t') → R.valid img = true)
    {t t' : τ} {xs : List Img} (h : Calls f t 0 xs t') {s : St} {p : Ptr} :
    (Writable R s p xs.length → Filled R ((FillSequentially R f t).run ⟨p, xs.length⟩ s) s p xs (f.drops t')) ∧
    (∀ t'', f.call t' xs.length = (none, t'') → ∀ n, xs.length < n → Writable R s p n →
      PanickedAfter R .user ((FillSequentially R f t).run ⟨p, n⟩ s) s p xs (f.drops t'')) := by
  constructor
  · intro hw
    obtain ⟨s', e, h1, h2, h3⟩ := fillLoop_calls hR hf h (s := s) (p := p) (k := 0) hw.acc hw.aligned
    refine ⟨s'.logged (f.drops t'), e, by simpa using h1, h2.trans (Touch.logged ..), by simp [h3]⟩
  · intro t'' hn n hlt hw
    obtain ⟨k, rfl⟩ : ∃ k, n = xs.length + (k + 1) := ⟨n - xs.length - 1, by omega⟩
    obtain ⟨s', e, h1, h2, h3⟩ := fillLoop_calls hR hf h (s := s) (p := p) (k := k + 1) hw.acc hw.aligned
    refine ⟨s'.logged (f.drops t''), e.trans ?_, by simpa using h1, h2.trans (Touch.logged ..), by simp [h3]⟩
    rw [fillLoop, Nat.zero_add, hn]
    rfl

/-- `FillWithDefault` on `n` slots fills each with the default value; if `default()` panics, it panics without writing (unless `n = 0`). -/
theorem C07_fillWithDefault {R : RTy} (hR : R.Ok w) {n : Nat} {s : St} {p : Ptr} (hw : Writable R s p n) :
    (∀ d, R.valid d = true → Filled R ((FillWithDefault R (some d)).run ⟨p, n⟩ s) s p (List.replicate n d) []) ∧
    (0 < n → PanickedAfter R .user ((FillWithDefault R none).run ⟨p, n⟩ s) s p [] []) := by
  constructor
  · intro d hd
    have hc : ∀ n i, Calls { call := fun (_ : Unit) (_ : Nat) => (some d, ()) } () i (List.replicate n d) () := by
      intro n
      induction n with
      | zero => intro i; exact .nil
      | succ n ih => intro i; exact .cons rfl (ih _)
    have := (C07_fillSequentially hR (s := s) (p := p) (fun t i img t' h => by simp at h; subst h; exact hd) (hc n 0)).1
    rw [List.length_replicate] at this
    exact this hw
  · intro hn
    exact (C07_fillSequentially hR (s := s) (p := p) (τ := Unit) (t := ()) (f := { call := fun _ _ => (none, ()) }) (fun t i img t' h => by simp at h) .nil).2 () rfl n hn hw

/-- `FromIterPrefix(iter)` on `n` slots: if the iterator yields (at least) `n` items, the slots hold the first `n` of them, in order, and the rest of the
iterator is dropped. If it ends early (or `next` panics), it panics, having dropped the iterator. -/
theorem C07_fromIterPrefix {R : RTy} (hR : R.Ok w) {τ : Type} {it : IterFn τ} (hf : ∀ t img t', it.next t = (.yield img, t') → R.valid img = true)
    {t t' : τ} {xs : List Img} (h : Yields it t xs t') {s : St} {p : Ptr} :
    (Writable R s p xs.length → Filled R ((FromIterPrefix R it t).run ⟨p, xs.length⟩ s) s p xs (it.drops t')) ∧
    (∀ n, xs.length < n → Writable R s p n → ∀ t'',
      (it.next t' = (.done, t'') → PanickedAfter R .iterEnded ((FromIterPrefix R it t).run ⟨p, n⟩ s) s p xs (it.drops t'')) ∧
      (it.next t' = (.panic, t'') → PanickedAfter R .user ((FromIterPrefix R it t).run ⟨p, n⟩ s) s p xs (it.drops t''))) := by
  constructor
  · intro hw
    obtain ⟨s', e, h1, h2, h3⟩ := iterLoop_yields hR hf h (s := s) (p := p) (k := 0) hw.acc hw.aligned
    exact ⟨s'.logged (it.drops t'), e, by simpa using h1, h2.trans (Touch.logged ..), by simp [h3]⟩
  · intro n hlt hw t''
    obtain ⟨k, rfl⟩ : ∃ k, n = xs.length + (k + 1) := ⟨n - xs.length - 1, by omega⟩
    obtain ⟨s', e, h1, h2, h3⟩ := iterLoop_yields hR hf h (s := s) (p := p) (k := k + 1) hw.acc hw.aligned
    constructor
    · intro hn
      refine ⟨s'.logged (it.drops t''), e.trans ?_, by simpa using h1, h2.trans (Touch.logged ..), by simp [h3]⟩
      rw [iterLoop, hn]; rfl
    · intro hn
      refine ⟨s'.logged (it.drops t''), e.trans ?_, by simpa using h1, h2.trans (Touch.logged ..), by simp [h3]⟩
      rw [iterLoop, hn]; rfl

/-- `CopyFrom(src)`: fills the slots with the source if the lengths agree; otherwise panics, having done nothing. -/
theorem C07_copyFrom {R : RTy} {src : Ptr} {xs : List Img} {s : St} (hs : SliceHas R s src xs) {p : Ptr} {n : Nat} (hw : Writable R s p n)
    (hb : p.blk ≠ src.blk) :
    (n = xs.length → Filled R ((CopyFrom R src xs).run ⟨p, n⟩ s) s p xs []) ∧
    (n ≠ xs.length → (CopyFrom R src xs).run ⟨p, n⟩ s = .panic .lengthMismatch s) := by
  constructor
  · rintro rfl
    obtain ⟨s', h1, h2, h3, h4, _⟩ := (CopyFrom_lawful hs.valid).run_ok s p xs.length xs hs (by simp [CopyFrom]) hw.acc hw.aligned hb
    exact ⟨s', h1, h3, h2, h4⟩
  · intro h
    simp [CopyFrom, h]

/-- `CloneFrom(src)`: if the lengths agree and all clones return, fills the slots with the clones, in order; if the clone of some element panics, panics with
the slots before it filled; if the lengths differ, panics having done nothing. -/
theorem C07_cloneFrom {R : RTy} (hR : R.Ok w) {c : CloneFn} (hc : c.Ok R) {src : Ptr} {xs : List Img} {s : St} (hs : SliceHas R s src xs) {p : Ptr}
    (hb : p.blk ≠ src.blk) :
    (∀ ys, xs.map c = ys.map some → Writable R s p xs.length → Filled R ((CloneFrom R c src xs).run ⟨p, xs.length⟩ s) s p ys []) ∧
    (∀ (i : Nat) x ys, xs[i]? = some x → c x = none → (xs.take i).map c = ys.map some → Writable R s p xs.length →
      PanickedAfter R .user ((CloneFrom R c src xs).run ⟨p, xs.length⟩ s) s p ys []) ∧
    (∀ n, n ≠ xs.length → (CloneFrom R c src xs).run ⟨p, n⟩ s = .panic .lengthMismatch s) := by
  refine ⟨?_, ?_, ?_⟩
  · intro ys hys hw
    have hlen : xs.length = ys.length := by simpa using congrArg List.length hys
    obtain ⟨s', e, h1, h2, h3, _⟩ := cloneLoop_steps hR hc xs ys (k := 0) (src := src) (p := p) (s := s) (zs := []) (by simpa using hs) hys hw.acc hw.aligned
      (fun h => hb h.symm)
    refine ⟨s', ?_, h1, h2, by simp [h3]⟩
    simp only [CloneFrom, ne_eq, not_true_eq_false, if_false]
    exact e
  · intro i x ys hi hx hys hw
    have hilt : i < xs.length := (List.getElem?_eq_some_iff.1 hi).1
    have hti : (xs.take i).length = i := by simp; omega
    have hsplit : xs = xs.take i ++ (x :: xs.drop (i + 1)) := by
      rw [← (List.getElem?_eq_some_iff.1 hi).2, List.getElem_cons_drop, List.take_append_drop]
    have hk : xs.length = (xs.take i).length + ((xs.length - i - 1) + 1) := by rw [hti]; omega
    obtain ⟨s', e, h1, h2, h3, h4⟩ := cloneLoop_steps hR hc (xs.take i) ys (k := (xs.length - i - 1) + 1) (src := src) (p := p) (s := s) (zs := x :: xs.drop (i + 1))
      (by rw [← hsplit]; exact hs) hys (by rw [← hk]; exact hw.acc) hw.aligned (fun h => hb h.symm)
    refine ⟨s', ?_, h1, h2, by simp [h3]⟩
    simp only [CloneFrom, ne_eq, not_true_eq_false, if_false]
    rw [hk]
    refine e.trans ?_
    rw [cloneLoop]
    simp only [bind_apply, (SliceHas.head hR h4).1, Res.bind_ok, runClone, hx, panicM_apply, Res.bind_panic]
  · intro n hn
    simp only [CloneFrom]
    rw [if_pos (fun h => hn h.symm)]
    rfl

/-- `MoveFrom([…])`: fills the slots with the array's values if the lengths agree; otherwise panics, having written nothing
and dropped the array's values. -/
theorem C07_moveFrom {R : RTy} (hR : R.Ok w) {xs : List Img} (hx : ∀ x ∈ xs, R.valid x = true) {s : St} {p : Ptr} {n : Nat} (hw : Writable R s p n) :
    (n = xs.length → Filled R ((MoveFrom R xs).run ⟨p, n⟩ s) s p xs []) ∧
    (n ≠ xs.length → PanickedAfter R .lengthMismatch ((MoveFrom R xs).run ⟨p, n⟩ s) s p [] (xs.flatMap R.drops)) := by
  constructor
  · rintro rfl
    obtain ⟨s', h1, h2, h3, h4, _⟩ := moveLoop_spec hR xs p s hx hw.acc hw.aligned
    exact ⟨s', by simpa [MoveFrom] using h1, h3, h2, by simpa using h4⟩
  · intro h
    refine ⟨s.logged (xs.flatMap R.drops), ?_, rfl, Touch.logged .., rfl⟩
    simp only [MoveFrom, ne_eq, h, not_false_eq_true, if_true]
    rfl

namespace Demo

/-- A stateful closure: returns `10 * state + index`, counting up; panics from the fifth call on. It holds a value with a destructor. -/
def counter : Closure Nat where
  call := fun t i => if i < 4 then (some (d4 (10 * t + i)), t + 1) else (none, t)
  drops := fun t => D4.drops (d4 t)

theorem counter_calls : Calls counter 7 0 [d4 70, d4 81, d4 92, d4 103] 11 :=
  .cons rfl (.cons rfl (.cons rfl (.cons rfl .nil)))

example : Filled D4 ((FillSequentially D4 counter 7).run ⟨p1, 4⟩ st1) st1 p1 [d4 70, d4 81, d4 92, d4 103] (D4.drops (d4 11)) ∧
    PanickedAfter D4 .user ((FillSequentially D4 counter 7).run ⟨p1, 6⟩ st1) st1 p1 [d4 70, d4 81, d4 92, d4 103] (D4.drops (d4 11)) := by
  have h := C07_fillSequentially D4_ok (f := counter) (s := st1) (p := p1) (fun t i img t' h => by
    simp only [counter] at h; split at h <;> simp at h; rw [← h.1]; exact d4_valid _) counter_calls
  exact ⟨h.1 ⟨by decide, by decide⟩, h.2 11 rfl 6 (by decide) ⟨by decide, by decide⟩⟩

/-- The owning iterator over a list (`Vec::into_iter`): dropping it drops the items not yet yielded. -/
def listIter : IterFn (List Nat) where
  next := fun t => match t with
    | [] => (.done, [])
    | x :: xs => (.yield (d4 x), xs)
  drops := fun t => t.flatMap fun x => D4.drops (d4 x)

theorem listIter_valid (t : List Nat) (img : Img) (t' : List Nat) (h : listIter.next t = (.yield img, t')) : D4.valid img = true := by
  cases t with
  | nil => simp [listIter] at h
  | cons => simp [listIter] at h; rw [← h.1]; exact d4_valid _

theorem listIter_yields (t : List Nat) : Yields listIter (1 :: 2 :: t) [d4 1, d4 2] t := .cons rfl (.cons rfl .nil)

-- it ends after two items
example : PanickedAfter D4 .iterEnded ((FromIterPrefix D4 listIter [1, 2]).run ⟨p1, 3⟩ st1) st1 p1 [d4 1, d4 2] [] :=
  ((C07_fromIterPrefix D4_ok listIter_valid (listIter_yields []) (s := st1) (p := p1)).2 3 (by decide) ⟨by decide, by decide⟩ []).1 rfl

-- the items beyond the slice are dropped
example : Filled D4 ((FromIterPrefix D4 listIter [1, 2, 3, 4]).run ⟨p1, 2⟩ st1) st1 p1 [d4 1, d4 2] [3, 4] :=
  (C07_fromIterPrefix D4_ok listIter_valid (listIter_yields [3, 4]) (s := st1) (p := p1)).1 ⟨by decide, by decide⟩

-- the clone of the second element panics
example : PanickedAfter D4 .user ((CloneFrom D4 (fun x => if x = d4 2 then none else some x) ⟨1, 0⟩ [d4 1, d4 2, d4 3]).run ⟨⟨2, 0⟩, 3⟩ stSrc) stSrc ⟨2, 0⟩ [d4 1] [] :=
  (C07_cloneFrom D4_ok (fun a b ha h => by split at h <;> simp at h; rw [← h]; exact ha) stSrc_has (p := ⟨2, 0⟩) (by decide)).2.1 1 (d4 2) [d4 1] rfl rfl rfl
    ⟨by decide, by decide⟩

end Demo

/-! ## C08 -/

/-- `array.mut_slice()[i] = x` on an array of `xs`: for `i` in range the array is then `xs` with element `i` replaced, with the same layout (so same length and size);
the bytes of no other element and no other memory changed, and exactly the old element was dropped. Out of range it panics and nothing happens. -/
theorem C08_mut_slice {R : RTy} {L : LenTy} (hR : R.Ok w) (hL : L.Ok w) {s : St} {p : Ptr} {xs : List Img} {l : Layout w}
    (h : Valid (Array w R L) s p (.arr xs) l) (i : Nat) {x : Img} (hx : R.valid x = true) :
    ∃ sl, Array.deref w R L p s = .ok sl s ∧ sl.len = xs.length ∧
    (∀ old, xs[i]? = some old → ∃ s', Slice.set R sl i x s = .ok () s' ∧
      Valid (Array w R L) s' p (.arr (xs.set i x)) l ∧ (Array w R L).calculateLayout p s' = .ok l s' ∧
      (∃ sl', Array.deref w R L p s' = .ok sl' s' ∧ sl'.read R s' = .ok (xs.set i x) s') ∧
      Touch s s' (sl.ptr.add (i * R.size)) R.size (fun _ => False) ∧ s'.log = s.log ++ R.drops old) ∧
    (xs[i]? = none → Slice.set R sl i x s = .panic .outOfBounds s) := by
  obtain ⟨sl, h1, h2, _⟩ := Array.deref_spec hR hL h
  refine ⟨sl, h1, h2, ?_, ?_⟩
  · intro old ho
    obtain ⟨sl', s', d, e, hv, ht, hlog, _⟩ := Array.set_spec hR hL h ho hx
    rw [h1] at d
    injection d with d
    subst d
    obtain ⟨sl2, d1, _, d3, _⟩ := Array.deref_spec hR hL hv
    exact ⟨s', e, hv, Array.calc_ok hR hL hv, ⟨sl2, d1, d3⟩, ht, hlog⟩
  · intro hn
    have : xs.length ≤ i := List.getElem?_eq_none_iff.1 hn
    simp [Slice.set, h2, Nat.not_lt.2 this]

/-- `array[i]` on an array of `xs` is element `i`; out of range it panics. Nothing changes. -/
theorem C08_index {R : RTy} {L : LenTy} (hR : R.Ok w) (hL : L.Ok w) {s : St} {p : Ptr} {xs : List Img} {l : Layout w}
    (h : Valid (Array w R L) s p (.arr xs) l) (i : Nat) :
    ∃ sl, Array.deref w R L p s = .ok sl s ∧ (∀ x, xs[i]? = some x → Slice.get R sl i s = .ok x s) ∧
    (xs[i]? = none → Slice.get R sl i s = .panic .outOfBounds s) := by
  obtain ⟨sl, h1, h2, _, _, _, _, h6, h7, h8, h9⟩ := Array.deref_spec hR hL h
  refine ⟨sl, h1, fun x hx => ?_, fun hn => ?_⟩
  · have hilt : i < xs.length := (List.getElem?_eq_some_iff.1 hx).1
    have hmul : (i + 1) * R.size ≤ sl.len * R.size := Nat.mul_le_mul_right _ (by omega)
    rw [Nat.add_mul, Nat.one_mul] at hmul
    have ha : Acc s (sl.ptr.add (i * R.size)) R.size := h6.sub (by omega)
    have hal : Aligned s (sl.ptr.add (i * R.size)) R.align := h7.add (Nat.mod_eq_zero_of_dvd (Nat.dvd_trans hR.dvd (Nat.dvd_mul_left ..)))
    have hold : takeV (viewAt s (sl.ptr.add (i * R.size))) 0 R.size = x := by
      rw [viewAt_add, takeV_shift]
      have := congrArg (·[i]?) h8
      simp only [elemsV_getElem?, hx] at this
      rw [if_pos (by omega)] at this
      simpa using this
    rw [Slice.get, if_pos (by omega), readVal_ok ha hal (by rw [hold]; exact h9 _ (List.mem_of_getElem? hx)), hold]
  · have : xs.length ≤ i := List.getElem?_eq_none_iff.1 hn
    simp [Slice.get, h2, Nat.not_lt.2 this]

namespace Demo

theorem arr_valid : ∃ s l, Valid ArrT s p1 (.arr [d4 1, d4 2, d4 3]) l := by
  obtain ⟨l, hl⟩ := arr_suitable
  rcases hl.run (arrInit_lib _).lib.2 with ⟨v, s', hv, _, _, _, h, _⟩ | ⟨m, s', h, _⟩
  · refine ⟨s', l, ?_⟩
    have : (arrInit [1, 2, 3]).val = some (.arr [d4 1, d4 2, d4 3]) := rfl
    rw [this] at hv
    cases hv
    exact h
  · exact absurd h (by decide +kernel)

example : ∃ s p xs l, Valid ArrT s p (.arr xs) l ∧ xs[1]? = some (d4 2) ∧ D4.valid (d4 9) = true :=
  let ⟨s, l, h⟩ := arr_valid
  ⟨s, p1, _, l, h, rfl, d4_valid 9⟩

end Demo

/-! ## C43 -/

/-- `from_usize(n)` is `None` iff `n` exceeds the maximum of the length type; otherwise it is a value of the type with numeric value `n`, and `as_usize` gives `n` back. -/
theorem C43_len_round_trip {L : LenTy} (hL : L.Ok w) (n : BitVec w) :
    (L.fromUsize n = none ↔ 2 ^ (8 * L.bytes) ≤ n.toNat) ∧
    ∀ x, L.fromUsize n = some x → L.ty.valid x = true ∧ decLE x = n.toNat ∧ L.asUsize w x = n :=
  LenTy.fromUsize_spec hL n

example : Demo.lenU8.Ok 64 ∧ Demo.lenU8.fromUsize (255#64) = some [some 255] ∧ Demo.lenU8.fromUsize (256#64) = none := ⟨Demo.lenU8_ok, by decide, by decide⟩
-- a length type wider than `usize`
example : (LenTy.mk 8 4 false).Ok 32 := ⟨⟨2, by decide, rfl⟩, ⟨2, rfl⟩, by decide, by decide⟩

/-! ## C45 -/

/-- `u64` as the compiler lays it out on 32-bit x86. -/
def lenU64 : LenTy := ⟨8, 4, false⟩

theorem lenU64_ok : lenU64.Ok 32 := ⟨⟨2, by decide, rfl⟩, ⟨2, rfl⟩, by decide, by decide⟩

/-- The property "an array's `len()` is the value of its length field" fails: on a 32-bit target the length `2^32 + 1` of type `u64` is truncated to 1, without any
error (`calculate_layout_cautious` reports a layout for one element). -/
theorem C45_wide_length_truncated : lenU64.Ok 32 ∧ ∃ x, lenU64.ty.valid x = true ∧ decLE x = 2 ^ 32 + 1 ∧ (lenU64.asUsize 32 x).toNat = 1 ∧
    SizedInit.cautious 32 Demo.D4 lenU64 x = some (.array 8 1 12) :=
  ⟨lenU64_ok, encLE 8 (2 ^ 32 + 1), by decide +kernel, by decide +kernel, by decide +kernel, (SizedInit.cautious_eq (R := Demo.D4) (L := lenU64) ⟨⟨2, by decide, rfl⟩, ⟨1, rfl⟩, by decide, Demo.D4_ok.valid_len⟩ lenU64_ok).2 ⟨8, 12, congrArg (fun x => Layout.array 8 x 12) (by decide +kernel), by decide +kernel, by decide +kernel⟩⟩

/-- It holds for length types no wider than `usize`. (Missing: `u64` on 16- and 32-bit targets, `u32` on 16-bit targets, where it fails.) -/
theorem C45_len_value_partial {L : LenTy} (hle : 8 * L.bytes ≤ w) (x : Img) (hx : L.ty.valid x = true) : (L.asUsize w x).toNat = decLE x := by
  simp only [LenTy.ty, Bool.and_eq_true, beq_iff_eq] at hx
  have h1 := decLE_lt (img := x)
  rw [hx.1] at h1
  have h2 : 2 ^ (8 * L.bytes) ≤ 2 ^ w := Nat.pow_le_pow_right (by decide) hle
  simp only [LenTy.asUsize, BitVec.toNat_ofNat]
  exact Nat.mod_eq_of_lt (by omega)

example : Demo.lenU16.ty.valid (encLE 2 77) = true ∧ 8 * Demo.lenU16.bytes ≤ 64 := by decide

/-- What holds for every array in memory: `len_short()` reads a number, and `len()` (the length of the slice the array dereferences to) is that number modulo `2^w`. So `len()` is the number
in the length field exactly if that number fits into a `usize`; in particular always, if the length type is no wider than `usize`. -/
theorem C45_array_len_partial {R : RTy} {L : LenTy} (hR : R.Ok w) (hL : L.Ok w) {s : St} {p : Ptr} {xs : List Img} {l : Layout w} (h : Valid (Array w R L) s p (.arr xs) l) :
    ∃ x sl, Array.lenShort L p s = .ok x s ∧ Array.deref w R L p s = .ok sl s ∧ sl.len = xs.length ∧ sl.len = decLE x % 2 ^ w ∧ (sl.len = decLE x ↔ decLE x < 2 ^ w) ∧
      (8 * L.bytes ≤ w → sl.len = decLE x) := by
  obtain ⟨sl, h1, h2, _⟩ := Array.deref_spec hR hL h
  obtain ⟨ha, hal, off, n, size, ys, hy, rfl, hv, hn, ho, hs, hx, hxv⟩ := h
  cases hy
  simp only [Layout.size] at ha
  have hge := roundUpN_ge L.bytes R.align hR.align_pos
  have hr : Array.lenShort L p s = .ok (takeV (viewAt s p) 0 L.bytes) s := by
    have ha0 : Acc s (p.add 0) L.bytes := ha.sub (by omega)
    exact readVal_ok (R := L.ty) ha0 (hal.of_dvd (Array.align_spec hR hL).2.1) hv
  have hlen : sl.len = decLE (takeV (viewAt s p) 0 L.bytes) % 2 ^ w := by
    rw [h2, ← hx, elemsV_length, hn]
    simp [LenTy.asUsize]
  have hlt : decLE (takeV (viewAt s p) 0 L.bytes) % 2 ^ w < 2 ^ w := Nat.mod_lt _ (Nat.two_pow_pos w)
  refine ⟨_, sl, hr, h1, h2, hlen, ?_, ?_⟩
  · rw [hlen]
    constructor
    · intro e; omega
    · intro e; exact Nat.mod_eq_of_lt e
  · intro hle
    have := C45_len_value_partial hle _ hv
    rw [← this, hlen]
    simp [LenTy.asUsize]

example : ∃ s p xs l, Valid Demo.ArrT s p (.arr xs) l ∧ xs.length = 3 :=
  let ⟨s, l, h⟩ := Demo.arr_valid
  ⟨s, Demo.p1, _, l, h, rfl⟩

end Varlen
