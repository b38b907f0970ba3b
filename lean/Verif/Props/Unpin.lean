import Verif.Model.Unpin
import Verif.Props.Demo
/-!
# C65: what safe code can do with an unpinned `&mut T`

The documentation says that `Pin` keeps safe code from swapping objects with a variable-size tail (varlen/src/lib.rs:213-229). True as long as the program has no `impl Unpin`.
-/
namespace Varlen
variable {w : Nat}

theorem no_tail_rep {fs : List (Fld w)} (hf : ∀ f ∈ fs, f.declTy ≠ .marker) {lens : List Img} :
    ∀ {vs : List V} {ls : List (BitVec w × Layout w)} {cur fin : Nat} {o : View}, RepTails lens fs vs ls cur fin o → cur = fin := by
  induction fs with
  | nil =>
    intro vs ls cur fin o h
    cases vs <;> cases ls <;> simp only [RepTails] at h
    exact h
  | cons f fs ih =>
    intro vs ls cur fin o h
    have ih := @ih fun g hg => hf g (List.mem_cons_of_mem _ hg)
    cases f with
    | normal R off => cases vs with
      | nil => simp [RepTails] at h
      | cons v vs => exact ih (by simpa only [RepTails] using h)
    | length R off => cases vs with
      | nil => simp [RepTails] at h
      | cons v vs => exact ih (by simpa only [RepTails] using h)
    | varlen T => exact absurd rfl (hf _ (List.mem_cons_self ..))
    | array R len => exact absurd rfl (hf _ (List.mem_cons_self ..))

theorem Head.no_tail {T : VarLen w} {hs : List HeadField} (h : Head T hs) (hok : ∀ R, .plain R ∈ hs → R.Ok w) (hm : HeadField.marker ∉ hs) : ∀ v l o, T.Rep v l o → l.size.toNat = T.headSize := by
  induction h with
  | fixedLen R =>
    rintro v l o ⟨img, rfl, rfl, h1, h2⟩
    have := (hok R (by simp)).size_lt
    simp only [Layout.size, RTy.sizeOf, BitVec.toNat_ofNat, FixedLen]
    exact Nat.mod_eq_of_lt this
  | array R L => simp at hm
  | newtype T inv hs _ ih => exact fun v l o h => ih hok hm v l o h.1
  | tuple Ts =>
    rintro v l o ⟨vs, ls, size, rfl, rfl, _, h2⟩
    refine (no_tail_rep (fun f hf => ?_) h2).symm
    obtain ⟨T, hT, rfl⟩ := List.mem_map.1 hf
    exact absurd (List.mem_map.2 ⟨T, hT, rfl⟩) hm
  | struct headSize headAlign fs =>
    rintro v l o ⟨vs, ls, size, rfl, rfl, _, h2⟩
    refine (no_tail_rep (fun f hf he => ?_) h2).symm
    exact hm (List.mem_map.2 ⟨f, hf, he⟩)

/-- An `Unpin` type has no tail: every object of it is its fixed-size head. -/
theorem C65_unpin_no_tail_partial {up : RTy → Prop} (hup : ∀ R, up R → R.Ok w) {T : VarLen w} (h : IsUnpin up (fun _ => False) T) {s : St} {p : Ptr} {v : V} {l : Layout w} (hv : Valid T s p v l) :
    l.size.toNat = T.headSize := by
  obtain h | ⟨hs, hh, hu⟩ := h
  · exact absurd h id
  · exact hh.no_tail (fun R hR => hup R (hu _ hR)) (fun hm => hu _ hm) v l _ hv.rep

/-- Safe code can get two plain `&mut T` from pinned ones only if `T: Unpin`. Then, in a program without `impl Unpin`, `mem::swap` on two objects in different places is well defined, exchanges their values, leaves both objects
valid with each other's layouts, runs no destructor and changes no other memory.
(Missing: types for which the user has written `impl Unpin`, where the claim is false: `C65_impl_unpin_unsound`; types for which the user has written `unsafe impl VarLen`: the documented contract of that trait does not
mention `Unpin`.) -/
theorem C65_swap_partial {up : RTy → Prop} (hup : ∀ R, up R → R.Ok w) {T : VarLen w} (hT : LibType T) (h : IsUnpin up (fun _ => False) T) {s : St} {p q : Ptr} {v v' : V} {l l' : Layout w}
    (hp : Valid T s p v l) (hq : Valid T s q v' l') (hd : p.blk ≠ q.blk ∨ p.off + T.headSize ≤ q.off ∨ q.off + T.headSize ≤ p.off) :
    ∃ s', memSwap T p q s = .ok () s' ∧ Valid T s' p v' l' ∧ Valid T s' q v l ∧ s'.log = s.log ∧ s'.copied = s.copied ∧
      ∀ (r : Ptr) (n : Nat), (p.blk ≠ r.blk ∨ p.off + T.headSize ≤ r.off ∨ r.off + n ≤ p.off) → (q.blk ≠ r.blk ∨ q.off + T.headSize ≤ r.off ∨ r.off + n ≤ q.off) →
        ∀ i < n, viewAt s' r i = viewAt s r i := by
  have hl := C65_unpin_no_tail_partial hup h hp
  have hl' := C65_unpin_no_tail_partial hup h hq
  have hap : Acc s p T.headSize := hl ▸ hp.acc
  have haq : Acc s q T.headSize := hl' ▸ hq.acc
  have lenA : (takeV (viewAt s p) 0 T.headSize).length = T.headSize := by simp [takeV]
  have lenB : (takeV (viewAt s q) 0 T.headSize).length = T.headSize := by simp [takeV]
  have t1 : Touch s (s.write p (takeV (viewAt s q) 0 T.headSize)) p T.headSize (fun _ => False) := by
    have := Touch.write (s := s) (p := p) (img := takeV (viewAt s q) 0 T.headSize) (own := fun _ => False)
    rwa [lenB] at this
  generalize hs1 : s.write p (takeV (viewAt s q) 0 T.headSize) = s1 at t1
  have haq1 : Acc s1 q T.headSize := t1.acc (fun h => h) haq
  have t2 : Touch s1 (s1.write q (takeV (viewAt s p) 0 T.headSize)) q T.headSize (fun _ => False) := by
    have := Touch.write (s := s1) (p := q) (img := takeV (viewAt s p) 0 T.headSize) (own := fun _ => False)
    rwa [lenA] at this
  have get : ∀ (o : View) (i : Nat), i < T.headSize → (takeV o 0 T.headSize).getD i none = o i := by
    intro o i hi
    simp [takeV, List.getD, hi]
  have v1 : ∀ i < T.headSize, viewAt s1 p i = viewAt s q i := by
    intro i hi
    rw [← hs1, viewAt_write (by rw [lenB]; exact hap)]
    simp only [overwrite, lenB, Nat.zero_add, Nat.zero_le, true_and, hi, if_true, Nat.sub_zero]
    exact get _ i hi
  have v2 : ∀ i < T.headSize, viewAt (s1.write q (takeV (viewAt s p) 0 T.headSize)) q i = viewAt s p i := by
    intro i hi
    rw [viewAt_write (by rw [lenA]; exact haq1)]
    simp only [overwrite, lenA, Nat.zero_add, Nat.zero_le, true_and, hi, if_true, Nat.sub_zero]
    exact get _ i hi
  have hnov : ¬ (T.headSize ≠ 0 ∧ p.blk = q.blk ∧ p.off < q.off + T.headSize ∧ q.off < p.off + T.headSize) := by
    rintro ⟨_, h1, h2, h3⟩
    rcases hd with h | h | h
    · exact h h1
    · omega
    · omega
  refine ⟨s1.write q (takeV (viewAt s p) 0 T.headSize), ?_, ?_, ?_, by rw [← hs1]; simp, by rw [← hs1]; simp, ?_⟩
  · simp only [memSwap, bind_apply, mkRef_ok hap (hp.aligned.of_dvd hT.lawful.head_align), mkRef_ok haq (hq.aligned.of_dvd hT.lawful.head_align), Res.bind_ok, readBytes_ok hap, readBytes_ok haq, if_neg hnov,
      writeBytes_ok (show Acc s p (takeV (viewAt s q) 0 T.headSize).length by rw [lenB]; exact hap), hs1]
    exact writeBytes_ok (by rw [lenA]; exact haq1)
  · refine ⟨?_, t2.aligned (fun h => h) (t1.aligned (fun h => h) hp.aligned), hT.lawful.rep_ext _ _ _ _ hq.rep fun i hi => ?_⟩
    · rw [hl']
      exact t2.acc (fun h => h) (t1.acc (fun h => h) hap)
    · rw [hl'] at hi
      rw [t2.view (fun h => h) i (by rcases hd with h | h | h <;> omega), v1 i hi]
  · refine ⟨?_, t2.aligned (fun h => h) (t1.aligned (fun h => h) hq.aligned), hT.lawful.rep_ext _ _ _ _ hp.rep fun i hi => ?_⟩
    · rw [hl]
      exact t2.acc (fun h => h) haq1
    · rw [hl] at hi
      rw [v2 i hi]
  · intro r n h1 h2 i hi
    rw [t2.view (fun h => h) i (by rcases h2 with h | h | h <;> first | exact .inl fun e => h e.symm | omega), t1.view (fun h => h) i (by rcases h1 with h | h | h <;> first | exact .inl fun e => h e.symm | omega)]

namespace Demo
/-- `struct { a: D4, #[controls_layout] n: u8 }` -/
abbrev hFs : List (Fld 64) := [.normal D4 0, .length u8Ty 4]

/-- The hypotheses are met: `FixedLen<D4>`, and a `define_varlen` struct without a tail, are `Unpin`. -/
example : IsUnpin (fun R => R.Ok 64) (fun _ => False) (FixedLen 64 D4) ∧ IsUnpin (fun R => R.Ok 64) (fun _ => False) (Struct 64 8 4 hFs) := by
  refine ⟨.inr ⟨_, .fixedLen D4, by simpa [HeadField.unpin] using D4_ok⟩, .inr ⟨_, .struct 8 4 hFs, ?_⟩⟩
  simp only [List.map_cons, List.map_nil, Fld.declTy, List.mem_cons, List.mem_nil_iff, or_false, forall_eq_or_imp, forall_eq, HeadField.unpin]
  exact ⟨D4_ok, u8Ty_ok (by decide)⟩

/-- Two boxes with the demo struct, with tails of different lengths. -/
def swP : Ptr := result ⟨0, 0⟩ (VBox.new alloc S (sInit 7 3 [1, 2] [10, 11, 12] [5])) st0
def swS1 : St := after (VBox.new alloc S (sInit 7 3 [1, 2] [10, 11, 12] [5])) st0
def swQ : Ptr := result ⟨0, 0⟩ (VBox.new alloc S (sInit 9 200 [] (List.range 200) [])) swS1
def swS2 : St := after (VBox.new alloc S (sInit 9 200 [] (List.range 200) [])) swS1
/-- After swapping their heads. -/
def swS3 : St := after (memSwap S swP swQ) swS2
end Demo
open Demo

/-- The documented claim, that a user who writes no `unsafe` need not worry about swaps, is false: `impl Unpin for S {}` is safe to write for a `define_varlen` struct, and then `mem::swap` on two objects of it exchanges the length
controllers but not the tails; accessing the fields is undefined behaviour, and so is dropping the box. -/
theorem C65_impl_unpin_unsound : ∃ (s1 s2 s3 : St) (p q : Ptr), LibType S ∧ IsUnpin (fun R => R.Ok 64) (fun T => T = S) S ∧
    VBox.new alloc S (sInit 7 3 [1, 2] [10, 11, 12] [5]) st0 = .ok p s1 ∧ VBox.new alloc S (sInit 9 200 [] (List.range 200) []) s1 = .ok q s2 ∧
    memSwap S p q s2 = .ok () s3 ∧ aggRefs 8 sFs p s3 = .ub .outOfBounds ∧ VBox.drop S p s3 = .ub .outOfBounds := by
  have ub : ∀ {α : Type} {r : Res St α} {k : UB}, ubOf r = some k → r = .ub k := by
    intro α r k h
    cases r with
    | ok => cases h
    | panic => cases h
    | ub k' => cases h; rfl
  exact ⟨swS1, swS2, swS3, swP, swQ, S_lib, .inl rfl, run_eq _ _ _ (by decide +kernel), run_eq _ _ _ (by decide +kernel), run_unit _ _ (by decide +kernel), ub (by decide +kernel), ub (by decide +kernel)⟩

/-- So a type with an object that has a tail is not `Unpin`, in a program without `impl Unpin`. -/
theorem C65_tail_is_pinned_partial {up : RTy → Prop} (hup : ∀ R, up R → R.Ok w) {T : VarLen w} {s : St} {p : Ptr} {v : V} {l : Layout w} (hv : Valid T s p v l) (ht : T.headSize < l.size.toNat) :
    ¬ IsUnpin up (fun _ => False) T := by
  intro h
  have := C65_unpin_no_tail_partial hup h hv
  omega

/-- For instance the demo struct. -/
example : ¬ IsUnpin (fun R => R.Ok 64) (fun _ => False) S := C65_tail_is_pinned_partial (fun _ h => h) sSt_valid (by decide)

end Varlen
