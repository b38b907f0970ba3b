import Verif.Proofs.UserTop
import Verif.Props.Demo
/-!
# C78: user code that runs during a construction may do anything to its own memory

The closures, iterators and `Clone`/`Default` impls that `initialize` calls are arbitrary programs here: they may read and write memory, allocate, free, log, panic, and use this library on other objects. They leave
alone what they have no access to (`prot`): the storage under construction, and what the initializers have borrowed or own. See Spec/UserCode.lean.
-/
namespace Varlen.Eff
variable {w : Nat}

/-! ## The constructors -/

/-- **C78**: `VBox::new` with an initializer that contains user code with effects. It makes an object with a value that the contract of the initializer allows, or is refused and drops the initializer, or propagates the
panic of the user code; in each case the user's world is in order, other protected memory is as before, and the effects in the log are those that the contract allows. (It is undefined only where C42 says.) -/
theorem C78_box (A : Allocator) {U : World} {T : VarLen w} (hT : LibType T) {I : Init w} {Out : V → List Event → Prop} {Lost Owes : List Event → Prop} (h : InitOk U T I Out Lost Owes)
    {s : St} {prot : Nat → Prop} (hU : U.ok s prot) (hfp : ∀ b, I.fp b → prot b) (hpre : I.pre s) :
    (∃ l, I.lay = some l ∧ fromSizeAlign w l.size.toNat T.ALIGN.toNat = true ∧
      ((l.size.toNat = 0 ∧ VBox.new A T I s = .ub .allocZero) ∨ (l.size.toNat ≠ 0 ∧ pick w A s l.size.toNat T.ALIGN.toNat = none ∧ VBox.new A T I s = .ub .nullPtr))) ∨
    MadeWith U prot T I Out Lost Owes s (VBox.new A T I s) :=
  VBox.new_made A hT.lawful h hU hfp hpre

/-- **C78**: `Owned::new_in` likewise; it is never undefined. -/
theorem C78_arena (A : Allocator) {U : World} {T : VarLen w} {I : Init w} {Out : V → List Event → Prop} {Lost Owes : List Event → Prop} (h : InitOk U T I Out Lost Owes)
    {s : St} {prot : Nat → Prop} (hU : U.ok s prot) (hfp : ∀ b, I.fp b → prot b) (hpre : I.pre s) : MadeWith U prot T I Out Lost Owes s (Owned.newIn A T I s) :=
  Owned.newIn_made A h hU hfp hpre

/-- **C78**: `Seq::push` likewise: the sequence has the new element, or, after a panic of the user code, the elements it had. -/
theorem C78_push (A : Allocator) {U : World} {T : VarLen w} (hT : LibType T) (hw : 8 ≤ w) {chk : Bool} {I : Init w} {Out : V → List Event → Prop} {Lost Owes : List Event → Prop}
    (hI : InitOk U T I Out Lost Owes) {s : St} {q : SeqS w} {h : List (BitVec w × V)} {m : Nat} {t : Bool}
    (hh : Hist T chk s q h m t) {prot : Nat → Prop} (hU : U.ok s prot) (hq : q.cap ≠ 0 → prot q.ptr.blk) (hfp : ∀ b, I.fp b → prot b) (hpre : I.pre s) (hap : ¬ I.fp q.ptr.blk)
    (hsz : ∀ l, I.lay = some l → 0 < l.size.toNat) : PushedTo U prot T chk I Out Lost Owes s q h t (Seq.push A chk T I (s, q)) :=
  Seq.push_pushed A hT hw hI hh hU hq hfp hpre hap hsz

/-! ## The initializers: contracts of the user code give contracts of the initializers -/

/-- **C78**: `FillSequentially(f)`: the elements are what the calls `f(0), f(1), …` returned, in order, and the effects are those of the calls and of the drop of `f`, once; after a panic, `f` is dropped too. -/
theorem C78_fill_sequentially {U : World} {R : RTy} (hR : R.Ok w) {τ : Type} {f : Closure τ} {P : τ → List Img → List Event → Prop} {L : τ → List Event → Prop}
    {Out : List Img → List Event → Prop} {Lost : List Event → Prop} (hf : ClosureOk U R f P L Out Lost) {t : τ} (ht : P t [] []) :
    ArrOk U R (FillSequentially R f t) (fun n xs es => xs.length = n ∧ Out xs es) (fun _ es => Lost es) (Out []) :=
  FillSequentially_ok hR hf ht

/-- **C78**: `FillWithDefault`. -/
theorem C78_fill_with_default {U : World} {R : RTy} (hR : R.Ok w) {dflt : M (Option Img)} {D : Img → List Event → Prop} {L : List Event → Prop} (h : DefaultOk U R dflt D L) :
    ArrOk U R (FillWithDefault R dflt) (fun n xs es => xs.length = n ∧ Answers D xs es) (fun _ es => ∃ xs es1 es2, es = es1 ++ es2 ∧ Answers D xs es1 ∧ L es2) (Answers D []) :=
  FillWithDefault_ok hR h

/-- **C78**: `FromIterPrefix(it)`: the elements are the first items. -/
theorem C78_from_iter_prefix {U : World} {R : RTy} (hR : R.Ok w) {τ : Type} {it : IterFn τ} {P : τ → List Img → List Event → Prop} {L : τ → List Event → Prop}
    {Out : List Img → List Event → Prop} {Lost : List Event → Prop} (hf : IterOk U R it P L Out Lost) {t : τ} (ht : P t [] []) :
    ArrOk U R (FromIterPrefix R it t) (fun n xs es => xs.length = n ∧ Out xs es) (fun _ es => Lost es) (Out []) :=
  FromIterPrefix_ok hR hf ht

/-- **C78**: `CloneFrom(&xs)`: the elements are clones of the source's, made in order. -/
theorem C78_clone_from {U : World} {R : RTy} (hR : R.Ok w) {c : CloneFn} {C : Img → Img → List Event → Prop} {L : Img → List Event → Prop} (hc : CloneOk U R c C L) {src : Ptr} {xs : List Img} :
    ArrOk U R (CloneFrom R c src xs) (fun n ys es => ys.length = n ∧ Clones C xs ys es) (fun n es => (n ≠ xs.length ∧ es = []) ∨ (n = xs.length ∧ ClonesLost C L xs es)) (fun es => es = []) :=
  CloneFrom_ok hR hc

/-- **C78**: the cloner of a fixed-length value. -/
theorem C78_clone_fixed {U : World} {R : RTy} (hR : R.Ok w) {c : CloneFn} {C : Img → Img → List Event → Prop} {L : Img → List Event → Prop} (hc : CloneOk U R c C L) {src : Ptr} {img : Img} :
    InitOk U (Varlen.FixedLen w R) (FixedLen.cloner w R c src img) (fun v es => ∃ b, v = .leaf b ∧ C img b es) (L img) (fun es => es = []) :=
  cloner_ok hR hc

/-- **C78**: the initializers without effects satisfy the contract in every world, … -/
theorem C78_pure (U : World) {T : VarLen w} {I : Init w} (h : InitLawful T I) :
    InitOk U T I (fun v es => I.val = some v ∧ es = I.left) (fun es => I.val = none ∧ es = I.lost) (fun es => es = I.owes) :=
  pure_initOk U h

/-- … and so do those for arrays. -/
theorem C78_pure_array (U : World) {R : RTy} {I : ArrInit} (h : ArrInitLawful R I) :
    ArrOk U R I (fun n xs es => I.vals n = some xs ∧ es = I.left n) (fun n es => I.vals n = none ∧ es = I.lost n) (fun es => es = I.owes) :=
  pure_arrOk U h

/-- **C78**: `SizedInit(len, I)`: an array of `len` elements that `I` writes. -/
theorem C78_sized_init {U : World} {R : RTy} {L : LenTy} {len : Img} {I : ArrInit} (hR : R.Ok w) (hL : L.Ok w) (hlen : L.ty.valid len = true)
    {Out : Nat → List Img → List Event → Prop} {Lost : Nat → List Event → Prop} {Owes : List Event → Prop} (h : ArrOk U R I Out Lost Owes) :
    InitOk U (Array w R L) (SizedInit w R L len I) (fun v es => ∃ xs, v = .arr xs ∧ Out (L.asUsize w len).toNat xs es) (Lost (L.asUsize w len).toNat) Owes :=
  sized_ok hR hL hlen h

/-- **C78**: a newtype's initializer has the contract of the inner one. -/
theorem C78_newtype {U : World} {T : VarLen w} {I : Init w} {Out : V → List Event → Prop} {Lost Owes : List Event → Prop} (h : InitOk U T I Out Lost Owes) :
    InitOk U (Newtype T) (Newtype.init I) Out Lost Owes :=
  newtype_ok h

/-- **C78**: a struct of the macro: the fields are initialised in order, each as its contract says, until one panics; then the others are dropped. The value, and the effects, are those of the pure struct initializer
whose fields give these answers. -/
theorem C78_struct {U : World} {hs ha : Nat} {fis : List (FI w)} (hh : HeaderOk hs ha (fis.map FI.fld)) (hf : ∀ f ∈ fis, FieldOk U f) :
    InitOk U (Struct w hs ha (fis.map FI.fld)) (Struct.init hs ha fis)
      (fun v es => ∃ gis, RecFs U (initLengths fis) true fis gis ∧ (Struct.init hs ha gis).val = some v ∧ (Struct.init hs ha gis).left = es)
      (fun es => ∃ gis, RecFs U (initLengths fis) true fis gis ∧ (Struct.init hs ha gis).val = none ∧ (Struct.init hs ha gis).lost = es)
      (fun es => ∃ gis, RecFs U (initLengths fis) false fis gis ∧ (Struct.init hs ha gis).owes = es) :=
  struct_ok hh hf

/-- **C78**: a tuple likewise. -/
theorem C78_tuple {U : World} {fis : List (VarLen w × Init w)} (hne : fis ≠ []) (hf : ∀ f ∈ fis, FieldOk U (.varlen f.1 f.2)) :
    InitOk U (Tuple w (fis.map (·.1))) (Tuple.init fis)
      (fun v es => ∃ gis : List (VarLen w × Init w), RecFs U [] true (fis.map fun f => .varlen f.1 f.2) (gis.map fun f => .varlen f.1 f.2) ∧ (Tuple.init gis).val = some v ∧ (Tuple.init gis).left = es)
      (fun es => ∃ gis : List (VarLen w × Init w), RecFs U [] true (fis.map fun f => .varlen f.1 f.2) (gis.map fun f => .varlen f.1 f.2) ∧ (Tuple.init gis).val = none ∧ (Tuple.init gis).lost = es)
      (fun es => ∃ gis : List (VarLen w × Init w), RecFs U [] false (fis.map fun f => .varlen f.1 f.2) (gis.map fun f => .varlen f.1 f.2) ∧ (Tuple.init gis).owes = es) :=
  tuple_ok hne hf

/-- **C78**: for example, `Owned::new_in(SizedInit(len, FillSequentially(f)), bump)`: the outcomes in full. -/
theorem C78_filled_array (A : Allocator) {U : World} {R : RTy} (hR : R.Ok w) {L : LenTy} (hL : L.Ok w) {len : Img} (hlen : L.ty.valid len = true) {τ : Type} {f : Closure τ}
    {P : τ → List Img → List Event → Prop} {L' : τ → List Event → Prop} {Out : List Img → List Event → Prop} {Lost : List Event → Prop} (hf : ClosureOk U R f P L' Out Lost) {t : τ} (ht : P t [] [])
    {s : St} {prot : Nat → Prop} (hU : U.ok s prot) :
    (∃ p s' xs es l, Owned.newIn A (Array w R L) (SizedInit w R L len (FillSequentially R f t)) s = .ok p s' ∧ BoxHas (Array w R L) s' p (.arr xs) l ∧ xs.length = (L.asUsize w len).toNat ∧ Out xs es ∧
      U.ok s' (fun b => prot b ∨ b = p.blk) ∧ (∀ b, prot b → s.blk b ≠ none → s'.blk b = s.blk b) ∧ s'.log = s.log ++ es) ∨
    (∃ m s' es prot', Owned.newIn A (Array w R L) (SizedInit w R L len (FillSequentially R f t)) s = .panic m s' ∧ (Out [] es ∨ Lost es) ∧
      U.ok s' prot' ∧ (∀ b, prot b → prot' b ∧ (s.blk b ≠ none → s'.blk b = s.blk b)) ∧ s'.log = s.log ++ es) := by
  have h := sized_ok hR hL hlen (FillSequentially_ok hR hf ht)
  have := Owned.newIn_made A h hU (fun b hb => hb.elim) trivial
  revert this
  generalize Owned.newIn A (Array w R L) (SizedInit w R L len (FillSequentially R f t)) s = r
  intro this
  cases this with
  | made h1 h2 h3 h4 h5 =>
    obtain ⟨xs, rfl, e1, e2⟩ := h4
    exact .inl ⟨_, _, xs, _, _, rfl, h2, e1, e2, h5.ok, fun b hb hn => h5.keep b hb (fun h => h) hn, h5.log⟩
  | refused h1 h2 => exact .inr ⟨_, _, _, prot, rfl, .inl h1, h2.ok, fun b hb => ⟨hb, h2.keep b hb (fun h => h)⟩, h2.log⟩
  | panicked h1 h2 h3 => exact .inr ⟨_, _, _, _, rfl, .inr h2, h3.ok, fun b hb => ⟨.inl hb, h3.keep b hb (fun h => h)⟩, h3.log⟩

/-! ## Worlds -/

/-- A program whose own memory is the blocks in `own`, about which it maintains `inv`; everything else that is not protected it may use as it likes. -/
def World.owning (own : Nat → Prop) (inv : St → Prop) (hs : ∀ s s', inv s → Same s s' own → inv s') (he : ∀ s b, inv s → own b → s.blk b ≠ none) : World where
  ok := fun s prot => (∀ b, prot b → s.blk b ≠ none ∧ ¬ own b) ∧ inv s
  stable := fun s s' prot h hl hb => by
    refine ⟨fun b hp => ⟨fun hc => (h.1 b hp).1 ?_, (h.1 b hp).2⟩, hs s s' h.2 fun b ho => hb b fun hp => (h.1 b hp).2 ho⟩
    rw [St.blk_eq_none] at hc ⊢
    rw [hl] at hc; exact hc
  grow := fun s prot B h => by
    have hn : ¬ own s.next := fun ho => he s _ h.2 ho s.blk_next
    refine ⟨fun b hp => ?_, hs s _ h.2 fun b ho => ?_⟩
    · rw [St.blk_push]
      rcases hp with hp | rfl
      · have := h.1 b hp
        refine ⟨?_, this.2⟩
        split
        · simp
        · exact this.1
      · exact ⟨by simp, hn⟩
    · rw [St.blk_push, if_neg]; rintro rfl; exact hn ho

/-- The closure that for each element makes, and drops, another object in an arena, with an initializer that may contain user code of its own. -/
def nested (A : Allocator) (T : VarLen w) (I : Init w) (img : Img) : Closure Unit where
  call := fun _ _ s =>
    match Owned.newIn A T I s with
    | .ok p s1 => (Owned.drop T p s1).bind fun _ s2 => .ok (some img, ()) s2
    | .panic _ s1 => .ok (none, ()) s1
    | .ub k => .ub k
  drop := fun _ => pure ()

/-- **C78**: user code may use this library, to any depth: such a closure satisfies the contract of a closure (so that it may be given to `FillSequentially`, and so on). -/
theorem C78_nested (A : Allocator) {own : Nat → Prop} {inv : St → Prop} {hs : ∀ s s', inv s → Same s s' own → inv s'} {he : ∀ s b, inv s → own b → s.blk b ≠ none}
    {T : VarLen w} (hT : LibType T) {I : Init w} {Out : V → List Event → Prop} {Lost Owes : List Event → Prop} (h : InitOk (.owning own inv hs he) T I Out Lost Owes)
    (hfp : ∀ b, ¬ I.fp b) (hpre : ∀ s, I.pre s) {R : RTy} {img : Img} (himg : R.valid img = true) :
    ClosureOk (.owning own inv hs he) R (nested A T I img)
      (fun _ xs es => xs = List.replicate xs.length img ∧ Answers (fun _ es => ∃ v es1, Out v es1 ∧ es = es1 ++ T.drops v) xs es) (fun _ _ => True)
      (fun xs es => xs = List.replicate xs.length img ∧ Answers (fun _ es => ∃ v es1, Out v es1 ∧ es = es1 ++ T.drops v) xs es) (fun _ => True) where
  call := fun s prot t xs es hU hP => by
    have hown : ∀ b, ¬ I.owns b := fun b hb => hfp b (h.mods_fp b (h.owns_mods b hb))
    have hmods : ∀ b, ¬ I.mods b := fun b hb => hfp b (h.mods_fp b hb)
    have := Owned.newIn_made A h hU (fun b hb => (hfp b hb).elim) (hpre s)
    simp only [nested]
    revert this
    generalize Owned.newIn A T I s = r
    intro this
    cases this with
    | made h1 h2 h3 h4 h5 =>
      rename_i p s1 v l es1
      obtain ⟨s2, e1, e2, e3, _⟩ := Owned.drop_spec hT.lawful h2.valid
      have hkeep : ∀ b, b ≠ p.blk → s2.blk b = s1.blk b := fun b hb => e2.blk_eq (fun h => h) hb
      refine ⟨some img, (), s2, es1 ++ T.drops v, (show (Owned.drop T p s1).bind _ = _ by rw [e1]; rfl), ⟨?_, fun b hb => ?_, by rw [e3, h5.log, List.append_assoc]⟩, himg, ?_, ?_⟩
      · refine ⟨fun b hb => ⟨fun hc => (h5.ok.1 b (.inl hb)).1 (e2.none.1 hc), (h5.ok.1 b (.inl hb)).2⟩, hs _ _ h5.ok.2 fun b ho => hkeep b ?_⟩
        rintro rfl
        exact (h5.ok.1 p.blk (.inr rfl)).2 ho
      · have hne : b ≠ p.blk := by rintro rfl; exact (hU.1 _ hb).1 h1
        rw [hkeep b hne]
        exact h5.keep b hb (hown b) (hU.1 b hb).1
      · rw [List.length_append, List.length_singleton, List.replicate_succ']; rw [← hP.1]
      · exact .snoc hP.2 ⟨v, es1, h4, rfl⟩
    | refused h1 h2 =>
      exact ⟨none, (), _, _, rfl, ⟨h2.ok, fun b hb => h2.keep b hb (hmods b) (hU.1 b hb).1, h2.log⟩, trivial⟩
    | panicked h1 h2 h3 =>
      exact ⟨none, (), _, _, rfl, ⟨⟨fun b hb => h3.ok.1 b (.inl hb), h3.ok.2⟩, fun b hb => h3.keep b hb (hmods b) (hU.1 b hb).1, h3.log⟩, trivial⟩
  drop := fun s prot t xs es hU hP => ⟨s, [], rfl, ⟨hU, fun _ _ => rfl, by simp⟩, by simpa using hP⟩
  lost := fun s prot t es hU _ => ⟨s, [], rfl, ⟨hU, fun _ _ => rfl, by simp⟩, trivial⟩

/-! ## The programs without effects are the special case -/

/-- **C78**: with a closure that does nothing to memory, `FillSequentially` here is the one of the other properties (Model/ArrayInit.lean). -/
theorem C78_fill_special {τ : Type} (R : RTy) (f : Varlen.Closure τ) (t : τ) :
    (FillSequentially R ⟨fun t i => pure (f.call t i), fun t => emit (f.drops t)⟩ t).run = (Varlen.FillSequentially R f t).run ∧
    (FillSequentially R ⟨fun t i => pure (f.call t i), fun t => emit (f.drops t)⟩ t).dropI = (Varlen.FillSequentially R f t).dropI := by
  refine ⟨funext fun dst => ?_, rfl⟩
  have h : ∀ n t p i, fillLoop R ⟨fun t i => pure (f.call t i), fun t => emit (f.drops t)⟩ t p i n = Varlen.fillLoop R f t p i n := by
    intro n
    induction n with
    | zero => intro t p i; rfl
    | succ n ih =>
      intro t p i
      funext s
      simp only [fillLoop, Varlen.fillLoop, bind_apply, pure_apply, Res.bind_ok]
      rcases f.call t i with ⟨_ | img, t'⟩
      · rfl
      · simp only [bind_apply, ih]
  exact h _ _ _ _

/-- **C78**: and for `FromIterPrefix`. -/
theorem C78_iter_special {τ : Type} (R : RTy) (it : Varlen.IterFn τ) (t : τ) :
    (FromIterPrefix R ⟨fun t => pure (it.next t), fun t => emit (it.drops t)⟩ t).run = (Varlen.FromIterPrefix R it t).run ∧
    (FromIterPrefix R ⟨fun t => pure (it.next t), fun t => emit (it.drops t)⟩ t).dropI = (Varlen.FromIterPrefix R it t).dropI := by
  refine ⟨funext fun dst => ?_, rfl⟩
  have h : ∀ n t p, iterLoop R ⟨fun t => pure (it.next t), fun t => emit (it.drops t)⟩ t p n = Varlen.iterLoop R it t p n := by
    intro n
    induction n with
    | zero => intro t p; rfl
    | succ n ih =>
      intro t p
      funext s
      simp only [iterLoop, Varlen.iterLoop, bind_apply, pure_apply, Res.bind_ok]
      rcases it.next t with ⟨_ | _ | _, t'⟩
      · simp only [bind_apply, ih]
      · rfl
      · rfl
  exact h _ _ _

/-- **C78**: and for `CloneFrom`. -/
theorem C78_clone_special (R : RTy) (c : Varlen.CloneFn) (src : Ptr) (xs : List Img) :
    (CloneFrom R (fun a => pure (c a)) src xs).run = (Varlen.CloneFrom R c src xs).run ∧ (CloneFrom R (fun a => pure (c a)) src xs).dropI = (Varlen.CloneFrom R c src xs).dropI := by
  refine ⟨funext fun dst => ?_, rfl⟩
  have h : ∀ n p q, cloneLoop R (fun a => pure (c a)) p q n = Varlen.cloneLoop R c p q n := by
    intro n
    induction n with
    | zero => intro p q; rfl
    | succ n ih =>
      intro p q
      funext s
      simp only [cloneLoop, Varlen.cloneLoop, bind_apply]
      congr 1
      funext a s1
      simp only [bind_apply, pure_apply, Res.bind_ok, runClone]
      cases c a with
      | none => rfl
      | some b => simp only [pure_apply, bind_apply, Res.bind_ok, ih]
  simp only [CloneFrom, Varlen.CloneFrom, h]

/-! ## A concrete world -/

namespace Demo
open Varlen.Demo

/-- The program owns a byte, in a `Cell` on the heap: the first byte of block 1. -/
def HasCell (s : St) : Prop := Acc s ⟨1, 0⟩ 1 ∧ ∃ x, viewAt s ⟨1, 0⟩ 0 = some x

theorem HasCell.exists {s : St} (h : HasCell s) : s.blk 1 ≠ none := by
  rcases h.1 with h | ⟨B, h, _⟩
  · cases h
  · simp [h]

/-- Its world. -/
def cellWorld : World := .owning (fun b => b = 1) HasCell
  (fun s s' h hs => ⟨(hs.acc (q := ⟨1, 0⟩) rfl).2 h.1, by rw [hs.viewAt (q := ⟨1, 0⟩) rfl]; exact h.2⟩) (fun s b h hb => by rw [hb]; exact h.exists)

/-- The closure `|_| { let n = cell.get(); cell.set(n.wrapping_add(1)); println!("{n}"); n }`. -/
def counter : Closure Unit where
  call := fun _ _ => do
    let img ← readVal u8Ty ⟨1, 0⟩
    match img with
    | [some b] => do
      writeVal u8Ty ⟨1, 0⟩ [some (b + 1)]
      emit [b.toNat]
      pure (some [some b], ())
    | _ => ubM .invalidValue
  drop := fun _ => emit [1000]

theorem counter_ok : ClosureOk cellWorld u8Ty counter (fun _ xs es => es = xs.map decLE) (fun _ _ => False) (fun xs es => es = xs.map decLE ++ [1000]) (fun _ => False) where
  call := fun s prot t xs es hU hP => by
    obtain ⟨hp, ha, x, hx⟩ := hU
    have hal : Aligned s ⟨1, 0⟩ u8Ty.align := Nat.mod_one _
    have ht : takeV (viewAt s ⟨1, 0⟩) 0 u8Ty.size = [some x] := by
      have : takeV (viewAt s ⟨1, 0⟩) 0 u8Ty.size = [viewAt s ⟨1, 0⟩ 0] := rfl
      rw [this, hx]
    have hr : readVal u8Ty ⟨1, 0⟩ s = .ok [some x] s := by rw [readVal_ok ha hal (by rw [ht]; rfl), ht]
    have hne : ∀ b, b ≠ 1 → (s.write ⟨1, 0⟩ [some (x + 1)]).blk b = s.blk b := fun b hb => (Touch.write (own := fun _ => False)).blk_eq (fun h => h) hb
    refine ⟨some [some x], (), (s.write ⟨1, 0⟩ [some (x + 1)]).logged [x.toNat], [x.toNat], ?_, ⟨⟨fun b hb => ?_, ?_⟩, fun b hb => ?_, by simp⟩, rfl, by simp [hP, decLE]⟩
    · simp only [counter, bind_apply, hr, Res.bind_ok]
      rw [writeVal_ok (img := [some (x + 1)]) ha hal]
      rfl
    · refine ⟨?_, (hp b hb).2⟩
      rw [St.logged_blk, hne b (hp b hb).2]
      exact (hp b hb).1
    · refine ⟨?_, x + 1, ?_⟩
      · rw [St.logged_acc]
        exact (Touch.write (own := fun _ => False)).acc (fun h => h) ha
      · have : viewAt ((s.write ⟨1, 0⟩ [some (x + 1)]).logged [x.toNat]) ⟨1, 0⟩ 0 = viewAt (s.write ⟨1, 0⟩ [some (x + 1)]) ⟨1, 0⟩ 0 := rfl
        rw [this, viewAt_write ha]
        rfl
    · rw [St.logged_blk, hne b (hp b hb).2]
  drop := fun s prot t xs es hU hP => ⟨s.logged [1000], [1000], rfl, ⟨cellWorld.ok_logged hU _, fun _ _ => rfl, by simp⟩, by rw [hP]⟩
  lost := fun s prot t es hU hP => hP.elim

/-- `Array<u8, u8>`. -/
abbrev Bytes : VarLen 64 := Array 64 u8Ty lenU8
/-- Five elements, each made by the counter. -/
abbrev counted : Init 64 := SizedInit 64 u8Ty lenU8 (encLE 1 5) (FillSequentially u8Ty counter ())
/-- Three elements, while for each of them an array like that is made and dropped. -/
abbrev twice : Init 64 := SizedInit 64 u8Ty lenU8 (encLE 1 3) (FillSequentially u8Ty (nested alloc Bytes counted (encLE 1 7)) ())

theorem counted_ok : InitOk cellWorld Bytes counted (fun v es => ∃ xs, v = .arr xs ∧ xs.length = 5 ∧ es = xs.map decLE ++ [1000]) (fun _ => False) (fun es => es = [1000]) :=
  C78_sized_init (u8Ty_ok (by decide)) lenU8_ok rfl (C78_fill_sequentially (u8Ty_ok (w := 64) (by decide)) counter_ok rfl)

/-- The memory before: the cell holds 40. -/
def stCell : St := ⟨[⟨4096, 1, 1, true, fun _ => some 40⟩], [], 0⟩

theorem stCell_ok : cellWorld.ok stCell (fun _ => False) := ⟨fun _ h => h.elim, .inr ⟨_, rfl, rfl, Nat.le_refl _⟩, 40, rfl⟩

/-- C78_nested applies to `twice`, with the user code of `counted` inside the user code of `twice`. -/
theorem twice_ok : ∃ Out Lost Owes, InitOk cellWorld Bytes twice Out Lost Owes :=
  ⟨_, _, _, C78_sized_init (u8Ty_ok (by decide)) lenU8_ok rfl (C78_fill_sequentially (u8Ty_ok (w := 64) (by decide))
    (C78_nested alloc (.array (u8Ty_ok (by decide)) lenU8_ok) counted_ok (fun _ h => h) (fun _ => trivial) rfl) ⟨rfl, .nil⟩)⟩

/-- The runs: the elements, the cell and the log. -/
example : (okOf (Owned.newIn alloc Bytes counted stCell)).map (fun x => (takeV (viewAt x.2 x.1) 0 6, viewAt x.2 ⟨1, 0⟩ 0, x.2.log)) =
    some ([some 5, some 40, some 41, some 42, some 43, some 44], some 45, [40, 41, 42, 43, 44, 1000]) := by decide +kernel
example : (okOf (VBox.new alloc Bytes twice stCell)).map (fun x => (takeV (viewAt x.2 x.1) 0 4, viewAt x.2 ⟨1, 0⟩ 0, x.2.log.length, x.1.blk, x.2.blocks.length)) =
    some ([some 3, some 7, some 7, some 7], some 55, 18, 2, 5) := by decide +kernel

/-- The hypotheses of `C78_box`, `C78_arena` and `C78_push` are met by it. -/
example (A : Allocator) : MadeWith cellWorld (fun _ => False) Bytes counted (fun v es => ∃ xs, v = .arr xs ∧ xs.length = 5 ∧ es = xs.map decLE ++ [1000]) (fun _ => False) (fun es => es = [1000]) stCell
    (Owned.newIn A Bytes counted stCell) := C78_arena A counted_ok stCell_ok (fun _ h => h.elim) trivial
example (A : Allocator) : PushedTo cellWorld (fun _ => False) Bytes true counted (fun v es => ∃ xs, v = .arr xs ∧ xs.length = 5 ∧ es = xs.map decLE ++ [1000]) (fun _ => False) (fun es => es = [1000]) stCell
    (Seq.new Bytes) [] false (Seq.push A true Bytes counted (stCell, Seq.new Bytes)) :=
  C78_push A (.array (u8Ty_ok (by decide)) lenU8_ok) (by decide) counted_ok (Hist.new stCell) stCell_ok (fun h => (h rfl).elim) (fun _ h => h.elim) trivial (fun h => h) (fun l hl => by
    have e : counted.lay = SizedInit.cautious 64 u8Ty lenU8 (encLE 1 5) := rfl
    rw [e] at hl
    revert hl
    have : (SizedInit.cautious 64 u8Ty lenU8 (encLE 1 5)).map (fun l => decide (0 < l.size.toNat)) = some true := by decide +kernel
    intro hl
    rw [hl] at this
    simpa using this)

/-- And those of `C78_struct` and `C78_tuple`, with `counted` among the fields. -/
example : FieldOk cellWorld (.varlen Bytes counted) := ⟨.array (u8Ty_ok (by decide)) lenU8_ok, _, _, _, counted_ok⟩
example : (okOf (VBox.new alloc (Tuple 64 [Bytes, Bytes]) (Tuple.init [(Bytes, counted), (Bytes, twice)]) stCell)).map (fun x => (viewAt x.2 ⟨1, 0⟩ 0, x.2.log.length)) = some (some 60, 24) := by decide +kernel

end Demo
end Varlen.Eff
