import Verif.Model.UserCode
import Verif.Spec.LibType
import Verif.Spec.SeqHist
/-!
# Specification: user code with effects, run in the middle of a construction

The user's program is described by a `World`: what it knows about its own memory, and the promise that this knowledge does not depend on the memory that it must leave alone. A run of user code may do anything
to the rest of memory, including to allocate, and to use this library on other objects.
-/
namespace Varlen.Eff
variable {w : Nat}

/-- What the user's program maintains about its memory, `prot` being the blocks that it must leave alone now: those that are borrowed or owned by the library for the construction under way. -/
structure World where
  ok : St → (prot : Nat → Prop) → Prop
  /-- It does not depend on the contents of the protected blocks, … -/
  stable : ∀ s s' prot, ok s prot → s'.blocks.length = s.blocks.length → (∀ b, ¬ prot b → s'.blk b = s.blk b) → ok s' prot
  /-- … and a block that the library allocates can be protected. -/
  grow : ∀ s prot B, ok s prot → ok (s.push B) (fun b => prot b ∨ b = s.next)

/-- A run of user code from `s` to `s'`: it leaves the protected blocks alone and logs `es`. -/
structure Ran (U : World) (prot : Nat → Prop) (s s' : St) (es : List Event) : Prop where
  ok : U.ok s' prot
  keep : ∀ b, prot b → s'.blk b = s.blk b
  log : s'.log = s.log ++ es

/-- A run of library and user code, from `s` to `s'`: of the protected blocks, only the bytes `[p, p+n)` and the blocks in `own` change. -/
structure Wrote (U : World) (prot : Nat → Prop) (s s' : St) (p : Ptr) (n : Nat) (own : Nat → Prop) (es : List Event) : Prop where
  ok : U.ok s' prot
  none : ∀ b, prot b → (s'.blk b = none ↔ s.blk b = none)
  blk : ∀ b, prot b → ¬ own b → ∀ B, s.blk b = some B → ∃ d, s'.blk b = some { B with data := d } ∧
    ∀ i, ¬ (b = p.blk ∧ p.off ≤ i ∧ i < p.off + n) → d i = B.data i
  log : s'.log = s.log ++ es

/-- The contract of a closure `FnMut(usize) -> R` in a world. `P t xs es`: after the calls with `0, 1, …`, which returned `xs` and logged `es`, the captured state is `t`; `L t es`: a call panicked.
Every call, and the drop, keeps the world in order; `Out xs es` (all is well) and `Lost es` (a panic) tell what has happened in all when the closure is gone. -/
structure ClosureOk {τ : Type} (U : World) (R : RTy) (f : Closure τ) (P : τ → List Img → List Event → Prop) (L : τ → List Event → Prop)
    (Out : List Img → List Event → Prop) (Lost : List Event → Prop) : Prop where
  call : ∀ s prot t xs es, U.ok s prot → P t xs es → ∃ r t' s' es', f.call t xs.length s = .ok (r, t') s' ∧ Ran U prot s s' es' ∧
    match r with
    | some img => R.valid img = true ∧ P t' (xs ++ [img]) (es ++ es')
    | none => L t' (es ++ es')
  drop : ∀ s prot t xs es, U.ok s prot → P t xs es → ∃ s' es', f.drop t s = .ok () s' ∧ Ran U prot s s' es' ∧ Out xs (es ++ es')
  lost : ∀ s prot t es, U.ok s prot → L t es → ∃ s' es', f.drop t s = .ok () s' ∧ Ran U prot s s' es' ∧ Lost (es ++ es')

/-- The contract of an iterator: the same, with `next` called until it does not yield. -/
structure IterOk {τ : Type} (U : World) (R : RTy) (it : IterFn τ) (P : τ → List Img → List Event → Prop) (L : τ → List Event → Prop)
    (Out : List Img → List Event → Prop) (Lost : List Event → Prop) : Prop where
  next : ∀ s prot t xs es, U.ok s prot → P t xs es → ∃ r t' s' es', it.next t s = .ok (r, t') s' ∧ Ran U prot s s' es' ∧
    match r with
    | .yield img => R.valid img = true ∧ P t' (xs ++ [img]) (es ++ es')
    | _ => L t' (es ++ es')
  drop : ∀ s prot t xs es, U.ok s prot → P t xs es → ∃ s' es', it.drop t s = .ok () s' ∧ Ran U prot s s' es' ∧ Out xs (es ++ es')
  lost : ∀ s prot t es, U.ok s prot → L t es → ∃ s' es', it.drop t s = .ok () s' ∧ Ran U prot s s' es' ∧ Lost (es ++ es')

/-- The contract of `Clone::clone`: `C a b es`: the clone of `a` may be `b`, with effects `es`; `L a es`: it may panic. -/
def CloneOk (U : World) (R : RTy) (c : CloneFn) (C : Img → Img → List Event → Prop) (L : Img → List Event → Prop) : Prop :=
  ∀ s prot a, U.ok s prot → R.valid a = true → ∃ r s' es, c a s = .ok r s' ∧ Ran U prot s s' es ∧
    match r with
    | some b => R.valid b = true ∧ C a b es
    | none => L a es

/-- The contract of `Default::default`: `D img es`: it may return `img`, with effects `es`; `L es`: it may panic. -/
def DefaultOk (U : World) (R : RTy) (dflt : M (Option Img)) (D : Img → List Event → Prop) (L : List Event → Prop) : Prop :=
  ∀ s prot, U.ok s prot → ∃ r s' es, dflt s = .ok r s' ∧ Ran U prot s s' es ∧
    match r with
    | some img => R.valid img = true ∧ D img es
    | none => L es

/-- Calls one after the other, whose answers are `xs`, and which logged `es` in all. -/
inductive Answers (D : Img → List Event → Prop) : List Img → List Event → Prop
  | nil : Answers D [] []
  | snoc {xs : List Img} {es es' : List Event} {img : Img} : Answers D xs es → D img es' → Answers D (xs ++ [img]) (es ++ es')

/-- `ys` are clones of `xs`, made in order; `es` was logged. -/
inductive Clones (C : Img → Img → List Event → Prop) : List Img → List Img → List Event → Prop
  | nil : Clones C [] [] []
  | cons {a b : Img} {as bs : List Img} {es es' : List Event} : C a b es → Clones C as bs es' → Clones C (a :: as) (b :: bs) (es ++ es')

/-- Cloning `xs` in order, a clone panics. -/
inductive ClonesLost (C : Img → Img → List Event → Prop) (L : Img → List Event → Prop) : List Img → List Event → Prop
  | here {a : Img} {as : List Img} {es : List Event} : L a es → ClonesLost C L (a :: as) es
  | later {a b : Img} {as : List Img} {es es' : List Event} : C a b es → ClonesLost C L as es' → ClonesLost C L (a :: as) (es ++ es')

/-- The contract of an array initializer in a world: as `ArrInitLawful`, but what it does need not be a function of the initializer. `Out n xs es`: on a slice of length `n` it may return having written `xs` and logged
`es`; `Lost n es`: it may panic; `Owes es`: the effects that dropping it may have. -/
structure ArrOk (U : World) (R : RTy) (I : ArrInit) (Out : Nat → List Img → List Event → Prop) (Lost : Nat → List Event → Prop) (Owes : List Event → Prop) : Prop where
  fp_exists : ∀ s b, I.pre s → I.fp b → s.blk b ≠ none
  stable : ∀ s s', I.pre s → Same s s' I.fp → I.pre s'
  drop_ok : ∀ s prot, U.ok s prot → (∀ b, I.fp b → prot b) → I.pre s → ∃ s' es, I.dropI s = .ok () s' ∧ Ran U prot s s' es ∧ Owes es
  run_ok : ∀ s prot p n, U.ok s prot → (∀ b, I.fp b → prot b) → prot p.blk → I.pre s → Acc s p (n * R.size) → Aligned s p R.align → ¬ I.fp p.blk →
    (∃ s' es, I.run ⟨p, n⟩ s = .ok () s' ∧ Wrote U prot s s' p (n * R.size) (fun _ => False) es ∧
      (∀ x ∈ elemsV (viewAt s' p) 0 R.size n, R.valid x = true) ∧ Out n (elemsV (viewAt s' p) 0 R.size n) es) ∨
    (∃ m s' es, I.run ⟨p, n⟩ s = .panic m s' ∧ Wrote U prot s s' p (n * R.size) (fun _ => False) es ∧ Lost n es)

/-- The contract of an initializer in a world, likewise (compare `InitLawful`). -/
structure InitOk (U : World) (T : VarLen w) (I : Init w) (Out : V → List Event → Prop) (Lost : List Event → Prop) (Owes : List Event → Prop) : Prop where
  owns_mods : ∀ b, I.owns b → I.mods b
  mods_fp : ∀ b, I.mods b → I.fp b
  fp_exists : ∀ s b, I.pre s → I.fp b → s.blk b ≠ none
  stable : ∀ s s', I.pre s → Same s s' I.fp → I.pre s'
  calc_ok : ∀ s, I.pre s → I.bad = false → I.cautious s = .ok I.lay s
  calc_panic : ∀ s, I.pre s → I.bad = true → I.cautious s = .panic .user s
  bad_lay : I.bad = true → I.lay = none
  drop_ok : ∀ s prot, U.ok s prot → (∀ b, I.fp b → prot b) → I.pre s → ∃ s' es, I.dropI s = .ok () s' ∧ Wrote U prot s s' ⟨0, 0⟩ 0 I.mods es ∧
    (∀ b, I.owns b → ∃ B, s'.blk b = some B ∧ B.live = false) ∧ Owes es
  init_ok : ∀ s prot p l, U.ok s prot → (∀ b, I.fp b → prot b) → prot p.blk → I.pre s → I.lay = some l → Acc s p l.size.toNat → Aligned s p T.ALIGN.toNat → ¬ I.fp p.blk →
    (∃ s' v es, I.initTo p l s = .ok () s' ∧ Wrote U prot s s' p l.size.toNat I.owns es ∧ (∀ b, I.owns b → ∃ B, s'.blk b = some B ∧ B.live = false) ∧
      T.Rep v l (viewAt s' p) ∧ Out v es) ∨
    (∃ m s' es, I.initTo p l s = .panic m s' ∧ Wrote U prot s s' p l.size.toNat I.mods es ∧ (∀ b, I.owns b → ∃ B, s'.blk b = some B ∧ B.live = false) ∧ Lost es)

/-! ## What was answered in a run

The outcome of a struct or tuple initializer is described by pure field initializers in which the answers of the user's code in that run are written down. -/

/-- `J` is `I` with the answers of the user's code in one run written down, for array initializers, run on a slice of length `n`. If `used`, it was run: where `J` says that it returned (`vals` is `some`), the
values and effects noted in `J` are ones that the contract of the user's code allows for returning; where `J` says that it panicked, the effects are ones the contract allows for a panic. If not `used`, it was dropped.
All contracts that hold of `I` hold of what is noted. -/
def RecA (U : World) (R : RTy) (n : Nat) (used : Bool) (I J : ArrInit) : Prop :=
  ∀ Out Lost Owes, ArrOk U R I Out Lost Owes →
    if used then
      match J.vals n with
      | some xs => Out n xs (J.left n)
      | none => Lost n (J.lost n)
    else Owes J.owes

/-- The same for an initializer. -/
def RecI (U : World) (T : VarLen w) (used : Bool) (I J : Init w) : Prop :=
  ∀ Out Lost Owes, InitOk U T I Out Lost Owes →
    if used then
      match J.val with
      | some v => Out v J.left
      | none => Lost J.lost
    else Owes J.owes

/-- For the fields of a struct, in declaration order, `lens` being the values of the length controllers: the fields are initialised until one panics; then the others are dropped. -/
inductive RecFs (U : World) : List Img → Bool → List (FI w) → List (FI w) → Prop
  | nil {lens : List Img} {used : Bool} : RecFs U lens used [] []
  | normal {lens : List Img} {used : Bool} {R : RTy} {off : Nat} {img : Img} {fs gs : List (FI w)} : RecFs U lens used fs gs → RecFs U lens used (.normal R off img :: fs) (.normal R off img :: gs)
  | length {lens : List Img} {used : Bool} {R : RTy} {off : Nat} {img : Img} {fs gs : List (FI w)} : RecFs U lens used fs gs → RecFs U lens used (.length R off img :: fs) (.length R off img :: gs)
  | varlenReturned {lens : List Img} {T : VarLen w} {I J : Init w} {fs gs : List (FI w)} : RecI U T true I J → J.val ≠ none → RecFs U lens true fs gs →
      RecFs U lens true (.varlen T I :: fs) (.varlen T J :: gs)
  | varlenPanicked {lens : List Img} {T : VarLen w} {I J : Init w} {fs gs : List (FI w)} : RecI U T true I J → J.val = none → RecFs U lens false fs gs →
      RecFs U lens true (.varlen T I :: fs) (.varlen T J :: gs)
  | varlenDropped {lens : List Img} {T : VarLen w} {I J : Init w} {fs gs : List (FI w)} : RecI U T false I J → RecFs U lens false fs gs →
      RecFs U lens false (.varlen T I :: fs) (.varlen T J :: gs)
  | arrayReturned {lens : List Img} {R : RTy} {len : LenFn w} {I J : ArrInit} {fs gs : List (FI w)} : RecA U R (len lens).toNat true I J → J.vals (len lens).toNat ≠ none → RecFs U lens true fs gs →
      RecFs U lens true (.array R len I :: fs) (.array R len J :: gs)
  | arrayPanicked {lens : List Img} {R : RTy} {len : LenFn w} {I J : ArrInit} {fs gs : List (FI w)} : RecA U R (len lens).toNat true I J → J.vals (len lens).toNat = none → RecFs U lens false fs gs →
      RecFs U lens true (.array R len I :: fs) (.array R len J :: gs)
  | arrayDropped {lens : List Img} {R : RTy} {len : LenFn w} {I J : ArrInit} {fs gs : List (FI w)} : RecA U R (len lens).toNat false I J → RecFs U lens false fs gs →
      RecFs U lens false (.array R len I :: fs) (.array R len J :: gs)

/-- A field's initializer satisfies some contract in the world; that of a plain field is a value of its type. -/
def FieldOk (U : World) : FI w → Prop
  | .normal R _ img => R.valid img = true
  | .length R _ img => R.valid img = true
  | .varlen T I => LibType T ∧ ∃ Out Lost Owes, InitOk U T I Out Lost Owes
  | .array R _ I => ∃ Out Lost Owes, ArrOk U R I Out Lost Owes

/-! ## Construction -/

/-- What holds after a construction with user code, from `s` to `s'`: the world is in order with `prot'` protected; of the blocks there were and that are protected all along (`prot`) only those in `own` have
changed; what the initializer owned is freed; the effects, among them those of the user's code, are `es`. -/
structure After (U : World) (I : Init w) (prot prot' own : Nat → Prop) (s s' : St) (es : List Event) : Prop where
  ok : U.ok s' prot'
  keep : ∀ b, prot b → ¬ own b → s.blk b ≠ none → s'.blk b = s.blk b
  freed : ∀ b, I.owns b → ∃ B, s'.blk b = some B ∧ B.live = false
  log : s'.log = s.log ++ es

/-- The outcome of making an object in a new allocation, for an initializer with the contract `Out`, `Lost`, `Owes`. -/
inductive MadeWith (U : World) (prot : Nat → Prop) (T : VarLen w) (I : Init w) (Out : V → List Event → Prop) (Lost Owes : List Event → Prop) (s : St) : Res St Ptr → Prop
  /-- A new object, whose value is one that the contract allows; its storage is now protected. -/
  | made {p : Ptr} {s' : St} {v : V} {l : Layout w} {es : List Event} : s.blk p.blk = none → BoxHas T s' p v l → I.lay = some l → Out v es →
      After U I prot (fun b => prot b ∨ b = p.blk) I.owns s s' es → MadeWith U prot T I Out Lost Owes s (.ok p s')
  /-- The size is too large, or there is no memory: the initializer is dropped. -/
  | refused {m : PanicMsg} {s' : St} {es : List Event} : Owes es → After U I prot prot I.mods s s' es → MadeWith U prot T I Out Lost Owes s (.panic m s')
  /-- User code panicked. -/
  | panicked {m : PanicMsg} {s' : St} {l : Layout w} {es : List Event} : I.lay = some l → Lost es → After U I prot (fun b => prot b ∨ b = s.next) I.mods s s' es →
      MadeWith U prot T I Out Lost Owes s (.panic m s')

/-- The outcome of pushing an element onto a sequence, likewise; `h` are the elements before, as in Spec/SeqHist.lean. -/
inductive PushedTo (U : World) (prot : Nat → Prop) (T : VarLen w) (chk : Bool) (I : Init w) (Out : V → List Event → Prop) (Lost Owes : List Event → Prop) (s : St) (q : SeqS w)
    (h : List (BitVec w × V)) (t : Bool) : Res (St × SeqS w) Unit → Prop
  | pushed {s' : St} {q' : SeqS w} {v : V} {m : Nat} {es : List Event} : Out v es → Hist T chk s' q' (h ++ [(Seq.offset q, v)]) m t →
      After U I (fun b => prot b ∧ b ≠ q.ptr.blk) (fun b => prot b ∨ b = q'.ptr.blk) I.owns s s' es → PushedTo U prot T chk I Out Lost Owes s q h t (.ok () (s', q'))
  | refused {msg : PanicMsg} {s' : St} {m : Nat} {es : List Event} : Owes es → Hist T chk s' q h m t →
      After U I prot prot I.mods s s' es → PushedTo U prot T chk I Out Lost Owes s q h t (.panic msg (s', q))
  | panicked {msg : PanicMsg} {s' : St} {q' : SeqS w} {m : Nat} {es : List Event} : Lost es → Hist T chk s' q' h m t →
      After U I (fun b => prot b ∧ b ≠ q.ptr.blk) (fun b => prot b ∨ b = q'.ptr.blk) I.mods s s' es → PushedTo U prot T chk I Out Lost Owes s q h t (.panic msg (s', q'))

end Varlen.Eff
