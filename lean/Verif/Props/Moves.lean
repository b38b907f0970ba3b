import Verif.Proofs.Moves
import Verif.Props.Boxes
import Verif.Props.SeqDemo
/-!
# C51–C53: what becomes of the values and boxes handed over in an initializer
-/
namespace Varlen
variable {w : Nat} {T : VarLen w} {I : Init w} {held made : List Event}

/-- All outcomes of `VBox::new`. -/
theorem VBox.new_cases (A : Allocator) (hT : Lawful T) (hI : InitLawful T I) {s : St} (hp : I.pre s) :
    (∃ m s', VBox.new A T I s = .panic m s' ∧ (m = .layoutOverflow ∨ I.cautious s = .panic m s) ∧ Dropped I s s') ∨ (∃ k, VBox.new A T I s = .ub k) ∨
    (∃ p s' v l, VBox.new A T I s = .ok p s' ∧ I.val = some v ∧ BoxHas T s' p v l ∧ s'.log = s.log ++ I.left ∧ (∀ b, I.owns b → Freed s' b)) ∨
    (∃ m s', VBox.new A T I s = .panic m s' ∧ I.val = none ∧ s'.log = s.log ++ I.lost ∧ (∀ b, I.owns b → Freed s' b)) := by
  have hs := VBox.new_spec A hT hI hp
  cases hl : I.lay with
  | none =>
    rw [hl] at hs
    obtain ⟨s', e, hd⟩ := hs
    refine .inl ⟨_, s', e, ?_, hd⟩
    rcases hI.cautious_cases hp with ⟨_, hb⟩ | ⟨hc, hb, _⟩
    · rw [hb]; exact .inl rfl
    · rw [hb]; exact .inr hc
  | some l =>
    rw [hl] at hs
    simp only at hs
    split at hs
    · split at hs
      · exact .inr (.inl ⟨_, hs⟩)
      · cases hk : pick w A s l.size.toNat T.ALIGN.toNat with
        | none => rw [hk] at hs; exact .inr (.inl ⟨_, hs⟩)
        | some base =>
          rw [hk] at hs
          simp only at hs
          cases hv : I.val with
          | none => rw [hv] at hs; obtain ⟨m, s', e1, e2, _, _, e3⟩ := hs; exact .inr (.inr (.inr ⟨m, s', e1, rfl, e2, e3⟩))
          | some v => rw [hv] at hs; obtain ⟨s', e1, e2, e3, _, _, e4⟩ := hs; exact .inr (.inr (.inl ⟨_, s', v, l, e1, rfl, e2, e3, e4⟩))
    · obtain ⟨s', e, hd⟩ := hs; exact .inl ⟨_, s', e, .inl rfl, hd⟩

/-! ## C51 -/

/-- Dropping an unused initializer destroys exactly the values it holds. -/
theorem C51_unused (h : LibInit T I) (ha : Accounts T I held made) {s : St} (hp : I.pre s) : ∃ s', I.dropI s = .ok () s' ∧ s'.log = s.log ++ held := by
  obtain ⟨s', e1, _, _, e2, _⟩ := h.lib.2.drop_ok s hp
  exact ⟨s', e1, by rw [e2, ha.sums.owes]⟩

/-- `VBox::new(init)`, then dropping the box: every value that was held by the initializer, or made by it, has been destroyed exactly once. -/
theorem C51_box (h : LibInit T I) (ha : Accounts T I held made) (A : Allocator) {s s1 : St} (hp : I.pre s) {p : Ptr} (e : VBox.new A T I s = .ok p s1) :
    ∃ s2 es, VBox.drop T p s1 = .ok () s2 ∧ s2.log = s.log ++ es ∧ es.Perm (held ++ made) := by
  obtain ⟨v, s2, hv, e1, e2, _⟩ := C11_new_drop A h hp e
  exact ⟨s2, I.left ++ T.drops v, e1, by rw [e2, List.append_assoc], ha.sums.ok v hv⟩

/-- If `VBox::new(init)` panics: nothing has been destroyed twice; and if it refused the layout or computing it panicked, the values held have been destroyed exactly once. -/
theorem C51_box_panics (h : LibInit T I) (ha : Accounts T I held made) (A : Allocator) {s s1 : St} (hp : I.pre s) {m : PanicMsg} (e : VBox.new A T I s = .panic m s1) :
    ∃ es, s1.log = s.log ++ es ∧ (es = held ∨ I.val = none ∧ AtMost es (held ++ made)) := by
  obtain ⟨hT, hI⟩ := h.lib
  rcases VBox.new_cases A hT.lawful hI hp with ⟨m, s', e1, hm, e2⟩ | ⟨k, e1⟩ | ⟨p, s', v, l, e1, _⟩ | ⟨m, s', e1, hv, e2, _⟩ <;> rw [e1] at e <;> cases e
  · exact ⟨held, by rw [e2.log, ha.sums.owes], .inl rfl⟩
  · exact ⟨_, e2, .inr ⟨hv, ha.sums.panic hv⟩⟩

/-- The same for `Owned::new_in`: either an `Owned`, whose drop completes the destruction of every value exactly once; or a panic, after which nothing has been destroyed twice, and
everything held exactly once unless `initialize` itself panicked. -/
theorem C51_owned (h : LibInit T I) (ha : Accounts T I held made) (A : Allocator) {s : St} (hp : I.pre s) :
    (∃ p s1 s2 es, Owned.newIn A T I s = .ok p s1 ∧ Owned.drop T p s1 = .ok () s2 ∧ s2.log = s.log ++ es ∧ es.Perm (held ++ made)) ∨
    (∃ m s1 es, Owned.newIn A T I s = .panic m s1 ∧ s1.log = s.log ++ es ∧ (es = held ∨ I.val = none ∧ AtMost es (held ++ made))) := by
  rcases C46_owned_new_in A h hp with ⟨p, s', v, l, e1, _, hv, hval, _, _, _, _, _, e2⟩ | ⟨m, s', e1, hv, _, _, e2⟩ | ⟨m, s', e1, e2, _⟩
  · obtain ⟨s2, d1, d2, _⟩ := C15_owned_drop h.lib.1 hval
    exact .inl ⟨p, s', s2, I.left ++ T.drops v, e1, d1, by rw [d2, e2, List.append_assoc], ha.sums.ok v hv⟩
  · exact .inr ⟨m, s', _, e1, e2, .inr ⟨hv, ha.sums.panic hv⟩⟩
  · exact .inr ⟨m, s', held, e1, by rw [e2.log, ha.sums.owes], .inl rfl⟩

variable {chk : Bool} {s : St} {q : SeqS w} {h : List (BitVec w × V)} {m : Nat} {t : Bool}

/-- A push onto a sequence with values `h`, then dropping the sequence: if the push returns, then in the end every value of the sequence, and every value held or made by the
initializer, has been destroyed exactly once. If the push panics, nothing has been destroyed twice by it (and everything held exactly once if the push was refused); and the values of the
sequence are destroyed exactly once by the drop. -/
theorem C51_push (hT : LibType T) (hw : 8 ≤ w) (hh : Hist T chk s q h m t) (A : Allocator) (hI : PushArg T I s q) (ha : Accounts T I held made) :
    (∃ s1 q1 s2 q2 es, Seq.push A chk T I (s, q) = .ok () (s1, q1) ∧ Seq.drop chk T (s1, q1) = .ok () (s2, q2) ∧ s2.log = s.log ++ es ∧
      es.Perm (h.flatMap (fun e => T.drops e.2) ++ (held ++ made))) ∨
    (∃ msg s1 q1 s2 q2 es, Seq.push A chk T I (s, q) = .panic msg (s1, q1) ∧ s1.log = s.log ++ es ∧ (es = held ∨ I.val = none ∧ AtMost es (held ++ made)) ∧
      Seq.drop chk T (s1, q1) = .ok () (s2, q2) ∧ s2.log = s1.log ++ h.flatMap fun e => T.drops e.2) := by
  rcases hh.push_cases hT.lawful hw A hI with ⟨v, s', q', need, e, hv, hh', hp, hfr⟩ | ⟨msg, s', q', e, hh', hev, hfr⟩
  · obtain ⟨s2, q2, d1, d2, _⟩ := C29_drop hT hw hh'
    refine .inl ⟨s', q', s2, q2, _, e, d1, by rw [d2, hp.log, List.append_assoc], ?_⟩
    refine List.perm_iff_count.2 fun a => ?_
    have := List.perm_iff_count.1 (ha.sums.ok v hv) a
    simp only [List.flatMap_append, List.flatMap_cons, List.flatMap_nil, List.append_nil, List.count_append] at this ⊢
    omega
  · obtain ⟨s2, q2, d1, d2, _⟩ := C29_drop hT hw hh'
    rcases hev with ⟨hd, rfl⟩ | ⟨hv, need, hp⟩
    · exact .inr ⟨msg, s', q', s2, q2, _, e, hd.log, .inl ha.sums.owes, d1, d2⟩
    · exact .inr ⟨msg, s', q', s2, q2, _, e, hp.log, .inr ⟨hv, ha.sums.panic hv⟩, d1, d2⟩

theorem drops_vals {is : List (Init w × List Event × List Event)} (hi : ∀ x ∈ is, Accounts T x.1 x.2.1 x.2.2) :
    ∀ {vs : List V}, vs.map some = is.map (·.1.val) → ((is.map (·.1)).flatMap (·.left) ++ vs.flatMap T.drops).Perm (is.flatMap fun x => x.2.1 ++ x.2.2) := by
  induction is with
  | nil => intro vs h; cases vs <;> simp at h ⊢
  | cons x is ih =>
    intro vs h
    cases vs with
    | nil => simp at h
    | cons v vs =>
      simp only [List.map_cons, List.cons.injEq] at h
      refine List.perm_iff_count.2 fun a => ?_
      have h1 := List.perm_iff_count.1 (ih (fun y hy => hi y (by simp [hy])) h.2) a
      have h2 := List.perm_iff_count.1 ((hi x (by simp)).sums.ok v h.1.symm) a
      simp only [List.map_cons, List.flatMap_cons, List.count_append] at h1 h2 ⊢
      omega

theorem owes_atMost {is : List (Init w × List Event × List Event)} (hi : ∀ x ∈ is, Accounts T x.1 x.2.1 x.2.2) :
    AtMost ((is.map (·.1)).flatMap (·.owes)) (is.flatMap fun x => x.2.1 ++ x.2.2) := by
  induction is with
  | nil => exact AtMost.nil _
  | cons x is ih =>
    intro a
    have h1 := ih (fun y hy => hi y (by simp [hy])) a
    have h2 := (hi x (by simp)).sums.owes
    simp only [List.map_cons, List.flatMap_cons, List.count_append, h2] at h1 ⊢
    omega

/-- `collect` (or `seq![…]`, or `extend` on a new sequence) over items with known accounts, then dropping the sequence: every value held or made by any of the items has been destroyed exactly
once. If it panics, the unfinished sequence having been dropped, nothing has been destroyed twice. -/
theorem C51_collect (hT : LibType T) (hw : 8 ≤ w) (A : Allocator) (s : St) (q0 : SeqS w) (own : Bool) {is : List (Init w × List Event × List Event)}
    (hi : ∀ x ∈ is, Accounts T x.1 x.2.1 x.2.2) (ha : ExtendArg T (is.map (·.1)) s (Seq.new T)) :
    (∃ s1 q1 s2 q2 es, Seq.fromIter A chk T own (is.map (·.1)) (s, q0) = .ok () (s1, q1) ∧ Seq.drop chk T (s1, q1) = .ok () (s2, q2) ∧ s2.log = s.log ++ es ∧
      es.Perm (is.flatMap fun x => x.2.1 ++ x.2.2)) ∨
    (∃ msg s1 q1 es, Seq.fromIter A chk T own (is.map (·.1)) (s, q0) = .panic msg (s1, q1) ∧ s1.log = s.log ++ es ∧ AtMost es (is.flatMap fun x => x.2.1 ++ x.2.2)) := by
  rcases C48_from_iter (chk := chk) hT hw A s q0 own ha with ⟨s', q', h', m', e1, e2, e3, e4⟩ | ⟨n, I, ev, vs, msg, s', q', q1, e1, e2, e3, e4, e5, _⟩
  · obtain ⟨s2, q2, d1, d2, _⟩ := C29_drop hT hw e3
    refine .inl ⟨s', q', s2, q2, _, e1, d1, by rw [d2, e4, List.append_assoc], ?_⟩
    have := drops_vals hi (vs := h'.map (·.2)) (by simpa [Function.comp_def] using e2)
    simpa [List.flatMap_map] using this
  · refine .inr ⟨msg, s', q', _, e1, by rw [e5, List.append_assoc, List.append_assoc, List.append_assoc], ?_⟩
    obtain ⟨x, hx, rfl⟩ : ∃ x, is[n]? = some x ∧ x.1 = I := by
      rw [List.getElem?_map] at e2
      obtain ⟨x, hx, rfl⟩ := Option.map_eq_some_iff.1 e2
      exact ⟨x, hx, rfl⟩
    obtain ⟨hn, hxn⟩ := List.getElem?_eq_some_iff.1 hx
    have hsplit : is = is.take n ++ x :: is.drop (n + 1) := by
      rw [← hxn, List.getElem_cons_drop, List.take_append_drop]
    have hvs := drops_vals (is := is.take n) (fun y hy => hi y (List.mem_of_mem_take hy)) (vs := vs) (by rw [e3, ← List.map_take, List.map_map]; rfl)
    have hlater := owes_atMost (is := is.drop (n + 1)) fun y hy => hi y (List.mem_of_mem_drop hy)
    have hxs := (hi x (List.mem_of_getElem? hx)).sums
    intro a
    have h1 := List.perm_iff_count.1 hvs a
    have h2 := hlater a
    have h3 : ev.count a ≤ (x.2.1 ++ x.2.2).count a := by
      rcases e4 with rfl | ⟨hv, rfl⟩
      · rw [hxs.owes, List.count_append]; omega
      · exact hxs.panic hv a
    have h4 : (if own then ((is.map (·.1)).drop (n + 1)).flatMap (·.owes) else []).count a ≤ (((is.drop (n + 1)).map (·.1)).flatMap (·.owes)).count a := by
      rw [List.map_drop]
      cases own <;> simp
    have h5 : (is.flatMap fun x => x.2.1 ++ x.2.2).count a =
        ((is.take n).flatMap fun x => x.2.1 ++ x.2.2).count a + ((x.2.1 ++ x.2.2).count a + ((is.drop (n + 1)).flatMap fun x => x.2.1 ++ x.2.2).count a) := by
      conv => lhs; rw [hsplit]
      simp only [List.flatMap_append, List.flatMap_cons, List.count_append]
    simp only [List.count_append, List.map_take] at h1 h2 h3 h4 h5 ⊢
    omega

namespace Demo

theorem dtors (xs : List Nat) (h : ∀ x ∈ xs, x < 2 ^ 32) : ((xs.map d4).map D4.dtor).flatten = xs := by
  induction xs with
  | nil => rfl
  | cons x xs ih =>
    have : D4.dtor (d4 x) = [x] := by
      simp only [RTy.dtor, D4, d4, if_true, decLE_encLE]
      rw [Nat.mod_eq_of_lt (by simpa using h x (by simp))]
    simp only [List.map_cons, List.flatten_cons, this, ih fun y hy => h y (by simp [hy])]
    rfl

/-- The struct initializer of the examples holds the droppable values 7, 1, 2, 5 (also if the number of bytes supplied for `xs` is wrong). -/
theorem sInit_accounts (xs : List Nat) : Accounts S (sInit 7 3 [1, 2] xs [5]) [7, 1, 2, 5] [] := by
  have e7 : D4.dtor (d4 7) = [7] := by decide +kernel
  have en : u8Ty.dtor (encLE 1 3) = [] := by rfl
  have ex : ((xs.map (encLE 1)).map u8Ty.dtor).flatten = [] := by
    simp [RTy.dtor, u8Ty]
  have h : AccountsFields (initLengths (sFis 7 3 [1, 2] xs [5])) (sFis 7 3 [1, 2] xs [5])
      (D4.dtor (d4 7) ++ (u8Ty.dtor (encLE 1 3) ++ ((([1, 2].map d4).map D4.dtor).flatten ++ (((xs.map (encLE 1)).map u8Ty.dtor).flatten ++ ((([5].map d4).map D4.dtor).flatten ++ [])))))
      ([] ++ ([] ++ ([] ++ []))) :=
    .normal (.length (.varlen (.sized .moveFrom) (.array .moveFrom (.varlen (.sized .moveFrom) .nil))))
  rw [e7, en, ex, dtors _ (by decide), dtors _ (by decide)] at h
  exact .struct (headSize := 8) (headAlign := 4) h

-- C51_box is about this call, among others; the box is made
example : ∃ p s', VBox.new alloc S (sInit 7 3 [1, 2] [10, 11, 12] [5]) st0 = .ok p s' := box_struct

-- with one byte too few for `xs`, `initialize` panics after `s` has been constructed: 7 and 5 are destroyed, 1 and 2 leak
example : (panicOf (VBox.new alloc S (sInit 7 3 [1, 2] [10, 11] [5]) st0)).map (fun r => r.2.log) = some [7, 5] ∧ (sInit 7 3 [1, 2] [10, 11] [5]).val.isNone = true := by
  constructor <;> decide +kernel

/-- `vec::IntoIter`: its state are the values not yet yielded, which it drops. -/
def vecIter (R : RTy) : IterFn (List Img) where
  next := fun t => match t with
    | [] => (.done, [])
    | x :: xs => (.yield x, xs)
  drops := fun t => (t.map R.dtor).flatten

theorem vecIter_nexts (R : RTy) : ∀ (n : Nat) (xs : List Img), IterNexts R (vecIter R) xs n []
  | 0, _ => .stop
  | _ + 1, [] => .done rfl (AtMost.of_perm (List.Perm.refl _))
  | n + 1, x :: xs => .yield (m := []) rfl (by simp [vecIter]) (vecIter_nexts R n xs)

-- an array filled from such an iterator, which has more items than needed
example : Accounts ArrT (SizedInit 64 D4 lenU16 (encLE 2 2) (FromIterPrefix D4 (vecIter D4) ([1, 2, 3].map d4))) [1, 2, 3] [] := by
  have h : Accounts ArrT (SizedInit 64 D4 lenU16 (encLE 2 2) (FromIterPrefix D4 (vecIter D4) ([1, 2, 3].map d4))) ((vecIter D4).drops ([1, 2, 3].map d4)) [] :=
    .sized (.fromIterPrefix (vecIter_nexts D4 _ _))
  have e : (vecIter D4).drops ([1, 2, 3].map d4) = [1, 2, 3] := dtors _ (by decide)
  rw [e] at h
  exact h

-- what is left in the iterator is destroyed by `initialize`, the rest with the box
example : (SizedInit 64 D4 lenU16 (encLE 2 2) (FromIterPrefix D4 (vecIter D4) ([1, 2, 3].map d4))).left = [3] := by decide +kernel

-- `collect` over two arrays
example : (∀ x ∈ [(arrInit [1, 2, 3], [1, 2, 3], []), (arrInit [4], [4], ([] : List Event))], Accounts ArrT x.1 x.2.1 x.2.2) ∧
    (okOf (Seq.fromIter alloc true ArrT true [arrInit [1, 2, 3], arrInit [4]] (st0, Seq.new ArrT))).isSome = true := by
  refine ⟨?_, by decide +kernel⟩
  have key : ∀ xs : List Nat, (∀ x ∈ xs, x < 2 ^ 32) → Accounts ArrT (arrInit xs) xs [] := by
    intro xs hx
    have h : Accounts ArrT (arrInit xs) ((xs.map d4).map D4.dtor).flatten [] := .sized .moveFrom
    rwa [dtors xs hx] at h
  intro x hx
  simp only [List.mem_cons, List.mem_nil_iff, or_false] at hx
  rcases hx with rfl | rfl <;> exact key _ (by decide)

end Demo

/-! ## C52 -/

/-- `init` contains, possibly inside other initializers, a `VBox` whose allocation is `b`. -/
inductive OwnsBox : Init w → Nat → Prop
  | vbox {T : VarLen w} {p : Ptr} {v : V} {l : Layout w} : OwnsBox (VBox.init T p v l) p.blk
  | newtype {I : Init w} {b : Nat} : OwnsBox I b → OwnsBox (Newtype.init I) b
  | tuple {fis : List (VarLen w × Init w)} {T : VarLen w} {I : Init w} {b : Nat} : (T, I) ∈ fis → OwnsBox I b → OwnsBox (Tuple.init fis) b
  | struct {headSize headAlign : Nat} {fis : List (FI w)} {T : VarLen w} {I : Init w} {b : Nat} : FI.varlen T I ∈ fis → OwnsBox I b → OwnsBox (Struct.init headSize headAlign fis) b

theorem OwnsBox.owns {b : Nat} (h : OwnsBox I b) : I.owns b := by
  induction h with
  | vbox => rfl
  | newtype _ ih => exact ih
  | @tuple fis T I b hm _ ih => exact ⟨.varlen T I, List.mem_map.2 ⟨(T, I), hm, rfl⟩, ih⟩
  | @struct hs ha fis T I b hm _ ih => exact ⟨.varlen T I, hm, ih⟩

/-- A box handed over in an initializer is freed in every (defined) outcome: by `VBox::new`, `Owned::new_in` and `push`, whether they return or panic, and by dropping the initializer. (It
is not freed twice either: that would be undefined behaviour, excluded by C10, C33 and C46.) -/
theorem C52_boxes_freed (h : LibInit T I) {b : Nat} (hb : OwnsBox I b) {s : St} (hp : I.pre s) :
    (∃ s', I.dropI s = .ok () s' ∧ Freed s' b) ∧
    (∀ A p s', VBox.new A T I s = .ok p s' → Freed s' b) ∧ (∀ A m s', VBox.new A T I s = .panic m s' → Freed s' b) ∧
    (∀ A p s', Owned.newIn A T I s = .ok p s' → Freed s' b) ∧ (∀ A m s', Owned.newIn A T I s = .panic m s' → Freed s' b) := by
  obtain ⟨hT, hI⟩ := h.lib
  have ho := hb.owns
  refine ⟨?_, ?_, ?_, ?_, ?_⟩
  · obtain ⟨s', e1, _, e2, _⟩ := hI.drop_ok s hp
    exact ⟨s', e1, e2 b ho⟩
  · intro A p s' e
    rcases VBox.new_cases A hT.lawful hI hp with ⟨m, s', e1, hm, e2⟩ | ⟨k, e1⟩ | ⟨p, s', v, l, e1, _, _, _, e2⟩ | ⟨m, s', e1, hv, _, e2⟩ <;> rw [e1] at e <;> cases e
    exact e2 b ho
  · intro A p s' e
    rcases VBox.new_cases A hT.lawful hI hp with ⟨m, s', e1, hm, e2⟩ | ⟨k, e1⟩ | ⟨p, s', v, l, e1, _, _, _, e2⟩ | ⟨m, s', e1, hv, _, e2⟩ <;> rw [e1] at e <;> cases e
    · exact e2.freed b ho
    · exact e2 b ho
  · intro A p s' e
    rcases C46_owned_new_in A h hp with ⟨p, s', v, l, e1, _, _, _, _, _, _, _, e2, _⟩ | ⟨m, s', e1, _, _, e2, _⟩ | ⟨m, s', e1, e2, _⟩ <;> rw [e1] at e <;> cases e
    exact e2 b ho
  · intro A p s' e
    rcases C46_owned_new_in A h hp with ⟨p, s', v, l, e1, _, _, _, _, _, _, _, e2, _⟩ | ⟨m, s', e1, _, _, e2, _⟩ | ⟨m, s', e1, e2, _⟩ <;> rw [e1] at e <;> cases e
    · exact e2 b ho
    · exact e2.freed b ho

/-- The same for `push`. -/
theorem C52_push (hT : LibType T) (hw : 8 ≤ w) (hh : Hist T chk s q h m t) (A : Allocator) (hI : PushArg T I s q) {b : Nat} (hb : OwnsBox I b) :
    ∃ s' q', (Seq.push A chk T I (s, q) = .ok () (s', q') ∨ ∃ msg, Seq.push A chk T I (s, q) = .panic msg (s', q')) ∧ Freed s' b := by
  rcases hh.push_cases hT.lawful hw A hI with ⟨v, s', q', need, e, _, _, _, hfr⟩ | ⟨msg, s', q', e, _, _, hfr⟩
  · exact ⟨s', q', .inl e, hfr b hb.owns⟩
  · exact ⟨s', q', .inr ⟨msg, e⟩, hfr b hb.owns⟩

/-- And for `extend`: all boxes if it returns, and if it panics at item `n`, those of the items up to `n`, and of all items if the iterator held them. -/
theorem C52_extend (hT : LibType T) (hw : 8 ≤ w) (hh : Hist T chk s q h m t) (A : Allocator) (own : Bool) {is : List (Init w)} (ha : ExtendArg T is s q) :
    (∃ s' q', Seq.extend A chk T own is (s, q) = .ok () (s', q') ∧ ∀ I ∈ is, ∀ b, OwnsBox I b → Freed s' b) ∨
    (∃ n msg s' q', Seq.extend A chk T own is (s, q) = .panic msg (s', q') ∧ n < is.length ∧ ∀ I ∈ if own then is else is.take (n + 1), ∀ b, OwnsBox I b → Freed s' b) := by
  rcases C48_extend hT hw hh A own ha with ⟨s', q', h', m', e, _, _, _, _, hf⟩ | ⟨n, I, ev, msg, s', q', h', m', e, hn, _, _, _, _, _, hf⟩
  · exact .inl ⟨s', q', e, fun I hI b hb => hf I hI b hb.owns⟩
  · exact .inr ⟨n, msg, s', q', e, (List.getElem?_eq_some_iff.1 hn).1, fun I hI b hb => hf I hI b hb.owns⟩

namespace Demo

/-- A tuple initializer containing a box holding `[1, 2]`, and a second component whose length does not fit its contents. -/
theorem box_in_tuple (s : St) (p : Ptr) (v : V) (l : Layout 64) (h : BoxHas ArrT s p v l) :
    let I := Tuple.init [(ArrT, VBox.init ArrT p v l), (ArrT, arrInit [3, 4])]
    LibInit (Tuple 64 [ArrT, ArrT]) I ∧ OwnsBox I p.blk ∧ I.pre s := by
  refine ⟨.tuple (fis := [(ArrT, VBox.init ArrT p v l), (ArrT, arrInit [3, 4])]) (by simp) ?_, .tuple (T := ArrT) (I := VBox.init ArrT p v l) (by simp) .vbox, ?_, ?_⟩
  · intro f hf
    simp only [List.mem_cons, List.mem_nil_iff, or_false] at hf
    rcases hf with rfl | rfl
    · exact .vbox ArrT_lib
    · exact arrInit_lib _
  · intro f hf
    simp only [List.map_cons, List.map_nil, List.mem_cons, List.mem_nil_iff, or_false] at hf
    rcases hf with rfl | rfl
    · exact h
    · trivial
  · simp [FI.mods, FI.fp, SizedInit, MoveFrom]

end Demo

/-! ## C53 -/

/-- `VBox::new` leaks: if `initialize` panics, the allocation it made stays live although nothing refers to it. Concretely, with one byte too few for an array field. -/
theorem C53_vbox_new_leaks : LibInit Demo.S (Demo.sInit 7 3 [1, 2] [10, 11] [5]) ∧ (Demo.sInit 7 3 [1, 2] [10, 11] [5]).pre Demo.st0 ∧
    ∃ m s' B, VBox.new Demo.alloc Demo.S (Demo.sInit 7 3 [1, 2] [10, 11] [5]) Demo.st0 = .panic m s' ∧ Demo.st0.blk 1 = none ∧ s'.blk 1 = some B ∧ B.live = true ∧ B.size = 32 := by
  refine ⟨Demo.sInit_lib .., Demo.sInit_pre .., ?_⟩
  have h : ((Demo.panicOf (VBox.new Demo.alloc Demo.S (Demo.sInit 7 3 [1, 2] [10, 11] [5]) Demo.st0)).bind fun r => (r.2.blk 1).map fun B => (B.live, B.size)) = some (true, 32) := by
    decide +kernel
  obtain ⟨r, hr, h1⟩ := Option.bind_eq_some_iff.1 h
  obtain ⟨B, hB, h2⟩ := Option.map_eq_some_iff.1 h1
  cases hn : VBox.new Demo.alloc Demo.S (Demo.sInit 7 3 [1, 2] [10, 11] [5]) Demo.st0 with
  | ok a s => rw [hn] at hr; cases hr
  | ub k => rw [hn] at hr; cases hr
  | panic m s' =>
    rw [hn] at hr
    cases hr
    simp only [Prod.mk.injEq] at h2
    exact ⟨m, s', B, rfl, rfl, hB, h2.1, h2.2⟩

/-- And it always does: for every initializer of the library whose `initialize` panics, `VBox::new` panics and leaves behind one more live allocation than before, of exactly the size and alignment of the
object that was to be built; the boxes that the initializer owned are freed. -/
theorem C53_always_leaks (h : LibInit T I) (A : Allocator) {s : St} (hp : I.pre s) {l : Layout w} (hc : I.cautious s = .ok (some l) s) (hv : I.val = none)
    (hfit : l.size.toNat + (T.ALIGN.toNat - 1) ≤ isizeMax w) (h0 : l.size.toNat ≠ 0) (hA : pick w A s l.size.toNat T.ALIGN.toNat ≠ none) :
    ∃ m s' B, VBox.new A T I s = .panic m s' ∧ s'.blocks.length = s.blocks.length + 1 ∧ s.blk s.next = none ∧
      s'.blk s.next = some B ∧ B.live = true ∧ B.size = l.size.toNat ∧ B.align = T.ALIGN.toNat ∧
      ∀ b, I.owns b → ∃ B, s'.blk b = some B ∧ B.live = false := by
  obtain ⟨hT, hI⟩ := h.lib
  have hl : I.lay = some l := (hI.of_cautious hp hc).1
  have hf : fromSizeAlign w l.size.toNat T.ALIGN.toNat = true := by
    simp only [fromSizeAlign, decide_eq_true_eq]; exact hfit
  cases hk : pick w A s l.size.toNat T.ALIGN.toNat with
  | none => exact absurd hk hA
  | some base =>
    obtain ⟨h1, h2, h3, h4⟩ := push_suitable hI hp (size := l.size.toNat) (d := fun _ => none) (pick_some hk).2.1
    obtain ⟨m, s', e1, e2, e3, _⟩ := hI.init_panic _ _ l h1 hl hv h2 h3 h4
    have hm : ¬ I.mods s.next := fun hm => h4 (hI.mods_fp _ hm)
    obtain ⟨d, h5, _⟩ := e2.blk s.next hm _ (by rw [St.blk_push, if_pos rfl])
    refine ⟨m, s', _, ?_, by rw [e2.len]; simp [St.push], s.blk_next, h5, rfl, rfl, rfl, e3⟩
    unfold VBox.new
    simp only [bind_apply, onUnwind_ok hc, Res.bind_ok, hf, if_true, allocM, if_neg h0, reduceCtorEq, if_false, hk, e1, Res.bind_panic]

example : ∃ m s' B, VBox.new Demo.alloc Demo.S (Demo.sInit 7 3 [1, 2] [10, 11] [5]) Demo.st0 = .panic m s' ∧ s'.blk 1 = some B ∧ B.live = true := by
  obtain ⟨m, s', B, e, _, _, hB, hl, _⟩ := C53_always_leaks (Demo.sInit_lib 7 3 [1, 2] [10, 11] [5]) Demo.alloc (Demo.sInit_pre 7 3 [1, 2] [10, 11] [5] Demo.st0) (l := Demo.sLay)
    ((Demo.sInit_lib 7 3 [1, 2] [10, 11] [5]).lib.2.calc_some (Demo.sInit_pre 7 3 [1, 2] [10, 11] [5] Demo.st0) rfl) (by decide +kernel) (by decide) (by decide) (Option.isSome_iff_ne_none.1 (by decide +kernel))
  exact ⟨m, s', B, e, hB, hl⟩

/-- What holds: if `VBox::new` refuses the layout, or computing it panics, it has allocated nothing.
(Missing: panics of `initialize`, where the claim is false, see `C53_vbox_new_leaks`.) -/
theorem C53_refused_allocates_nothing_partial (h : LibInit T I) (A : Allocator) {s s' : St} (hp : I.pre s) {m : PanicMsg} (e : VBox.new A T I s = .panic m s') (hv : I.val ≠ none) :
    (m = .layoutOverflow ∨ I.cautious s = .panic m s) ∧ s'.blocks.length = s.blocks.length ∧ ∀ b B', s'.blk b = some B' → B'.live = true → ∃ B, s.blk b = some B := by
  obtain ⟨hT, hI⟩ := h.lib
  rcases VBox.new_cases A hT.lawful hI hp with ⟨m, s', e1, hm, e2⟩ | ⟨k, e1⟩ | ⟨p, s', v, l, e1, _⟩ | ⟨m, s', e1, hv', _⟩ <;> rw [e1] at e <;> cases e
  · refine ⟨hm, e2.size, fun b B' hB _ => ?_⟩
    cases b with
    | zero => cases hB
    | succ b =>
      simp only [St.blk] at hB ⊢
      have := (List.getElem?_eq_some_iff.1 hB).1
      rw [e2.size] at this
      exact ⟨_, List.getElem?_eq_getElem this⟩
  · exact absurd hv' hv

namespace Demo

/-- An array of `2^62` default values, too large to allocate. -/
abbrev hugeInit : Init 64 := SizedInit 64 D4 lenUsize (encLE 8 (2 ^ 62)) (FillWithDefault D4 (some (d4 0)))

example : LibInit (Array 64 D4 lenUsize) hugeInit ∧ hugeInit.val ≠ none ∧ (panicOf (VBox.new alloc (Array 64 D4 lenUsize) hugeInit st0)).isSome = true := by
  refine ⟨.sized D4_ok lenUsize_ok (encLE_valid lenUsize _) (.fillWithDefault fun x hx => by cases hx; exact d4_valid 0), ?_, by decide +kernel⟩
  have h : ∀ n, (FillWithDefault D4 (some (d4 0))).vals n = some (List.replicate n (d4 0)) := fun n => callSeq_const
  simp only [hugeInit, SizedInit, h, Option.map_some]
  simp

end Demo

end Varlen
