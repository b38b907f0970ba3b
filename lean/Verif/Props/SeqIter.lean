import Verif.Props.SeqDemo
import Verif.Props.Moves
import Verif.Proofs.SeqIter
/-! # C61: `extend` and `collect` with arbitrary iterators -/
namespace Varlen
variable {w : Nat} {T : VarLen w} {chk : Bool} {τ : Type} {it : ItemIter w τ} {ok : τ → St → Prop} {fp own : τ → Nat → Prop}
variable {s : St} {q : SeqS w} {h : List (BitVec w × V)} {m : Nat} {k : Bool}

/-- `extend` with any iterator, finite or not, observed up to the `n`-th call of `next`. The items pushed are exactly those that `next` returned, each once and in order; after all the values
that were in the sequence before come exactly the items' values, in a state that a history of operations leads to. Only the sequence's storage, what the iterator owns, and new memory
change; what the pushed items owned is freed. Destructors run for what the calls of `next` drop, for what the items held and did not place, and at the end for the iterator (exactly
once, by `LoopEnds`, also if `next` or a push panics). -/
theorem C61_extend (hT : LibType T) (hw : 8 ≤ w) (hL : ItemIterLawful T it ok fp own) (A : Allocator) (n : Nat) {t : τ} (hh : Hist T chk s q h m k) (hok : ok t s)
    (hap : ¬ fp t q.ptr.blk) :
    ∃ xs t1 s' q' h' m' tail, Yielded it ok t xs t1 ∧ h'.map (fun e => some e.2) = xs.map (fun x => x.2.val) ∧ Hist T chk s' q' (h ++ h') m' k ∧
      s'.log = s.log ++ xs.flatMap (fun x => x.1 ++ x.2.left) ++ tail ∧ (∀ b B, s.blk b = some B → b ≠ q.ptr.blk → ¬ own t b → s'.blk b = some B) ∧
      (∀ x ∈ xs, ∀ b, x.2.owns b → ∃ B, s'.blk b = some B ∧ B.live = false) ∧
      (q'.ptr.blk = q.ptr.blk ∨ s.blk q'.ptr.blk = none) ∧ LoopEnds it ok n xs t1 s' q' tail (Seq.extendIter A chk T it n t (s, q)) := Hist.extendIter_spec hT.lawful hw hL A n hh hok hap

/-- The number of calls observed does not matter: once the loop has ended, the outcome is the same however long one waits. -/
theorem C61_cutoff (A : Allocator) (n n' : Nat) (t : τ) (x : St × SeqS w) (hn : ∀ t' x', Seq.extendIter A chk T it n t x ≠ .ok (some t') x') (hle : n ≤ n') :
    Seq.extendIter A chk T it n' t x = Seq.extendIter A chk T it n t x := by
  obtain ⟨k, rfl⟩ := Nat.exists_eq_add_of_le hle
  exact Seq.extendIter_more A n k t x hn

/-- For an iterator over a list of items this is the `extend` of C48. -/
theorem C61_list (A : Allocator) (own : Bool) (is : List (Init w)) (x : St × SeqS w) :
    Seq.extendIter A chk T (.ofList w own) (is.length + 1) is x = (Seq.extend A chk T own is x).bind fun _ x => .ok none x := Seq.extendIter_ofList A own is x

/-- `collect`: if the iterator ends, a sequence holding exactly the values of the items it returned, in order. If `next` or a push panics, the iterator and then the unfinished sequence
have been dropped: the values pushed have been destroyed in order and the sequence's storage is freed. -/
theorem C61_collect (hT : LibType T) (hw : 8 ≤ w) (hL : ItemIterLawful T it ok fp own) (A : Allocator) (n : Nat) {t : τ} (s : St) (q0 : SeqS w) (hok : ok t s) :
    ∃ xs t1 s' q' h' m' tail, Yielded it ok t xs t1 ∧ h'.map (fun e => some e.2) = xs.map (fun x => x.2.val) ∧ s'.log = s.log ++ xs.flatMap (fun x => x.1 ++ x.2.left) ++ tail ∧
      (∀ b B, s.blk b = some B → ¬ own t b → s'.blk b = some B) ∧ Hist T chk s' q' h' m' false ∧
      ((∃ r, Seq.fromIterator A chk T it n t (s, q0) = .ok r (s', q') ∧ LoopEnds it ok n xs t1 s' q' tail (.ok r (s', q'))) ∨
       (∃ msg s2 q2, Seq.fromIterator A chk T it n t (s, q0) = .panic msg (s2, q2) ∧ LoopEnds it ok n xs t1 s' q' tail (.panic msg (s', q')) ∧
         s2.log = s'.log ++ h'.flatMap (fun e => T.drops e.2) ∧ (∀ b, b ≠ q'.ptr.blk → s2.blk b = s'.blk b) ∧
         (Seq.capacityInOffsets q' ≠ 0 → s.blk q'.ptr.blk = none ∧ ∃ B, s2.blk q'.ptr.blk = some B ∧ B.live = false))) := by
  have hn : Hist T chk s (Seq.new T) [] 0 false := Hist.new s
  have h0 : (Seq.new T).ptr.blk = 0 := rfl
  obtain ⟨xs, t1, s', q', h', m', tail, y, v, hh, l, f, _, pt, le⟩ := C61_extend hT hw hL A n hn hok fun hb => hL.exist t s _ hok hb (by rw [h0]; rfl)
  refine ⟨xs, t1, s', q', h', m', tail, y, v, l, fun b B hB hb => f b B hB (fun h => ?_) hb, by simpa using hh, ?_⟩
  · rw [h, h0] at hB; cases hB
  · have e : Seq.fromIterator A chk T it n t (s, q0) = onUnwind (Seq.extendIter A chk T it n t) (Seq.drop chk T) (s, Seq.new T) := by
      simp only [Seq.fromIterator, bind_apply, putQ, Res.bind_ok]
    have hh' : Hist T chk s' q' h' m' false := by simpa using hh
    obtain ⟨s2, q2, d1, d2, d3, d4⟩ := C29_drop hT hw hh'
    have hfresh : Seq.capacityInOffsets q' ≠ 0 → s.blk q'.ptr.blk = none ∧ ∃ B, s2.blk q'.ptr.blk = some B ∧ B.live = false := by
      intro hc
      refine ⟨?_, d4 hc⟩
      rcases pt with h | h
      · rw [h, h0]; rfl
      · exact h
    generalize hr : Seq.extendIter A chk T it n t (s, Seq.new T) = r at le
    cases le with
    | running g1 => exact .inl ⟨_, by rw [e, onUnwind_ok hr], .running g1⟩
    | finished g1 g2 g3 => exact .inl ⟨_, by rw [e, onUnwind_ok hr], .finished g1 g2 g3⟩
    | nextPanics g1 g2 g3 => exact .inr ⟨_, s2, q2, by rw [e, onUnwind_panic hr d1], .nextPanics g1 g2 g3, d2, d3, hfresh⟩
    | pushPanics g1 g2 g3 g4 g5 => exact .inr ⟨_, s2, q2, by rw [e, onUnwind_panic hr d1], .pushPanics g1 g2 g3 g4 g5, d2, d3, hfresh⟩

/-- Mapping a function over the references to the elements of another sequence. -/
theorem extend_mapRefs (hT : Lawful T) (hw : 8 ≤ w) {f : Ptr → V → Layout w → M (Init w)} {fv : V → Option V} (hf : MapFn T f fv) (A : Allocator) {chk' : Bool} {q1 : SeqS w}
    {h1 : List (BitVec w × V)} {m1 : Nat} {k1 : Bool} (hs : Hist T chk' s q1 h1 m1 k1) (hh : Hist T chk s q h m k) (hne : Seq.capacityInOffsets q1 ≠ 0 → q1.ptr.blk ≠ q.ptr.blk) :
    ∃ g : List (V × Layout w), g.map (·.1) = h1.map (·.2) ∧
    ((∃ s' q' h' m', Seq.extendIter A chk T (.mapRefs T f) (h1.length + 1) (Seq.iter q1, g) (s, q) = .ok none (s', q') ∧ h'.map (fun e => some e.2) = h1.map (fun e => fv e.2) ∧
      Hist T chk s' q' (h ++ h') m' k ∧ Hist T chk' s' q1 h1 m1 k1 ∧ s'.log = s.log) ∨
     (∃ i o v msg s' q' h' m', Seq.extendIter A chk T (.mapRefs T f) (h1.length + 1) (Seq.iter q1, g) (s, q) = .panic msg (s', q') ∧ h1[i]? = some (o, v) ∧
      h'.map (fun e => some e.2) = (h1.take i).map (fun e => fv e.2) ∧ Hist T chk s' q' (h ++ h') m' k ∧ Hist T chk' s' q1 h1 m1 k1 ∧ s'.log = s.log)) := by
  obtain ⟨g, hok, hg⟩ := hs.mapOk hT hw
  refine ⟨g, hg, ?_⟩
  have hcap : g ≠ [] → Seq.capacityInOffsets q1 ≠ 0 := by
    intro hgne h0
    obtain ⟨es, i⟩ := hs.inv hT hw
    have p1 := i.inv.packed.length_le hT.align_pow2.pos
    have p2 := i.inv.le
    have p3 : es.length = h1.length := by rw [← i.entries]; simp
    have p4 : g.length = h1.length := by simpa using congrArg List.length hg
    have p5 := List.length_pos_iff.2 hgne
    have p6 : q1.cap.toNat = 0 := by rw [show q1.cap = 0 from h0]; simp
    omega
  obtain ⟨xs, t1, s', q', h', m', tail, y, v, hh', l, fr, _, _, le⟩ := Hist.extendIter_spec hT hw (mapRefs_lawful hT hw hf) A (h1.length + 1) hh hok
    (fun hb => hne (hcap hb.1) hb.2.symm)
  obtain ⟨d, y1, y2, y3, y4⟩ := mapRefs_yielded hT hw hf y
  have hlen : g.length = h1.length := by simpa using congrArg List.length hg
  have hsrc : Hist T chk' s' q1 h1 m1 k1 := by
    refine hs.other fun b hb => ?_
    subst hb
    by_cases h0 : Seq.capacityInOffsets q1 = 0
    · obtain ⟨es, i⟩ := hs.inv hT hw
      rw [i.inv.dang (by rw [show q1.cap = 0 from h0]; simp)]; rfl
    · rcases hs.ptr_exists hT hw with h' | ⟨B, hB⟩
      · rw [h']; rfl
      · rw [hB]; exact fr _ _ hB (hne h0) fun h => h
  have hlog0 : xs.flatMap (fun x => x.1 ++ x.2.left) = [] := by
    rw [List.flatMap_eq_nil_iff]
    intro x hx
    obtain ⟨a1, _, a3, _⟩ := y4 x hx
    rw [a1, a3]; rfl
  rw [hlog0, List.append_nil] at l
  have hvals : ∀ d rest, g = d ++ rest → xs.map (fun x => x.2.val) = d.map (fun x => fv x.1) → h'.map (fun e => some e.2) = (h1.take d.length).map (fun e => fv e.2) := by
    intro d rest e1 e2
    rw [v, e2]
    have e3 : d.map (·.1) = (h1.take d.length).map (·.2) := by
      rw [List.map_take, ← hg, e1, List.map_append, List.take_left' (by simp)]
    have := congrArg (List.map fv) e3
    simpa [Function.comp_def] using this
  have y1' : g = d ++ t1.2 := y1
  generalize hr : Seq.extendIter A chk T (.mapRefs T f) (h1.length + 1) (Seq.iter q1, g) (s, q) = r at le
  cases le with
  | running g1 =>
    have := congrArg List.length y1'
    rw [List.length_append] at this
    omega
  | finished g1 g2 g3 =>
    obtain ⟨rfl, ⟨_, e⟩ | ⟨I, v, l, g, e, _⟩⟩ := mapRefs_done hT hw hf g2
    · rw [e, List.append_nil] at y1'
      have hv := hvals d [] (by simpa using y1') y2
      rw [← y1', hlen, List.take_length] at hv
      obtain ⟨g4, g5⟩ := g3
      have g5' := g5
      simp only [ItemIter.mapRefs, pure_apply, Res.ok.injEq] at g4
      rw [g4.2] at g5'
      have : _ = [] := List.self_eq_append_right.1 g5'
      subst this
      exact .inl ⟨s', q', h', m', rfl, hv, hh', hsrc, by simpa using l⟩
    · cases e
  | nextPanics g1 g2 g3 =>
    obtain ⟨rfl, ⟨e, _⟩ | ⟨I, v, l, g, e, _⟩⟩ := mapRefs_done hT hw hf g2 <;> cases e
  | pushPanics g1 g2 g3 g4 g5 =>
    obtain ⟨rfl, ⟨e, _⟩ | ⟨J, v, l', g', e, e1, e2, e3, e4⟩⟩ := mapRefs_done hT hw hf g2
    · cases e
    · cases e
      obtain ⟨g6, g7⟩ := g4
      simp only [ItemIter.mapRefs, pure_apply, Res.ok.injEq] at g6
      rw [g6.2] at g7
      have : _ = [] := List.self_eq_append_right.1 g7
      subst this
      have hget : h1.map (·.2) = d.map (·.1) ++ v :: g'.map (·.1) := by rw [← hg, y1', e1]; simp
      have hat : (h1.map (·.2))[d.length]? = some v := by rw [hget]; simp
      rw [List.getElem?_map] at hat
      obtain ⟨⟨o, v'⟩, hat1, rfl⟩ := Option.map_eq_some_iff.1 hat
      refine .inr ⟨d.length, o, v', _, s', q', h', m', rfl, hat1, hvals d _ y1' y2, hh', hsrc, ?_⟩
      rcases g3 with rfl | ⟨_, rfl⟩
      · simpa [e4.1] using l
      · simpa [e4.2.2] using l

/-- Cloning a whole sequence, `dst.extend(src.iter().map(|x| x.vclone()))`: after `h1.length + 1` calls of `next` it has ended. Either `dst` holds, after its own values, exactly the clones of
the values of `src`, in order; or a clone or a push panicked at some element and `dst` holds the clones of those before it. In both cases `src` still has its values, and no destructor has run. -/
theorem C61_clone_all {C : VClone w} (hC : LibClone T C) (hw : 8 ≤ w) (A : Allocator) {chk' : Bool} {q1 : SeqS w} {h1 : List (BitVec w × V)} {m1 : Nat} {k1 : Bool}
    (hs : Hist T chk' s q1 h1 m1 k1) (hh : Hist T chk s q h m k) (hne : Seq.capacityInOffsets q1 ≠ 0 → q1.ptr.blk ≠ q.ptr.blk) :
    ∃ g : List (V × Layout w), g.map (·.1) = h1.map (·.2) ∧
    ((∃ s' q' h' m', Seq.extendIter A chk T (.mapRefs T fun p v _ => C.vclone p v) (h1.length + 1) (Seq.iter q1, g) (s, q) = .ok none (s', q') ∧
      h'.map (fun e => some e.2) = h1.map (fun e => C.cloneV e.2) ∧ Hist T chk s' q' (h ++ h') m' k ∧ Hist T chk' s' q1 h1 m1 k1 ∧ s'.log = s.log) ∨
     (∃ i o v msg s' q' h' m', Seq.extendIter A chk T (.mapRefs T fun p v _ => C.vclone p v) (h1.length + 1) (Seq.iter q1, g) (s, q) = .panic msg (s', q') ∧ h1[i]? = some (o, v) ∧
      h'.map (fun e => some e.2) = (h1.take i).map (fun e => C.cloneV e.2) ∧ Hist T chk s' q' (h ++ h') m' k ∧ Hist T chk' s' q1 h1 m1 k1 ∧ s'.log = s.log)) :=
  extend_mapRefs hC.lib.1.lawful hw (mapFn_vclone hC.lib.2) A hs hh hne

/-- The same for copies, `dst.extend(src.iter().map(|x| x.vcopy()))`. -/
theorem C61_copy_all (hT : LibType T) (hw : 8 ≤ w) (A : Allocator) {chk' : Bool} {q1 : SeqS w} {h1 : List (BitVec w × V)} {m1 : Nat} {k1 : Bool}
    (hs : Hist T chk' s q1 h1 m1 k1) (hh : Hist T chk s q h m k) (hne : Seq.capacityInOffsets q1 ≠ 0 → q1.ptr.blk ≠ q.ptr.blk) :
    ∃ g : List (V × Layout w), g.map (·.1) = h1.map (·.2) ∧
    ((∃ s' q' h' m', Seq.extendIter A chk T (.mapRefs T fun p v l => pure (VCopier T p v l)) (h1.length + 1) (Seq.iter q1, g) (s, q) = .ok none (s', q') ∧
      h'.map (·.2) = h1.map (·.2) ∧ Hist T chk s' q' (h ++ h') m' k ∧ Hist T chk' s' q1 h1 m1 k1 ∧ s'.log = s.log) ∨
     (∃ i o v msg s' q' h' m', Seq.extendIter A chk T (.mapRefs T fun p v l => pure (VCopier T p v l)) (h1.length + 1) (Seq.iter q1, g) (s, q) = .panic msg (s', q') ∧ h1[i]? = some (o, v) ∧
      h'.map (·.2) = (h1.take i).map (·.2) ∧ Hist T chk s' q' (h ++ h') m' k ∧ Hist T chk' s' q1 h1 m1 k1 ∧ s'.log = s.log)) := by
  have inj : ∀ {a b : List (BitVec w × V)}, a.map (fun e => some e.2) = b.map (fun e => some e.2) → a.map (·.2) = b.map (·.2) := by
    intro a b e
    have h := congrArg (List.filterMap id) e
    simpa [List.filterMap_map, Function.comp_def, List.filterMap_eq_map'] using h
  obtain ⟨g, hg, h⟩ := extend_mapRefs hT.lawful hw (mapFn_vcopy hT.lawful) A hs hh hne
  refine ⟨g, hg, ?_⟩
  rcases h with ⟨s', q', h', m', e1, e2, e3⟩ | ⟨i, o, v, msg, s', q', h', m', e1, e2, e3, e4⟩
  · exact .inl ⟨s', q', h', m', e1, inj e2, e3⟩
  · exact .inr ⟨i, o, v, msg, s', q', h', m', e1, e2, inj e3, e4⟩

section
variable {owes : τ → List Event} {new : List Event → Init w → List Event} {made : Init w → List Event}

theorem Yielded.accounts (ha : IterAccounts T it ok owes new made) {t t1 : τ} {xs} (h : Yielded it ok t xs t1) :
    (xs.flatMap (fun x => x.1 ++ x.2.owes) ++ owes t1).Perm (owes t ++ xs.flatMap fun x => new x.1 x.2) ∧ ∀ x ∈ xs, Accounts T x.2 x.2.owes (made x.2) := by
  induction h with
  | nil => exact ⟨by simp, by simp⟩
  | cons hA _ ih =>
    obtain ⟨a1, a2⟩ := ha.item _ _ _ _ _ _ hA
    refine ⟨List.perm_iff_count.2 fun a => ?_, fun x hx => ?_⟩
    · have h1 := List.perm_iff_count.1 ih.1 a
      have h2 := List.perm_iff_count.1 a2 a
      simp only [List.flatMap_cons, List.count_append] at h1 h2 ⊢
      omega
    · rcases List.mem_cons.1 hx with rfl | hx
      · exact a1
      · exact ih.2 x hx

theorem Yielded.snoc {t t1 t2 : τ} {xs} (h : Yielded it ok t xs t1) {s1 s2 : St} {I : Init w} {ev : List Event} (hA : Answers it ok t1 s1 (.item I) ev t2 s2) :
    Yielded it ok t (xs ++ [(ev, I)]) t2 := by
  induction h with
  | nil => exact .cons hA .nil
  | cons hB _ ih => exact .cons hB (ih hA)

theorem count_flatMap_append {α : Type} (f g : α → List Event) (a : Event) : ∀ xs : List α, (xs.flatMap fun x => f x ++ g x).count a = (xs.flatMap f).count a + (xs.flatMap g).count a
  | [] => by simp
  | x :: xs => by
    have := count_flatMap_append f g a xs
    simp only [List.flatMap_cons, List.count_append] at this ⊢
    omega

theorem pushed_accounts : ∀ {xs : List (List Event × Init w)} {vs : List V}, (∀ x ∈ xs, Accounts T x.2 x.2.owes (made x.2)) → vs.map some = xs.map (fun x => x.2.val) → ∀ a,
    (xs.flatMap (fun x => x.1 ++ x.2.left)).count a + (vs.flatMap T.drops).count a = (xs.flatMap (fun x => x.1 ++ x.2.owes)).count a + (xs.flatMap fun x => made x.2).count a
  | [], vs, _, h, a => by cases vs <;> simp at h ⊢
  | x :: xs, [], _, h, a => by simp at h
  | x :: xs, v :: vs, hi, h, a => by
    simp only [List.map_cons, List.cons.injEq] at h
    have h1 := pushed_accounts (fun y hy => hi y (by simp [hy])) h.2 a
    have h2 := List.perm_iff_count.1 ((hi x (by simp)).sums.ok v h.1.symm) a
    simp only [List.flatMap_cons, List.count_append] at h1 h2 ⊢
    omega

/-- Nothing is lost and nothing is destroyed twice: `extend` with any iterator, then dropping the sequence. If the iterator ended: every value that was in the sequence, held by the iterator,
made during its calls of `next`, or made by the items has been destroyed exactly once. If `next` or a push panicked: no such value has been destroyed twice. -/
theorem C61_accounts (hT : LibType T) (hw : 8 ≤ w) (hL : ItemIterLawful T it ok fp own) (ha : IterAccounts T it ok owes new made) (A : Allocator) (n : Nat) {t : τ}
    (hh : Hist T chk s q h m k) (hok : ok t s) (hap : ¬ fp t q.ptr.blk) :
    (∃ xs t1 s1 q1, Seq.extendIter A chk T it n t (s, q) = .ok (some t1) (s1, q1) ∧ Yielded it ok t xs t1 ∧ xs.length = n) ∨
    (∃ xs t1 s1 q1 s2 q2 es, Seq.extendIter A chk T it n t (s, q) = .ok none (s1, q1) ∧ Yielded it ok t xs t1 ∧ Seq.drop chk T (s1, q1) = .ok () (s2, q2) ∧ s2.log = s.log ++ es ∧
      es.Perm (h.flatMap (fun e => T.drops e.2) ++ (owes t ++ xs.flatMap fun x => new x.1 x.2 ++ made x.2))) ∨
    (∃ xs t1 msg s1 q1 s2 q2 es, Seq.extendIter A chk T it n t (s, q) = .panic msg (s1, q1) ∧ Yielded it ok t xs t1 ∧ Seq.drop chk T (s1, q1) = .ok () (s2, q2) ∧
      s2.log = s.log ++ es ∧ AtMost es (h.flatMap (fun e => T.drops e.2) ++ (owes t ++ xs.flatMap fun x => new x.1 x.2 ++ made x.2))) := by
  obtain ⟨xs, t1, s', q', h', m', tail, y, v, hh', l, _, _, _, le⟩ := C61_extend hT hw hL A n hh hok hap
  obtain ⟨s2, q2, d1, d2, _⟩ := C29_drop hT hw hh'
  obtain ⟨y1, y2⟩ := y.accounts ha
  have hp := pushed_accounts (T := T) (vs := h'.map (·.2)) y2 (by simpa [Function.comp_def] using v)
  have hlog : s2.log = s.log ++ (xs.flatMap (fun x => x.1 ++ x.2.left) ++ tail ++ (h ++ h').flatMap fun e => T.drops e.2) := by rw [d2, l]; simp
  have hsum : ∀ a, (xs.flatMap fun x => new x.1 x.2 ++ made x.2).count a = (xs.flatMap fun x => new x.1 x.2).count a + (xs.flatMap fun x => made x.2).count a := by
    intro a
    exact count_flatMap_append _ _ a xs
  generalize hr : Seq.extendIter A chk T it n t (s, q) = r at le
  cases le with
  | running g1 => exact .inl ⟨xs, t1, s', q', rfl, y, g1⟩
  | finished g1 g2 g3 =>
    refine .inr (.inl ⟨xs, t1, s', q', s2, q2, _, rfl, y, d1, hlog, List.perm_iff_count.2 fun a => ?_⟩)
    have c1 := List.perm_iff_count.1 (ha.done _ _ _ _ _ g2) a
    have c2 := List.perm_iff_count.1 (ha.drop _ _ _ _ g3) a
    have c3 := List.perm_iff_count.1 y1 a
    have c4 := hp a
    have c5 := hsum a
    simp only [List.flatMap_append, List.flatMap_map, List.count_append] at c1 c2 c3 c4 c5 ⊢
    omega
  | nextPanics g1 g2 g3 =>
    refine .inr (.inr ⟨xs, t1, _, s', q', s2, q2, _, rfl, y, d1, hlog, fun a => ?_⟩)
    have c1 := ha.panic _ _ _ _ _ _ g2 a
    have c2 := List.perm_iff_count.1 (ha.drop _ _ _ _ g3) a
    have c3 := List.perm_iff_count.1 y1 a
    have c4 := hp a
    have c5 := hsum a
    simp only [List.flatMap_append, List.flatMap_map, List.count_append] at c1 c2 c3 c4 c5 ⊢
    omega
  | @pushPanics t2 _ _ _ ev ev1 ev' I msg g1 g2 g3 g4 g5 =>
    obtain ⟨a1, a2⟩ := ha.item _ _ _ _ _ _ g2
    refine .inr (.inr ⟨xs ++ [(ev, I)], t2, _, s', q', s2, q2, _, rfl, ?_, d1, hlog, fun a => ?_⟩)
    · exact y.snoc g2
    · have c1 := List.perm_iff_count.1 a2 a
      have c2 := List.perm_iff_count.1 (ha.drop _ _ _ _ g4) a
      have c3 := List.perm_iff_count.1 y1 a
      have c4 := hp a
      have c5 := hsum a
      have c6 : ev1.count a ≤ (I.owes ++ made I).count a := by
        rcases g3 with rfl | ⟨hv, rfl⟩
        · rw [a1.sums.owes, List.count_append]; omega
        · exact a1.sums.panic hv a
      simp only [List.flatMap_append, List.flatMap_cons, List.flatMap_nil, List.append_nil, List.flatMap_map, List.count_append] at c1 c2 c3 c4 c5 c6 ⊢
      omega
end

namespace Demo

/-- A closure that makes two arrays and panics when called again. -/
def gen : Nat → ItemStep 64 × Nat
  | 0 => (.item (arrInit [1, 2, 3]), 1)
  | 1 => (.item (arrInit [4]), 2)
  | n + 2 => (.panic .user, n + 2)

theorem gen_item {t : Nat} {I : Init 64} (h : (gen t).1 = .item I) : I = arrInit [1, 2, 3] ∨ I = arrInit [4] := by
  rcases t with _ | _ | t <;> simp only [gen, ItemStep.item.injEq, reduceCtorEq] at h
  · exact .inl h.symm
  · exact .inr h.symm

theorem gen_lawful : ItemIterLawful ArrT (.ofFn 64 gen fun _ => [77]) (fun _ _ => True) (fun _ _ => False) (fun _ _ => False) := by
  refine ofFn_lawful (P := fun _ => True) _ (fun _ _ => trivial) fun t I _ hI => ?_
  have key : ∀ xs, ((arrInit xs).lay.map fun l => decide (0 < l.size.toNat)).getD true = true →
      InitLawful ArrT (arrInit xs) ∧ (∀ s, (arrInit xs).pre s) ∧ (∀ b, ¬ (arrInit xs).fp b) ∧ ∀ l, (arrInit xs).lay = some l → 0 < l.size.toNat := fun xs hz =>
    ⟨(arrInit_lib xs).lib.2, fun _ => trivial, fun _ h => h, (arr_pushArg xs st0 (Seq.new ArrT) hz).nonzero⟩
  rcases gen_item hI with rfl | rfl
  · exact key _ (by decide +kernel)
  · exact key _ (by decide +kernel)

/-- The premises of `C61_extend` are met by it, and all its conclusions are about this run: two items are pushed, then `next` panics, and the closure is dropped once (effect 77). -/
example : ∃ s' q' h' m', Seq.extendIter alloc true ArrT (.ofFn 64 gen fun _ => [77]) 3 0 (st0, Seq.new ArrT) = .panic .user (s', q') ∧
    Hist ArrT true s' q' h' m' false ∧ h'.map (·.2) = [elem [1, 2, 3], elem [4]] ∧ s'.log = [77] := by
  have hr : (match Seq.extendIter alloc true ArrT (.ofFn 64 gen fun _ => [77]) 3 0 (st0, Seq.new ArrT) with | .panic .user x => decide (x.1.log = [77] ∧ x.2.len.toNat = 2) | _ => false) = true := by
    decide +kernel
  obtain ⟨xs, t1, s', q', h', m', tail, y, v, hh, l, _, _, _, le⟩ := C61_extend ArrT_lib (by decide) gen_lawful alloc 3 (t := 0) (Hist.new (T := ArrT) (chk := true) st0) trivial (fun h => h)
  have hnext : ∀ {t s o ev t' s'}, Answers (.ofFn 64 gen fun _ => [77]) (fun _ _ => True) t s o ev t' s' → gen t = (o, t') := by
    rintro t s o ev t' s' ⟨_, e, _⟩
    simp only [ItemIter.ofFn, pure_apply, Res.ok.injEq] at e
    exact e.1
  generalize Seq.extendIter alloc true ArrT (.ofFn 64 gen fun _ => [77]) 3 0 (st0, Seq.new ArrT) = r at hr le
  have hfin : ∀ {n}, xs.length = n → q'.len.toNat = 2 → h'.map (·.2) = [elem [1, 2, 3], elem [4]] := by
    intro n hn h2
    obtain ⟨es, i⟩ := hh.inv ArrT_lib.lawful (by decide)
    have l1 : h'.length = 2 := by
      have := i.inv.len
      have e := congrArg List.length i.entries
      simp only [List.length_map, List.nil_append] at e
      omega
    have l2 : xs.length = 2 := by have := congrArg List.length v; simpa [l1] using this.symm
    match y, l2, v with
    | .cons hA (.cons hB .nil), _, v =>
      have eA := hnext hA
      have eB := hnext hB
      cases eA
      cases eB
      match h', l1, v with
      | [a, b], _, v =>
        simp only [List.map_cons, List.map_nil, List.cons.injEq, and_true] at v
        obtain ⟨v1, v2⟩ := v
        simp only [List.map_cons, List.map_nil, List.cons.injEq, and_true]
        exact ⟨Option.some.inj (v1.trans rfl), Option.some.inj (v2.trans rfl)⟩
  cases le with
  | running g => cases hr
  | finished g1 g2 g3 => cases hr
  | @nextPanics _ _ _ _ _ msg g1 g2 g3 =>
    cases msg <;> simp only [reduceCtorEq, Bool.false_eq_true, decide_eq_true_eq] at hr
    exact ⟨s', q', h', m', rfl, by simpa using hh, hfin rfl hr.2, hr.1⟩
  | @pushPanics _ _ _ _ _ _ _ _ msg g1 g2 g3 g4 g5 =>
    cases msg <;> simp only [reduceCtorEq, Bool.false_eq_true, decide_eq_true_eq] at hr
    exact ⟨s', q', h', m', rfl, by simpa using hh, hfin rfl hr.2, hr.1⟩

/-- The account of the closure: it holds the value with effect 77, and makes what the items hold. -/
example : IterAccounts ArrT (.ofFn 64 gen fun _ => [77]) (fun _ _ => True) (fun _ => [77]) (fun _ I => I.owes) (fun _ => []) where
  item := by
    rintro t s I ev t' s' ⟨_, e, l⟩
    simp only [ItemIter.ofFn, pure_apply, Res.ok.injEq] at e
    obtain ⟨e, rfl⟩ := e
    have hev : ev = [] := by simpa using l
    subst hev
    refine ⟨?_, by simpa using List.perm_append_comm⟩
    have key : ∀ xs : List Nat, Accounts ArrT (arrInit xs) (arrInit xs).owes [] := fun xs => .sized .moveFrom
    rcases gen_item (by rw [e]) with rfl | rfl <;> exact key _
  done := by
    rintro t s ev t' s' ⟨_, e, l⟩
    simp only [ItemIter.ofFn, pure_apply, Res.ok.injEq] at e
    obtain ⟨_, rfl⟩ := e
    have hev : ev = [] := by simpa using l
    subst hev
    exact .refl _
  panic := by
    rintro t s m ev t' s' ⟨_, e, l⟩
    simp only [ItemIter.ofFn, pure_apply, Res.ok.injEq] at e
    obtain ⟨_, rfl⟩ := e
    have hev : ev = [] := by simpa using l
    subst hev
    exact fun _ => Nat.le_refl _
  drop := by
    rintro t s ev s' ⟨e, l⟩
    simp only [ItemIter.ofFn, emit_apply, Res.ok.injEq, true_and] at e
    subst e
    have hev : ev = [77] := by simpa using l.symm
    subst hev
    exact .refl _

/-- An iterator that never ends is still running after any number of calls, unless a push panics; `C61_extend` applies to it as well. -/
example : ItemIterLawful ArrT (.ofFn 64 (fun n : Nat => (.item (arrInit [4]), n + 1)) fun _ => []) (fun _ _ => True) (fun _ _ => False) (fun _ _ => False) := by
  refine ofFn_lawful (P := fun _ => True) _ (fun _ _ => trivial) fun t I _ hI => ?_
  simp only [ItemStep.item.injEq] at hI
  subst hI
  exact ⟨(arrInit_lib _).lib.2, fun _ => trivial, fun _ h => h, (arr_pushArg [4] st0 (Seq.new ArrT) (by decide +kernel)).nonzero⟩

/-- Two different sequences, as `C61_clone_all` and `C61_copy_all` require: the one of `hist2`, with two elements, and a new one. -/
example : ∃ m, Hist ArrT true σ2.1 σ2.2 [(0, elem [1, 2, 3]), (4, elem [4])] m false ∧ Hist ArrT false σ2.1 (Seq.new ArrT) [] 0 false ∧ σ2.2.ptr.blk ≠ (Seq.new ArrT).ptr.blk := by
  obtain ⟨m, h⟩ := hist2
  exact ⟨m, h, Hist.new _, by decide +kernel⟩

end Demo
end Varlen
