import Verif.Proofs.ClientPanic
import Verif.Props.Client
import Verif.Props.DropPanic
/-!
# C80: whole programs whose values have panicking destructors

The theorems of C56 for the worlds that programs get to when an arbitrary set of destructors panics (`PReach boom`, see Spec/ClientPanic.lean).
-/
namespace Varlen
variable {w : Nat} {W : World w} {boom : DP.Boom}

theorem afterDrop_calm {r : Res St Unit} {s' : St} {ok pn pn' : St → World w} {W' : World w} (hr : r = .ok () s') (h : afterDrop r ok pn = .next W') : after r (fun _ => ok) pn' = .next W' := by
  subst hr
  simp only [afterDrop] at h
  injection h with h
  subst h; rfl

theorem run_never (gs : List DP.Group) : (DP.run (fun _ _ => false) gs).2 = .done := (DP.run_done_iff _ gs).2 fun _ _ _ _ _ => rfl

theorem dropElems_never {T : DP.Ty w} (hT : DP.LibT T) : DP.OwnedElems.drop (fun _ _ => false) T = OwnedElems.drop T.T := by
  have ho := (C58_base_model hT).2.2.2.1
  have hl : ∀ n it, DP.OwnedElems.dropLoop (fun _ _ => false) T n it = OwnedElems.dropLoop T.T n it := by
    intro n
    induction n with
    | zero => intro it; rfl
    | succ n ih =>
      intro it
      simp only [DP.OwnedElems.dropLoop, OwnedElems.dropLoop, ho, ih]
      rfl
  funext it
  simp only [DP.OwnedElems.drop, OwnedElems.drop, hl]

/-- If no destructor panics, a step is one of C56. -/
theorem PStep.never (hw : 8 ≤ w) {W W' : World w} (hi : Inv W) {o : POutcome w} (h : PStep (fun _ _ => false) W o) (ho : o = .next W') : Step W (.next W') := by
  cases h with
  | @calm o hs =>
    cases o with
    | next W1 => injection ho with ho; subst ho; exact hs
    | ub k => cases ho
  | @dropBox T p v rest hT hp =>
    obtain ⟨_, l, hb⟩ := hi.ok _ (hp.mem_iff.2 (List.mem_cons_self ..))
    obtain ⟨s', e, _⟩ := DP.VBox.drop_spec hT.law (fun _ _ => false) hb
    rw [run_never] at e
    have := Step.dropBox hp
    rw [← (C58_base_model hT).2.2.1] at this
    rwa [afterDrop_calm e ho] at this
  | @dropOwned T p v rest hT hp =>
    obtain ⟨_, ⟨l, hv⟩, hb⟩ := hi.ok _ (hp.mem_iff.2 (List.mem_cons_self ..))
    obtain ⟨s', e, _⟩ := DP.Owned.drop_ends hT.law (fun _ _ => false) hv
    rw [run_never] at e
    have := Step.dropOwned hp
    rw [← (C58_base_model hT).2.2.2.1] at this
    rwa [afterDrop_calm e ho] at this
  | @dropSeq chk T q h t rest hT hp =>
    obtain ⟨_, m, hh⟩ := hi.ok _ (hp.mem_iff.2 (List.mem_cons_self ..))
    obtain ⟨es, i⟩ := hh.inv hT.law.law hw
    obtain ⟨s', q', e, _⟩ := DP.Seq.drop_ends hT.law hw (fun _ _ => false) i.inv
    rw [run_never] at e
    have := Step.dropSeq hp
    rw [← (C58_base_model hT).2.2.2.2] at this
    rw [e] at this ho
    cases ho
    exact this
  | @dropItem chk T q items items' it p v rest hT hp hpm =>
    obtain ⟨hL, xs, ys, hd⟩ := hi.ok _ (hp.mem_iff.2 (List.mem_cons_self ..))
    obtain ⟨x, xs', rfl, rfl, rfl, hperm⟩ := hd.pick hpm
    obtain ⟨s', e, _⟩ := DP.Owned.drop_ends hT.law (fun _ _ => false) (hd.valid x (hperm.mem_iff.2 (by simp)))
    rw [run_never] at e
    have := Step.dropItem hp hpm
    rw [← (C58_base_model hT).2.2.2.1] at this
    rwa [afterDrop_calm e ho] at this
  | @dropIter chk T q items it vs rest hT hp =>
    obtain ⟨hL, xs, ys, hd⟩ := hi.ok _ (hp.mem_iff.2 (List.mem_cons_self ..))
    obtain ⟨rfl, cur, fin, h3, h4⟩ := hd.iter it vs rfl
    obtain ⟨s', e, _⟩ := DP.OwnedElems.drop_ends hT.law hw (fun _ _ => false) h3
    rw [run_never] at e
    have := Step.dropIter hp
    rw [← dropElems_never hT] at this
    rwa [afterDrop_calm e ho] at this

/-- Every world of C56 is one of these, whatever set of destructors panics; if the set is empty they are the same. -/
theorem C80_base_model (hw : 8 ≤ w) : (Reach W → PReach boom W) ∧ (PReach (fun _ _ => false) W → Reach W) := by
  refine ⟨fun h => ?_, fun h => ?_⟩
  · induction h with
    | start s => exact .start s
    | step _ hs ih => exact .step ih (.calm hs)
  · induction h with
    | start s => exact .start s
    | step hr hs ih => exact .step ih (hs.never hw (ih.inv hw) rfl)

/-- Whatever a program has done so far, and whatever it does next: the only undefined behaviour there can be is that of `VBox::new` on a value of size zero or without memory (C42), as in C56. -/
theorem C80_defined (hw : 8 ≤ w) (hr : PReach boom W) {k : UB} (hs : PStep boom W (.ub k)) :
    (k = .nullPtr ∨ k = .allocZero) ∧ ∃ (A : Allocator) (T : VarLen w) (I : Init w), VBox.new A T I W.st = .ub k := by
  rcases hs.sound hw (hr.inv hw) with ⟨k', h1, h2, h3⟩ | h | ⟨W', h, _⟩
  · cases h2
    exact ⟨h1.symm, h3⟩
  · cases h
  · cases h

theorem group_aborted {g : DP.Group} : ∀ {u : Bool}, (DP.group boom u g).2 = .aborted → 2 ≤ (g.filter fun x => x.1.needsDrop && boom x.1 x.2).length + (if u then 1 else 0) := by
  induction g with
  | nil => intro u h; cases u <;> cases h
  | cons x g ih =>
    obtain ⟨R, x⟩ := x
    intro u h
    cases hd : R.needsDrop
    · simp only [DP.group, hd, Bool.false_eq_true, if_false] at h
      have := ih h
      simpa [hd] using this
    · cases hb : boom R x
      · simp only [DP.group, hd, hb, Bool.false_eq_true, if_false, if_true] at h
        have := ih h
        simpa [hd, hb] using this
      · cases u
        · simp only [DP.group, hd, hb, Bool.false_eq_true, if_false, if_true] at h
          have := ih h
          simpa [hd, hb] using this
        · simp [hd, hb]

theorem run_aborted {gs : List DP.Group} (h : (DP.run boom gs).2 = .aborted) : ∃ g ∈ gs, 2 ≤ (g.filter fun x => x.1.needsDrop && boom x.1 x.2).length := by
  induction gs with
  | nil => cases h
  | cons g gs ih =>
    rw [DP.run] at h
    generalize hr : DP.group boom false g = r at h
    rcases r with ⟨es, _ | _ | _⟩
    · obtain ⟨g', hg', h'⟩ := ih h
      exact ⟨g', List.mem_cons_of_mem _ hg', h'⟩
    · cases h
    · exact ⟨g, List.mem_cons_self .., by simpa using group_aborted (u := false) (by rw [hr])⟩

theorem res_aborted {f : DP.Fate} {s : St} {ok panic : St → World w} (h : afterDrop (f.res s) ok panic = .aborted) : f = .aborted := by
  cases f with
  | aborted => rfl
  | done => cases h
  | panicked => cases h

/-- The drop of one object aborts the process only if two elements of one array in it have destructors that panic: panics in different fields, or elements of a sequence, do not add up (the first one skips the others).
(If the program itself drops a second object while unwinding from the first, a panic in the second also aborts; here these are two steps, and the worlds after the second are additional ones.) -/
theorem C80_abort (hw : 8 ≤ w) (hr : PReach boom W) (hs : PStep boom W .aborted) :
    ∃ h ∈ W.objs, ∃ (T : DP.Ty w) (v : V) (gs : List DP.Group), (T.T, v) ∈ h.vals ∧ DP.Plan T v gs ∧ ∃ g ∈ gs, 2 ≤ (g.filter fun x => x.1.needsDrop && boom x.1 x.2).length := by
  have hi := hr.inv hw
  have one : ∀ {T : DP.Ty w} {v : V} {l : Layout w} {s : St} {p : Ptr}, DP.LibT T → Valid T.T s p v l → (DP.run boom (T.plan v)).2 = .aborted →
      ∃ gs, DP.Plan T v gs ∧ ∃ g ∈ gs, 2 ≤ (g.filter fun x => x.1.needsDrop && boom x.1 x.2).length := by
    intro T v l s p hT hv hf
    obtain ⟨gs, hg⟩ := hT.plan_exists v l _ hv.rep
    rw [hg.eq] at hf
    exact ⟨gs, hg, run_aborted hf⟩
  have many : ∀ {T : DP.Ty w} {es : List (Elem w)} {s : St} {b : Ptr}, DP.LibT T → (∀ e ∈ es, Valid T.T s (e.at T.T b) e.v e.l) → (DP.run boom (es.flatMap fun e => T.plan e.v)).2 = .aborted →
      ∃ e ∈ es, ∃ gs, DP.Plan T e.v gs ∧ ∃ g ∈ gs, 2 ≤ (g.filter fun x => x.1.needsDrop && boom x.1 x.2).length := by
    intro T es s b hT hv hf
    obtain ⟨g, hg, h2⟩ := run_aborted hf
    obtain ⟨e, he, hg⟩ := List.mem_flatMap.1 hg
    obtain ⟨gs, hp⟩ := hT.plan_exists e.v e.l _ (hv e he).rep
    rw [hp.eq] at hg
    exact ⟨e, he, gs, hp, g, hg, h2⟩
  generalize ho : POutcome.aborted = o at hs
  cases hs with
  | @calm o hs => cases o <;> cases ho
  | @dropBox T p v rest hT hp =>
    have hm := hp.mem_iff.2 (List.mem_cons_self ..)
    obtain ⟨_, l, hb⟩ := hi.ok _ hm
    obtain ⟨s', e, _⟩ := DP.VBox.drop_spec hT.law boom hb
    rw [e] at ho
    obtain ⟨gs, h1, h2⟩ := one hT hb.valid (res_aborted ho.symm)
    exact ⟨_, hm, T, v, gs, by simp [Handle.vals], h1, h2⟩
  | @dropOwned T p v rest hT hp =>
    have hm := hp.mem_iff.2 (List.mem_cons_self ..)
    obtain ⟨_, ⟨l, hv⟩, hb⟩ := hi.ok _ hm
    obtain ⟨s', e, _⟩ := DP.Owned.drop_ends hT.law boom hv
    rw [e] at ho
    obtain ⟨gs, h1, h2⟩ := one hT hv (res_aborted ho.symm)
    exact ⟨_, hm, T, v, gs, by simp [Handle.vals], h1, h2⟩
  | @dropSeq chk T q h t rest hT hp =>
    have hm := hp.mem_iff.2 (List.mem_cons_self ..)
    obtain ⟨_, m, hh⟩ := hi.ok _ hm
    obtain ⟨es, i⟩ := hh.inv hT.law.law hw
    obtain ⟨s', q', e, _⟩ := DP.Seq.drop_ends hT.law hw boom i.inv
    rw [e] at ho
    have hf : (DP.run boom (es.flatMap fun e => T.plan e.v)).2 = .aborted := by
      generalize (DP.run boom (es.flatMap fun e => T.plan e.v)).2 = f at ho
      cases f with
      | aborted => rfl
      | done => cases ho
      | panicked => cases ho
    obtain ⟨x, hx, gs, h1, h2⟩ := many hT (i.inv.iterAt hT.law.law).valid hf
    refine ⟨_, hm, T, x.v, gs, ?_, h1, h2⟩
    rw [← i.entries]
    simp only [Handle.vals, List.map_map]
    exact List.mem_map.2 ⟨x, hx, rfl⟩
  | @dropItem chk T q items items' it p v rest hT hp hpm =>
    have hm := hp.mem_iff.2 (List.mem_cons_self ..)
    obtain ⟨hL, xs, ys, hd⟩ := hi.ok _ hm
    have hv : (T.T, v) ∈ (Handle.drain chk T.T q items it).vals := List.mem_append.2 (.inl (List.mem_map.2 ⟨(p, v), hpm.mem_iff.2 (List.mem_cons_self ..), rfl⟩))
    obtain ⟨x, xs', rfl, rfl, rfl, hperm⟩ := hd.pick hpm
    have hx := hd.valid x (hperm.mem_iff.2 (by simp))
    obtain ⟨s', e, _⟩ := DP.Owned.drop_ends hT.law boom hx
    rw [e] at ho
    obtain ⟨gs, h1, h2⟩ := one hT hx (res_aborted ho.symm)
    exact ⟨_, hm, T, x.v, gs, hv, h1, h2⟩
  | @dropIter chk T q items it vs rest hT hp =>
    have hm := hp.mem_iff.2 (List.mem_cons_self ..)
    obtain ⟨hL, xs, ys, hd⟩ := hi.ok _ hm
    obtain ⟨rfl, cur, fin, h3, h4⟩ := hd.iter it vs rfl
    obtain ⟨s', e, _⟩ := DP.OwnedElems.drop_ends hT.law hw boom h3
    rw [e] at ho
    obtain ⟨x, hx, gs, h1, h2⟩ := many hT h3.valid (res_aborted ho.symm)
    exact ⟨_, hm, T, x.v, gs, by simp only [Handle.vals, Option.elim, List.map_map]; exact List.mem_append.2 (.inr (List.mem_map.2 ⟨x, hx, rfl⟩)), h1, h2⟩

/-- Every object the program holds is intact, at every moment: whatever destructors panicked before. -/
theorem C80_intact (hw : 8 ≤ w) (hr : PReach boom W) : ∀ h ∈ W.objs, h.Intact W.st := fun h hh => ((hr.inv hw).ok h hh).intact hw

/-- No two objects share an allocation (`0` stands for none), and none is in memory of the program's own. -/
theorem C80_apart (hw : 8 ≤ w) (hr : PReach boom W) : W.objs.Pairwise (fun a b => a.blk = b.blk → a.blk = 0) ∧ ∀ h ∈ W.objs, ¬ W.ext h.blk := ⟨(hr.inv hw).apart, (hr.inv hw).foreign⟩

/-- No value is ever destroyed twice: the destructors that have run, together with those still owed for the values in objects, are among those of the values that came into existence. -/
theorem C80_at_most_once (hw : 8 ≤ w) (hr : PReach boom W) : AtMost (W.st.log ++ W.objs.flatMap Handle.drops) W.made := fun e => by
  rw [List.count_append]; exact (hr.inv hw).once e

/-- And none is lost, nor is memory, unless a panic occurred or the program forgot objects. -/
theorem C80_exactly_once (hw : 8 ≤ w) (hr : PReach boom W) (hl : W.lost = false) : (W.st.log ++ W.objs.flatMap Handle.drops).Perm W.made :=
  List.perm_iff_count.2 fun e => by rw [List.count_append]; exact (hr.inv hw).exact hl e

/-- Memory is lost only if a destructor panicked in dropping a box or a sequence, besides the ways of C56: panics in dropping owned values, and elements taken from sequences, lose none. -/
theorem C80_no_leak (hw : 8 ≤ w) (hr : PReach boom W) (hl : W.leak = false) {b : Nat} {B : Block} (hb : W.st.blk b = some B) (hlive : B.live = true) : W.ext b ∨ ∃ h ∈ W.objs, h.blk = b :=
  (hr.inv hw).noLeak hl b B hb hlive

namespace Demo

/-- Two boxes, `[1, 2, 3]` and `[4]`; the destructor of 2 panics (see Props/DropPanic.lean). -/
def pBoxA : Ptr := result ⟨0, 0⟩ (VBox.new alloc ArrT (arrInit [1, 2, 3])) st0
def psA : St := Demo.after (VBox.new alloc ArrT (arrInit [1, 2, 3])) st0
def pBoxB : Ptr := result ⟨0, 0⟩ (VBox.new alloc ArrT (arrInit [4])) psA
def psB : St := Demo.after (VBox.new alloc ArrT (arrInit [4])) psA
/-- The first box has been dropped; a panic propagated. -/
def psC : St := ((panicOf (DP.VBox.drop boom2 PArr pBoxA psB)).map (·.2)).getD st0
/-- The second has been dropped. -/
def psD : St := Demo.after (DP.VBox.drop boom2 PArr pBoxB) psC

theorem panicked_of {r : Res St Unit} {d s' : St} (h : (panicOf r).map (·.1) = some .user) (e : ((panicOf r).map (·.2)).getD d = s') : r = .panic .user s' := by
  cases r with
  | ok a s => cases h
  | ub k => cases h
  | panic m s => cases h; cases e; rfl

theorem pstep_next {W W' : World 64} {o : POutcome 64} (h : PStep boom2 W o) (e : o = .next W') : PStep boom2 W (.next W') := e ▸ h

theorem panicking1 : ∃ E, PReach boom2 (⟨psB, [.box ArrT pBoxB (elem [4]), .box ArrT pBoxA (elem [1, 2, 3])], [1, 2, 3, 4], false, false, E⟩ : World 64) := by
  have h : Reach _ := .step (.start st0) (step_ok (.newBox alloc (moved := []) (rest := []) (.refl _) (arrInit_arg (World.start 64 st0) [1, 2, 3] (by decide)))
    (run_eq ⟨0, 0⟩ (VBox.new alloc ArrT (arrInit [1, 2, 3])) st0 (by decide +kernel)))
  have h := Reach.step h (step_ok (.newBox alloc (moved := []) (.refl _) (arrInit_arg _ [4] (by decide)))
    (run_eq ⟨0, 0⟩ (VBox.new alloc ArrT (arrInit [4])) psA (by decide +kernel)))
  exact ⟨_, (C80_base_model (by decide)).1 h⟩

/-- After the panic the program holds the second box, and goes on. -/
theorem panicking2 : ∃ E, PReach boom2 (⟨psC, [.box ArrT pBoxB (elem [4])], [1, 2, 3, 4], true, true, E⟩ : World 64) := by
  obtain ⟨E, h⟩ := panicking1
  refine ⟨E, .step h (pstep_next (.dropBox (T := PArr) PArr_lib (.swap ..)) ?_)⟩
  show afterDrop (DP.VBox.drop boom2 PArr pBoxA psB) _ _ = _
  rw [panicked_of (by decide +kernel) (rfl : _ = psC)]
  rfl

example : ∃ l, BoxHas ArrT psC pBoxB (elem [4]) l := by
  obtain ⟨E, h⟩ := panicking2
  exact C80_intact (by decide) h _ (List.mem_singleton_self _)

/-- Then that box is dropped: it is destroyed and its memory is freed; that of the first box is lost, all its elements are destroyed. -/
theorem panicking3 : ∃ E, PReach boom2 (⟨psD, [], [1, 2, 3, 4], true, true, E⟩ : World 64) := by
  obtain ⟨E, h⟩ := panicking2
  refine ⟨E, .step h (pstep_next (.dropBox (T := PArr) PArr_lib (.refl _)) ?_)⟩
  show afterDrop (DP.VBox.drop boom2 PArr pBoxB psC) _ _ = _
  rw [run_unit (DP.VBox.drop boom2 PArr pBoxB) psC (by decide +kernel)]
  rfl

example : psD.log = [1, 2, 3, 4] ∧ psD.blocks.map (·.live) = [true, false] := by constructor <;> decide +kernel

-- with two panicking elements in one array the process is aborted
example : (panicOf (DP.VBox.drop (fun _ _ => true) PArr pBoxA psB)).map (·.1) = some .abort := by decide +kernel

end Demo

end Varlen
