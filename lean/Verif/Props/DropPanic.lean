import Verif.Proofs.DropPanicSet
import Verif.Proofs.Drops
import Verif.Props.Header
import Verif.Props.SeqDemo
/-!
# C58, C59: destructors that panic

Everywhere else destructors do not panic. Here any of them may (`boom`): Model/DropPanic.lean models again the functions that run destructors, Spec/DropPanic.lean states Rust's rules
(`group`, `run`, `each`, `assign`) and which `drop_in_place` calls destroying a value makes (`Plan`).
-/
namespace Varlen.DP
variable {w : Nat}

theorem LibT.libType {T : Ty w} (h : LibT T) : LibType T.T := by
  induction h with
  | fixedLen hR => exact .fixedLen hR
  | array hR hL => exact .array hR hL
  | str hw hL => exact .str hw hL
  | newtype _ ih => exact .newtype ih
  | tuple hne _ ih =>
    refine .tuple (by simpa using hne) ?_
    intro T hT
    obtain ⟨T', hT', rfl⟩ := List.mem_map.1 hT
    exact ih T' hT'
  | struct hh _ ih =>
    refine .struct hh ?_
    intro T hT
    obtain ⟨f, hf, e⟩ := List.mem_map.1 hT
    cases f <;> simp only [Fld.fld] at e <;> cases e
    exact ih _ hf

end Varlen.DP

namespace Varlen
open DP (LibT Boom Plan Plans run group each assign Group)
variable {w : Nat}

/-! ## C58 -/

/-- The types meant here are library types of the base model, and if no destructor panics, the programs are those of the base model. -/
theorem C58_base_model {T : DP.Ty w} (hT : LibT T) :
    LibType T.T ∧ T.vdrop (fun _ _ => false) = T.T.vdrop ∧ DP.VBox.drop (fun _ _ => false) T = VBox.drop T.T ∧ DP.Owned.drop (fun _ _ => false) T = Owned.drop T.T ∧
    (∀ chk, DP.Seq.drop (fun _ _ => false) chk T = Seq.drop chk T.T) := by
  have h : T.vdrop (fun _ _ => false) = T.T.vdrop := hT.calm
  have ho : DP.Owned.drop (fun _ _ => false) T = Owned.drop T.T := by
    funext p
    simp only [DP.Owned.drop, Owned.drop, h]
  have hl : ∀ n it, DP.OwnedElems.dropLoop (fun _ _ => false) T n it = OwnedElems.dropLoop T.T n it := by
    intro n
    induction n with
    | zero => intro it; rfl
    | succ n ih =>
      intro it
      simp only [DP.OwnedElems.dropLoop, OwnedElems.dropLoop, ho, ih]
      rfl
  refine ⟨hT.libType, h, ?_, ho, fun chk => ?_⟩
  · funext p
    simp only [DP.VBox.drop, VBox.drop, h]
  · simp only [DP.Seq.drop, Seq.drop, DP.OwnedElems.drop, OwnedElems.drop, hl]

/-- Every value of a type has a plan: the `drop_in_place` calls that destroying it takes. Carried out in full, these have exactly the effects that are owed for the value (C37). -/
theorem C58_plan {T : DP.Ty w} (hT : LibT T) {s : St} {p : Ptr} {v : V} {l : Layout w} (hv : Valid T.T s p v l) :
    ∃ gs, Plan T v gs ∧ Destroys T.T v (gs.flatten.map fun x => x.1.dtor x.2).flatten := by
  obtain ⟨gs, hg⟩ := hT.plan_exists v l _ hv.rep
  obtain ⟨es, he⟩ := hT.libType.destroys v l _ hv.rep
  refine ⟨gs, hg, ?_⟩
  have : es = (gs.flatten.map fun x => x.1.dtor x.2).flatten := by
    rw [← he.eq, hT.law.drops v l _ hv.rep, hg.eq, DP.owed, List.flatMap_def]; rfl
  rw [← this]; exact he

/-- Destroying a value in place when destructors may panic: what happens is exactly what the rule `run` says for its plan: it returns, propagates the panic or aborts; the effects are those of the destructors
that the rule runs; nothing outside the value's own bytes changes. It is never undefined behaviour. -/
theorem C58_vdrop {T : DP.Ty w} (hT : LibT T) (boom : Boom) {s : St} {p : Ptr} {v : V} {l : Layout w} (hv : Valid T.T s p v l) {gs : List Group} (hg : Plan T v gs) :
    ∃ s', T.vdrop boom p l s = (run boom gs).2.res s' ∧ s'.log = s.log ++ (run boom gs).1 ∧ Touch s s' p l.size.toNat (fun _ => False) := by
  obtain ⟨s', h1, h2, h3, _⟩ := hT.law.vdrop boom s p v l hv
  rw [hg.eq] at h1 h3
  exact ⟨s', h1, h3, h2⟩

/-- No destructor runs twice, none runs out of order: the effects are an initial part of those owed. All of them if and only if nothing panics, i.e. if no value with a destructor in the plan has one that panics. -/
theorem C58_at_most_once {T : DP.Ty w} (hT : LibT T) (boom : Boom) {s : St} {p : Ptr} {v : V} {l : Layout w} (hv : Valid T.T s p v l) {gs : List Group} (hg : Plan T v gs)
    {es : List Event} (he : Destroys T.T v es) :
    (run boom gs).1 <+: es ∧ ((run boom gs).2 = .done ↔ ∀ g ∈ gs, ∀ x ∈ g, x.1.needsDrop = true → boom x.1 x.2 = false) ∧ ((run boom gs).2 = .done → (run boom gs).1 = es) := by
  have : es = DP.owed gs := by rw [← he.eq, hT.law.drops v l _ hv.rep, hg.eq]
  subst this
  refine ⟨DP.run_prefix boom gs, DP.run_done_iff boom gs, fun h => ?_⟩
  rw [DP.run_calm boom gs ((DP.run_done_iff boom gs).1 h)]

/-- The elements of an array: unless two of them panic, each one is destroyed, exactly once. -/
theorem C58_array_complete {R : RTy} {L : LenTy} (hR : R.Ok w) (hL : L.Ok w) (boom : Boom) {s : St} {p : Ptr} {xs : List Img} {l : Layout w}
    (hv : Valid (Array w R L) s p (.arr xs) l) (hb : R.needsDrop = true → (xs.filter (boom R)).length ≤ 1) :
    ∃ s', (DP.array w R L).vdrop boom p l s = (if R.needsDrop && xs.any (boom R) then .panic .user s' else .ok () s') ∧ s'.log = s.log ++ (xs.map R.dtor).flatten := by
  obtain ⟨s', h1, h2, _⟩ := C58_vdrop (T := DP.array w R L) (.array hR hL) boom hv .array
  rw [DP.run_one] at h1 h2
  have key : ∀ (xs : List Img) (u : Bool), (R.needsDrop = true → (xs.filter (boom R)).length + (if u then 1 else 0) ≤ 1) →
      group boom u (xs.map fun x => (R, x)) = ((xs.map R.dtor).flatten, if u || (R.needsDrop && xs.any (boom R)) then .panicked else .done) := by
    intro xs
    induction xs with
    | nil => intro u _; cases u <;> simp [group]
    | cons x xs ih =>
      intro u h
      cases hd : R.needsDrop
      · have := ih u (by simp [hd])
        simp [group, hd, this, RTy.dtor]
      · have h := h hd
        cases hx : boom R x
        · have := ih u (fun _ => by simpa [hx] using h)
          simp only [List.map_cons, group, hd, hx, if_true, Bool.false_eq_true, if_false, this]
          simp [RTy.dtor, hd, hx]
        · cases u with
          | true => simp [hx] at h
          | false =>
            have := ih true (fun _ => by simp [hx] at h ⊢; omega)
            simp only [List.map_cons, group, hd, hx, if_true, Bool.false_eq_true, if_false, this]
            simp [RTy.dtor, hd, hx]
  rw [key xs false (by simpa using hb)] at h1 h2
  refine ⟨s', ?_, h2⟩
  rw [h1]
  cases hd : R.needsDrop <;> cases ha : xs.any (boom R) <;> simp [DP.Fate.res, ha, hd]

/-- Dropping a box: if nothing panics, its memory is freed. If a destructor panics, the box's memory is not freed (it leaks), and nothing else is affected. -/
theorem C58_box_drop {T : DP.Ty w} (hT : LibT T) (boom : Boom) {s : St} {p : Ptr} {v : V} {l : Layout w} (h : BoxHas T.T s p v l) {gs : List Group} (hg : Plan T v gs) :
    ∃ s', DP.VBox.drop boom T p s = (run boom gs).2.res s' ∧ s'.log = s.log ++ (run boom gs).1 ∧ (∀ b, b ≠ p.blk → s'.blk b = s.blk b) ∧
      ((run boom gs).2 = .done → Freed s' p.blk) ∧ ((run boom gs).2 ≠ .done → ownsAlloc s' p l.size.toNat T.T.ALIGN.toNat) := by
  obtain ⟨s', h1, h2, _, h3, h4, h5⟩ := DP.VBox.drop_spec hT.law boom h
  rw [hg.eq] at h1 h2 h4 h5
  exact ⟨s', h1, h2, h3, h4, h5⟩

section
variable {T : DP.Ty w} {chk : Bool} {s : St} {q : SeqS w} {h : List (BitVec w × V)} {m : Nat} {t : Bool}

theorem hist_plans (hh : Hist T.T chk s q h m t) (hT : LibT T) (hw : 8 ≤ w) {gss : List (List Group)} (hg : Plans T (h.map (·.2)) gss) :
    ∃ es, SeqInv T.T chk s q es ∧ gss = es.map (fun e => T.plan e.v) := by
  obtain ⟨es, i1, rfl, _, _⟩ := hh.inv hT.law.law hw
  refine ⟨es, i1, ?_⟩
  rw [← hg.eq, List.map_map, List.map_map]
  rfl

/-- Dropping a sequence: the elements' plans are carried out one after the other. If nothing panics the storage is freed. If a destructor panics, the later elements are not destroyed and the storage is not freed: they leak. -/
theorem C58_seq_drop (hT : LibT T) (hw : 8 ≤ w) (boom : Boom) (hh : Hist T.T chk s q h m t) {gss : List (List Group)} (hg : Plans T (h.map (·.2)) gss) :
    ∃ s' q', DP.Seq.drop boom chk T (s, q) = (match (run boom gss.flatten).2 with
        | .done => .ok () (s', q')
        | .panicked => .panic .user (s', q')
        | .aborted => .panic .abort (s', q')) ∧ s'.log = s.log ++ (run boom gss.flatten).1 ∧
      (∀ b, b ≠ q.ptr.blk → s'.blk b = s.blk b) ∧
      (Seq.capacityInOffsets q ≠ 0 → ((run boom gss.flatten).2 = .done → Freed s' q.ptr.blk) ∧
        ((run boom gss.flatten).2 ≠ .done → ∃ B, s'.blk q.ptr.blk = some B ∧ B.live = true)) := by
  obtain ⟨es, i1, rfl⟩ := hist_plans hh hT hw hg
  obtain ⟨s', q', e, h1, _, h2, h3⟩ := DP.Seq.drop_ends hT.law hw boom i1
  rw [List.flatMap_def] at e h1 h3
  refine ⟨s', q', e, h1, h2, fun hc => ?_⟩
  have hc' : q.cap.toNat ≠ 0 := by
    intro h0
    exact hc (BitVec.eq_of_toNat_eq (by simp only [Seq.capacityInOffsets]; simpa using h0))
  have h3 := h3 hc'
  constructor
  · intro hd
    rw [if_pos hd] at h3; exact h3
  · intro hd
    rw [if_neg hd] at h3
    obtain ⟨_, B, hB, hl, _⟩ := h3
    exact ⟨B, hB, hl⟩

/-- A caller drains a sequence and destroys the elements one at a time. If the destructor of one of them panics, the iterator destroys all the later elements while unwinding (only what remained of the element itself leaks);
a second panic aborts. Unless the process is gone, the sequence is an empty one that can be used as before (its history goes on). -/
theorem C58_drain_loop (hT : LibT T) (hw : 8 ≤ w) (boom : Boom) (hh : Hist T.T chk s q h m t) {gss : List (List Group)} (hg : Plans T (h.map (·.2)) gss) :
    ∃ it q1 s', Seq.takeElems chk T.T (s, q) = .ok it (s, q1) ∧ DP.OwnedElems.forEach boom T (h.length + 1) it s = (each boom gss).2.res s' ∧
      s'.log = s.log ++ (each boom gss).1 ∧ (∀ b, b ≠ q.ptr.blk → s'.blk b = s.blk b) ∧ Hist T.T chk s' q1 [] m true := by
  obtain ⟨es, i1, rfl⟩ := hist_plans hh hT hw hg
  have hlen : h.length = es.length := by
    have := congrArg List.length hg.eq
    simpa using this
  have e1 := Seq.takeElems_spec (T := T.T) (chk := chk) hw s q
  obtain ⟨s', k1, k2, k3, k4⟩ := DP.OwnedElems.forEach_ends hT.law hw boom (i1.iterAt hT.law.law) (fuel := h.length + 1) (by omega)
  refine ⟨_, _, s', e1, k1, k3, ?_, ?_⟩
  · intro b hb
    cases hB : s.blk b with
    | none => exact k2.none.2 hB
    | some B =>
      obtain ⟨d, g1, g2⟩ := k2.blk b (fun h => h) B hB
      have : d = B.data := by funext i; exact g2 i (by omega)
      rw [g1, this]
  · obtain ⟨U, hh⟩ := hh
    exact ⟨U, HistU.lent (HistU.forget hh e1) k2 (Nat.mul_le_mul_right _ i1.le)⟩

/-- In that loop, if exactly one destructor in the whole sequence panics, every value of every other element is destroyed once. -/
theorem C58_drain_loop_others (boom : Boom) {before after : List (List Group)} {gs : List Group} (hb : ∀ g ∈ (before ++ after).flatten, ∀ x ∈ g, x.1.needsDrop = true → boom x.1 x.2 = false)
    (hp : (run boom gs).2 = .panicked) :
    each boom (before ++ gs :: after) = ((before.flatten.flatten.map fun x => x.1.dtor x.2).flatten ++ (run boom gs).1 ++ (after.flatten.flatten.map fun x => x.1.dtor x.2).flatten, .panicked) := by
  have ho : ∀ gs : List Group, DP.owed gs = (gs.flatten.map fun x => x.1.dtor x.2).flatten := fun gs => by
    rw [DP.owed, List.flatMap_def]; rfl
  induction before with
  | nil =>
    simp only [List.nil_append] at hb ⊢
    rw [each]
    generalize run boom gs = r at hp ⊢
    rcases r with ⟨es, _ | _ | _⟩
    · cases hp
    · simp only [DP.run_calm boom _ hb, ho]; simp
    · cases hp
  | cons v vs ih =>
    have h1 : ∀ g ∈ v, ∀ x ∈ g, x.1.needsDrop = true → boom x.1 x.2 = false := fun g hg => hb g (by simp [hg])
    have h2 : ∀ g ∈ (vs ++ after).flatten, ∀ x ∈ g, x.1.needsDrop = true → boom x.1 x.2 = false := fun g hg => hb g (by
      simp only [List.cons_append, List.flatten_cons, List.mem_append]; exact .inr hg)
    have e : each boom (v :: vs ++ gs :: after) = _ := rfl
    rw [List.cons_append, each, DP.run_calm boom v h1, ih h2, ho]
    simp

end

namespace Demo
/-- The element 2 panics. -/
def boom2 : Boom := fun _ x => x == d4 2
abbrev PArr : DP.Ty 64 := DP.array 64 D4 lenU16
theorem PArr_lib : LibT PArr := .array D4_ok lenU16_ok
/-- The struct of Props/Demo.lean. -/
abbrev PS : DP.Ty 64 := DP.struct 64 8 4 [.normal D4 0, .length u8Ty 4, .varlen PArr, .array u8Ty u8Len, .varlen PArr]
theorem PS_lib : LibT PS := .struct sHeader (by
  intro T hT
  simp only [List.mem_cons, List.mem_nil_iff, or_false, reduceCtorEq, false_or, DP.Fld.varlen.injEq] at hT
  rcases hT with rfl | rfl <;> exact PArr_lib)

-- the hypotheses of C58_vdrop … are met by the demo struct `{ a: 7, s: [1, 2], t: [5] , … }`
example : LibT PS ∧ PS.T = S ∧ Valid PS.T sSt p1 (.node sVal) sLay := ⟨PS_lib, rfl, sSt_valid⟩
-- dropping its box when 2 panics: 7, 1, 2 are destroyed, 5 and the memory leak; when nothing panics all are destroyed and the memory is freed
example : (panicOf ((do
    let p ← VBox.new alloc S (sInit 7 3 [2, 1] [10, 11, 12] [5])
    DP.VBox.drop boom2 PS p) st0)).map (fun r => (r.1, r.2.log, r.2.blocks.map (·.live))) = some (.user, [7, 2, 1], [true]) := by decide +kernel
example : (okOf ((do
    let p ← VBox.new alloc S (sInit 7 3 [3, 1] [10, 11, 12] [5])
    DP.VBox.drop boom2 PS p) st0)).map (fun r => (r.2.log, r.2.blocks.map (·.live))) = some ([7, 3, 1, 5], [false]) := by decide +kernel
-- two panics in one array abort
example : (panicOf ((do
    let p ← VBox.new alloc S (sInit 7 3 [2, 1, 2, 3] [10, 11, 12] [5])
    DP.VBox.drop boom2 PS p) st0)).map (fun r => (r.1, r.2.log)) = some (.abort, [7, 2, 1, 2]) := by decide +kernel
-- the sequence of Props/SeqDemo.lean, [[1, 2, 3], [4]]: dropping it leaks the second element; draining it destroys that one too
example : (panicOf (DP.Seq.drop boom2 true PArr σ2)).map (fun r => (r.1, r.2.1.log)) = some (.user, [1, 2, 3]) := by decide +kernel
example : (panicOf (DP.OwnedElems.forEach boom2 PArr 3 it3 σ3.1)).map (fun r => (r.1, r.2.log)) = some (.user, [1, 2, 3, 4]) := by decide +kernel
example : ∃ m, Hist PArr.T true σ2.1 σ2.2 [(0, elem [1, 2, 3]), (4, elem [4])] m false := hist2
example : ∃ gss, Plans PArr [elem [1, 2, 3], elem [4]] gss := ⟨_, .cons .array (.cons .array .nil)⟩
end Demo

/-! ## C59 -/

theorem assign_calm (boom : Boom) : ∀ (Rs : List RTy) old new, old.length = Rs.length → new.length = Rs.length →
    (∀ (i : Nat) R x, Rs[i]? = some R → old[i]? = some x → R.needsDrop = true → boom R x = false) →
    assign boom Rs old new = (((Rs.zip old).map fun x => x.1.dtor x.2).flatten, .done, new)
  | [], [], [], _, _, _ => rfl
  | R :: Rs, x :: old, y :: new, h1, h2, h => by
    have h0 := h 0 R x rfl rfl
    have ih := assign_calm boom Rs old new (by simpa using h1) (by simpa using h2) (fun i R x hR hx => h (i + 1) R x hR hx)
    rw [assign, if_neg (by rintro ⟨a, b⟩; rw [h0 a] at b; cases b), ih]
    simp

theorem assign_boom (boom : Boom) : ∀ (Rs : List RTy) old new (k : Nat), old.length = Rs.length → new.length = Rs.length →
    (∀ (i : Nat) R x, i < k → Rs[i]? = some R → old[i]? = some x → R.needsDrop = true → boom R x = false) →
    ∀ R x, Rs[k]? = some R → old[k]? = some x → R.needsDrop = true → boom R x = true →
    assign boom Rs old new = ((((Rs.zip old).take (k + 1)).map fun x => x.1.dtor x.2).flatten ++ (group boom true ((Rs.zip new).drop (k + 1))).1,
      (group boom true ((Rs.zip new).drop (k + 1))).2, new.take (k + 1) ++ old.drop (k + 1))
  | R :: Rs, x :: old, y :: new, 0, _, _, _, R', x', hR, hx, hd, hb => by
    cases hR; cases hx
    rw [assign, if_pos ⟨hd, hb⟩]
    simp [RTy.dtor, hd]
  | R :: Rs, x :: old, y :: new, k + 1, h1, h2, h, R', x', hR, hx, hd, hb => by
    have h0 := h 0 R x (by omega) rfl rfl
    have ih := assign_boom boom Rs old new k (by simpa using h1) (by simpa using h2) (fun i R x hi hR hx => h (i + 1) R x (by omega) hR hx) R' x' hR hx hd hb
    rw [assign, if_neg (by rintro ⟨a, b⟩; rw [h0 a] at b; cases b), ih]
    simp
  | [], [], [], k, _, _, _, R', x', hR, _, _, _ => by simp at hR

section
variable {headSize headAlign : Nat} {fs : List (Fld w)} {s : St} {p : Ptr} {vs : List V} {l : Layout w} {new : List Img}

/-- `try_set_layout_controllers(new)` when all array lengths computed from `new` are the current ones and destructors may panic. Let `old` be the controllers' values. If none of the old values' destructors panics: as in C38.
If that of the `k`-th is the first one to panic, then the panic propagates (or the process aborts), the controllers up to and including the `k`-th have their new values and the later ones their old values; nothing else
in the struct has changed. If the array lengths computed from *that mixture* are also the current ones, the struct is valid, with the same layout.
(Missing: the mixtures with another array length, where the struct is left invalid: `C59_try_set_unsound`.) -/
theorem C59_try_set_partial (boom : Boom) (hh : HeaderOk headSize headAlign fs) (hT : ∀ T, Fld.varlen T ∈ fs → LibType T)
    (h : Valid (Struct w headSize headAlign fs) s p (.node vs) l)
    (hlen : new.length = (controllerTypes fs).length) (hnew : ∀ (i : Nat) R x, (controllerTypes fs)[i]? = some R → new[i]? = some x → R.valid x = true)
    (hsame : ∀ R len, Fld.array R len ∈ fs → len.defd new = true ∧ len new = len (controllersAt fs s p)) :
    ∃ old, controllerValues fs vs = old.map .leaf ∧ old = controllersAt fs s p ∧
      ((∀ (i : Nat) R x, (controllerTypes fs)[i]? = some R → old[i]? = some x → R.needsDrop = true → boom R x = false) →
        ∃ s' vs', DP.trySetLayoutControllers boom fs p new s = .ok true s' ∧ Valid (Struct w headSize headAlign fs) s' p (.node vs') l ∧ controllerValues fs vs' = new.map .leaf ∧
          (∀ (i : Nat) f, fs[i]? = some f → (∀ R off, f ≠ .length R off) → vs'[i]? = vs[i]?) ∧ s'.log = s.log ++ (((controllerTypes fs).zip old).map fun x => x.1.dtor x.2).flatten) ∧
      (∀ (k : Nat) R x, (controllerTypes fs)[k]? = some R → old[k]? = some x → R.needsDrop = true → boom R x = true →
        (∀ (i : Nat) R x, i < k → (controllerTypes fs)[i]? = some R → old[i]? = some x → R.needsDrop = true → boom R x = false) →
        ∃ s', (DP.trySetLayoutControllers boom fs p new s = .panic .user s' ∨ DP.trySetLayoutControllers boom fs p new s = .panic .abort s') ∧
          controllersAt fs s' p = new.take (k + 1) ++ old.drop (k + 1) ∧ Touch s s' p headSize (fun _ => False) ∧
          ((∀ R len, Fld.array R len ∈ fs → len.defd (new.take (k + 1) ++ old.drop (k + 1)) = true ∧ len (new.take (k + 1) ++ old.drop (k + 1)) = len old) →
            ∃ vs', Valid (Struct w headSize headAlign fs) s' p (.node vs') l ∧ controllerValues fs vs' = (new.take (k + 1) ++ old.drop (k + 1)).map .leaf ∧
              ∀ (i : Nat) f, fs[i]? = some f → (∀ R off, f ≠ .length R off) → vs'[i]? = vs[i]?)) := by
  have hok : StructOk headSize headAlign fs := hh.structOk fun T h => (hT T h).lawful
  have hn : Rel2 (fun R x => R.valid x = true) (ctlTys fs) new := by
    rw [ctlTys_eq]
    exact Rel2.of_get hlen.symm hnew
  have hr1 : RepHdr fs vs (viewAt s p) := by
    obtain ⟨_, _, vs2, ls2, size2, e3, _, r1, _⟩ := h
    cases e3
    exact r1
  have heq : arrayLens fs (lengthsOf fs (viewAt s p)) = arrayLens fs new := by
    rw [arrayLens_eq_iff]
    intro R len hm
    rw [(hsame R len hm).2, controllersAt_eq]
  obtain ⟨s', k1, k2, k3, k4, k5, k6, k7⟩ := (DP.trySet_spec boom hok h hn).1 (fun R len hm => (hsame R len hm).1) heq
  have hol : (lengthsOf fs (viewAt s p)).length = (controllerTypes fs).length := by
    unfold lengthsOf controllerTypes
    clear k1 k2 k3 k4 k5 k6 k7 heq hn hr1 hok h hnew hlen hsame hT hh
    induction fs with
    | nil => rfl
    | cons f fs ih => cases f <;> simp [ih]
  refine ⟨_, (lengthsOf_repHdr fs vs hr1).symm, (controllersAt_eq fs s p).symm, ?_, ?_⟩
  · intro hc
    rw [ctlTys_eq, assign_calm boom _ _ _ hol hlen hc] at k1 k3 k5 k7
    have hv := k7 (fun R len hm => (hsame R len hm).1) heq
    refine ⟨s', _, k1, hv, ?_, fun i f h1 h2 => setCtl_other fs vs new i f h1 h2, k5⟩
    obtain ⟨_, _, vs2, ls2, size2, e3, _, r1, _⟩ := hv
    cases e3
    exact (lengthsOf_repHdr fs _ r1).symm.trans (by rw [k3])
  · intro k R x hR hx hd hb hfirst
    rw [ctlTys_eq, assign_boom boom _ _ _ k hol hlen hfirst R x hR hx hd hb] at k1 k3 k5 k7
    refine ⟨s', ?_, by rw [controllersAt_eq, k3], k2, fun hmix => ?_⟩
    · have hgt := DP.group_true boom (((controllerTypes fs).zip new).drop (k + 1))
      generalize (group boom true (((controllerTypes fs).zip new).drop (k + 1))).2 = f at k1 hgt
      cases f with
      | done => exact absurd rfl hgt
      | panicked => exact .inl k1
      | aborted => exact .inr k1
    · have hv := k7 (fun R len hm => (hmix R len hm).1) ((arrayLens_eq_iff fs _ _).2 fun R len hm => (hmix R len hm).2.symm)
      refine ⟨_, hv, ?_, fun i f h1 h2 => setCtl_other fs vs _ i f h1 h2⟩
      obtain ⟨_, _, vs2, ls2, size2, e3, _, r1, _⟩ := hv
      cases e3
      exact (lengthsOf_repHdr fs _ r1).symm.trans (by rw [k3])

/-- With a single `#[controls_layout]` field there is no mixture: also after a panic the struct is valid, with the new value. -/
theorem C59_single_controller (boom : Boom) (hh : HeaderOk headSize headAlign fs) (hT : ∀ T, Fld.varlen T ∈ fs → LibType T)
    (h : Valid (Struct w headSize headAlign fs) s p (.node vs) l) {R : RTy} (h1 : controllerTypes fs = [R]) {x : Img} (hx : R.valid x = true)
    (hsame : ∀ R len, Fld.array R len ∈ fs → len.defd [x] = true ∧ len [x] = len (controllersAt fs s p)) :
    ∃ s' vs', (DP.trySetLayoutControllers boom fs p [x] s = .ok true s' ∨ DP.trySetLayoutControllers boom fs p [x] s = .panic .user s' ∨ DP.trySetLayoutControllers boom fs p [x] s = .panic .abort s') ∧
      Valid (Struct w headSize headAlign fs) s' p (.node vs') l ∧ controllerValues fs vs' = [.leaf x] ∧
      ∀ (i : Nat) f, fs[i]? = some f → (∀ R off, f ≠ .length R off) → vs'[i]? = vs[i]? := by
  obtain ⟨old, ho, hold, hok, hbad⟩ := C59_try_set_partial boom hh hT h (new := [x]) (by simp [h1]) (by
    intro i R' y hR hy
    rw [h1] at hR
    cases i with
    | zero => cases hR; cases hy; exact hx
    | succ i => simp at hy) hsame
  have hlo : old.length = 1 := by
    have : controllerTypes fs = [R] → (controllersAt fs s p).length = 1 := by
      intro h
      have := congrArg List.length h
      rw [List.length_singleton] at this
      rw [← this]
      unfold controllersAt controllerTypes
      clear this h ho hold hok hbad hsame h1 hT hh
      clear h
      induction fs with
      | nil => rfl
      | cons f fs ih => cases f <;> simp [ih]
    rw [hold]; exact this h1
  obtain ⟨y, rfl⟩ := List.length_eq_one_iff.1 hlo
  by_cases hb : R.needsDrop = true ∧ boom R y = true
  · obtain ⟨s', e, hc, ht, hv⟩ := hbad 0 R y (by rw [h1]; rfl) rfl hb.1 hb.2 (by intro i _ _ hi; omega)
    obtain ⟨vs', v1, v2, v3⟩ := hv (by
      intro R' len hm
      have := hsame R' len hm
      rw [← hold] at this
      simpa using this)
    exact ⟨s', vs', .inr e, v1, by simpa using v2, v3⟩
  · obtain ⟨s', vs', e, v1, v2, v3, _⟩ := hok (by
      intro i R' y' hR hy hd
      rw [h1] at hR
      cases i with
      | zero =>
        cases hR; cases hy
        cases hbb : boom R y with
        | true => exact absurd ⟨hd, hbb⟩ hb
        | false => rfl
      | succ i => simp at hR)
    exact ⟨s', vs', .inl e, v1, by simpa using v2, v3⟩

/-- When the length expressions return on `new` and some array length computed from it differs, `try_set_layout_controllers(new)` changes no memory whatever destructors do: the rejected values are destroyed in order (all of them unless two panic), and the call
returns `Err`, or panics, or aborts accordingly. -/
theorem C59_rejected (boom : Boom) (hh : HeaderOk headSize headAlign fs) (hT : ∀ T, Fld.varlen T ∈ fs → LibType T)
    (h : Valid (Struct w headSize headAlign fs) s p (.node vs) l)
    (hlen : new.length = (controllerTypes fs).length) (hnew : ∀ (i : Nat) R x, (controllerTypes fs)[i]? = some R → new[i]? = some x → R.valid x = true)
    (hd : ∀ R len, Fld.array R len ∈ fs → len.defd new = true) {R : RTy} {len : LenFn w} (hm : Fld.array R len ∈ fs) (hne : len new ≠ len (controllersAt fs s p)) :
    ∃ s', DP.trySetLayoutControllers boom fs p new s = (match (group boom false ((controllerTypes fs).zip new)).2 with
        | .done => .ok false s'
        | .panicked => .panic .user s'
        | .aborted => .panic .abort s') ∧ s'.blocks = s.blocks ∧ s'.log = s.log ++ (group boom false ((controllerTypes fs).zip new)).1 := by
  have hok : StructOk headSize headAlign fs := hh.structOk fun T h => (hT T h).lawful
  have hn : Rel2 (fun R x => R.valid x = true) (ctlTys fs) new := by
    rw [ctlTys_eq]
    exact Rel2.of_get hlen.symm hnew
  have := (DP.trySet_spec boom hok h hn).2.1 hd (by
    intro heq
    rw [arrayLens_eq_iff] at heq
    rw [controllersAt_eq] at hne
    exact hne (heq R len hm).symm)
  rw [ctlTys_eq] at this
  refine ⟨s.logged (group boom false ((controllerTypes fs).zip new)).1, ?_, rfl, rfl⟩
  rw [this]
  generalize (group boom false ((controllerTypes fs).zip new)).2 = f
  cases f <;> rfl

/-- When a length expression panics on `new`, so does `try_set_layout_controllers(new)`; no memory changes, and the values of `new` are destroyed while unwinding, in order; if one of their destructors panics too, the process aborts there. -/
theorem C59_length_panics (boom : Boom) (hh : HeaderOk headSize headAlign fs) (hT : ∀ T, Fld.varlen T ∈ fs → LibType T)
    (h : Valid (Struct w headSize headAlign fs) s p (.node vs) l)
    (hlen : new.length = (controllerTypes fs).length) (hnew : ∀ (i : Nat) R x, (controllerTypes fs)[i]? = some R → new[i]? = some x → R.valid x = true)
    {R : RTy} {len : LenFn w} (hm : Fld.array R len ∈ fs) (hd : len.defd new = false) :
    ∃ s', DP.trySetLayoutControllers boom fs p new s = .panic (bif ((controllerTypes fs).zip new).any fun x => x.1.needsDrop && boom x.1 x.2 then .abort else .user) s' ∧
      s'.blocks = s.blocks ∧ s'.log = s.log ++ (group boom true ((controllerTypes fs).zip new)).1 := by
  have hok : StructOk headSize headAlign fs := hh.structOk fun T h => (hT T h).lawful
  have hn : Rel2 (fun R x => R.valid x = true) (ctlTys fs) new := by
    rw [ctlTys_eq]
    exact Rel2.of_get hlen.symm hnew
  have := (DP.trySet_spec boom hok h hn).2.2 ⟨R, len, hm, hd⟩
  rw [ctlTys_eq] at this
  refine ⟨s.logged (group boom true ((controllerTypes fs).zip new)).1, ?_, rfl, rfl⟩
  rw [this]
  have hg : ∀ g : Group, (group boom true g).2 = bif g.any fun x => x.1.needsDrop && boom x.1 x.2 then .aborted else .panicked := by
    intro g
    induction g with
    | nil => rfl
    | cons x g ih =>
      obtain ⟨R, x⟩ := x
      rw [group]
      cases hd : R.needsDrop <;> cases hb : boom R x <;> simp [hd, hb, ih]
  rw [hg]
  cases ((controllerTypes fs).zip new).any fun x => x.1.needsDrop && boom x.1 x.2 <;> rfl
end

namespace Demo
/-- The sum of two controllers, as a length. -/
def sumLen : LenFn 64 := .total fun lens => BitVec.ofNat 64 ((lens.map decLE).sum)
/-- `{ #[controls_layout] a: D4, #[controls_layout] b: D4, #[varlen_array] xs: [u8; a + b] }` -/
abbrev qFis (a b : Nat) (xs : List Nat) : List (FI 64) := [.length D4 0 (d4 a), .length D4 4 (d4 b), .array u8Ty sumLen (MoveFrom u8Ty (xs.map (encLE 1)))]
abbrev qFs : List (Fld 64) := [.length D4 0, .length D4 4, .array u8Ty sumLen]
abbrev PQ : DP.Ty 64 := DP.struct 64 8 4 [.length D4 0, .length D4 4, .array u8Ty sumLen]
/-- The value 1 panics. -/
def boom1 : Boom := fun _ x => x == d4 1

theorem qHeader : HeaderOk 8 4 qFs where
  head_pow2 := ⟨2, by decide, rfl⟩
  head_lt := by decide
  normal := by intro R off h; simp at h
  length := by
    intro R off h
    simp at h
    rcases h with ⟨rfl, rfl⟩ | ⟨rfl, rfl⟩ <;> exact ⟨D4_ok, by decide, by decide, by decide⟩
  array := by
    intro R len h
    simp at h
    obtain ⟨rfl, rfl⟩ := h
    exact u8Ty_ok (by decide)
  disjoint := by simp [Fld.range, D4]

theorem PQ_lib : LibT PQ := .struct qHeader (by
  intro T hT
  simp at hT)

theorem qInit_lib (a b : Nat) (xs : List Nat) : LibInit PQ.T (Struct.init 8 4 (qFis a b xs)) := by
  refine LibInit.struct (fis := qFis a b xs) qHeader ?_ ?_ ?_ ?_
  · intro R off img h; simp at h
  · intro R off img h
    simp at h
    rcases h with ⟨rfl, rfl, rfl⟩ | ⟨rfl, rfl, rfl⟩ <;> exact d4_valid _
  · intro T I h; simp at h
  · intro R len I h
    simp at h
    obtain ⟨rfl, rfl, rfl⟩ := h
    refine .moveFrom fun x hx => ?_
    obtain ⟨n, _, rfl⟩ := List.mem_map.1 hx
    simp [u8Ty, encLE]

/-- A box with such a struct. -/
abbrev qBox : M Ptr := VBox.new alloc PQ.T (Struct.init 8 4 (qFis 1 3 [10, 11, 12, 13]))
/-- After setting the controllers (1, 3) to (2, 2), where destroying the old 1 panics. -/
def qAfter : St := match DP.trySetLayoutControllers boom1 qFs ⟨1, 0⟩ [d4 2, d4 2] (after qBox st0) with
  | .panic _ s => s
  | _ => st0
end Demo

/-- The claim fails with two controllers. The struct `{ a: 1, b: 3, xs: [u8; a + b] }` is put in a box, and `try_set_layout_controllers` is called with `a: 2, b: 2`, which leaves all lengths the same. The destructor of the old
value of `a` panics. The controllers then hold `2, 3`: `refs()` on the struct is undefined behaviour, and so is dropping the box, which happens during the same unwinding if the box is a local variable of the caller. -/
theorem C59_try_set_unsound :
    ∃ (s s' : St) (p : Ptr), Demo.qBox Demo.st0 = .ok p s ∧ (∃ v l, BoxHas Demo.PQ.T s p v l) ∧
      (∀ R len, Fld.array R len ∈ Demo.qFs → len [Demo.d4 2, Demo.d4 2] = len (controllersAt Demo.qFs s p)) ∧
      DP.trySetLayoutControllers Demo.boom1 Demo.qFs p [Demo.d4 2, Demo.d4 2] s = .panic .user s' ∧ controllersAt Demo.qFs s' p = [Demo.d4 2, Demo.d4 3] ∧
      aggRefs 8 Demo.qFs p s' = .ub .outOfBounds ∧ DP.VBox.drop Demo.boom1 Demo.PQ p s' = .ub .badDealloc := by
  have ub : ∀ {α : Type} {r : Res St α} {k : UB}, Demo.ubOf r = some k → r = .ub k := by
    intro α r k h
    cases r with
    | ok => cases h
    | panic => cases h
    | ub k' => cases h; rfl
  have hlib := Demo.qInit_lib 1 3 [10, 11, 12, 13]
  have e1 := Demo.run_eq ⟨0, 0⟩ Demo.qBox Demo.st0 (by decide +kernel)
  have hp : Demo.result ⟨0, 0⟩ Demo.qBox Demo.st0 = ⟨1, 0⟩ := by decide +kernel
  rw [hp] at e1
  have hpre : (Struct.init (w := 64) 8 4 (Demo.qFis 1 3 [10, 11, 12, 13])).pre Demo.st0 := by
    refine ⟨?_, ?_⟩
    · intro f hf
      simp only [List.mem_cons, List.mem_nil_iff, or_false] at hf
      rcases hf with rfl | rfl | rfl <;> exact trivial
    · simp [FI.mods]
  refine ⟨_, Demo.qAfter, ⟨1, 0⟩, e1, ?_, ?_, ?_, ?_, ub ?_, ub ?_⟩
  · rcases VBox.new_cases Demo.alloc hlib.lib.1.lawful hlib.lib.2 hpre with ⟨m, s', e, _⟩ | ⟨k, e⟩ | ⟨p, s', v, l, e, _, hb, _⟩ | ⟨m, s', e, _⟩ <;> have e' := e1.symm.trans e <;> cases e'
    exact ⟨v, l, hb⟩
  · intro R len h
    simp only [List.mem_cons, List.mem_nil_iff, or_false, reduceCtorEq, false_or, Fld.array.injEq] at h
    obtain ⟨rfl, rfl⟩ := h
    decide +kernel
  · have : (Demo.panicOf (DP.trySetLayoutControllers Demo.boom1 Demo.qFs ⟨1, 0⟩ [Demo.d4 2, Demo.d4 2] (Demo.after Demo.qBox Demo.st0))).map (·.1) = some .user := by decide +kernel
    unfold Demo.qAfter
    generalize DP.trySetLayoutControllers Demo.boom1 Demo.qFs ⟨1, 0⟩ [Demo.d4 2, Demo.d4 2] (Demo.after Demo.qBox Demo.st0) = r at this ⊢
    cases r with
    | ok => cases this
    | ub => cases this
    | panic m s => cases this; rfl
  · decide +kernel
  · decide +kernel
  · decide +kernel

end Varlen
