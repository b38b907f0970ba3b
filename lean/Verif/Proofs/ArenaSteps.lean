import Verif.Proofs.ArenaNew
import Verif.Props.Client
/-!
# Proofs: the steps of a program in packed memory
-/
namespace Varlen.Arena
variable {w : Nat} {ρ : Place} {s m : St}

/-! ## Cloning -/

/-- The real reference for an ideal one. -/
def FRefAt (ρ : Place) : FRef → FRef
  | .val p => .val (ρ.ptr p)
  | .field p => .field (ρ.ptr p)
  | .slice sl => .slice ⟨ρ.ptr sl.ptr, sl.len⟩

theorem sim_refFields (p : Ptr) (fs : List (Fld w)) (ls : List (BitVec w × Layout w)) :
    Sim ρ (fun r' r => r = r'.map (FRefAt ρ)) (refFields p fs ls) (refFields (ρ.ptr p) fs ls) := by
  induction fs generalizing ls with
  | nil => exact .pure rfl
  | cons f fs ih =>
    cases f with
    | normal R off =>
      unfold refFields
      rw [← ptr_add]
      exact (sim_mkRef _ _ _).bindEq fun _ => (ih _).bind fun a' a e => .pure (by rw [e]; rfl)
    | length R off =>
      unfold refFields
      rw [← ptr_add]
      exact (sim_mkRef _ _ _).bindEq fun _ => (ih _).bind fun a' a e => .pure (by rw [e]; rfl)
    | varlen T =>
      cases ls with
      | nil => exact .ub _ _
      | cons a ls =>
        unfold refFields
        exact (sim_refField T p _).bind fun q' q hq => (ih _).bind fun a' a e => .pure (by rw [e, hq]; rfl)
    | array R len =>
      cases ls with
      | nil => exact .ub _ _
      | cons a ls =>
        obtain ⟨o, l⟩ := a
        cases l with
        | len n =>
          unfold refFields
          exact (sim_refArray R p o n).bind fun q' q hq => (ih _).bind fun a' a e => .pure (by rw [e, hq]; rfl)
        | fixed _ => exact .ub _ _
        | array _ _ _ => exact .ub _ _
        | fields _ _ => exact .ub _ _

theorem sim_aggRefs (headSize : Nat) (fs : List (Fld w)) (h : ∀ T, Fld.varlen T ∈ fs → Reloc T) (p : Ptr) :
    Sim ρ (fun r' r => r = r'.map (FRefAt ρ)) (aggRefs headSize fs p) (aggRefs headSize fs (ρ.ptr p)) := by
  unfold aggRefs
  refine (sim_aggCalc headSize fs h p).bindEq fun l => ?_
  cases l with
  | fields sz ls => exact sim_refFields p fs ls
  | fixed _ => exact .ub _ _
  | array _ _ _ => exact .ub _ _
  | len _ => exact .ub _ _

/-- The initializers of the fields of a tuple correspond. -/
def InitsAt (ρ : Place) (is' is : List (VarLen w × Init w)) : Prop :=
  ∃ fs : List (VarLen w × Init w × Init w), is' = fs.map (fun f => (f.1, f.2.1)) ∧ is = fs.map (fun f => (f.1, f.2.2)) ∧ ∀ f ∈ fs, Placed ρ f.2.1 f.2.2

theorem sim_cloneFields (ts : List (VarLen w × VClone w)) (h : ∀ t ∈ ts, ∀ p v, Sim ρ (Placed ρ) (t.2.vclone p v) (t.2.vclone (ρ.ptr p) v)) (rs : List FRef) (vs : List V) :
    Sim ρ (InitsAt ρ) (cloneFields ts rs vs) (cloneFields ts (rs.map (FRefAt ρ)) vs) := by
  induction ts generalizing rs vs with
  | nil =>
    cases rs with
    | nil =>
      cases vs with
      | nil => exact .pure ⟨[], rfl, rfl, by simp⟩
      | cons v vs => exact .ub _ _
    | cons r rs => exact .ub _ _
  | cons t ts ih =>
    have ih := fun rs vs => ih (fun t ht => h t (List.mem_cons_of_mem _ ht)) rs vs
    obtain ⟨T, C⟩ := t
    cases rs with
    | nil => exact .ub _ _
    | cons r rs =>
      cases vs with
      | nil => cases r <;> exact .ub _ _
      | cons v vs =>
        cases r with
        | val q => exact .ub _ _
        | slice q => exact .ub _ _
        | field q =>
          show Sim ρ _ (cloneFields ((T, C) :: ts) (.field q :: rs) (v :: vs)) (cloneFields ((T, C) :: ts) (.field (ρ.ptr q) :: rs.map (FRefAt ρ)) (v :: vs))
          unfold cloneFields
          refine (h (T, C) (List.mem_cons_self ..) q v).bind fun I' I hI => (ih rs vs).bind fun is' is his => .pure ?_
          obtain ⟨fs, rfl, rfl, hf⟩ := his
          refine ⟨(T, I', I) :: fs, rfl, rfl, fun f hm => ?_⟩
          rcases List.mem_cons.1 hm with rfl | hm
          · exact hI
          · exact hf f hm

theorem Placed.tuple {fs : List (VarLen w × Init w × Init w)} (h : ∀ f ∈ fs, Placed ρ f.2.1 f.2.2) : Placed ρ (Tuple.init (fs.map fun f => (f.1, f.2.1))) (Tuple.init (fs.map fun f => (f.1, f.2.2))) := by
  have := Placed.agg (ρ := ρ) (tup := true) (headSize := 0) (headAlign := 1) (fis := fs.map fun f => FI2.varlen f.1 f.2.1 f.2.2) (fun T I' I hm => ?_) (fun R len I' I hm => ?_)
  · rw [List.map_map, List.map_map] at this
    unfold Tuple.init
    rw [List.map_map, List.map_map]
    exact this
  · obtain ⟨f, hf, e⟩ := List.mem_map.1 hm
    cases e; exact h f hf
  · obtain ⟨f, hf, e⟩ := List.mem_map.1 hm
    cases e

theorem MClone.sim {C : VClone w} (h : MClone C) : ∀ ρ p v, Sim ρ (Placed ρ) (C.vclone p v) (C.vclone (ρ.ptr p) v) := by
  induction h with
  | fixedLen =>
    intro ρ p v
    cases v with
    | leaf img => exact .pure .cloner
    | arr _ => exact .ub _ _
    | node _ => exact .ub _ _
  | @array R L c =>
    intro ρ p v
    cases v with
    | leaf img => exact .ub _ _
    | arr xs =>
      refine (sim_readVal L.ty p).bindEq fun len => ?_
      refine Sim.bind (R := SliceAt ρ) ?_ fun a' a e => .pure (by rw [e]; exact .sized .cloneFrom)
      unfold Array.deref
      refine (sim_arrayCalc R L p).bindEq fun l => ?_
      cases l with
      | array o n sz => exact sim_refArray R p o n
      | fixed _ => exact .ub _ _
      | fields _ _ => exact .ub _ _
      | len _ => exact .ub _ _
    | node _ => exact .ub _ _
  | newtype _ ih => exact fun ρ p v => (ih ρ p v).bind fun _ _ e => .pure (.newtype (.newtype e))
  | @tuple ts hT _ ih =>
    intro ρ p v
    cases v with
    | leaf img => exact .ub _ _
    | arr xs => exact .ub _ _
    | node vs =>
      refine (sim_aggRefs 0 _ (fun T hm => ?_) p).bind fun rs' rs e => ?_
      · obtain ⟨t, ht, e⟩ := List.mem_map.1 hm
        cases e; exact (hT t ht).reloc
      · rw [e]
        refine (sim_cloneFields ts (fun t ht p v => ih t ht ρ p v) rs' vs).bind fun is' is hi => .pure ?_
        obtain ⟨fs, rfl, rfl, hf⟩ := hi
        exact .tuple hf
  | user h => exact h

/-! ## Objects -/

theorem Packed.valid (h : Packed ρ s m) {T : VarLen w} (hT : Lawful T) {p : Ptr} {v : V} {l : Layout w} (hv : Valid T s p v l) : Valid T m (ρ.ptr p) v l :=
  ⟨h.acc hv.acc, h.aligned.2 hv.aligned, hT.rep_ext _ _ _ _ hv.rep fun _ hi => (h.view hv.acc hi).symm⟩

theorem Packed.congr (h : Packed ρ s m) {s' m' : St} (hs : ∀ b, s'.blk b = s.blk b) (hm : ∀ c, m'.blk c = m.blk c) (hl : m'.log = s'.log) : Packed ρ s' m' := by
  refine ⟨hl, fun b => ?_, fun b B => ?_, fun b B C => ?_, fun b b' B B' => ?_, fun b B => ?_, fun c c' C C' => ?_, fun b B => ?_, fun c hc => ⟨?_, (h.chunks c hc).2⟩⟩
  · rw [hs]; exact h.unused b
  · rw [hs]; simp only [hm]; exact h.addr b B
  · rw [hs, hm]; exact h.live b B C
  · rw [hs, hs]; exact h.disj b b' B B'
  · rw [hs]; simp only [hs, hm]; exact h.heap b B
  · rw [hm, hm]; exact h.apart c c' C C'
  · rw [hs]; exact h.len b B
  · rw [hm]; exact (h.chunks c hc).1

/-- A change of an object in place. -/
theorem Packed.edit (h : Packed ρ s m) {T : VarLen w} (hT : Lawful T) (hR : Reloc T) {p : Ptr} {v v' : V} {l0 : Layout w} (hv : Valid T s p v l0) {m' : St} {ev fresh : List Event}
    (he : Edit T m m' (ρ.ptr p) v v' ev fresh) : ∃ s', Edit T s s' p v v' ev fresh ∧ Packed ρ s' m' := by
  obtain ⟨⟨l, e1, e2, e3⟩, hlog, hvals⟩ := he
  have hc := hT.calc_ok s p v l0 hv
  have h1 := (hR.calculateLayout ρ p).run s m h
  rw [hc] at h1
  obtain ⟨a, m1, f1, _, rfl⟩ := h1
  rw [f1] at e1
  injection e1 with e1 _
  subst e1
  have hlen : (takeV (viewAt m' (ρ.ptr p)) 0 l0.size.toNat).length = l0.size.toNat := takeV_length ..
  have hacc : Acc s p (takeV (viewAt m' (ρ.ptr p)) 0 l0.size.toNat).length := by rw [hlen]; exact hv.acc
  have hw := h.write hacc
  have hm : ∀ c, m'.blk c = (m.write (ρ.ptr p) (takeV (viewAt m' (ρ.ptr p)) 0 l0.size.toNat)).blk c := by
    intro c
    cases hb : m.blk c with
    | none =>
      rw [(Touch.none e2).2 hb, (Touch.none (Touch.write (own := fun _ => False))).2 hb]
    | some C =>
      obtain ⟨d, k1, k2⟩ := e2.blk c (fun f => f) C hb
      rw [k1]
      by_cases hcp : c = (ρ.ptr p).blk
      · subst hcp
        rw [St.blk_write hb, if_pos rfl]
        congr 2
        funext i
        by_cases hi : (ρ.ptr p).off ≤ i ∧ i < (ρ.ptr p).off + l0.size.toNat
        · have hi' : i = (ρ.ptr p).off + (i - (ρ.ptr p).off) := by omega
          rw [hi', overwrite_in _ _ _ _ (by rw [hlen]; omega), ← hi']
          rw [List.getD_eq_getElem?_getD, takeV_getElem?, if_pos (by omega), Option.getD_some]
          simp only [viewAt, k1]
          rw [Nat.zero_add, ← hi']
        · rw [overwrite_out _ _ _ _ (by rw [hlen]; exact hi)]
          exact k2 i fun hc => hi hc.2
      · cases hb2 : m.blk (ρ.ptr p).blk with
        | none =>
          have : m.write (ρ.ptr p) (takeV (viewAt m' (ρ.ptr p)) 0 l0.size.toNat) = m := by unfold St.write; rw [hb2]
          rw [this, hb]
          congr 2
          funext i
          exact k2 i fun hc => hcp hc.1
        | some D =>
          rw [St.blk_write hb2, if_neg hcp, hb]
          congr 2
          funext i
          exact k2 i fun hc => hcp hc.1
  refine ⟨{ (s.write p (takeV (viewAt m' (ρ.ptr p)) 0 l0.size.toNat)) with log := m'.log }, ⟨⟨l0, hc, ?_, ?_⟩, ?_, hvals⟩, ?_⟩
  · have ht := Touch.write (s := s) (p := p) (img := takeV (viewAt m' (ρ.ptr p)) 0 l0.size.toNat) (own := fun _ => False)
    rw [hlen] at ht
    exact ⟨ht.len, ht.blk⟩
  · refine hT.rep_ext _ _ _ _ e3 fun i hi => ?_
    show _ = viewAt (s.write p _) p i
    rw [viewAt_write hacc]
    have hi0 : i = 0 + i := by omega
    rw [hi0, overwrite_in _ _ _ _ (by rw [hlen]; exact hi), ← hi0, List.getD_eq_getElem?_getD, takeV_getElem?, if_pos hi, Option.getD_some, Nat.zero_add]
  · show m'.log = _
    rw [hlog, h.log]
  · exact hw.congr (fun _ => rfl) hm rfl

/-! ## The rest of the program -/

open Classical in
/-- The ideal allocation `b` after the real memory has become `m'`. -/
noncomputable def mirror (ρ : Place) (ext : Nat → Prop) (m' : St) (b : Nat) (B : Block) : Block :=
  if ext b then
    match m'.blk (ρ.loc b).blk with
    | some C' => { B with live := B.live && C'.live, data := fun i => C'.data ((ρ.loc b).off + i) }
    | none => B
  else B

noncomputable def mirrorSt (ρ : Place) (ext : Nat → Prop) (s m' : St) : St := { s with blocks := s.blocks.mapIdx (fun i B => mirror ρ ext m' (i + 1) B), log := m'.log }

theorem mirrorSt_blk (ρ : Place) (ext : Nat → Prop) (s m' : St) (b : Nat) : (mirrorSt ρ ext s m').blk b = (s.blk b).map (mirror ρ ext m' b) := by
  cases b with
  | zero => rfl
  | succ b => simp [mirrorSt, St.blk]

theorem mirror_not {ext : Nat → Prop} {m' : St} {b : Nat} (B : Block) (h : ¬ ext b) : mirror ρ ext m' b B = B := if_neg h

theorem mirror_ext {ext : Nat → Prop} {m' : St} {b : Nat} (B : Block) {C' : Block} (h : ext b) (hc : m'.blk (ρ.loc b).blk = some C') :
    mirror ρ ext m' b B = { B with live := B.live && C'.live, data := fun i => C'.data ((ρ.loc b).off + i) } := by
  unfold mirror; rw [if_pos h, hc]

theorem Packed.elsewhere {W : World w} (h : Packed ρ W.st m) {m' : St} {ev : List Event} (he : Elsewhere W ρ m m' ev) : Packed ρ (mirrorSt ρ W.ext W.st m') m' := by
  have key : ∀ b B', (mirrorSt ρ W.ext W.st m').blk b = some B' → ∃ B C C' : Block, W.st.blk b = some B ∧ m.blk (ρ.loc b).blk = some C ∧ m'.blk (ρ.loc b).blk = some C' ∧
      C.base + (ρ.loc b).off = B.base ∧ C'.base = C.base ∧ C'.size = C.size ∧ C'.align = C.align ∧ B'.base = B.base ∧ B'.size = B.size ∧ B'.align = B.align ∧
      (B'.live = true → B.live = true ∧ C'.live = true ∧ ∀ i, i < B.size → C'.data ((ρ.loc b).off + i) = B'.data i) := by
    intro b B' hb
    rw [mirrorSt_blk] at hb
    obtain ⟨B, k1, k2⟩ := Option.map_eq_some_iff.1 hb
    obtain ⟨C, k3, k4⟩ := h.addr b B k1
    obtain ⟨l, d, k5⟩ := he.blocks _ C k3
    refine ⟨B, C, _, k1, k3, k5, k4, rfl, rfl, rfl, ?_⟩
    by_cases hx : W.ext b
    · rw [mirror_ext B hx k5] at k2
      subst k2
      refine ⟨rfl, rfl, rfl, fun hl => ?_⟩
      simp only [Bool.and_eq_true] at hl
      exact ⟨hl.1, hl.2, fun i _ => rfl⟩
    · rw [mirror_not B hx] at k2
      subst k2
      refine ⟨rfl, rfl, rfl, fun hl => ?_⟩
      obtain ⟨j1, j2⟩ := he.held b B C _ k1 hl hx k3 k5
      refine ⟨hl, j1, fun i hi => ?_⟩
      rw [j2 i hi]
      exact (h.live b B C k1 hl k3).2.2 i hi
  refine ⟨rfl, fun b hb => ?_, fun b B' hb => ?_, fun b B' C1 hb hl hc => ?_, fun b b' B1 B1' hne hb hb' hl hl' he' => ?_, fun b B' hh hb hl => ?_, he.apart, fun b B' hb hl => ?_, fun c hc => ⟨?_, (h.chunks c hc).2⟩⟩
  · rw [mirrorSt_blk] at hb
    exact h.unused b (Option.map_eq_none_iff.1 hb)
  · obtain ⟨B, C, C', k1, k2, k3, k4, k5, k6, k7, k8, k9, k10, k11⟩ := key b B' hb
    exact ⟨C', k3, by rw [k5, k8]; exact k4⟩
  · obtain ⟨B, C, C', k1, k2, k3, k4, k5, k6, k7, k8, k9, k10, k11⟩ := key b B' hb
    rw [k3] at hc; cases hc
    obtain ⟨n1, n2, n3⟩ := k11 hl
    refine ⟨n2, ?_, fun i hi => n3 i (by rw [← k9]; exact hi)⟩
    rw [k9, k6]
    exact (h.live b B C k1 n1 k2).2.1
  · obtain ⟨B, C, C', k1, k2, k3, k4, k5, k6, k7, k8, k9, k10, k11⟩ := key b B1 hb
    obtain ⟨B', D, D', q1, q2, q3, q4, q5, q6, q7, q8, q9, q10, q11⟩ := key b' B1' hb'
    rw [k9, q9]
    exact h.disj b b' B B' hne k1 q1 (k11 hl).1 (q11 hl').1 he'
  · obtain ⟨B, C, C', k1, k2, k3, k4, k5, k6, k7, k8, k9, k10, k11⟩ := key b B' hb
    obtain ⟨g1, ⟨D, g2, g3, g4⟩, g5⟩ := h.heap b B hh k1 (k11 hl).1
    rw [k2] at g2; cases g2
    refine ⟨g1, ⟨C', k3, by rw [k6, k9]; exact g3, by rw [k7, k10]; exact g4⟩, fun b' B1' hne hb' hl' => ?_⟩
    obtain ⟨B', D, D', q1, q2, q3, q4, q5, q6, q7, q8, q9, q10, q11⟩ := key b' B1' hb'
    exact g5 b' B' hne q1 (q11 hl').1
  · obtain ⟨B, C, C', k1, k2, k3, k4, k5, k6, k7, k8, k9, k10, k11⟩ := key b B' hb
    rw [k9]
    exact h.len b B k1 (k11 hl).1
  · obtain ⟨C0, k1⟩ := Option.ne_none_iff_exists'.1 (h.chunks c hc).1
    obtain ⟨l, d, k2⟩ := he.blocks c C0 k1
    rw [k2]; simp

/-! ## Giving memory back to the arena -/

def forgetSt (E : Nat → Prop) [DecidablePred E] (s : St) : St := { s with blocks := s.blocks.mapIdx fun i B => if E (i + 1) then { B with live := false } else B }

theorem forgetSt_blk (E : Nat → Prop) [DecidablePred E] (s : St) (b : Nat) : (forgetSt E s).blk b = (s.blk b).map fun B => if E b then { B with live := false } else B := by
  cases b with
  | zero => rfl
  | succ b => simp [forgetSt, St.blk]

theorem Packed.forget (h : Packed ρ s m) (E N : Nat → Prop) [DecidablePred E] [DecidablePred N] (hN : ∀ b B, s.blk b = some B → B.live = true → N b → E b) :
    Packed { ρ with len := fun b => if N b then none else ρ.len b } (forgetSt E s) m := by
  have key : ∀ b B, (forgetSt E s).blk b = some B → ∃ B0, s.blk b = some B0 ∧ B.base = B0.base ∧ B.size = B0.size ∧ B.align = B0.align ∧ B.data = B0.data ∧ (B.live = true → ¬ E b ∧ B0.live = true) := by
    intro b B hb
    rw [forgetSt_blk] at hb
    obtain ⟨B0, k1, k2⟩ := Option.map_eq_some_iff.1 hb
    refine ⟨B0, k1, ?_⟩
    split at k2
    · subst k2; exact ⟨rfl, rfl, rfl, rfl, fun f => by cases f⟩
    · next e => subst k2; exact ⟨rfl, rfl, rfl, rfl, fun f => ⟨e, f⟩⟩
  refine ⟨h.log, fun b hb => ?_, fun b B hb => ?_, fun b B C hb hl hc => ?_, fun b b' B B' hne hb hb' hl hl' he => ?_, fun b B hh hb hl => ?_, h.apart, fun b B hb hl => ?_, h.chunks⟩
  · rw [forgetSt_blk] at hb
    exact h.unused b (Option.map_eq_none_iff.1 hb)
  · obtain ⟨B0, k1, k2, k3, k4, k5, k6⟩ := key b B hb
    rw [k2]; exact h.addr b B0 k1
  · obtain ⟨B0, k1, k2, k3, k4, k5, k6⟩ := key b B hb
    rw [k3, k5]; exact h.live b B0 C k1 (k6 hl).2 hc
  · obtain ⟨B0, k1, k2, k3, k4, k5, k6⟩ := key b B hb
    obtain ⟨B0', q1, q2, q3, q4, q5, q6⟩ := key b' B' hb'
    rw [k3, q3]; exact h.disj b b' B0 B0' hne k1 q1 (k6 hl).2 (q6 hl').2 he
  · obtain ⟨B0, k1, k2, k3, k4, k5, k6⟩ := key b B hb
    obtain ⟨g1, g2, g3⟩ := h.heap b B0 hh k1 (k6 hl).2
    refine ⟨g1, by rw [k3, k4]; exact g2, fun b' B' hne hb' hl' => ?_⟩
    obtain ⟨B0', q1, _, _, _, _, q6⟩ := key b' B' hb'
    exact g3 b' B0' hne q1 (q6 hl').2
  · obtain ⟨B0, k1, k2, k3, k4, k5, k6⟩ := key b B hb
    obtain ⟨n, n1, n2⟩ := h.len b B0 k1 (k6 hl).2
    exact ⟨n, (if_neg fun hn => (k6 hl).1 (hN b B0 k1 (k6 hl).2 hn)).trans n1, by rw [k3]; exact n2⟩

end Varlen.Arena
