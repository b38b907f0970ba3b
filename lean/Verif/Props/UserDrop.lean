import Verif.Proofs.UserBoxes
import Verif.Props.DropPanic
import Verif.Props.UserCode
/-!
# C79: destructors that are programs

The destructors of the values in a variable-length object may do what they like to the program's own memory, and panic. Spec/UserDrop.lean states the contract (`DtorOk`) relative to what the program maintains about its
memory (`Owner`), and Rust's rules about panics (`GroupEnds`, `RunEnds`, `EachEnds`).
-/
namespace Varlen.UD
open Eff (World Ran Wrote)
open DP (Group Fate Plan Plans)
variable {w : Nat}

section
variable {W : Owner} {d : Dtor} {E : Effects} {T : Ty w} {prot : Nat → Prop} {rest : List (RTy × Img)} {s : St} {p : Ptr} {v : V} {l : Layout w} {gs : List Group}

/-- **C79**: destroying a value in place. Its plan is carried out by Rust's rules: it returns, propagates a panic or aborts; what the destructors have done is something their contract allows; the memory of the program is in order,
the values not destroyed (`lost`) still owning what they own; of the protected memory only the value's own bytes have changed. It is never undefined behaviour. -/
theorem C79_vdrop (hT : LibT T) (hd : DtorOk W d E) (hv : Valid T.base.T s p v l) (hg : Plan T.base v gs) (hp : prot p.blk) (hU : (W.owing (gs.flatten ++ rest)).ok s prot) :
    ∃ s' es f lost, T.vdrop d p l s = f.res s' ∧ RunEnds E gs es f lost ∧ Wrote (W.owing (lost ++ rest)) prot s s' p l.size.toNat (fun _ => False) es := by
  obtain rfl := hg.eq
  obtain ⟨s', es, f, lost, e1, e2, e3⟩ := hT.ulaw.vdrop hd hv hp hU
  exact ⟨s', es, f, lost, e1, e3, e2⟩

/-- **C79**: dropping an `Owned`: the same. -/
theorem C79_owned_drop (hT : LibT T) (hd : DtorOk W d E) (hv : Valid T.base.T s p v l) (hg : Plan T.base v gs) (hp : prot p.blk) (hU : (W.owing (gs.flatten ++ rest)).ok s prot) :
    ∃ s' es f lost, Owned.drop d T p s = f.res s' ∧ RunEnds E gs es f lost ∧ Wrote (W.owing (lost ++ rest)) prot s s' p l.size.toNat (fun _ => False) es := by
  obtain rfl := hg.eq
  obtain ⟨s', es, f, lost, e1, e2, e3⟩ := Owned.drop_ends hT.ulaw hd hv hp hU
  exact ⟨s', es, f, lost, e1, e3, e2⟩

/-- **C79**: dropping a box: likewise; its memory is freed, unless a destructor panics: then it leaks. No other protected memory changes. -/
theorem C79_box_drop (hT : LibT T) (hd : DtorOk W d E) (h : BoxHas T.base.T s p v l) (hg : Plan T.base v gs) (hp : prot p.blk) (hU : (W.owing (gs.flatten ++ rest)).ok s prot) :
    ∃ s' es f lost, VBox.drop d T p s = f.res s' ∧ RunEnds E gs es f lost ∧ (W.owing (lost ++ rest)).ok s' prot ∧ s'.log = s.log ++ es ∧ (∀ b, prot b → b ≠ p.blk → s'.blk b = s.blk b) ∧
      (f = .done → Freed s' p.blk) ∧ (f ≠ .done → ownsAlloc s' p l.size.toNat T.base.T.ALIGN.toNat) := by
  obtain rfl := hg.eq
  exact VBox.drop_ends hT.ulaw hd h hp hU
end

section
variable {W : Owner} {d : Dtor} {E : Effects} {T : Ty w} {prot : Nat → Prop} {rest : List (RTy × Img)} {s : St} {chk : Bool} {q : SeqS w} {h : List (BitVec w × V)} {m : Nat} {t : Bool}

/-- **C79**: dropping a sequence: the elements' plans are carried out one after the other; a panic skips the later ones. The storage is freed, unless a destructor panics. -/
theorem C79_seq_drop (hT : LibT T) (hw : 8 ≤ w) (hd : DtorOk W d E) (hh : Hist T.base.T chk s q h m t) {gss : List (List Group)} (hg : Plans T.base (h.map (·.2)) gss)
    (hp : Seq.capacityInOffsets q ≠ 0 → prot q.ptr.blk) (hU : (W.owing (gss.flatten.flatten ++ rest)).ok s prot) :
    ∃ s' q' es f lost, Seq.drop d chk T (s, q) = (match f with
        | .done => .ok () (s', q')
        | .panicked => .panic .user (s', q')
        | .aborted => .panic .abort (s', q')) ∧ RunEnds E gss.flatten es f lost ∧ (W.owing (lost ++ rest)).ok s' prot ∧ s'.log = s.log ++ es ∧
      (∀ b, prot b → b ≠ q.ptr.blk → s'.blk b = s.blk b) ∧
      (Seq.capacityInOffsets q ≠ 0 → (f = .done → Freed s' q.ptr.blk) ∧ (f ≠ .done → ∃ B, s'.blk q.ptr.blk = some B ∧ B.live = true)) := by
  obtain ⟨es, i1, rfl⟩ := hist_plans hh hT.base hw hg
  rw [← List.flatMap_def] at hU ⊢
  obtain ⟨s', q', ev, f, lost, e1, e2, e3, e4, e5, e6⟩ := Seq.drop_ends hT.ulaw hd hw i1 hp hU
  refine ⟨s', q', ev, f, lost, e1, e2, e3, e4, e5, fun hc => ?_⟩
  have h6 := e6 fun h0 => hc (BitVec.eq_of_toNat_eq (by simp only [Seq.capacityInOffsets]; simpa using h0))
  constructor
  · intro hf
    rw [if_pos hf] at h6; exact h6
  · intro hf
    rw [if_neg hf] at h6
    obtain ⟨_, B, hB, hl, _⟩ := h6
    exact ⟨B, hB, hl⟩

/-- **C79**: a caller drains a sequence and drops the elements one at a time. When an element's destructor panics, the iterator destroys all the later elements while unwinding; a second panic aborts.
The sequence is empty then and can be used as before. -/
theorem C79_drain_loop (hT : LibT T) (hw : 8 ≤ w) (hd : DtorOk W d E) (hh : Hist T.base.T chk s q h m t) {gss : List (List Group)} (hg : Plans T.base (h.map (·.2)) gss)
    (hp : Seq.capacityInOffsets q ≠ 0 → prot q.ptr.blk) (hU : (W.owing (gss.flatten.flatten ++ rest)).ok s prot) :
    ∃ it q1 s' es f lost, Seq.takeElems chk T.base.T (s, q) = .ok it (s, q1) ∧ OwnedElems.forEach d T (h.length + 1) it s = f.res s' ∧ EachEnds E gss es f lost ∧ (W.owing (lost ++ rest)).ok s' prot ∧
      s'.log = s.log ++ es ∧ (∀ b, prot b → b ≠ q.ptr.blk → s'.blk b = s.blk b) ∧ Hist T.base.T chk s' q1 [] m true := by
  obtain ⟨es, i1, rfl⟩ := hist_plans hh hT.base hw hg
  have hL := hT.ulaw.law.law
  have hlen : h.length = es.length := by
    have := congrArg List.length hg.eq
    simpa using this
  have e1 := Seq.takeElems_spec (T := T.base.T) (chk := chk) hw s q
  obtain ⟨U, hh⟩ := hh
  have h0 := HistU.forget hh e1
  by_cases hc : q.cap = 0
  · have hc' : q.cap.toNat = 0 := by rw [hc]; simp
    obtain rfl := i1.empty_of_cap hL hc'
    have hn := Iter.next_nil (i1.iterAt hL)
    refine ⟨_, _, s, [], .done, [], e1, ?_, .nil, hU, by simp, fun _ _ _ => rfl, U, h0⟩
    rw [hlen]
    simp [OwnedElems.forEach, hn, Fate.res]
  · have hp := hp hc
    rw [← List.flatMap_def] at hU
    obtain ⟨s', ev, f, lost, k1, k2, k3⟩ := OwnedElems.forEach_ends hT.ulaw hd hw hp (i1.iterAt hL) (fuel := h.length + 1) (by omega) hU
    refine ⟨_, _, s', ev, f, lost, e1, k1, k3, k2.ok, k2.log, fun b hb hne => k2.same hb (fun h => h) (.inr hne), U, ?_⟩
    have hle := Nat.mul_le_mul_right T.base.T.ALIGN.toNat i1.le
    obtain ⟨hz, B, hB, hlv, hsz, _⟩ := i1.store.owns (by intro h0; exact hc (BitVec.eq_of_toNat_eq (by simpa using h0)))
    obtain ⟨D, hD, hDeq⟩ := k2.blk _ hp (fun h => h) B hB
    let N := q.occ.toNat * T.base.T.ALIGN.toNat
    let s1 := s.write q.ptr (takeV (viewAt s' q.ptr) 0 N)
    have t1 : Touch s s1 q.ptr N (fun _ => False) := Touch.write.mono (.inr ⟨rfl, Nat.le_refl _, by simp [N]⟩) (fun _ h => h)
    refine HistU.other (HistU.lent h0 t1 hle) fun b hb => ?_
    subst hb
    show s'.blk q.ptr.blk = s1.blk q.ptr.blk
    rw [hD, St.blk_write hB, if_pos rfl]
    congr 2
    funext i
    simp only [overwrite, takeV_length]
    by_cases hi : q.ptr.off ≤ i ∧ i < q.ptr.off + N
    · rw [if_pos hi]
      have : (takeV (viewAt s' q.ptr) 0 N).getD (i - q.ptr.off) none = D i := by
        simp only [takeV, viewAt, hD]
        rw [List.getD_eq_getElem?_getD, List.getElem?_map, List.getElem?_range (by omega)]
        simp only [Option.map_some, Option.getD_some]
        congr 1; omega
      simpa using this.symm
    · rw [if_neg hi]
      exact hDeq i (fun h => hi h.2)
end

/-! ## Every value is destroyed at most once, and all of them if nothing panics -/

/-- What was done for a value: destroyed with these effects (and it may have panicked), or nothing, if it has no destructor. -/
def Ended (E : Effects) (x : RTy × Img) (es : List Event) (f : Fate) : Prop :=
  if x.1.needsDrop = true then E x.1 x.2 es f else es = [] ∧ f = .done

section
variable {E : Effects}

theorem GroupEnds.account {u : Bool} {g : Group} {es : List Event} {f : Fate} {lost : List (RTy × Img)} (h : GroupEnds E u g es f lost) :
    ∃ ds : List ((RTy × Img) × List Event × Fate), g = ds.map (·.1) ++ lost ∧ (∀ x ∈ ds, Ended E x.1 x.2.1 x.2.2) ∧ es = (ds.map (·.2.1)).flatten ∧
      (f = .done ↔ u = false ∧ ∀ x ∈ ds, x.2.2 = .done) := by
  induction h with
  | done => exact ⟨[], rfl, by simp, rfl, by simp⟩
  | panicked => exact ⟨[], rfl, by simp, rfl, by simp⟩
  | @plain u R x g es f lost h1 _ ih =>
    obtain ⟨ds, rfl, i2, rfl, i4⟩ := ih
    exact ⟨((R, x), [], .done) :: ds, rfl, by simpa [Ended, h1] using i2, rfl, by rw [i4]; simp⟩
  | @calm u R x g es es' f lost h1 h2 _ ih =>
    obtain ⟨ds, rfl, i2, rfl, i4⟩ := ih
    refine ⟨((R, x), es, .done) :: ds, rfl, ?_, rfl, by rw [i4]; simp⟩
    intro y hy
    rcases List.mem_cons.1 hy with rfl | hy
    · simpa [Ended, h1] using h2
    · exact i2 y hy
  | @first R x g es es' f lost h1 h2 _ ih =>
    obtain ⟨ds, rfl, i2, rfl, i4⟩ := ih
    refine ⟨((R, x), es, .panicked) :: ds, rfl, ?_, rfl, by rw [i4]; simp⟩
    intro y hy
    rcases List.mem_cons.1 hy with rfl | hy
    · simpa [Ended, h1] using h2
    · exact i2 y hy
  | @dead u R x g es h1 h2 =>
    exact ⟨[((R, x), es, .aborted)], rfl, by simpa [Ended, h1] using h2, by simp, by simp⟩
  | @second R x g es h1 h2 =>
    exact ⟨[((R, x), es, .panicked)], rfl, by simpa [Ended, h1] using h2, by simp, by simp⟩

/-- **C79**: in such a run, the values of the plan are destroyed in order, each once, up to some point; the others are the ones lost. All are destroyed if nothing panics; and the run returns exactly if nothing panics. -/
theorem C79_accounting {gs : List Group} {es : List Event} {f : Fate} {lost : List (RTy × Img)} (h : RunEnds E gs es f lost) :
    ∃ ds : List ((RTy × Img) × List Event × Fate), gs.flatten = ds.map (·.1) ++ lost ∧ (∀ x ∈ ds, Ended E x.1 x.2.1 x.2.2) ∧ es = (ds.map (·.2.1)).flatten ∧
      (f = .done ↔ ∀ x ∈ ds, x.2.2 = .done) ∧ (f = .done → lost = []) := by
  induction h with
  | nil => exact ⟨[], rfl, by simp, rfl, by simp, fun _ => rfl⟩
  | cons h1 _ ih =>
    obtain ⟨ds1, rfl, j2, rfl, j4⟩ := h1.account
    obtain ⟨ds, i1, i2, rfl, i4, i5⟩ := ih
    refine ⟨ds1 ++ ds, by simp [i1], ?_, by simp, ?_, i5⟩
    · intro x hx
      rcases List.mem_append.1 hx with hx | hx
      · exact j2 x hx
      · exact i2 x hx
    · rw [i4]
      have := (j4.1 rfl).2
      constructor
      · intro h x hx
        rcases List.mem_append.1 hx with hx | hx
        · exact this x hx
        · exact h x hx
      · exact fun h x hx => h x (List.mem_append.2 (.inr hx))
  | stop h1 h2 =>
    obtain ⟨ds1, rfl, j2, rfl, j4⟩ := h1.account
    refine ⟨ds1, by simp, j2, rfl, ⟨fun h => absurd h h2, fun h => absurd (j4.2 ⟨rfl, h⟩) h2⟩, fun h => absurd h h2⟩

/-- **C79**: likewise for the draining loop, but not in order: a panic in an element destroys the later elements all the same. -/
theorem C79_drain_accounting {gss : List (List Group)} {es : List Event} {f : Fate} {lost : List (RTy × Img)} (h : EachEnds E gss es f lost) :
    ∃ ds : List ((RTy × Img) × List Event × Fate), gss.flatten.flatten.Perm (ds.map (·.1) ++ lost) ∧ (∀ x ∈ ds, Ended E x.1 x.2.1 x.2.2) ∧ es = (ds.map (·.2.1)).flatten ∧
      (f = .done ↔ ∀ x ∈ ds, x.2.2 = .done) ∧ (f = .done → lost = []) := by
  induction h with
  | nil => exact ⟨[], .refl _, by simp, rfl, by simp, fun _ => rfl⟩
  | cons h1 _ ih =>
    obtain ⟨ds1, j1, j2, rfl, j4, _⟩ := C79_accounting h1
    obtain ⟨ds, i1, i2, rfl, i4, i5⟩ := ih
    refine ⟨ds1 ++ ds, ?_, ?_, by simp, ?_, i5⟩
    · simp only [List.flatten_cons, List.flatten_append, j1, List.append_nil, List.map_append, List.append_assoc]
      exact i1.append_left _
    · intro x hx
      rcases List.mem_append.1 hx with hx | hx
      · exact j2 x hx
      · exact i2 x hx
    · rw [i4]
      have := j4.1 rfl
      constructor
      · intro h x hx
        rcases List.mem_append.1 hx with hx | hx
        · exact this x hx
        · exact h x hx
      · exact fun h x hx => h x (List.mem_append.2 (.inr hx))
  | @unwound v vs es es' lost h1 h2 =>
    obtain ⟨ds1, j1, j2, rfl, j4, _⟩ := C79_accounting h1
    obtain ⟨ds, i1, i2, rfl, i4, i5⟩ := C79_accounting h2
    refine ⟨ds1 ++ ds, ?_, ?_, by simp, ⟨fun h => (by cases h), fun h => absurd (j4.2 fun x hx => h x (List.mem_append.2 (.inl hx))) (by simp)⟩, fun h => (by cases h)⟩
    · simp only [List.flatten_cons, List.flatten_append, j1, i1, List.append_nil, List.map_append, List.append_assoc]
      exact List.perm_append_comm.append_left _
    · intro x hx
      rcases List.mem_append.1 hx with hx | hx
      · exact j2 x hx
      · exact i2 x hx
  | @twice v vs es es' f lost lost' h1 h2 hf =>
    obtain ⟨ds1, j1, j2, rfl, j4, _⟩ := C79_accounting h1
    obtain ⟨ds, i1, i2, rfl, i4, i5⟩ := C79_accounting h2
    refine ⟨ds1 ++ ds, ?_, ?_, by simp, ⟨fun h => (by cases h), fun h => absurd (j4.2 fun x hx => h x (List.mem_append.2 (.inl hx))) (by simp)⟩, fun h => (by cases h)⟩
    · simp only [List.flatten_cons, List.flatten_append, j1, i1, List.map_append, List.append_assoc]
      refine List.Perm.append_left _ ?_
      rw [← List.append_assoc, ← List.append_assoc]
      exact List.perm_append_comm.append_right _
    · intro x hx
      rcases List.mem_append.1 hx with hx | hx
      · exact j2 x hx
      · exact i2 x hx
  | @aborted v vs es lost h1 =>
    obtain ⟨ds1, j1, j2, rfl, j4, _⟩ := C79_accounting h1
    refine ⟨ds1, ?_, j2, rfl, ⟨fun h => (by cases h), fun h => absurd (j4.2 h) (by simp)⟩, fun h => (by cases h)⟩
    simp only [List.flatten_cons, List.flatten_append, j1, List.append_assoc]
    exact .refl _
end

/-! ## The special case of C58 -/

/-- A destructor whose only effect is in the log. -/
def logDtor (boom : DP.Boom) : Dtor := fun R x => do
  emit (R.dropEv x)
  pure (boom R x)

/-- What it does. -/
def logEffects (boom : DP.Boom) : Effects := fun R x es f => es = R.dropEv x ∧ f = if boom R x then .panicked else .done

theorem log_done {boom : DP.Boom} {R : RTy} {x : Img} {es : List Event} (h : logEffects boom R x es .done) : boom R x = false := by
  cases hb : boom R x
  · rfl
  · have := h.2; simp [hb] at this
theorem log_panicked {boom : DP.Boom} {R : RTy} {x : Img} {es : List Event} (h : logEffects boom R x es .panicked) : boom R x = true := by
  cases hb : boom R x
  · have := h.2; simp [hb] at this
  · rfl
theorem log_aborted {boom : DP.Boom} {R : RTy} {x : Img} {es : List Event} (h : logEffects boom R x es .aborted) : False := by
  have := h.2
  split at this <;> cases this

theorem dropInPlace_log (boom : DP.Boom) (R : RTy) (p : Ptr) : dropInPlace (logDtor boom) R p = DP.dropInPlace boom R p := rfl

theorem dropRest_log (boom : DP.Boom) (R : RTy) : ∀ n p, dropRest (logDtor boom) R p n = DP.dropRest boom R p n
  | 0, _ => rfl
  | n + 1, p => by simp only [dropRest, DP.dropRest, dropInPlace_log, dropRest_log boom R n]

theorem dropElems_log (boom : DP.Boom) (R : RTy) : ∀ n p, dropElems (logDtor boom) R p n = DP.dropElems boom R p n
  | 0, _ => rfl
  | n + 1, p => by simp only [dropElems, DP.dropElems, dropInPlace_log, dropRest_log, dropElems_log boom R n]

theorem vdropFields_log (boom : DP.Boom) (p : Ptr) : ∀ (fs : List (Fld w)) ls, (∀ T, Fld.varlen T ∈ fs → T.vdrop (logDtor boom) = T.base.vdrop boom) →
    vdropFields (logDtor boom) p fs ls = DP.vdropFields boom p (fs.map Fld.fld) ls
  | [], _, _ => rfl
  | .normal R off :: fs, ls, h => by
    simp only [vdropFields, List.map_cons, Fld.fld, DP.vdropFields, dropInPlace_log, vdropFields_log boom p fs ls (fun T hT => h T (by simp [hT]))]
  | .length R off :: fs, ls, h => by
    simp only [vdropFields, List.map_cons, Fld.fld, DP.vdropFields, dropInPlace_log, vdropFields_log boom p fs ls (fun T hT => h T (by simp [hT]))]
  | .varlen T :: fs, (o, l) :: ls, h => by
    simp only [vdropFields, List.map_cons, Fld.fld, DP.vdropFields, vdropField, DP.vdropField, h T (by simp), vdropFields_log boom p fs ls (fun T hT => h T (by simp [hT]))]
  | .varlen T :: fs, [], _ => rfl
  | .array R len :: fs, [], _ => rfl
  | .array R len :: fs, (o, l) :: ls, h => by
    cases l <;> first
      | rfl
      | simp only [vdropFields, List.map_cons, Fld.fld, DP.vdropFields, dropArray, DP.dropArray, dropElems_log, vdropFields_log boom p fs ls (fun T hT => h T (by simp [hT]))]

theorem aggVdrop_log {boom : DP.Boom} {fs : List (Fld w)} (h : ∀ T, Fld.varlen T ∈ fs → T.vdrop (logDtor boom) = T.base.vdrop boom) : aggVdrop (logDtor boom) fs = DP.aggVdrop boom (fs.map Fld.fld) := by
  funext p l
  unfold aggVdrop DP.aggVdrop
  cases l <;> first | rfl | exact vdropFields_log boom p fs _ h

theorem array_log {boom : DP.Boom} {R : RTy} {L : LenTy} : (array w R L).vdrop (logDtor boom) = (array w R L).base.vdrop boom := by
  funext p l
  cases l <;> first | rfl | exact dropElems_log _ _ _ _

theorem newtypeInv_log {boom : DP.Boom} {T : Ty w} (h : T.vdrop (logDtor boom) = T.base.vdrop boom) (inv : V → Prop) : (newtypeInv T inv).vdrop (logDtor boom) = (newtypeInv T inv).base.vdrop boom := by
  funext p l
  show (if _ then _ else T.vdrop _ p l) = (if _ then _ else T.base.vdrop boom p l)
  rw [h]

theorem LibT.log {T : Ty w} (h : LibT T) (boom : DP.Boom) : T.vdrop (logDtor boom) = T.base.vdrop boom := by
  induction h with
  | fixedLen hR => funext p l; exact dropInPlace_log _ _ _
  | array hR hL => exact array_log
  | str hw hL => exact newtypeInv_log array_log _
  | newtype _ ih => exact newtypeInv_log ih _
  | @tuple Ts hne _ ih =>
    have e : aggVdrop (logDtor boom) (Ts.map Fld.varlen) = DP.aggVdrop boom ((Ts.map (·.base)).map DP.Fld.varlen) := by
      rw [aggVdrop_log]
      · have hm : (Ts.map Fld.varlen).map Fld.fld = (Ts.map (·.base)).map DP.Fld.varlen := by simp [Fld.fld]
        rw [hm]
      · intro T hT
        obtain ⟨T', hT', e⟩ := List.mem_map.1 hT
        cases e
        exact ih T hT'
    funext p l
    show (if Ts.any (·.base.T.NEEDS_VDROP) = false then _ else aggVdrop _ (Ts.map Fld.varlen) p l) = (if (Ts.map (·.base)).any (·.T.NEEDS_VDROP) = false then _ else _)
    rw [e, List.any_map]; rfl
  | struct hh _ ih => exact aggVdrop_log ih

/-- **C79**: destructors whose only effect is in the log are those of C58: the programs are the same (and so, by `C58_base_model`, those of the base model if none panics). -/
theorem C79_special {T : Ty w} (hT : LibT T) (boom : DP.Boom) :
    DP.LibT T.base ∧ T.vdrop (logDtor boom) = T.base.vdrop boom ∧ VBox.drop (logDtor boom) T = DP.VBox.drop boom T.base ∧ Owned.drop (logDtor boom) T = DP.Owned.drop boom T.base ∧
    (∀ chk, Seq.drop (logDtor boom) chk T = DP.Seq.drop boom chk T.base) ∧ (∀ n it, OwnedElems.forEach (logDtor boom) T n it = DP.OwnedElems.forEach boom T.base n it) := by
  have h := hT.log boom
  have ho : Owned.drop (logDtor boom) T = DP.Owned.drop boom T.base := by
    funext p
    simp only [Owned.drop, DP.Owned.drop, h]
  have hl : ∀ n it, OwnedElems.dropLoop (logDtor boom) T n it = DP.OwnedElems.dropLoop boom T.base n it := by
    intro n
    induction n with
    | zero => intro it; rfl
    | succ n ih =>
      intro it
      simp only [OwnedElems.dropLoop, DP.OwnedElems.dropLoop, ho, ih]
      rfl
  have hd : ∀ it, OwnedElems.drop (logDtor boom) T it = DP.OwnedElems.drop boom T.base it := fun it => by simp only [OwnedElems.drop, DP.OwnedElems.drop, hl]
  refine ⟨hT.base, h, ?_, ho, fun chk => ?_, fun n => ?_⟩
  · funext p
    simp only [VBox.drop, DP.VBox.drop, h]
  · simp only [Seq.drop, DP.Seq.drop, hd]
  · induction n with
    | zero => intro it; rfl
    | succ n ih =>
      intro it
      simp only [OwnedElems.forEach, DP.OwnedElems.forEach, ho, hd, ih]
      rfl

/-- **C79**: and the rules are those of C58. -/
theorem C79_special_rules (boom : DP.Boom) :
    (∀ gs es f lost, RunEnds (logEffects boom) gs es f lost → DP.run boom gs = (es, f)) ∧
    (∀ gss es f lost, EachEnds (logEffects boom) gss es f lost → DP.each boom gss = (es, f)) := by
  have hg : ∀ u g es f lost, GroupEnds (logEffects boom) u g es f lost → DP.group boom u g = (es, f) := by
    intro u g es f lost h
    induction h with
    | done => rfl
    | panicked => rfl
    | plain h1 _ ih => simp only [DP.group, h1, Bool.false_eq_true, if_false, ih]
    | calm h1 h2 _ ih => simp only [DP.group, h1, log_done h2, Bool.false_eq_true, if_false, if_true, ih, ← h2.1]
    | first h1 h2 _ ih => simp only [DP.group, h1, log_panicked h2, Bool.false_eq_true, if_false, if_true, ih, ← h2.1]
    | second h1 h2 => simp only [DP.group, h1, log_panicked h2, if_true, ← h2.1]
    | dead h1 h2 => exact (log_aborted h2).elim
  have hr : ∀ gs es f lost, RunEnds (logEffects boom) gs es f lost → DP.run boom gs = (es, f) := by
    intro gs es f lost h
    induction h with
    | nil => rfl
    | cons h1 _ ih => rw [DP.run, hg _ _ _ _ _ h1, ih]
    | stop h1 h2 =>
      rw [DP.run, hg _ _ _ _ _ h1]
      split
      · rename_i e; cases e; exact absurd rfl h2
      · rename_i e; cases e; rfl
  refine ⟨hr, ?_⟩
  intro gss es f lost h
  induction h with
  | nil => rfl
  | cons h1 _ ih => rw [DP.each, hr _ _ _ _ h1, ih]
  | unwound h1 h2 => rw [DP.each, hr _ _ _ _ h1, hr _ _ _ _ h2]
  | @twice v vs es es' f lost lost' h1 h2 h3 =>
    rw [DP.each, hr _ _ _ _ h1, hr _ _ _ _ h2]
    cases f
    · exact absurd rfl h3
    · rfl
    · rfl
  | aborted h1 => rw [DP.each, hr _ _ _ _ h1]

/-! ## Boxes inside boxes -/

section
variable {isBox : RTy → Bool} {dec : Img → Option Ptr} {T : Ty w} {val : Ptr → V} {hbox : ∀ R, isBox R = true → R.needsDrop = true}

/-- `alls`: the blocks of the boxes, level by level, outermost first; `W` is about what the innermost values own. -/
def Owner.nest (W : Owner) (isBox : RTy → Bool) (dec : Img → Option Ptr) (T : Ty w) (val : Ptr → V) (hbox : ∀ R, isBox R = true → R.needsDrop = true) : (alls : List (List Nat)) → Owner
  | [] => W
  | all :: alls => (W.nest isBox dec T val hbox alls).boxes all isBox dec T val hbox

theorem nest_calm {E : Effects} (hcalm : ∀ R x es f, R.needsDrop = true → E R x es f → f = .done) :
    ∀ n R x es f, R.needsDrop = true → NestEffects isBox dec T val E n R x es f → f = .done
  | 0, R, x, es, b, hn, h => hcalm R x es b hn h
  | n + 1, R, x, es, b, hn, h => by
    simp only [NestEffects, BoxEffects] at h
    split at h
    · exact h.1
    · exact nest_calm hcalm n R x es b hn h

/-- **C79**: values of this library are among those that may be stored in it: when `Option<VBox<T>>` is a type of fields and elements, boxes inside boxes to any depth, its destructor keeps the contract. (The other destructors do not panic.) -/
theorem C79_nested (hT : LibT T) {W : Owner} {d : Dtor} {E : Effects} (hd : DtorOk W d E) (hcalm : ∀ R x es f, R.needsDrop = true → E R x es f → f = .done) (alls : List (List Nat)) :
    DtorOk (W.nest isBox dec T val hbox alls) (nestDtor isBox dec T d alls.length) (NestEffects isBox dec T val E alls.length) := by
  induction alls with
  | nil => exact hd
  | cons all alls ih => exact boxDtor_ok _ all hT hbox ih (nest_calm hcalm alls.length)

theorem nest_freed {W : Owner} {s : St} {prot : Nat → Prop} : ∀ {alls : List (List Nat)}, ((W.nest isBox dec T val hbox alls).owing []).ok s prot → ∀ all ∈ alls, ∀ b ∈ all, Freed s b := by
  intro alls
  induction alls generalizing prot with
  | nil => intro _ all h; simp at h
  | cons all alls ih =>
    rintro ⟨ps, ys, h1, h2, h3, h4, h5⟩ all' hall b hb
    cases h1
    rcases List.mem_cons.1 hall with rfl | hall
    · obtain ⟨_, B, hB, hl⟩ := h4 b hb
      refine ⟨B, hB, ?_⟩
      cases hlv : B.live with
      | false => rfl
      | true => obtain ⟨p, hp, _⟩ := hl hlv; simp at hp
    · exact ih h5 all' hall b hb

/-- **C79**: dropping a box whose contents own boxes, which own boxes, and so on: it returns, and every box is freed (never twice: that would be undefined behaviour), the values in each being destroyed once, in order. -/
theorem C79_nested_freed (hT : LibT T) {W : Owner} {d : Dtor} {E : Effects} (hd : DtorOk W d E) (hcalm : ∀ R x es f, R.needsDrop = true → E R x es f → f = .done)
    {T' : Ty w} (hT' : LibT T') {alls : List (List Nat)} {s : St} {prot : Nat → Prop} {p : Ptr} {v : V} {l : Layout w} {gs : List Group} (h : BoxHas T'.base.T s p v l) (hg : Plan T'.base v gs) (hp : prot p.blk)
    (hU : ((W.nest isBox dec T val hbox alls).owing gs.flatten).ok s prot) :
    ∃ s' es, VBox.drop (nestDtor isBox dec T d alls.length) T' p s = .ok () s' ∧ RunEnds (NestEffects isBox dec T val E alls.length) gs es .done [] ∧ s'.log = s.log ++ es ∧
      Freed s' p.blk ∧ (∀ all ∈ alls, ∀ b ∈ all, Freed s' b) ∧ (∀ b, prot b → b ≠ p.blk → s'.blk b = s.blk b) := by
  obtain ⟨s', es, f, lost, e1, e2, e3, e4, e5, e6, _⟩ := C79_box_drop hT' (C79_nested (hbox := hbox) (val := val) hT hd hcalm alls) h hg hp (rest := []) (by simpa using hU)
  have hf : f = .done := by
    obtain ⟨ds, _, i2, _, i4, _⟩ := C79_accounting e2
    refine i4.2 fun x hx => ?_
    have := i2 x hx
    unfold Ended at this
    split at this
    · rename_i hn; exact nest_calm hcalm _ _ _ _ _ hn this
    · exact this.2
  subst hf
  obtain rfl := runEnds_done e2 rfl
  exact ⟨s', es, e1, e2, e4, e6 rfl, nest_freed (by simpa using e3), e5⟩
end

/-! ## A concrete case -/

/-- An owner for destructors that use no memory: values own nothing. -/
def Owner.none (U : World) : Owner where
  owing := fun _ => U
  perm := fun _ h => h
  skip := fun _ h => h

theorem logDtor_ok (U : World) (boom : DP.Boom) : DtorOk (.none U) (logDtor boom) (logEffects boom) :=
  fun R x _ s prot _ _ hU => ⟨if boom R x then .panicked else .done, s.logged (R.dropEv x), R.dropEv x, by cases h : boom R x <;> simp [logDtor, h, dtorRes, bind_apply, emit_apply], ⟨U.ok_logged hU _, fun _ _ => rfl, by simp⟩, rfl, rfl⟩

namespace Demo
open Varlen.Demo

/-- `Option<VBox<Node>>`; here its bytes are the number of the box's block. -/
def OptBox : RTy where
  size := 8
  align := 8
  valid := fun img => img.length == 8 && img.all (·.isSome)
  needsDrop := true
  dropEv := fun _ => []
/-- The value for the box in block `n`, or for `None`. -/
def bx (n : Nat) : Img := encLE 8 n
def decB (x : Img) : Option Ptr := if decLE x = 0 then Option.none else some ⟨decLE x, 0⟩
def isB (R : RTy) : Bool := R.size == 8 && R.needsDrop
theorem isB_drop (R : RTy) (h : isB R = true) : R.needsDrop = true := by
  simp only [isB, Bool.and_eq_true] at h; exact h.2

theorem OptBox_ok : OptBox.Ok 64 where
  align_pow2 := ⟨3, by decide, rfl⟩
  dvd := ⟨1, rfl⟩
  size_lt := by decide
  valid_len := by
    intro img h
    simp only [OptBox, Bool.and_eq_true, beq_iff_eq] at h
    exact h.1

/-- `struct Node { val: D4, #[controls_layout] n: u8, #[varlen_array] kids: [Option<VBox<Node>>; *n as usize] }` -/
abbrev Node : Ty 64 := struct 64 8 4 [.normal D4 0, .length u8Ty 4, .array OptBox u8Len]
abbrev nodeFis (val : Nat) (kids : List Nat) : List (FI 64) := [.normal D4 0 (d4 val), .length u8Ty 4 (encLE 1 kids.length), .array OptBox u8Len (MoveFrom OptBox (kids.map bx))]
abbrev nodeInit (val : Nat) (kids : List Nat) : Init 64 := Struct.init 8 4 (nodeFis val kids)
abbrev nodeVal (val : Nat) (kids : List Nat) : V := .node [.leaf (d4 val), .leaf (encLE 1 kids.length), .arr (kids.map bx)]

theorem nodeHeader : HeaderOk 8 4 [.normal D4 0, .length u8Ty 4, .array OptBox u8Len] where
  head_pow2 := ⟨2, by decide, rfl⟩
  head_lt := by decide
  normal := by
    intro R off h
    simp at h
    obtain ⟨rfl, rfl⟩ := h
    exact ⟨D4_ok, by decide, by decide, by decide⟩
  length := by
    intro R off h
    simp at h
    obtain ⟨rfl, rfl⟩ := h
    exact ⟨u8Ty_ok (by decide), by decide, by decide, by decide⟩
  array := by
    intro R len h
    simp at h
    obtain ⟨rfl, rfl⟩ := h
    exact OptBox_ok
  disjoint := by
    simp [Varlen.Fld.range, D4, u8Ty]

theorem Node_lib : LibT Node := .struct nodeHeader (by
  intro T hT
  simp at hT)

theorem nodeInit_lib (val : Nat) (kids : List Nat) : LibInit Node.base.T (nodeInit val kids) := by
  refine LibInit.struct (fis := nodeFis val kids) nodeHeader ?_ ?_ ?_ ?_
  · intro R off img h
    simp at h
    obtain ⟨rfl, rfl, rfl⟩ := h
    exact d4_valid _
  · intro R off img h
    simp at h
    obtain ⟨rfl, rfl, rfl⟩ := h
    exact encLE1_valid _
  · intro T I h; simp at h
  · intro R len I h
    simp at h
    obtain ⟨rfl, rfl, rfl⟩ := h
    refine .moveFrom fun x hx => ?_
    obtain ⟨n, _, rfl⟩ := List.mem_map.1 hx
    simp [OptBox, bx, encLE]

theorem nodeInit_pre (val : Nat) (kids : List Nat) (m : St) : (nodeInit val kids).pre m := by
  refine ⟨?_, ?_⟩
  · intro f hf
    simp only [List.mem_cons, List.mem_nil_iff, or_false] at hf
    rcases hf with rfl | rfl | rfl <;> exact trivial
  · simp [FI.mods]

theorem nodeInit_owns (val : Nat) (kids : List Nat) (b : Nat) : ¬ (nodeInit val kids).owns b := by
  rintro ⟨f, hf, h⟩
  simp only [List.mem_cons, List.mem_nil_iff, or_false] at hf
  rcases hf with rfl | rfl | rfl <;> exact h

/-- Making a box with a node. -/
abbrev mk (val : Nat) (kids : List Nat) : M Ptr := VBox.new alloc Node.base.T (nodeInit val kids)
/-- Memory with the boxes 4 (in block 1), 3 (block 2, holding the box in block 1), 2 (block 3), and 1 (block 4, holding those in blocks 2 and 3 and a `None`). -/
def m1 : St := after (mk 4 []) st0
def m2 : St := after (mk 3 [1]) m1
def m3 : St := after (mk 2 []) m2
def m4 : St := after (mk 1 [2, 0, 3]) m3

theorem mk_box {val : Nat} {kids : List Nat} {s s' : St} {p : Ptr} (hv : (nodeInit val kids).val = some (nodeVal val kids)) (e : mk val kids s = .ok p s') :
    (∃ l, BoxHas Node.base.T s' p (nodeVal val kids) l) ∧ ∀ b, s.blk b ≠ Option.none → s'.blk b = s.blk b := by
  have hlib := (nodeInit_lib val kids).lib
  replace e : VBox.new alloc Node.base.T (nodeInit val kids) s = .ok p s' := e
  have hs := VBox.new_spec alloc hlib.1.lawful hlib.2 (nodeInit_pre val kids s)
  cases hl : (nodeInit val kids).lay with
  | none =>
    rw [hl] at hs
    obtain ⟨s1, e', _⟩ := hs
    rw [e] at e'; cases e'
  | some l =>
    rw [hl] at hs
    simp only at hs
    split at hs
    · split at hs
      · rw [e] at hs; cases hs
      · cases hk : pick 64 alloc s l.size.toNat Node.base.T.ALIGN.toNat with
        | none => rw [hk] at hs; simp only at hs; rw [e] at hs; cases hs
        | some base =>
          rw [hk] at hs
          simp only [hv] at hs
          obtain ⟨s1, e1, e2, e3, e4, e5, e6⟩ := hs
          rw [e] at e1; cases e1
          exact ⟨⟨l, e2⟩, fun b hb => (match hB : s.blk b with
            | Option.none => absurd hB hb
            | some B => e5 b B hB (nodeInit_owns val kids b))⟩
    · obtain ⟨s1, e', _⟩ := hs
      rw [e] at e'; cases e'

theorem m1_eq : mk 4 [] st0 = .ok ⟨1, 0⟩ m1 := (run_eq ⟨0, 0⟩ (mk 4 []) st0 (by decide +kernel)).trans (by rw [show result ⟨0, 0⟩ (mk 4 []) st0 = ⟨1, 0⟩ by decide +kernel]; rfl)
theorem m2_eq : mk 3 [1] m1 = .ok ⟨2, 0⟩ m2 := (run_eq ⟨0, 0⟩ (mk 3 [1]) m1 (by decide +kernel)).trans (by rw [show result ⟨0, 0⟩ (mk 3 [1]) m1 = ⟨2, 0⟩ by decide +kernel]; rfl)
theorem m3_eq : mk 2 [] m2 = .ok ⟨3, 0⟩ m3 := (run_eq ⟨0, 0⟩ (mk 2 []) m2 (by decide +kernel)).trans (by rw [show result ⟨0, 0⟩ (mk 2 []) m2 = ⟨3, 0⟩ by decide +kernel]; rfl)
theorem m4_eq : mk 1 [2, 0, 3] m3 = .ok ⟨4, 0⟩ m4 := (run_eq ⟨0, 0⟩ (mk 1 [2, 0, 3]) m3 (by decide +kernel)).trans (by rw [show result ⟨0, 0⟩ (mk 1 [2, 0, 3]) m3 = ⟨4, 0⟩ by decide +kernel]; rfl)

/-- What is in the boxes. -/
def boxVal (p : Ptr) : V := match p.blk with
  | 1 => nodeVal 4 []
  | 2 => nodeVal 3 [1]
  | 3 => nodeVal 2 []
  | _ => nodeVal 1 [2, 0, 3]

theorem kept {val : Nat} {kids : List Nat} {s s' : St} {p q : Ptr} {v : V} (h : ∃ l, BoxHas Node.base.T s q v l) (hv : (nodeInit val kids).val = some (nodeVal val kids)) (e : mk val kids s = .ok p s') :
    ∃ l, BoxHas Node.base.T s' q v l := by
  obtain ⟨l, h⟩ := h
  exact ⟨l, h.of_same (on := fun b => b = q.blk) (fun b hb => by subst hb; exact (mk_box hv e).2 _ h.blk) rfl⟩

theorem m4_boxes : (∃ l, BoxHas Node.base.T m4 ⟨1, 0⟩ (nodeVal 4 []) l) ∧ (∃ l, BoxHas Node.base.T m4 ⟨2, 0⟩ (nodeVal 3 [1]) l) ∧ (∃ l, BoxHas Node.base.T m4 ⟨3, 0⟩ (nodeVal 2 []) l) ∧
    (∃ l, BoxHas Node.base.T m4 ⟨4, 0⟩ (nodeVal 1 [2, 0, 3]) l) := by
  have h1 := (mk_box (by rfl) m1_eq).1
  have h2 := (mk_box (by rfl) m2_eq).1
  have h3 := (mk_box (by rfl) m3_eq).1
  have h4 := (mk_box (by rfl) m4_eq).1
  exact ⟨kept (kept (kept h1 (by rfl) m2_eq) (by rfl) m3_eq) (by rfl) m4_eq, kept (kept h2 (by rfl) m3_eq) (by rfl) m4_eq, kept h3 (by rfl) m4_eq, h4⟩

/-- The destructor of `D4` logs the value; it uses no memory. -/
abbrev anything : World := .owning (fun _ => False) (fun _ => True) (fun _ _ _ _ => trivial) (fun _ _ _ h => h.elim)
abbrev owner : Owner := (Owner.none anything).nest isB decB Node boxVal isB_drop [[2, 3], [1]]

theorem plan_node (val : Nat) (kids : List Nat) : Plan Node.base (nodeVal val kids) [[(D4, d4 val)], [(u8Ty, encLE 1 kids.length)], (kids.map bx).map fun x => (OptBox, x)] :=
  .struct (.normal (.length (.array .nil)))

theorem blk_of {b : Nat} {q : Ptr} {v : V} (h : ∃ l, BoxHas Node.base.T m4 q v l) (e : q.blk = b) : ∃ B, m4.blk b = some B := by
  subst e
  obtain ⟨l, h⟩ := h
  cases hb : m4.blk q.blk with
  | none => exact absurd hb h.blk
  | some B => exact ⟨B, rfl⟩

/-- The hypothesis of `C79_nested_freed` is met: box 4 owns the boxes 2 and 3, of which 2 owns box 1. -/
theorem m4_owner : (owner.owing ([[(D4, d4 1)], [(u8Ty, encLE 1 3)], ([2, 0, 3].map bx).map fun x => (OptBox, x)] : List Group).flatten).ok m4 (fun b => b = 4) := by
  obtain ⟨h1, h2, h3, h4⟩ := m4_boxes
  have p2 := plan_node 3 [1]
  have p3 := plan_node 2 []
  have p1 := plan_node 4 []
  refine ⟨[⟨2, 0⟩, ⟨3, 0⟩], _, .plain rfl (.plain rfl (.box rfl rfl p2 (.empty rfl rfl (.box rfl rfl p3 .nil)))), ?_, by decide, ?_, ?_⟩
  · intro p hp
    simp only [List.mem_cons, List.mem_nil_iff, or_false] at hp
    rcases hp with rfl | rfl
    · exact ⟨h2, by simp⟩
    · exact ⟨h3, by simp⟩
  · intro b hb
    simp only [List.mem_cons, List.mem_nil_iff, or_false] at hb
    rcases hb with rfl | rfl
    · obtain ⟨B, hB⟩ := blk_of h2 rfl
      exact ⟨by simp, B, hB, fun _ => ⟨⟨2, 0⟩, by simp, rfl⟩⟩
    · obtain ⟨B, hB⟩ := blk_of h3 rfl
      exact ⟨by simp, B, hB, fun _ => ⟨⟨3, 0⟩, by simp, rfl⟩⟩
  · refine ⟨[⟨1, 0⟩], _, .plain rfl (.plain rfl (.plain rfl (.plain rfl (.box rfl rfl p1 (.plain rfl (.plain rfl .nil)))))), ?_, by decide, ?_, ?_⟩
    · intro p hp
      simp only [List.mem_cons, List.mem_nil_iff, or_false] at hp
      subst hp
      exact ⟨h1, by simp⟩
    · intro b hb
      simp only [List.mem_cons, List.mem_nil_iff, or_false] at hb
      subst hb
      obtain ⟨B, hB⟩ := blk_of h1 rfl
      exact ⟨by simp, B, hB, fun _ => ⟨⟨1, 0⟩, by simp, rfl⟩⟩
    · refine ⟨fun b hb => ⟨?_, fun h => h⟩, trivial⟩
      have : ∃ B, m4.blk b = some B := by
        rcases hb with (rfl | hb) | hb
        · exact blk_of h4 rfl
        · simp only [List.mem_cons, List.mem_nil_iff, or_false] at hb
          rcases hb with rfl | rfl
          · exact blk_of h2 rfl
          · exact blk_of h3 rfl
        · simp only [List.mem_cons, List.mem_nil_iff, or_false] at hb
          subst hb
          exact blk_of h1 rfl
      obtain ⟨B, hB⟩ := this
      simp [hB]

/-- So all the boxes are freed. -/
example : ∃ s' es, VBox.drop (nestDtor isB decB Node (logDtor fun _ _ => false) 2) Node ⟨4, 0⟩ m4 = .ok () s' ∧ s'.log = m4.log ++ es ∧ ∀ b ∈ [1, 2, 3, 4], Freed s' b := by
  obtain ⟨l, h⟩ := m4_boxes.2.2.2
  obtain ⟨s', es, e1, _, e2, e3, e4, _⟩ := C79_nested_freed (val := boxVal) (hbox := isB_drop) Node_lib (logDtor_ok anything fun _ _ => false) (fun _ _ _ _ _ h => h.2) Node_lib h (plan_node 1 [2, 0, 3]) (prot := fun b => b = 4) rfl
    (alls := [[2, 3], [1]]) m4_owner
  refine ⟨s', es, e1, e2, fun b hb => ?_⟩
  simp only [List.mem_cons, List.mem_nil_iff, or_false] at hb
  rcases hb with rfl | rfl | rfl | rfl
  · exact e4 [1] (by simp) 1 (by simp)
  · exact e4 [2, 3] (by simp) 2 (by simp)
  · exact e4 [2, 3] (by simp) 3 (by simp)
  · exact e3

/-- The run: the values are destroyed in order, and all four boxes are freed. -/
example : (okOf (VBox.drop (nestDtor isB decB Node (logDtor fun _ _ => false) 2) Node ⟨4, 0⟩ m4)).map (fun x => (x.2.log, x.2.blocks.map (·.live))) = some ([1, 3, 4, 2], [false, false, false, false]) := by decide +kernel
/-- With a panic in the innermost destructor: the boxes around it leak, the one beside it is freed. -/
example : (panicOf (VBox.drop (nestDtor isB decB Node (logDtor fun _ x => x == d4 4) 2) Node ⟨4, 0⟩ m4)).map (fun x => (x.1, x.2.log, x.2.blocks.map (·.live))) = some (.user, [1, 3, 4, 2], [true, true, false, true]) := by decide +kernel

end Demo
end Varlen.UD
