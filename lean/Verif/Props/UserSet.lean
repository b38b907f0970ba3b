import Verif.Proofs.UserSet
import Verif.Props.UserDrop
/-!
# C82: replacing layout controllers whose destructors are programs

`try_set_layout_controllers` destroys the old controllers' values or the rejected new ones. Their destructors may do what they like to the program's own memory, and panic, by the contract of C79.
-/
namespace Varlen.UD
open Eff (World Ran Wrote)
open DP (Group Fate)
variable {w : Nat}

section
variable {W : Owner} {d : Dtor} {E : Effects} {prot : Nat → Prop} {rest : List (RTy × Img)} {headSize headAlign : Nat} {fs : List (Varlen.Fld w)} {s : St} {p : Ptr} {vs : List V} {l : Layout w}
  {new : List Img}

/-- **C82**: `try_set_layout_controllers(new)` when all array lengths computed from `new` are the current ones, and no destructor aborts of its own accord. The controllers are assigned one after the other by Rust's rules (`AssignEnds`): it returns `Ok`, propagates a panic or aborts.
The controllers hold `now` afterwards; what they hold, and the values that have not been destroyed (`lost`), still own what they own; of the protected memory nothing has changed but the object's header. If the array lengths
computed from `now` are the current ones too, which is so if the call returns (`C82_accounting`), the object is valid, with the same layout and the same other fields. -/
theorem C82_try_set (hh : HeaderOk headSize headAlign fs) (hT : ∀ T, Varlen.Fld.varlen T ∈ fs → LibType T) (hd : DtorOk W d E) (hna : NeverAborts E) (h : Valid (Struct w headSize headAlign fs) s p (.node vs) l) (hp : prot p.blk)
    (hlen : new.length = (controllerTypes fs).length) (hnew : ∀ (i : Nat) R x, (controllerTypes fs)[i]? = some R → new[i]? = some x → R.valid x = true)
    (hsame : ∀ R len, Varlen.Fld.array R len ∈ fs → len.defd new = true ∧ len new = len (controllersAt fs s p))
    (hU : (W.owing ((controllerTypes fs).zip (controllersAt fs s p) ++ ((controllerTypes fs).zip new ++ rest))).ok s prot) :
    ∃ s' es f now lost, trySetLayoutControllers d fs p new s = (match f with
        | .done => .ok true s'
        | .panicked => .panic .user s'
        | .aborted => .panic .abort s') ∧
      AssignEnds E (controllerTypes fs) (controllersAt fs s p) new es f now lost ∧ controllersAt fs s' p = now ∧
      Wrote (W.owing (lost ++ ((controllerTypes fs).zip now ++ rest))) prot s s' p headSize (fun _ => False) es ∧
      ((∀ R len, Varlen.Fld.array R len ∈ fs → len.defd now = true ∧ len now = len (controllersAt fs s p)) →
        ∃ vs', Valid (Struct w headSize headAlign fs) s' p (.node vs') l ∧ controllerValues fs vs' = now.map .leaf ∧
          ∀ (i : Nat) f, fs[i]? = some f → (∀ R off, f ≠ .length R off) → vs'[i]? = vs[i]?) := by
  have hok : StructOk headSize headAlign fs := hh.structOk fun T h => (hT T h).lawful
  have hn : Rel2 (fun R x => R.valid x = true) (ctlTys fs) new := by
    rw [ctlTys_eq]
    exact Rel2.of_get hlen.symm hnew
  have heq : arrayLens fs (lengthsOf fs (viewAt s p)) = arrayLens fs new := by
    rw [arrayLens_eq_iff]
    intro R len hm
    rw [(hsame R len hm).2, controllersAt_eq]
  obtain ⟨s', es, f, now, lost, k1, k2, k3, k4, k5, k6⟩ := (trySet_ends hd hok hp h hn).1 hna (fun R len hm => (hsame R len hm).1) heq (by rw [ctlTys_eq, ← controllersAt_eq]; exact hU)
  rw [ctlTys_eq, ← controllersAt_eq] at k2
  rw [ctlTys_eq] at k3
  refine ⟨s', es, f, now, lost, ?_, k2, by rw [controllersAt_eq, k4], k3, fun hmix => ?_⟩
  · rw [k1]; cases f <;> rfl
  · have hv := k6 (fun R len hm => (hmix R len hm).1) ((arrayLens_eq_iff fs _ _).2 fun R len hm => by rw [(hmix R len hm).2, controllersAt_eq])
    refine ⟨_, hv, ?_, fun i f h1 h2 => setCtl_other fs vs _ i f h1 h2⟩
    obtain ⟨_, _, vs2, ls2, size2, e3, _, r1, _⟩ := hv
    cases e3
    exact (lengthsOf_repHdr fs _ r1).symm.trans (by rw [k4])

/-- **C82**: when some array length computed from `new` differs, no protected memory changes; the rejected values are destroyed in order, also after one has panicked, and the call returns `Err`, panics or aborts accordingly. -/
theorem C82_rejected (hh : HeaderOk headSize headAlign fs) (hT : ∀ T, Varlen.Fld.varlen T ∈ fs → LibType T) (hd : DtorOk W d E) (h : Valid (Struct w headSize headAlign fs) s p (.node vs) l) (hp : prot p.blk)
    (hlen : new.length = (controllerTypes fs).length) (hnew : ∀ (i : Nat) R x, (controllerTypes fs)[i]? = some R → new[i]? = some x → R.valid x = true)
    (hdef : ∀ R len, Varlen.Fld.array R len ∈ fs → len.defd new = true) {R : RTy} {len : LenFn w} (hm : Varlen.Fld.array R len ∈ fs) (hne : len new ≠ len (controllersAt fs s p))
    (hU : (W.owing ((controllerTypes fs).zip new ++ rest)).ok s prot) :
    ∃ s' es f lost, trySetLayoutControllers d fs p new s = (match f with
        | .done => .ok false s'
        | .panicked => .panic .user s'
        | .aborted => .panic .abort s') ∧ GroupEnds E false ((controllerTypes fs).zip new) es f lost ∧ Ran (W.owing (lost ++ rest)) prot s s' es := by
  have hok : StructOk headSize headAlign fs := hh.structOk fun T h => (hT T h).lawful
  have hn : Rel2 (fun R x => R.valid x = true) (ctlTys fs) new := by
    rw [ctlTys_eq]
    exact Rel2.of_get hlen.symm hnew
  obtain ⟨s', es, f, lost, k1, k2, k3⟩ := (trySet_ends hd hok hp h hn).2.1 hdef (by
    intro heq
    rw [arrayLens_eq_iff] at heq
    rw [controllersAt_eq] at hne
    exact hne (heq R len hm).symm) (by rw [ctlTys_eq]; exact hU)
  rw [ctlTys_eq] at k3
  refine ⟨s', es, f, lost, ?_, k3, k2⟩
  rw [k1]; cases f <;> rfl

/-- **C82**: when a length expression panics on `new`, so does the call; no protected memory changes, and the values of `new` are destroyed while unwinding, in order; a panic of a destructor then aborts. -/
theorem C82_length_panics (hh : HeaderOk headSize headAlign fs) (hT : ∀ T, Varlen.Fld.varlen T ∈ fs → LibType T) (hd : DtorOk W d E) (h : Valid (Struct w headSize headAlign fs) s p (.node vs) l) (hp : prot p.blk)
    (hlen : new.length = (controllerTypes fs).length) (hnew : ∀ (i : Nat) R x, (controllerTypes fs)[i]? = some R → new[i]? = some x → R.valid x = true)
    {R : RTy} {len : LenFn w} (hm : Varlen.Fld.array R len ∈ fs) (hdef : len.defd new = false) (hU : (W.owing ((controllerTypes fs).zip new ++ rest)).ok s prot) :
    ∃ s' es lost, (trySetLayoutControllers d fs p new s = .panic .user s' ∧ GroupEnds E true ((controllerTypes fs).zip new) es .panicked lost ∨
        trySetLayoutControllers d fs p new s = .panic .abort s' ∧ GroupEnds E true ((controllerTypes fs).zip new) es .aborted lost) ∧ Ran (W.owing (lost ++ rest)) prot s s' es := by
  have hok : StructOk headSize headAlign fs := hh.structOk fun T h => (hT T h).lawful
  have hn : Rel2 (fun R x => R.valid x = true) (ctlTys fs) new := by
    rw [ctlTys_eq]
    exact Rel2.of_get hlen.symm hnew
  obtain ⟨s', es, f, lost, k1, k2, k3⟩ := (trySet_ends hd hok hp h hn).2.2 ⟨R, len, hm, hdef⟩ (by rw [ctlTys_eq]; exact hU)
  rw [ctlTys_eq] at k3
  refine ⟨s', es, lost, ?_, k2⟩
  have hgt := groupEnds_true k3 rfl
  cases f with
  | done => exact absurd rfl hgt
  | panicked => exact .inl ⟨k1, k3⟩
  | aborted => exact .inr ⟨k1, k3⟩

/-- **C82**: what the assignments come to. For some `k`, the first `k` controllers hold their new values and the others their old ones. Every value, old or new, is exactly one of: destroyed (once, with effects that its destructor's
contract allows), held by a controller, or lost without being destroyed (only if the process aborts). The call returns exactly if no destructor panics, and then all controllers hold the new values. -/
theorem C82_accounting {Rs : List RTy} {old : List Img} {es : List Event} {f : Fate} {now : List Img} {lost : List (RTy × Img)} (h : AssignEnds E Rs old new es f now lost) :
    (∃ k, now = new.take k ++ old.drop k) ∧ (f = .done → now = new) ∧ (f ≠ .aborted → lost = []) ∧
    ∃ ds : List ((RTy × Img) × List Event × Fate), (Rs.zip old ++ Rs.zip new).Perm (ds.map (·.1) ++ (lost ++ Rs.zip now)) ∧ (∀ x ∈ ds, Ended E x.1 x.2.1 x.2.2) ∧ es = (ds.map (·.2.1)).flatten ∧
      (f = .done ↔ ∀ x ∈ ds, x.2.2 = .done) := by
  have hlost : ∀ {u : Bool} {g : Group} {es : List Event} {f : Fate} {lost : List (RTy × Img)}, GroupEnds E u g es f lost → f ≠ .aborted → lost = [] := by
    intro u g es f lost h
    induction h with
    | done => intro _; rfl
    | panicked => intro _; rfl
    | plain _ _ ih => exact ih
    | calm _ _ _ ih => exact ih
    | first _ _ _ ih => exact ih
    | second => intro h; exact absurd rfl h
    | dead => intro h; exact absurd rfl h
  induction h with
  | nil => exact ⟨⟨0, rfl⟩, fun _ => rfl, fun _ => rfl, [], .refl _, by simp, rfl, by simp⟩
  | @plain R x y Rs old new now es f lost h1 _ ih =>
    obtain ⟨⟨k, rfl⟩, i2, i3, ds, i4, i5, i6, i7⟩ := ih
    refine ⟨⟨k + 1, rfl⟩, fun hf => by rw [i2 hf], i3, ((R, x), [], .done) :: ds, ?_, ?_, by simpa using i6, by rw [i7]; simp⟩
    · simp only [List.zip_cons_cons, List.map_cons, List.cons_append]
      refine List.Perm.cons _ ?_
      refine List.perm_middle.trans ((List.Perm.cons _ i4).trans ?_)
      rw [← List.append_assoc, ← List.append_assoc]
      exact List.perm_middle.symm
    · intro z hz
      rcases List.mem_cons.1 hz with rfl | hz
      · simp [Ended, h1]
      · exact i5 z hz
  | @calm R x y Rs old new now es es' f lost h1 h2 _ ih =>
    obtain ⟨⟨k, rfl⟩, i2, i3, ds, i4, i5, i6, i7⟩ := ih
    refine ⟨⟨k + 1, rfl⟩, fun hf => by rw [i2 hf], i3, ((R, x), es, .done) :: ds, ?_, ?_, by simp [i6], by rw [i7]; simp⟩
    · simp only [List.zip_cons_cons, List.map_cons, List.cons_append]
      refine List.Perm.cons _ ?_
      refine List.perm_middle.trans ((List.Perm.cons _ i4).trans ?_)
      rw [← List.append_assoc, ← List.append_assoc]
      exact List.perm_middle.symm
    · intro z hz
      rcases List.mem_cons.1 hz with rfl | hz
      · simpa [Ended, h1] using h2
      · exact i5 z hz
  | @boom R x y Rs old new es es' f lost h1 h2 h3 =>
    obtain ⟨ds, i1, i2, rfl, i4⟩ := h3.account
    have hf : f ≠ .done := fun hf => by have := (i4.1 hf).1; cases this
    refine ⟨⟨1, by simp⟩, fun h => absurd h hf, hlost h3, ((R, x), es, .panicked) :: ds, ?_, ?_, rfl, by simp [hf]⟩
    · simp only [List.zip_cons_cons, List.map_cons, List.cons_append]
      refine List.Perm.cons _ ?_
      rw [i1]
      refine List.perm_middle.trans ?_
      rw [← List.append_assoc, ← List.append_assoc]
      exact (List.Perm.cons _ (by rw [List.append_assoc]; exact List.perm_append_comm)).trans List.perm_middle.symm
    · intro z hz
      rcases List.mem_cons.1 hz with rfl | hz
      · simpa [Ended, h1] using h2
      · exact i2 z hz

/-- **C82**: so if the destructors do not panic, the call returns `Ok` and the object is valid with the new controllers; the old values have been destroyed, and memory is in order. -/
theorem C82_calm (hh : HeaderOk headSize headAlign fs) (hT : ∀ T, Varlen.Fld.varlen T ∈ fs → LibType T) (hd : DtorOk W d E) (hcalm : ∀ R x es f, R.needsDrop = true → E R x es f → f = .done)
    (h : Valid (Struct w headSize headAlign fs) s p (.node vs) l) (hp : prot p.blk)
    (hlen : new.length = (controllerTypes fs).length) (hnew : ∀ (i : Nat) R x, (controllerTypes fs)[i]? = some R → new[i]? = some x → R.valid x = true)
    (hsame : ∀ R len, Varlen.Fld.array R len ∈ fs → len.defd new = true ∧ len new = len (controllersAt fs s p))
    (hU : (W.owing ((controllerTypes fs).zip (controllersAt fs s p) ++ ((controllerTypes fs).zip new ++ rest))).ok s prot) :
    ∃ s' es vs', trySetLayoutControllers d fs p new s = .ok true s' ∧ Valid (Struct w headSize headAlign fs) s' p (.node vs') l ∧ controllerValues fs vs' = new.map .leaf ∧
      (∀ (i : Nat) f, fs[i]? = some f → (∀ R off, f ≠ .length R off) → vs'[i]? = vs[i]?) ∧ Wrote (W.owing ((controllerTypes fs).zip new ++ rest)) prot s s' p headSize (fun _ => False) es ∧
      RunEnds E [(controllerTypes fs).zip (controllersAt fs s p)] es .done [] := by
  obtain ⟨s', es, f, now, lost, e1, e2, e3, e4, e5⟩ := C82_try_set hh hT hd (fun R x es hn h => by cases hcalm R x es _ hn h) h hp hlen hnew hsame hU
  obtain ⟨_, a2, a3, ds, _, a5, _, a7⟩ := C82_accounting e2
  have hf : f = .done := a7.2 fun x hx => by
    have := a5 x hx
    unfold Ended at this
    split at this
    · rename_i hn; exact hcalm _ _ _ _ hn this
    · exact this.2
  subst hf
  obtain rfl := a3 (by simp)
  obtain rfl := a2 rfl
  obtain ⟨vs', v1, v2, v3⟩ := e5 hsame
  refine ⟨s', es, vs', e1, v1, v2, v3, e4, ?_⟩
  have : ∀ {Rs : List RTy} {old new now : List Img} {es : List Event} {f : Fate} {lost : List (RTy × Img)}, AssignEnds E Rs old new es f now lost → f = .done → GroupEnds E false (Rs.zip old) es .done [] := by
    intro Rs old new now es f lost h
    induction h with
    | nil => intro _; exact .done
    | plain h1 _ ih => exact fun hf => .plain h1 (ih hf)
    | calm h1 h2 _ ih => exact fun hf => .calm h1 h2 (ih hf)
    | boom h1 h2 h3 => exact fun hf => absurd hf (groupEnds_true h3 rfl)
  simpa using RunEnds.cons (this e2 rfl) .nil

/-- **C82**: with a single controller there is no mixture: also after a panic the object is valid, with the new value. -/
theorem C82_single (hh : HeaderOk headSize headAlign fs) (hT : ∀ T, Varlen.Fld.varlen T ∈ fs → LibType T) (hd : DtorOk W d E) (hna : NeverAborts E) (h : Valid (Struct w headSize headAlign fs) s p (.node vs) l) (hp : prot p.blk)
    {R : RTy} (h1 : controllerTypes fs = [R]) {x y : Img} (hx : R.valid x = true) (hy : controllersAt fs s p = [y])
    (hsame : ∀ R len, Varlen.Fld.array R len ∈ fs → len.defd [x] = true ∧ len [x] = len [y])
    (hU : (W.owing ((R, y) :: (R, x) :: rest)).ok s prot) :
    ∃ s' es vs', (trySetLayoutControllers d fs p [x] s = .ok true s' ∨ trySetLayoutControllers d fs p [x] s = .panic .user s') ∧ Valid (Struct w headSize headAlign fs) s' p (.node vs') l ∧
      controllerValues fs vs' = [.leaf x] ∧ (∀ (i : Nat) f, fs[i]? = some f → (∀ R off, f ≠ .length R off) → vs'[i]? = vs[i]?) ∧
      Wrote (W.owing ((R, x) :: rest)) prot s s' p headSize (fun _ => False) es := by
  obtain ⟨s', es, f, now, lost, e1, e2, e3, e4, e5⟩ := C82_try_set hh hT hd hna h hp (new := [x]) (rest := rest) (by simp [h1]) (by
    intro i R' z hR hz
    rw [h1] at hR
    cases i with
    | zero => cases hR; cases hz; exact hx
    | succ i => simp at hz) (by rw [hy]; exact hsame) (by rw [h1, hy]; exact hU)
  rw [h1, hy] at e2
  rw [h1] at e4
  have key : now = [x] ∧ f ≠ .aborted ∧ lost = [] := by
    cases e2 with
    | plain _ h2 => cases h2; exact ⟨rfl, by simp, rfl⟩
    | calm _ _ h2 => cases h2; exact ⟨rfl, by simp, rfl⟩
    | boom _ _ h3 =>
      simp only [List.zip_nil_left] at h3
      cases h3; exact ⟨rfl, by simp, rfl⟩
  obtain ⟨rfl, hf, rfl⟩ := key
  obtain ⟨vs', v1, v2, v3⟩ := e5 (by rw [hy]; exact hsame)
  refine ⟨s', es, vs', ?_, v1, by simpa using v2, v3, e4⟩
  cases f with
  | done => exact .inl e1
  | panicked => exact .inr e1
  | aborted => exact absurd rfl hf
end

/-! ## The special case of C59 -/

theorem dropLocal_log (boom : DP.Boom) (R : RTy) (x : Img) : dropLocal (logDtor boom) R x = DP.dropLocal boom R x := by
  funext s
  unfold dropLocal DP.dropLocal
  cases hn : R.needsDrop
  · simp [RTy.drops, hn, bind_apply, emit_apply, St.logged]
  · cases hb : boom R x <;> simp [logDtor, RTy.drops, hn, hb, bind_apply, emit_apply]

theorem dropControllersRest_log (boom : DP.Boom) : ∀ (fs : List (Varlen.Fld w)) xs, dropControllersRest (logDtor boom) fs xs = DP.dropControllersRest boom fs xs
  | [], _ => by simp [dropControllersRest, DP.dropControllersRest]
  | .normal R off :: fs, xs => dropControllersRest_log boom fs xs
  | .varlen T :: fs, xs => dropControllersRest_log boom fs xs
  | .array R len :: fs, xs => dropControllersRest_log boom fs xs
  | .length R off :: fs, [] => rfl
  | .length R off :: fs, x :: xs => by simp only [dropControllersRest, DP.dropControllersRest, dropLocal_log, dropControllersRest_log boom fs xs]

theorem dropControllers_log (boom : DP.Boom) : ∀ (fs : List (Varlen.Fld w)) xs, dropControllers (logDtor boom) fs xs = DP.dropControllers boom fs xs
  | [], _ => by simp [dropControllers, DP.dropControllers]
  | .normal R off :: fs, xs => dropControllers_log boom fs xs
  | .varlen T :: fs, xs => dropControllers_log boom fs xs
  | .array R len :: fs, xs => dropControllers_log boom fs xs
  | .length R off :: fs, [] => rfl
  | .length R off :: fs, x :: xs => by simp only [dropControllers, DP.dropControllers, dropLocal_log, dropControllersRest_log, dropControllers_log boom fs xs]

theorem setLengths_log (boom : DP.Boom) (p : Ptr) : ∀ (fs : List (Varlen.Fld w)) xs, setLengths (logDtor boom) p fs xs = DP.setLengths boom p fs xs
  | [], _ => rfl
  | .normal R off :: fs, xs => setLengths_log boom p fs xs
  | .varlen T :: fs, xs => setLengths_log boom p fs xs
  | .array R len :: fs, xs => setLengths_log boom p fs xs
  | .length R off :: fs, [] => rfl
  | .length R off :: fs, x :: xs => by simp only [setLengths, DP.setLengths, dropInPlace_log, dropControllersRest_log, setLengths_log boom p fs xs]

/-- **C82**: with destructors whose only effect is in the log, the program is the one of C59, and the rule is that of C59. -/
theorem C82_special (boom : DP.Boom) :
    (∀ (fs : List (Varlen.Fld w)) p new, trySetLayoutControllers (logDtor boom) fs p new = DP.trySetLayoutControllers boom fs p new) ∧
    (∀ Rs old new es f now lost, AssignEnds (logEffects boom) Rs old new es f now lost → DP.assign boom Rs old new = (es, f, now)) := by
  refine ⟨fun fs p new => ?_, ?_⟩
  · simp only [trySetLayoutControllers, DP.trySetLayoutControllers, dropControllersRest_log, dropControllers_log, setLengths_log]
  · have hg : ∀ u g es f lost, GroupEnds (logEffects boom) u g es f lost → DP.group boom u g = (es, f) := by
      intro u g es f lost h
      induction h with
      | done => rfl
      | panicked => rfl
      | plain h1 _ ih => simp only [DP.group, h1, Bool.false_eq_true, if_false, ih]
      | calm h1 h2 _ ih => simp only [DP.group, h1, log_done h2, Bool.false_eq_true, if_false, if_true, ih, ← h2.1]
      | first h1 h2 _ ih => simp only [DP.group, h1, log_panicked h2, Bool.false_eq_true, if_false, if_true, ih, ← h2.1]
      | second h1 h2 => simp only [DP.group, h1, log_panicked h2, if_true, ← h2.1]
      | dead h1 h2 => exact (log_aborted h2).elim
    intro Rs old new es f now lost h
    induction h with
    | nil => rfl
    | plain h1 _ ih => simp [DP.assign, h1, ih, RTy.dtor]
    | calm h1 h2 _ ih => simp [DP.assign, h1, log_done h2, ih, RTy.dtor, h2.1]
    | boom h1 h2 h3 => simp [DP.assign, h1, log_panicked h2, h2.1, hg _ _ _ _ _ h3]

/-! ## A concrete case -/

namespace Demo
open Varlen.Demo

/-- The length is the second controller. -/
def sndLen : LenFn 64 := .total fun lens => BitVec.ofNat 64 (decLE (lens.getD 1 []))
/-- `struct Tagged { #[controls_layout] tag: Option<VBox<Node>>, #[controls_layout] n: u8, #[varlen_array] xs: [u8; *n as usize] }` -/
abbrev tFs : List (Varlen.Fld 64) := [.length OptBox 0, .length u8Ty 8, .array u8Ty sndLen]
abbrev tFis (tag : Nat) (xs : List Nat) : List (FI 64) := [.length OptBox 0 (bx tag), .length u8Ty 8 (encLE 1 xs.length), .array u8Ty sndLen (MoveFrom u8Ty (xs.map (encLE 1)))]
abbrev Tagged : VarLen 64 := Struct 64 16 8 tFs
abbrev tInit : Init 64 := Struct.init 16 8 (tFis 1 [7, 8])
abbrev tVal (tag : Nat) (xs : List Nat) : V := .node [.leaf (bx tag), .leaf (encLE 1 xs.length), .arr (xs.map (encLE 1))]

theorem tHeader : HeaderOk 16 8 tFs where
  head_pow2 := ⟨3, by decide, rfl⟩
  head_lt := by decide
  normal := by intro R off h; simp at h
  length := by
    intro R off h
    simp at h
    rcases h with ⟨rfl, rfl⟩ | ⟨rfl, rfl⟩
    · exact ⟨OptBox_ok, by decide, by decide, by decide⟩
    · exact ⟨u8Ty_ok (by decide), by decide, by decide, by decide⟩
  array := by
    intro R len h
    simp at h
    obtain ⟨rfl, rfl⟩ := h
    exact u8Ty_ok (by decide)
  disjoint := by simp [Varlen.Fld.range, OptBox, u8Ty]

theorem tInit_lib : LibInit Tagged tInit := by
  refine LibInit.struct (fis := tFis 1 [7, 8]) tHeader ?_ ?_ ?_ ?_
  · intro R off img h; simp at h
  · intro R off img h
    simp at h
    rcases h with ⟨rfl, rfl, rfl⟩ | ⟨rfl, rfl, rfl⟩
    · simp [OptBox, bx, encLE]
    · exact encLE1_valid _
  · intro T I h; simp at h
  · intro R len I h
    simp at h
    obtain ⟨rfl, rfl, rfl⟩ := h
    refine .moveFrom fun x hx => ?_
    simp only [List.mem_cons, List.mem_nil_iff, or_false, List.map_cons, List.map_nil] at hx
    rcases hx with rfl | rfl <;> exact encLE1_valid _

/-- Memory with the boxes 4 (in block 1) and 2 (block 2), and a box (block 3) with a `Tagged`, whose tag is box 1. -/
def t2 : St := after (mk 2 []) m1
def t3 : St := after (VBox.new alloc Tagged tInit) t2
theorem t2_eq : mk 2 [] m1 = .ok ⟨2, 0⟩ t2 := (run_eq ⟨0, 0⟩ (mk 2 []) m1 (by decide +kernel)).trans (by rw [show result ⟨0, 0⟩ (mk 2 []) m1 = ⟨2, 0⟩ by decide +kernel]; rfl)
theorem t3_eq : VBox.new alloc Tagged tInit t2 = .ok ⟨3, 0⟩ t3 :=
  (run_eq ⟨0, 0⟩ (VBox.new alloc Tagged tInit) t2 (by decide +kernel)).trans (by rw [show result ⟨0, 0⟩ (VBox.new alloc Tagged tInit) t2 = ⟨3, 0⟩ by decide +kernel]; rfl)

theorem tInit_owns (b : Nat) : ¬ tInit.owns b := by
  rintro ⟨f, hf, h⟩
  simp only [List.mem_cons, List.mem_nil_iff, or_false] at hf
  rcases hf with rfl | rfl | rfl <;> exact h

theorem t_box : (∃ l, BoxHas Tagged t3 ⟨3, 0⟩ (tVal 1 [7, 8]) l) ∧ ∀ b, t2.blk b ≠ Option.none → t3.blk b = t2.blk b := by
  have hlib := tInit_lib.lib
  have e := t3_eq
  have hv : tInit.val = some (tVal 1 [7, 8]) := by rfl
  have hs := VBox.new_spec alloc hlib.1.lawful hlib.2 (s := t2) (by
    refine ⟨?_, ?_⟩
    · intro f hf
      simp only [List.mem_cons, List.mem_nil_iff, or_false] at hf
      rcases hf with rfl | rfl | rfl <;> exact trivial
    · simp [FI.mods])
  cases hl : tInit.lay with
  | none =>
    rw [hl] at hs
    obtain ⟨s1, e', _⟩ := hs
    rw [e] at e'; cases e'
  | some l =>
    rw [hl] at hs
    simp only at hs
    split at hs
    · split at hs
      · rw [e] at hs; cases hs
      · cases hk : pick 64 alloc t2 l.size.toNat Tagged.ALIGN.toNat with
        | none => rw [hk] at hs; simp only at hs; rw [e] at hs; cases hs
        | some base =>
          rw [hk] at hs
          simp only [hv] at hs
          obtain ⟨s1, e1, e2, e3, e4, e5, e6⟩ := hs
          rw [e] at e1; cases e1
          exact ⟨⟨l, e2⟩, fun b hb => (match hB : t2.blk b with
            | Option.none => absurd hB hb
            | some B => e5 b B hB (tInit_owns b))⟩
    · obtain ⟨s1, e', _⟩ := hs
      rw [e] at e'; cases e'

theorem t3_boxes : (∃ l, BoxHas Node.base.T t3 ⟨1, 0⟩ (nodeVal 4 []) l) ∧ (∃ l, BoxHas Node.base.T t3 ⟨2, 0⟩ (nodeVal 2 []) l) := by
  obtain ⟨l1, h1⟩ := kept (mk_box (by rfl) m1_eq).1 (by rfl) t2_eq
  obtain ⟨l2, h2⟩ := (mk_box (by rfl) t2_eq).1
  exact ⟨⟨l1, h1.of_same (on := fun b => b = 1) (fun b hb => by subst hb; exact t_box.2 _ h1.blk) rfl⟩, ⟨l2, h2.of_same (on := fun b => b = 2) (fun b hb => by subst hb; exact t_box.2 _ h2.blk) rfl⟩⟩

/-- What is in the boxes 1 and 2. -/
def tagVal (p : Ptr) : V := match p.blk with
  | 1 => nodeVal 4 []
  | _ => nodeVal 2 []
abbrev tOwner : Owner := (Owner.none anything).nest isB decB Node tagVal isB_drop [[1, 2]]

/-- The hypothesis of `C82_calm` about memory is met: the old tag owns box 1, and the new one box 2. -/
theorem t3_owner : (tOwner.owing ((controllerTypes tFs).zip [bx 1, encLE 1 2] ++ ((controllerTypes tFs).zip [bx 2, encLE 1 2] ++ []))).ok t3 (fun b => b = 3) := by
  obtain ⟨h1, h2⟩ := t3_boxes
  refine ⟨[⟨1, 0⟩, ⟨2, 0⟩], _, .box rfl rfl (plan_node 4 []) (.plain rfl (.box rfl rfl (plan_node 2 []) (.plain rfl .nil))), ?_, by decide, ?_, ?_⟩
  · intro p hp
    simp only [List.mem_cons, List.mem_nil_iff, or_false] at hp
    rcases hp with rfl | rfl
    · exact ⟨h1, by simp⟩
    · exact ⟨h2, by simp⟩
  · intro b hb
    simp only [List.mem_cons, List.mem_nil_iff, or_false] at hb
    rcases hb with rfl | rfl
    · obtain ⟨l, h⟩ := h1
      cases hB : t3.blk 1 with
      | none => exact absurd hB h.blk
      | some B => exact ⟨by simp, B, rfl, fun _ => ⟨⟨1, 0⟩, by simp, rfl⟩⟩
    · obtain ⟨l, h⟩ := h2
      cases hB : t3.blk 2 with
      | none => exact absurd hB h.blk
      | some B => exact ⟨by simp, B, rfl, fun _ => ⟨⟨2, 0⟩, by simp, rfl⟩⟩
  · refine ⟨fun b hb => ⟨?_, fun h => h⟩, trivial⟩
    obtain ⟨l1, h1⟩ := h1
    obtain ⟨l2, h2⟩ := h2
    obtain ⟨⟨l3, h3⟩, _⟩ := t_box
    rcases hb with rfl | hb
    · exact h3.blk
    · simp only [List.mem_cons, List.mem_nil_iff, or_false] at hb
      rcases hb with rfl | rfl
      · exact h1.blk
      · exact h2.blk

/-- So replacing the tag by box 2 returns `Ok`, and the object is valid with the new tag; it owns box 2, and box 1 is freed. -/
example : ∃ s' vs' l, trySetLayoutControllers (nestDtor isB decB Node (logDtor fun _ _ => false) 1) tFs ⟨3, 0⟩ [bx 2, encLE 1 2] t3 = .ok true s' ∧ Valid Tagged s' ⟨3, 0⟩ (.node vs') l ∧
    controllerValues tFs vs' = [.leaf (bx 2), .leaf (encLE 1 2)] ∧ Freed s' 1 := by
  obtain ⟨⟨l, h⟩, _⟩ := t_box
  have hc : controllersAt tFs t3 ⟨3, 0⟩ = [bx 1, encLE 1 2] := by decide +kernel
  obtain ⟨s', es, vs', e1, e2, e3, _, e5, _⟩ := C82_calm (W := tOwner) (prot := fun b => b = 3) (rest := []) (new := [bx 2, encLE 1 2]) tHeader (fun T hT => by simp at hT)
    (C79_nested (val := tagVal) (hbox := isB_drop) Node_lib (logDtor_ok anything fun _ _ => false) (fun _ _ _ _ _ h => h.2) [[1, 2]])
    (nest_calm (fun _ _ _ _ _ h => h.2) 1) h.1 rfl rfl (by
      intro i R x hR hx
      match i with
      | 0 => cases hR; cases hx; simp [OptBox, bx, encLE]
      | 1 => cases hR; cases hx; exact encLE1_valid _
      | i + 2 => simp at hx) (by
      intro R len hm
      simp at hm
      obtain ⟨rfl, rfl⟩ := hm
      refine ⟨rfl, ?_⟩
      rw [hc]
      decide +kernel) (by rw [hc]; exact t3_owner)
  refine ⟨s', vs', l, e1, e2, e3, ?_⟩
  obtain ⟨ps, ys, o1, _, _, o4, _⟩ := e5.ok
  obtain ⟨_, B, hB, hlv⟩ := o4 1 (by simp)
  refine ⟨B, hB, ?_⟩
  cases hl : B.live with
  | false => rfl
  | true =>
    obtain ⟨q, hq, hb⟩ := hlv hl
    have : ps = [⟨2, 0⟩] := by
      cases o1 with
      | empty _ h1 _ => exact absurd h1 (by decide)
      | box _ h1 _ h2 =>
        have hp : some (⟨2, 0⟩ : Ptr) = some _ := h1
        cases hp
        cases h2 with
        | empty h3 _ _ => exact absurd h3 (by decide)
        | box h3 _ _ _ => exact absurd h3 (by decide)
        | plain _ h3 => cases h3; rfl
      | plain h1 _ => exact absurd h1 (by decide)
    subst this
    simp only [List.mem_cons, List.mem_nil_iff, or_false] at hq
    subst hq
    cases hb

/-- The run; and with a panic in the destructor of what is in box 1: the panic propagates, and the tag has its new value; box 1 leaks. -/
example : (okOf (trySetLayoutControllers (nestDtor isB decB Node (logDtor fun _ _ => false) 1) tFs ⟨3, 0⟩ [bx 2, encLE 1 2] t3)).map (fun x => (x.1, x.2.log, x.2.blocks.map (·.live), (controllersAt tFs x.2 ⟨3, 0⟩).map decLE)) =
    some (true, [4], [false, true, true], [2, 2]) := by decide +kernel
example : (panicOf (trySetLayoutControllers (nestDtor isB decB Node (logDtor fun _ x => x == d4 4) 1) tFs ⟨3, 0⟩ [bx 2, encLE 1 2] t3)).map (fun x => (x.1, x.2.log, x.2.blocks.map (·.live), (controllersAt tFs x.2 ⟨3, 0⟩).map decLE)) =
    some (.user, [4], [true, true, true], [2, 2]) := by decide +kernel
/-- A rejected value: box 2 is freed. -/
example : (okOf (trySetLayoutControllers (nestDtor isB decB Node (logDtor fun _ _ => false) 1) tFs ⟨3, 0⟩ [bx 2, encLE 1 3] t3)).map (fun x => (x.1, x.2.log, x.2.blocks.map (·.live), (controllersAt tFs x.2 ⟨3, 0⟩).map decLE)) =
    some (false, [2], [true, false, true], [1, 2]) := by decide +kernel
end Demo

end Varlen.UD
