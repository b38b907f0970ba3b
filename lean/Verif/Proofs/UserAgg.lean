import Verif.Proofs.UserReplay
/-!
# Proofs: user code inside tuples, structs, newtypes and sized arrays
-/
namespace Varlen.Eff
variable {w : Nat}

/-- Two lists related element by element. -/
inductive Each {α : Type} (r : α → α → Prop) : List α → List α → Prop
  | nil : Each r [] []
  | cons {a b : α} {as bs : List α} : r a b → Each r as bs → Each r (a :: as) (b :: bs)

theorem Each.append {α : Type} {r : α → α → Prop} {as bs cs ds : List α} (h : Each r as bs) (h' : Each r cs ds) : Each r (as ++ cs) (bs ++ ds) := by
  induction h with
  | nil => exact h'
  | cons h1 _ ih => exact .cons h1 ih

theorem Each.reverse {α : Type} {r : α → α → Prop} {as bs : List α} (h : Each r as bs) : Each r as.reverse bs.reverse := by
  induction h with
  | nil => exact .nil
  | cons h1 _ ih => simp only [List.reverse_cons]; exact ih.append (.cons h1 .nil)

theorem Each.forall {α : Type} {r : α → α → Prop} {as bs : List α} (h : Each r as bs) : ∀ b ∈ bs, ∃ a ∈ as, r a b := by
  induction h with
  | nil => intro b hb; cases hb
  | cons h1 _ ih =>
    intro b hb
    rcases List.mem_cons.1 hb with rfl | hb
    · exact ⟨_, by simp, h1⟩
    · obtain ⟨a, h2, h3⟩ := ih b hb; exact ⟨a, by simp [h2], h3⟩

theorem Each.exists {α : Type} {r : α → α → Prop} : ∀ as : List α, (∀ a ∈ as, ∃ b, r a b) → ∃ bs, Each r as bs
  | [], _ => ⟨[], .nil⟩
  | a :: as, h => by
    obtain ⟨b, hb⟩ := h a (by simp)
    obtain ⟨bs, hbs⟩ := Each.exists as fun x hx => h x (by simp [hx])
    exact ⟨b :: bs, .cons hb hbs⟩

/-- Stand-ins for the field initializers. -/
inductive SurF : FI w → FI w → Prop
  | normal (R : RTy) (off : Nat) (img : Img) : SurF (.normal R off img) (.normal R off img)
  | length (R : RTy) (off : Nat) (img : Img) : SurF (.length R off img) (.length R off img)
  | varlen {T : VarLen w} {I J : Init w} : SurI T I J → SurF (.varlen T I) (.varlen T J)
  | array {R : RTy} {len : LenFn w} {I J : ArrInit} : SurA R I J → SurF (.array R len I) (.array R len J)

/-- What was answered, for a field that was dropped. -/
inductive DropF (U : World) (lens : List Img) : FI w → FI w → Prop
  | normal (R : RTy) (off : Nat) (img : Img) : DropF U lens (.normal R off img) (.normal R off img)
  | length (R : RTy) (off : Nat) (img : Img) : DropF U lens (.length R off img) (.length R off img)
  | varlen {T : VarLen w} {I J : Init w} : RecI U T false I J → DropF U lens (.varlen T I) (.varlen T J)
  | array {R : RTy} {len : LenFn w} {I J : ArrInit} : RecA U R (len lens).toNat false I J → DropF U lens (.array R len I) (.array R len J)

theorem Each.recFs {U : World} {lens : List Img} {fis gis : List (FI w)} (h : Each (DropF U lens) fis gis) : RecFs U lens false fis gis := by
  induction h with
  | nil => exact .nil
  | cons h1 _ ih =>
    cases h1 with
    | normal => exact .normal ih
    | length => exact .length ih
    | varlen h => exact .varlenDropped h ih
    | array h => exact .arrayDropped h ih

/-- The field initializers can be simulated. -/
def SimF (U : World) : FI w → Prop
  | .varlen T I => SimI U T I (fun used => RecI U T used I) ∧ IsPow2 T.ALIGN
  | .array R _ I => SimA U R I ∧ R.Ok w
  | _ => True

/-- A stand-in exists. -/
theorem SimF.sur {U : World} {f : FI w} (h : SimF U f) : ∃ g, SurF f g := by
  cases f with
  | normal R off img => exact ⟨_, .normal R off img⟩
  | length R off img => exact ⟨_, .length R off img⟩
  | varlen T I => obtain ⟨J, hJ⟩ := h.1.sur; exact ⟨_, .varlen hJ⟩
  | array R len I => obtain ⟨J, hJ⟩ := h.1.sur; exact ⟨_, .array hJ⟩

theorem SimF.dropI {U : World} {lens : List Img} {f : FI w} (h : SimF U f) {s : St} {prot : Nat → Prop} (hU : U.ok s prot) (hfp : ∀ b, f.fp b → prot b) :
    ∃ g, SurF f g ∧ ∀ sP, Agree prot s sP → Sim U prot (f.dropI s) (g.dropI sP) (fun _ => DropF U lens f g) False := by
  cases f with
  | normal R off img => exact ⟨_, .normal R off img, fun sP ha => .ok (U.ok_logged hU _) (ha.logged _) (.normal ..)⟩
  | length R off img => exact ⟨_, .length R off img, fun sP ha => .ok (U.ok_logged hU _) (ha.logged _) (.length ..)⟩
  | varlen T I =>
    obtain ⟨J, hJ, h1⟩ := h.1.drop s prot hU hfp
    exact ⟨_, .varlen hJ, fun sP ha => (h1 sP ha).mono (fun _ h => .varlen h) id⟩
  | array R len I =>
    obtain ⟨J, hJ, h1⟩ := h.1.drop s prot hU hfp
    exact ⟨_, .array hJ, fun sP ha => (h1 sP ha).mono (fun _ h => .array (h _)) id⟩

theorem sur_all {U : World} {fis : List (FI w)} (hS : ∀ f ∈ fis, SimF U f) :
    ∃ gis, Each SurF fis gis := Each.exists fis fun f hf => (hS f hf).sur

theorem dropFIs_sim {U : World} {lens : List Img} {prot : Nat → Prop} : ∀ (fis : List (FI w)) (s : St), U.ok s prot → (∀ f ∈ fis, SimF U f) → (∀ f ∈ fis, ∀ b, f.fp b → prot b) →
    ∃ gis, Each SurF fis gis ∧ ∀ sP, Agree prot s sP → Sim U prot (dropFIs fis s) (dropFIs gis sP) (fun _ => Each (DropF U lens) fis gis) False := by
  intro fis
  induction fis with
  | nil => intro s hU _ _; exact ⟨[], .nil, fun sP ha => .ok hU ha .nil⟩
  | cons f fs ih =>
    intro s hU hS hfp
    obtain ⟨g, hg, h1⟩ := (hS f (by simp)).dropI (lens := lens) hU (hfp f (by simp))
    have hS' : ∀ f ∈ fs, SimF U f := fun x hx => hS x (by simp [hx])
    have hfp' : ∀ f ∈ fs, ∀ b, f.fp b → prot b := fun x hx => hfp x (by simp [hx])
    have stubs := sur_all hS'
    simp only [dropFIs, bind_apply]
    by_cases hx : ∃ s1, f.dropI s = .ok () s1 ∧ U.ok s1 prot
    · obtain ⟨s1, e1, hU1⟩ := hx
      obtain ⟨gs, hgs, h2⟩ := ih s1 hU1 hS' hfp'
      refine ⟨g :: gs, .cons hg hgs, fun sP ha => (h1 sP ha).bind (fun _ s2 sP2 h3 _ h5 h6 => ?_) id⟩
      rw [e1] at h3; cases h3
      exact (h2 sP2 h5).mono (fun _ h => .cons h6 h) id
    · obtain ⟨gs, hgs⟩ := stubs
      exact ⟨g :: gs, .cons hg hgs, fun sP ha => (h1 sP ha).bind (fun _ s2 sP2 h3 h4 _ _ => (hx ⟨s2, h3, h4⟩).elim) id⟩

theorem unwindInit_sim {U : World} {lens : List Img} {prot : Nat → Prop} (tup : Bool) (done : List (RTy × Img)) (fis : List (FI w)) (s : St) (hU : U.ok s prot) (hS : ∀ f ∈ fis, SimF U f)
    (hfp : ∀ f ∈ fis, ∀ b, f.fp b → prot b) :
    ∃ gis, Each SurF fis gis ∧ ∀ sP, Agree prot s sP → Sim U prot (unwindInit tup done fis s) (unwindInit tup done gis sP) (fun _ => Each (DropF U lens) fis gis) False := by
  simp only [unwindInit, bind_apply, emit_apply, Res.bind_ok]
  have hU1 := U.ok_logged hU (doneDrops done)
  cases tup with
  | false =>
    obtain ⟨gis, h1, h2⟩ := dropFIs_sim (lens := lens) fis (s.logged (doneDrops done)) hU1 hS hfp
    exact ⟨gis, h1, fun sP ha => h2 _ (ha.logged _)⟩
  | true =>
    obtain ⟨gis, h1, h2⟩ := dropFIs_sim (lens := lens) fis.reverse (s.logged (doneDrops done)) hU1 (fun f hf => hS f (by simpa using hf)) (fun f hf => hfp f (by simpa using hf))
    refine ⟨gis.reverse, by simpa using h1.reverse, fun sP ha => ?_⟩
    have := h2 _ (ha.logged (doneDrops done))
    simp only [if_true, List.reverse_reverse]
    exact this.mono (fun _ h => by simpa using h.reverse) id

/-- One field, then the others; or, when it panics, the drops of the others. -/
theorem tail_step {U : World} {prot : Nat → Prop} {x y : M Unit} {cE cP tE tP : List (FI w) → M Unit} {fs : List (FI w)} {s : St} {Q QP : Prop} {A B C : List (FI w) → Prop}
    (h1 : ∀ sP, Agree prot s sP → Sim U prot (x s) (y sP) (fun _ => Q) QP)
    (ht : ∀ s1, U.ok s1 prot → ∃ gs, Each SurF fs gs ∧ ∀ sP, Agree prot s1 sP → Sim U prot (tE fs s1) (tP gs sP) (fun _ => A gs) (B gs))
    (hc : ∀ s1, U.ok s1 prot → ∃ gs, Each SurF fs gs ∧ ∀ sP, Agree prot s1 sP → Sim U prot (cE fs s1) (cP gs sP) (fun _ => C gs) False)
    (stubs : ∃ gs, Each SurF fs gs) :
    ∃ gs, Each SurF fs gs ∧ ∀ sP, Agree prot s sP →
      Sim U prot ((onUnwind x (cE fs) s).bind fun _ => tE fs) ((onUnwind y (cP gs) sP).bind fun _ => tP gs) (fun _ => Q ∧ A gs) ((Q ∧ B gs) ∨ (QP ∧ C gs)) := by
  by_cases hok : ∃ s1, x s = .ok () s1 ∧ U.ok s1 prot
  · obtain ⟨s1, e1, hU1⟩ := hok
    obtain ⟨gs, hgs, h2⟩ := ht s1 hU1
    refine ⟨gs, hgs, fun sP ha => ((h1 sP ha).onUnwind (QP' := False) fun m s2 sP2 h3 _ _ _ => ?_).bind (fun _ s2 sP2 h3 _ h5 h6 => ?_) False.elim⟩
    · rw [e1] at h3; cases h3
    · have h3 := onUnwind_ok_inv h3
      rw [e1] at h3; cases h3
      exact (h2 sP2 h5).mono (fun _ h => ⟨h6, h⟩) (fun h => .inl ⟨h6, h⟩)
  · by_cases hpa : ∃ m s1, x s = .panic m s1 ∧ U.ok s1 prot
    · obtain ⟨m, s1, e1, hU1⟩ := hpa
      obtain ⟨gs, hgs, h2⟩ := hc s1 hU1
      refine ⟨gs, hgs, fun sP ha => ((h1 sP ha).onUnwind (QP' := QP ∧ C gs) fun m s2 sP2 h3 _ h5 h6 => ?_).bind (fun _ s2 sP2 h3 _ _ _ => ?_) .inr⟩
      · rw [e1] at h3; cases h3
        exact (h2 sP2 h5).mono (fun _ h => ⟨h6, h⟩) id
      · have h3 := onUnwind_ok_inv h3
        rw [e1] at h3; cases h3
    · obtain ⟨gs, hgs⟩ := stubs
      refine ⟨gs, hgs, fun sP ha => ((h1 sP ha).onUnwind (QP' := False) fun m s2 sP2 h3 h4 _ _ => (hpa ⟨m, s2, h3, h4⟩).elim).bind (fun _ s2 sP2 h3 h4 _ _ => ?_) False.elim⟩
      exact (hok ⟨s2, onUnwind_ok_inv h3, h4⟩).elim

theorem Sim.congr {α : Type} {U : World} {prot : Nat → Prop} {rE rE' rP rP' : Res St α} {Q : α → Prop} {QP : Prop} (h : Sim U prot rE rP Q QP) (h1 : rE' = rE) (h2 : rP' = rP) : Sim U prot rE' rP' Q QP := by
  rw [h1, h2]; exact h

theorem mkRef_state {p : Ptr} {n a : Nat} {s s1 : St} {u : Unit} (h : mkRef p n a s = .ok u s1) : s1 = s := by
  simp only [mkRef, bind_apply, checkAlign] at h
  split at h
  · rw [Res.bind_ok] at h
    simp only [checkAcc] at h
    split at h <;> cases h
    rfl
  · cases h

theorem initArray_sim {U : World} {R : RTy} {I : ArrInit} (h : SimA U R I) {s : St} {prot : Nat → Prop} (hU : U.ok s prot) (hfp : ∀ b, I.fp b → prot b) {p : Ptr} (hp : prot p.blk) (o n : BitVec w) :
    ∃ J, SurA R I J ∧ ∀ sP, Agree prot s sP → Sim U prot (initArray R I p o n s) (initArray R J p o n sP) (fun _ => RecA U R n.toNat true I J ∧ J.vals n.toNat ≠ none) (RecA U R n.toNat true I J ∧ J.vals n.toNat = none) := by
  obtain ⟨J, hJ, h1⟩ := h.run s prot (p.add o.toNat) n.toNat hU hfp hp
  refine ⟨J, hJ, fun sP ha => ?_⟩
  simp only [initArray, refArray, bind_apply]
  have hp' : prot (p.add o.toNat).blk := hp
  refine Sim.bind (Q := fun sl => sl = ⟨p.add o.toNat, n.toNat⟩) (QP := False) ((sim_mkRef hp' _ _ hU ha).bind (fun _ s1 sP1 _ h1 h2 _ => .ok h1 h2 rfl) id) (fun sl s1 sP1 e hU1 ha1 hq => ?_) False.elim
  subst hq
  have : s1 = s := by
    cases hm : mkRef (p.add o.toNat) (n.toNat * R.size) R.align s with
    | ok a s2 =>
      rw [hm, Res.bind_ok] at e
      cases e
      exact mkRef_state hm
    | panic m s2 => rw [hm] at e; cases e
    | ub k => rw [hm] at e; cases e
  subst this
  exact h1 sP1 ha1

theorem initTails_sim {U : World} {lens : List Img} {prot : Nat → Prop} (tup : Bool) {p : Ptr} (hp : prot p.blk) : ∀ (fis : List (FI w)) (done : List (RTy × Img)) (ls : List (BitVec w × Layout w)) (cur fin : BitVec w) (s : St),
    U.ok s prot → (∀ f ∈ fis, SimF U f) → (∀ f ∈ fis, ∀ b, f.fp b → prot b) → layFields lens fis cur = some (ls, fin) →
    ∃ gis, Each SurF fis gis ∧ ∀ sP, Agree prot s sP → Sim U prot (initTails tup p done fis ls s) (initTails tup p done gis ls sP)
      (fun _ => RecFs U lens true fis gis ∧ valFields lens gis ≠ none) (RecFs U lens true fis gis ∧ valFields lens gis = none) := by
  intro fis
  induction fis with
  | nil =>
    intro done ls cur fin s hU _ _ hl
    exact ⟨[], .nil, fun sP ha => by simp only [initTails]; exact .ok hU ha ⟨.nil, by simp [valFields]⟩⟩
  | cons f fs ih =>
    intro done ls cur fin s hU hS hfp hl
    have hS' : ∀ f ∈ fs, SimF U f := fun x hx => hS x (by simp [hx])
    have hfp' : ∀ f ∈ fs, ∀ b, f.fp b → prot b := fun x hx => hfp x (by simp [hx])
    have hSf := hS f (by simp)
    have hfpf := hfp f (by simp)
    have stubs := sur_all hS'
    cases f with
    | normal R off img =>
      obtain ⟨gs, h1, h2⟩ := ih ((R, img) :: done) ls cur fin s hU hS' hfp' hl
      refine ⟨.normal R off img :: gs, .cons (.normal ..) h1, fun sP ha => ?_⟩
      simp only [initTails]
      exact (h2 sP ha).mono (fun _ h => ⟨.normal h.1, by simpa [valFields] using h.2⟩) (fun h => ⟨.normal h.1, by simp [valFields, h.2]⟩)
    | length R off img =>
      obtain ⟨gs, h1, h2⟩ := ih ((R, img) :: done) ls cur fin s hU hS' hfp' hl
      refine ⟨.length R off img :: gs, .cons (.length ..) h1, fun sP ha => ?_⟩
      simp only [initTails]
      exact (h2 sP ha).mono (fun _ h => ⟨.length h.1, by simpa [valFields] using h.2⟩) (fun h => ⟨.length h.1, by simp [valFields, h.2]⟩)
    | varlen T I =>
      obtain ⟨o, l, sz, ls', rfl, hlay, -, -, hl'⟩ := layFields_varlen hSf.2 hl
      obtain ⟨J, hJ, h1⟩ := hSf.1.run s prot (p.add o.toNat) l hU hfpf hp hlay
      obtain ⟨gs, hgs, h2⟩ := tail_step (cE := unwindInit tup done) (cP := unwindInit tup done) (tE := fun fs => initTails tup p done fs ls') (tP := fun fs => initTails tup p done fs ls') h1
        (fun s1 hU1 => ih done ls' sz fin s1 hU1 hS' hfp' hl') (fun s1 hU1 => unwindInit_sim (lens := lens) tup done fs s1 hU1 hS' hfp') stubs
      refine ⟨.varlen T J :: gs, .cons (.varlen hJ) hgs, fun sP ha => ?_⟩
      refine ((h2 sP ha).congr (by simp only [initTails]; rfl) (by simp only [initTails]; rfl)).mono (fun _ h => ?_) (fun h => ?_)
      · obtain ⟨⟨q1, q2⟩, q3, q4⟩ := h
        obtain ⟨v, hv⟩ := Option.ne_none_iff_exists'.1 q2
        exact ⟨.varlenReturned q1 q2 q3, by simpa [valFields, hv] using q4⟩
      · rcases h with ⟨⟨q1, q2⟩, q3, q4⟩ | ⟨⟨q1, q2⟩, q3⟩
        · obtain ⟨v, hv⟩ := Option.ne_none_iff_exists'.1 q2
          exact ⟨.varlenReturned q1 q2 q3, by simp [valFields, hv, q4]⟩
        · exact ⟨.varlenPanicked q1 q2 q3.recFs, by simp [valFields, q2]⟩
    | array R len I =>
      obtain ⟨o, sz, ls', rfl, -, -, hl', -⟩ := layFields_array hSf.2 hl
      obtain ⟨J, hJ, h1⟩ := initArray_sim (p := p) hSf.1 hU hfpf hp o (len lens)
      obtain ⟨gs, hgs, h2⟩ := tail_step (cE := unwindInit tup done) (cP := unwindInit tup done) (tE := fun fs => initTails tup p done fs ls') (tP := fun fs => initTails tup p done fs ls') h1
        (fun s1 hU1 => ih done ls' sz fin s1 hU1 hS' hfp' hl') (fun s1 hU1 => unwindInit_sim (lens := lens) tup done fs s1 hU1 hS' hfp') stubs
      refine ⟨.array R len J :: gs, .cons (.array hJ) hgs, fun sP ha => ?_⟩
      refine ((h2 sP ha).congr (by simp only [initTails]; rfl) (by simp only [initTails]; rfl)).mono (fun _ h => ?_) (fun h => ?_)
      · obtain ⟨⟨q1, q2⟩, q3, q4⟩ := h
        obtain ⟨v, hv⟩ := Option.ne_none_iff_exists'.1 q2
        exact ⟨.arrayReturned q1 q2 q3, by simpa [valFields, hv] using q4⟩
      · rcases h with ⟨⟨q1, q2⟩, q3, q4⟩ | ⟨⟨q1, q2⟩, q3⟩
        · obtain ⟨v, hv⟩ := Option.ne_none_iff_exists'.1 q2
          exact ⟨.arrayReturned q1 q2 q3, by simp [valFields, hv, q4]⟩
        · exact ⟨.arrayPanicked q1 q2 q3.recFs, by simp [valFields, q2]⟩

/-! ## What stand-ins have in common with the originals -/

theorem SurF.fld {f g : FI w} (h : SurF f g) : g.fld = f.fld := by cases h <;> rfl
theorem SurF.pre {f g : FI w} (h : SurF f g) : g.pre = f.pre := by
  cases h with
  | normal => rfl
  | length => rfl
  | varlen h => funext s; exact congrFun h.pre s
  | array h => funext s; exact congrFun h.pre s
theorem SurF.fp {f g : FI w} (h : SurF f g) : g.fp = f.fp := by
  cases h with
  | normal => rfl
  | length => rfl
  | varlen h => funext s; exact congrFun h.fp s
  | array h => funext s; exact congrFun h.fp s
theorem SurF.mods {f g : FI w} (h : SurF f g) : g.mods = f.mods := by
  cases h with
  | normal => rfl
  | length => rfl
  | varlen h => funext s; exact congrFun h.mods s
  | array h => rfl
theorem SurF.owns {f g : FI w} (h : SurF f g) : g.owns = f.owns := by
  cases h with
  | normal => rfl
  | length => rfl
  | varlen h => funext s; exact congrFun h.owns s
  | array h => rfl

theorem each_flds {fis gis : List (FI w)} (h : Each SurF fis gis) : gis.map FI.fld = fis.map FI.fld := by
  induction h with
  | nil => rfl
  | cons h1 _ ih => rw [List.map_cons, List.map_cons, ih, h1.fld]

theorem each_lengths {fis gis : List (FI w)} (h : Each SurF fis gis) : initLengths gis = initLengths fis := by
  induction h with
  | nil => rfl
  | cons h1 _ ih =>
    unfold initLengths at ih ⊢
    cases h1 <;> simp only [List.filterMap_cons, ih]

theorem each_hdr {fis gis : List (FI w)} (h : Each SurF fis gis) : hdrView gis = hdrView fis := by
  induction h with
  | nil => rfl
  | cons h1 _ ih => cases h1 <;> simp only [hdrView, ih]

theorem each_lay {lens : List Img} {fis gis : List (FI w)} (h : Each SurF fis gis) : ∀ cur, layFields lens gis cur = layFields lens fis cur := by
  induction h with
  | nil => intro cur; rfl
  | cons h1 _ ih =>
    intro cur
    cases h1 with
    | normal => exact ih cur
    | length => exact ih cur
    | varlen h => simp only [layFields, h.lay, ih]
    | array h => simp only [layFields, ih]

theorem each_bad {lens : List Img} {fis gis : List (FI w)} (h : Each SurF fis gis) : ∀ cur, badFields lens gis cur = badFields lens fis cur := by
  induction h with
  | nil => intro cur; rfl
  | cons h1 _ ih =>
    intro cur
    cases h1 with
    | normal => exact ih cur
    | length => exact ih cur
    | varlen h => simp only [badFields, h.lay, h.bad, ih]
    | array h => simp only [badFields, ih]

theorem each_cautious {lens : List Img} {fis gis : List (FI w)} (h : Each SurF fis gis) : ∀ cur, catFieldsCautious lens gis cur = catFieldsCautious lens fis cur := by
  induction h with
  | nil => intro cur; rfl
  | cons h1 _ ih =>
    intro cur
    cases h1 with
    | normal => exact ih cur
    | length => exact ih cur
    | varlen h => simp only [catFieldsCautious, catFieldCautious, h.cautious, ih]
    | array h => simp only [catFieldsCautious, ih]

theorem each_some {fis gis : List (FI w)} (h : Each SurF fis gis) (P : FI w → Prop) (hP : ∀ f g, SurF f g → (P g ↔ P f)) : (∃ f ∈ gis, P f) ↔ ∃ f ∈ fis, P f := by
  induction h with
  | nil => exact Iff.rfl
  | cons h1 _ ih => simp only [List.mem_cons, exists_eq_or_imp, ih, hP _ _ h1]

theorem each_all {fis gis : List (FI w)} (h : Each SurF fis gis) (P : FI w → Prop) (hP : ∀ f g, SurF f g → (P g ↔ P f)) : (∀ f ∈ gis, P f) ↔ ∀ f ∈ fis, P f := by
  induction h with
  | nil => exact Iff.rfl
  | cons h1 _ ih => simp only [List.forall_mem_cons, ih, hP _ _ h1]

theorem each_pairwise {fis gis : List (FI w)} (h : Each SurF fis gis) :
    (gis.Pairwise fun a b => ∀ x, (a.mods x → ¬ b.fp x) ∧ (b.mods x → ¬ a.fp x)) ↔ fis.Pairwise fun a b => ∀ x, (a.mods x → ¬ b.fp x) ∧ (b.mods x → ¬ a.fp x) := by
  induction h with
  | nil => simp
  | cons h1 h2 ih =>
    rw [List.pairwise_cons, List.pairwise_cons, ih, each_all h2 (fun b => ∀ x, (FI.mods _ x → ¬ b.fp x) ∧ (b.mods x → ¬ FI.fp _ x)) (fun f g hg => by rw [hg.mods, hg.fp]), h1.mods, h1.fp]

theorem each_surI {tup : Bool} {hs ha : Nat} {fis gis : List (FI w)} {T : VarLen w} (h : Each SurF fis gis) (hl : LibInit T (aggInitializer tup hs ha gis)) :
    SurI T (aggInitializer tup hs ha fis) (aggInitializer tup hs ha gis) where
  lib := hl
  cautious := by simp only [aggInitializer, aggCautious, each_lengths h, each_cautious h]
  pre := by
    funext s
    refine propext ?_
    simp only [aggInitializer]
    rw [each_pairwise h, each_all h (fun f => f.pre s) (fun f g hg => by rw [hg.pre])]
  fp := by
    funext b
    exact propext (each_some h (fun f => f.fp b) (fun f g hg => by rw [hg.fp]))
  mods := by
    funext b
    exact propext (each_some h (fun f => f.mods b) (fun f g hg => by rw [hg.mods]))
  owns := by
    funext b
    exact propext (each_some h (fun f => f.owns b) (fun f g hg => by rw [hg.owns]))
  lay := by simp only [aggInitializer, each_lengths h, each_lay h]
  bad := by simp only [aggInitializer, each_lengths h, each_bad h]

/-! ## The combinations -/

theorem agg_drop_sim {U : World} {tup : Bool} {hs ha : Nat} {fis : List (FI w)} (hS : ∀ f ∈ fis, SimF U f) {s : St} {prot : Nat → Prop} (hU : U.ok s prot)
    (hfp : ∀ b, (aggInitializer tup hs ha fis).fp b → prot b) :
    ∃ gis, Each SurF fis gis ∧ ∀ sP, Agree prot s sP → Sim U prot ((aggInitializer tup hs ha fis).dropI s) ((aggInitializer tup hs ha gis).dropI sP) (fun _ => RecFs U (initLengths fis) false fis gis) False := by
  obtain ⟨gis, h1, h2⟩ := dropFIs_sim (lens := initLengths fis) fis s hU hS fun f hf b hb => hfp b ⟨f, hf, hb⟩
  exact ⟨gis, h1, fun sP ha => (h2 sP ha).mono (fun _ h => h.recFs) id⟩

theorem agg_run_sim {U : World} {tup : Bool} {hs ha : Nat} {fis : List (FI w)} (hS : ∀ f ∈ fis, SimF U f) {s : St} {prot : Nat → Prop} (hU : U.ok s prot)
    (hfp : ∀ b, (aggInitializer tup hs ha fis).fp b → prot b) {p : Ptr} (hp : prot p.blk) {l : Layout w} (hl : (aggInitializer tup hs ha fis).lay = some l) :
    ∃ gis, Each SurF fis gis ∧ ∀ sP, Agree prot s sP → Sim U prot ((aggInitializer tup hs ha fis).initTo p l s) ((aggInitializer tup hs ha gis).initTo p l sP)
      (fun _ => RecFs U (initLengths fis) true fis gis ∧ (aggInitializer tup hs ha gis).val ≠ none) (RecFs U (initLengths fis) true fis gis ∧ (aggInitializer tup hs ha gis).val = none) := by
  simp only [aggInitializer, Option.map_eq_some_iff] at hl
  obtain ⟨⟨ls, fin⟩, hl, rfl⟩ := hl
  obtain ⟨gis, h1, h2⟩ := initTails_sim tup hp fis [] ls _ fin s hU hS (fun f hf b hb => hfp b ⟨f, hf, hb⟩) hl
  refine ⟨gis, h1, fun sP ha => ?_⟩
  have hv : (aggInitializer tup hs ‹Nat› gis).val = none ↔ valFields (initLengths fis) gis = none := by simp [aggInitializer, each_lengths h1]
  simp only [ne_eq, hv]
  simp only [aggInitializer, aggInit, bind_apply, each_hdr h1]
  refine (h2 sP ha).bind (fun _ s1 sP1 _ hU1 ha1 hq => ?_) id
  exact (sim_checkAlign hU1 ha1 hp _).bind (fun _ s2 sP2 _ hU2 ha2 _ => (sim_writeBytes hU2 ha2 hp _).mono (fun _ _ => hq) False.elim) False.elim

theorem struct_sim {U : World} {hs ha : Nat} {fis : List (FI w)} (hh : HeaderOk hs ha (fis.map FI.fld)) (hn : ∀ R off img, FI.normal R off img ∈ fis → R.valid img = true)
    (hl : ∀ R off img, FI.length R off img ∈ fis → R.valid img = true) (hS : ∀ f ∈ fis, SimF U f) :
    SimI U (Struct w hs ha (fis.map FI.fld)) (Struct.init hs ha fis) (fun used J => ∃ gis, J = Struct.init hs ha gis ∧ RecFs U (initLengths fis) used fis gis) := by
  have hlib : ∀ gis, Each SurF fis gis → LibInit (Struct w hs ha (fis.map FI.fld)) (Struct.init hs ha gis) := fun gis h => by
    rw [← each_flds h]
    refine .struct (by rw [each_flds h]; exact hh) ?_ ?_ ?_ ?_
    · intro R off img hm; obtain ⟨f, hf, hs⟩ := h.forall _ hm; cases hs; exact hn _ _ _ hf
    · intro R off img hm; obtain ⟨f, hf, hs⟩ := h.forall _ hm; cases hs; exact hl _ _ _ hf
    · intro T J hm
      obtain ⟨f, hf, hs⟩ := h.forall _ hm
      cases hs with | varlen hs => exact hs.lib
    · intro R len J hm
      obtain ⟨f, hf, hs⟩ := h.forall _ hm
      cases hs with | array hs => exact hs.lib
  exact {
    sur := by
      obtain ⟨gis, h1⟩ := sur_all hS
      exact ⟨_, each_surI h1 (hlib gis h1)⟩
    drop := fun s prot hU hfp => by
      obtain ⟨gis, h1, h2⟩ := agg_drop_sim hS hU hfp
      exact ⟨Struct.init hs ha gis, each_surI h1 (hlib gis h1), fun sP ha => (h2 sP ha).mono (fun _ h => ⟨gis, rfl, h⟩) id⟩
    run := fun s prot p l hU hfp hp hlay => by
      obtain ⟨gis, h1, h2⟩ := agg_run_sim hS hU hfp hp hlay
      exact ⟨Struct.init hs ha gis, each_surI h1 (hlib gis h1), fun sP ha => (h2 sP ha).mono (fun _ h => ⟨⟨gis, rfl, h.1⟩, h.2⟩) fun h => ⟨⟨gis, rfl, h.1⟩, h.2⟩⟩ }

theorem each_tuple : ∀ {fis : List (VarLen w × Init w)} {gis : List (FI w)}, Each SurF (fis.map fun f => .varlen f.1 f.2) gis →
    ∃ gps : List (VarLen w × Init w), gis = gps.map (fun f => .varlen f.1 f.2) ∧ gps.map (·.1) = fis.map (·.1) ∧ ∀ g ∈ gps, LibInit g.1 g.2
  | [], gis, h => by cases h; exact ⟨[], rfl, rfl, by simp⟩
  | f :: fis, gis, h => by
    rw [List.map_cons] at h
    cases h with
    | cons h1 h2 =>
      obtain ⟨gps, rfl, e2, e3⟩ := each_tuple h2
      cases h1 with
      | varlen h1 =>
        rename_i J
        refine ⟨(f.1, J) :: gps, rfl, by simp [e2], ?_⟩
        intro g hg
        rcases List.mem_cons.1 hg with rfl | hg
        · exact h1.lib
        · exact e3 g hg

theorem tuple_sim {U : World} {fis : List (VarLen w × Init w)} (hne : fis ≠ []) (hS : ∀ f ∈ fis, SimI U f.1 f.2 (fun used => RecI U f.1 used f.2) ∧ IsPow2 f.1.ALIGN) :
    SimI U (Tuple w (fis.map (·.1))) (Tuple.init fis) (fun used J => ∃ gps : List (VarLen w × Init w), J = Tuple.init gps ∧
      RecFs U [] used (fis.map fun f => .varlen f.1 f.2) (gps.map fun f => .varlen f.1 f.2)) := by
  have hS' : ∀ f ∈ fis.map (fun f => FI.varlen f.1 f.2), SimF U f := by
    intro f hf
    obtain ⟨x, hx, rfl⟩ := List.mem_map.1 hf
    exact hS x hx
  have hlib : ∀ gps : List (VarLen w × Init w), gps.map (·.1) = fis.map (·.1) → (∀ g ∈ gps, LibInit g.1 g.2) → LibInit (Tuple w (fis.map (·.1))) (Tuple.init gps) := fun gps h1 h2 => by
    rw [← h1]
    refine .tuple ?_ h2
    rintro rfl
    exact hne (by simpa using h1.symm)
  have hlen : initLengths (fis.map fun f => FI.varlen f.1 f.2) = [] := by
    unfold initLengths
    rw [List.filterMap_eq_nil_iff]
    intro f hf
    obtain ⟨x, hx, rfl⟩ := List.mem_map.1 hf
    rfl
  exact {
    sur := by
      obtain ⟨gis, h1⟩ := sur_all hS'
      obtain ⟨gps, rfl, e2, e3⟩ := each_tuple h1
      exact ⟨Tuple.init gps, each_surI h1 (hlib gps e2 e3)⟩
    drop := fun s prot hU hfp => by
      obtain ⟨gis, h1, h2⟩ := agg_drop_sim (tup := true) (hs := 0) (ha := 1) hS' hU hfp
      obtain ⟨gps, rfl, e2, e3⟩ := each_tuple h1
      rw [hlen] at h2
      exact ⟨Tuple.init gps, each_surI h1 (hlib gps e2 e3), fun sP ha => (h2 sP ha).mono (fun _ h => ⟨gps, rfl, h⟩) id⟩
    run := fun s prot p l hU hfp hp hlay => by
      obtain ⟨gis, h1, h2⟩ := agg_run_sim (tup := true) (hs := 0) (ha := 1) hS' hU hfp hp hlay
      obtain ⟨gps, rfl, e2, e3⟩ := each_tuple h1
      rw [hlen] at h2
      exact ⟨Tuple.init gps, each_surI h1 (hlib gps e2 e3), fun sP ha => (h2 sP ha).mono (fun _ h => ⟨⟨gps, rfl, h.1⟩, h.2⟩) fun h => ⟨⟨gps, rfl, h.1⟩, h.2⟩⟩ }

theorem sized_sim {U : World} {R : RTy} {L : LenTy} {len : Img} {I : ArrInit} (hR : R.Ok w) (hL : L.Ok w) (hlen : L.ty.valid len = true) (h : SimA U R I) :
    SimI U (Array w R L) (SizedInit w R L len I) (fun used J => ∃ J', J = SizedInit w R L len J' ∧ RecA U R (L.asUsize w len).toNat used I J') where
  sur := by
    obtain ⟨J, hJ⟩ := h.sur
    exact ⟨SizedInit w R L len J, ⟨.sized hR hL hlen hJ.lib, rfl, hJ.pre, hJ.fp, rfl, rfl, rfl, rfl⟩⟩
  drop := fun s prot hU hfp => by
    obtain ⟨J, hJ, h1⟩ := h.drop s prot hU hfp
    exact ⟨SizedInit w R L len J, ⟨.sized hR hL hlen hJ.lib, rfl, hJ.pre, hJ.fp, rfl, rfl, rfl, rfl⟩, fun sP ha => (h1 sP ha).mono (fun _ h => ⟨J, rfl, h _⟩) id⟩
  run := fun s prot p l hU hfp hp hlay => by
    simp only [SizedInit, SizedInit.cautious, Option.map_eq_some_iff] at hlay
    obtain ⟨⟨o, n, sz⟩, hc, rfl⟩ := hlay
    obtain ⟨rfl, -, -⟩ := (catArrayFieldCautious_eq_some hR).1 hc
    obtain ⟨J, hJ, h1⟩ := initArray_sim (p := p) h hU hfp hp o (L.asUsize w len)
    refine ⟨SizedInit w R L len J, ⟨.sized hR hL hlen hJ.lib, rfl, hJ.pre, hJ.fp, rfl, rfl, rfl, rfl⟩, fun sP ha => ?_⟩
    have hv : (SizedInit w R L len J).val = none ↔ J.vals (L.asUsize w len).toNat = none := by simp [SizedInit]
    rw [ne_eq, hv]
    simp only [SizedInit, bind_apply]
    refine (h1 sP ha).bind (fun _ s1 sP1 _ hU1 ha1 hq => ?_) (fun h => ⟨⟨J, rfl, h.1⟩, h.2⟩)
    exact (sim_writeVal hp _ _ hU1 ha1).mono (fun _ _ => ⟨⟨J, rfl, hq.1⟩, hq.2⟩) False.elim

/-! ## Contracts of the combinations -/

theorem SurI.frame {T : VarLen w} {I J : Init w} (h : SurI T I J) : Frame I := by
  have hJ := h.lib.lib.2
  have h1 := hJ.owns_mods; have h2 := hJ.mods_fp; have h3 := hJ.fp_exists; have h4 := hJ.stable; have h5 := hJ.calc_ok; have h6 := hJ.calc_panic; have h7 := hJ.bad_lay
  rw [h.owns, h.mods] at h1
  rw [h.mods, h.fp] at h2
  rw [h.pre, h.fp] at h3 h4
  rw [h.pre, h.bad, h.cautious, h.lay] at h5
  rw [h.pre, h.bad, h.cautious] at h6
  rw [h.bad, h.lay] at h7
  exact ⟨h1, h2, h3, h4, h5, h6, h7⟩

/-- The real run, from the one that is simulated. -/
theorem wrote_agree {U : World} {prot : Nat → Prop} {s s' sP : St} {p : Ptr} {n : Nat} {own : Nat → Prop} {es : List Event} (h : Wrote U prot s sP p n own es) (ha : Agree prot s' sP) (hU : U.ok s' prot) :
    Wrote U prot s s' p n own es :=
  ⟨hU, fun b hb => by rw [← ha.same b hb]; exact h.none b hb, fun b hb => by rw [← ha.same b hb]; exact h.blk b hb, by rw [← ha.log]; exact h.log⟩

/-- What can be simulated has a contract. -/
theorem SimI.contract {U : World} {T : VarLen w} {I : Init w} {A : Bool → Init w → Prop} (h : SimI U T I A) :
    InitOk U T I (fun v es => ∃ J, A true J ∧ J.val = some v ∧ J.left = es) (fun es => ∃ J, A true J ∧ J.val = none ∧ J.lost = es) (fun es => ∃ J, A false J ∧ J.owes = es) := by
  obtain ⟨J0, h0⟩ := h.sur
  have hF := h0.frame
  refine ⟨hF.owns_mods, hF.mods_fp, hF.fp_exists, hF.stable, hF.calc_ok, hF.calc_panic, hF.bad_lay, ?_, ?_⟩
  · intro s prot hU hfp hpre
    obtain ⟨J, hJ, h1⟩ := h.drop s prot hU hfp
    obtain ⟨sP, e1, e2, e3, e4, _⟩ := hJ.lib.lib.2.drop_ok s (by rw [hJ.pre]; exact hpre)
    have := h1 s (.refl _ _)
    rw [e1] at this
    obtain ⟨s', f1, f2, f3, f4⟩ := this
    rw [hJ.mods] at e2
    rw [hJ.owns] at e3
    have hw : Wrote U prot s sP ⟨0, 0⟩ 0 I.mods J.owes := .ofTouch e2 hU (fun h => (h rfl).elim) (fun b hb => hfp b (hF.mods_fp b hb)) e4
    refine ⟨s', _, f1, wrote_agree hw f3 f2, fun b hb => ?_, J, f4, rfl⟩
    rw [← f3.same b (hfp b (hF.mods_fp b (hF.owns_mods b hb)))]; exact e3 b hb
  · intro s prot p l hU hfp hp hpre hl hacc hal hap
    obtain ⟨J, hJ, h1⟩ := h.run s prot p l hU hfp hp hl
    have h2 := h1 s (.refl _ _)
    have hlaw := hJ.lib.lib.2
    have hpre' : J.pre s := by rw [hJ.pre]; exact hpre
    have hl' : J.lay = some l := by rw [hJ.lay]; exact hl
    have hap' : ¬ J.fp p.blk := by rw [hJ.fp]; exact hap
    cases hv : J.val with
    | some v =>
      obtain ⟨sP, e1, e2, e3, e4, e5, _⟩ := hlaw.init_ok s p l v hpre' hl' hv hacc hal hap'
      rw [e1] at h2
      obtain ⟨s', f1, f2, f3, f4⟩ := h2
      rw [hJ.owns] at e2 e3
      have hw : Wrote U prot s sP p l.size.toNat I.owns J.left := .ofTouch e2 hU (fun _ => hp) (fun b hb => hfp b (hF.mods_fp b (hF.owns_mods b hb))) e5
      refine .inl ⟨s', v, _, f1, wrote_agree hw f3 f2, fun b hb => ?_, ?_, J, f4.1, hv, rfl⟩
      · rw [← f3.same b (hfp b (hF.mods_fp b (hF.owns_mods b hb)))]; exact e3 b hb
      · rw [← f3.same.viewAt hp]; exact e4
    | none =>
      obtain ⟨m, sP, e1, e2, e3, e4, _⟩ := hlaw.init_panic s p l hpre' hl' hv hacc hal hap'
      rw [e1] at h2
      obtain ⟨s', f1, f2, f3, f4⟩ := h2
      rw [hJ.mods] at e2
      rw [hJ.owns] at e3
      have hw : Wrote U prot s sP p l.size.toNat I.mods J.lost := .ofTouch e2 hU (fun _ => hp) (fun b hb => hfp b (hF.mods_fp b hb)) e4
      refine .inr ⟨m, s', _, f1, wrote_agree hw f3 f2, fun b hb => ?_, J, f4.1, hv, rfl⟩
      rw [← f3.same b (hfp b (hF.mods_fp b (hF.owns_mods b hb)))]; exact e3 b hb

theorem InitOk.mono {U : World} {T : VarLen w} {I : Init w} {Out Out' : V → List Event → Prop} {Lost Lost' Owes Owes' : List Event → Prop} (h : InitOk U T I Out Lost Owes)
    (h1 : ∀ v es, Out v es → Out' v es) (h2 : ∀ es, Lost es → Lost' es) (h3 : ∀ es, Owes es → Owes' es) : InitOk U T I Out' Lost' Owes' where
  owns_mods := h.owns_mods
  mods_fp := h.mods_fp
  fp_exists := h.fp_exists
  stable := h.stable
  calc_ok := h.calc_ok
  calc_panic := h.calc_panic
  bad_lay := h.bad_lay
  drop_ok := fun s prot hU hfp hpre => by
    obtain ⟨s', es, e1, e2, e3, e4⟩ := h.drop_ok s prot hU hfp hpre
    exact ⟨s', es, e1, e2, e3, h3 _ e4⟩
  init_ok := fun s prot p l hU hfp hp hpre hl hacc hal hap => by
    rcases h.init_ok s prot p l hU hfp hp hpre hl hacc hal hap with ⟨s', v, es, e1, e2, e3, e4, e5⟩ | ⟨m, s', es, e1, e2, e3, e4⟩
    · exact .inl ⟨s', v, es, e1, e2, e3, e4, h1 _ _ e5⟩
    · exact .inr ⟨m, s', es, e1, e2, e3, h2 _ e4⟩

/-- `SizedInit(len, I)`. -/
theorem sized_ok {U : World} {R : RTy} {L : LenTy} {len : Img} {I : ArrInit} (hR : R.Ok w) (hL : L.Ok w) (hlen : L.ty.valid len = true)
    {Out : Nat → List Img → List Event → Prop} {Lost : Nat → List Event → Prop} {Owes : List Event → Prop} (h : ArrOk U R I Out Lost Owes) :
    InitOk U (Array w R L) (SizedInit w R L len I) (fun v es => ∃ xs, v = .arr xs ∧ Out (L.asUsize w len).toNat xs es) (Lost (L.asUsize w len).toNat) Owes := by
  refine (sized_sim hR hL hlen h.sim).contract.mono ?_ ?_ ?_
  · rintro v es ⟨_, ⟨J, rfl, hr⟩, hv, rfl⟩
    have := hr _ _ _ h
    simp only [SizedInit, Option.map_eq_some_iff] at hv
    obtain ⟨xs, hx, rfl⟩ := hv
    simp only [if_true, hx] at this
    exact ⟨xs, rfl, this⟩
  · rintro es ⟨_, ⟨J, rfl, hr⟩, hv, rfl⟩
    have := hr _ _ _ h
    simp only [SizedInit, Option.map_eq_none_iff] at hv
    simp only [if_true, hv] at this
    exact this
  · rintro es ⟨_, ⟨J, rfl, hr⟩, rfl⟩
    have := hr _ _ _ h
    simp only [Bool.false_eq_true, if_false] at this
    exact this

/-- A newtype. -/
theorem newtype_ok {U : World} {T : VarLen w} {I : Init w} {Out : V → List Event → Prop} {Lost Owes : List Event → Prop} (h : InitOk U T I Out Lost Owes) :
    InitOk U (Newtype T) (Newtype.init I) Out Lost Owes :=
  ⟨h.owns_mods, h.mods_fp, h.fp_exists, h.stable, h.calc_ok, h.calc_panic, h.bad_lay, h.drop_ok, fun s prot p l hU hfp hp hpre hl hacc hal hap => by
    rcases h.init_ok s prot p l hU hfp hp hpre hl hacc hal hap with ⟨s', v, es, e1, e2, e3, e4, e5⟩ | e
    · exact .inl ⟨s', v, es, e1, e2, e3, ⟨e4, trivial⟩, e5⟩
    · exact .inr e⟩

theorem FieldOk.sim {U : World} {f : FI w} (h : FieldOk U f) (hR : ∀ R len I, f = .array R len I → R.Ok w) : SimF U f := by
  cases f with
  | normal R off img => trivial
  | length R off img => trivial
  | varlen T I =>
    obtain ⟨hT, _, _, _, h⟩ := h
    exact ⟨h.sim hT, hT.lawful.align_pow2⟩
  | array R len I =>
    obtain ⟨_, _, _, h⟩ := h
    exact ⟨h.sim, hR _ _ _ rfl⟩

/-- A struct of the macro. -/
theorem struct_ok {U : World} {hs ha : Nat} {fis : List (FI w)} (hh : HeaderOk hs ha (fis.map FI.fld)) (hf : ∀ f ∈ fis, FieldOk U f) :
    InitOk U (Struct w hs ha (fis.map FI.fld)) (Struct.init hs ha fis)
      (fun v es => ∃ gis, RecFs U (initLengths fis) true fis gis ∧ (Struct.init hs ha gis).val = some v ∧ (Struct.init hs ha gis).left = es)
      (fun es => ∃ gis, RecFs U (initLengths fis) true fis gis ∧ (Struct.init hs ha gis).val = none ∧ (Struct.init hs ha gis).lost = es)
      (fun es => ∃ gis, RecFs U (initLengths fis) false fis gis ∧ (Struct.init hs ha gis).owes = es) := by
  refine (struct_sim hh (fun R off img hm => hf _ hm) (fun R off img hm => hf _ hm)
    (fun f hm => (hf f hm).sim fun R len I e => hh.array R len (List.mem_map.2 ⟨_, hm, by rw [e]; rfl⟩))).contract.mono ?_ ?_ ?_
  · rintro v es ⟨_, ⟨gis, rfl, hr⟩, hv⟩; exact ⟨gis, hr, hv⟩
  · rintro es ⟨_, ⟨gis, rfl, hr⟩, hv⟩; exact ⟨gis, hr, hv⟩
  · rintro es ⟨_, ⟨gis, rfl, hr⟩, hv⟩; exact ⟨gis, hr, hv⟩

/-- A tuple. -/
theorem tuple_ok {U : World} {fis : List (VarLen w × Init w)} (hne : fis ≠ []) (hf : ∀ f ∈ fis, FieldOk U (.varlen f.1 f.2)) :
    InitOk U (Tuple w (fis.map (·.1))) (Tuple.init fis)
      (fun v es => ∃ gis : List (VarLen w × Init w), RecFs U [] true (fis.map fun f => .varlen f.1 f.2) (gis.map fun f => .varlen f.1 f.2) ∧ (Tuple.init gis).val = some v ∧ (Tuple.init gis).left = es)
      (fun es => ∃ gis : List (VarLen w × Init w), RecFs U [] true (fis.map fun f => .varlen f.1 f.2) (gis.map fun f => .varlen f.1 f.2) ∧ (Tuple.init gis).val = none ∧ (Tuple.init gis).lost = es)
      (fun es => ∃ gis : List (VarLen w × Init w), RecFs U [] false (fis.map fun f => .varlen f.1 f.2) (gis.map fun f => .varlen f.1 f.2) ∧ (Tuple.init gis).owes = es) := by
  refine (tuple_sim hne fun f hm => (hf f hm).sim fun R len I e => by cases e).contract.mono ?_ ?_ ?_
  · rintro v es ⟨_, ⟨gis, rfl, hr⟩, hv⟩; exact ⟨gis, hr, hv⟩
  · rintro es ⟨_, ⟨gis, rfl, hr⟩, hv⟩; exact ⟨gis, hr, hv⟩
  · rintro es ⟨_, ⟨gis, rfl, hr⟩, hv⟩; exact ⟨gis, hr, hv⟩

end Varlen.Eff
