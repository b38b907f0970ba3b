import Verif.Proofs.Arena
/-!
# Proofs: initializers in packed memory
-/
namespace Varlen.Arena
variable {w : Nat} {ρ : Place}

theorem sim_fillLoop {τ : Type} (R : RTy) (f : Closure τ) (t : τ) (p : Ptr) (i n : Nat) : Sim ρ (· = ·) (fillLoop R f t p i n) (fillLoop R f t (ρ.ptr p) i n) := by
  induction n generalizing t p i with
  | zero => exact sim_emit _
  | succ n ih =>
    unfold fillLoop
    cases f.call t i with
    | mk r t' =>
      cases r with
      | none => exact (Sim.panic _).onUnwind (sim_emit _)
      | some img => exact (sim_writeVal R p img).bindEq fun _ => by rw [← ptr_add]; exact ih ..

theorem sim_iterLoop {τ : Type} (R : RTy) (f : IterFn τ) (t : τ) (p : Ptr) (n : Nat) : Sim ρ (· = ·) (iterLoop R f t p n) (iterLoop R f t (ρ.ptr p) n) := by
  induction n generalizing t p with
  | zero => exact sim_emit _
  | succ n ih =>
    unfold iterLoop
    cases f.next t with
    | mk r t' =>
      cases r with
      | panic => exact (Sim.panic _).onUnwind (sim_emit _)
      | done => exact (Sim.panic _).onUnwind (sim_emit _)
      | yield img => exact (sim_writeVal R p img).bindEq fun _ => by rw [← ptr_add]; exact ih ..

theorem sim_runClone (c : CloneFn) (img : Img) : Sim ρ (· = ·) (runClone c img) (runClone c img) := by
  unfold runClone
  cases c img with
  | none => exact .panic _
  | some r => exact .pure rfl

theorem sim_cloneLoop (R : RTy) (c : CloneFn) (src dst : Ptr) (n : Nat) : Sim ρ (· = ·) (cloneLoop R c src dst n) (cloneLoop R c (ρ.ptr src) (ρ.ptr dst) n) := by
  induction n generalizing src dst with
  | zero => exact .pure rfl
  | succ n ih =>
    unfold cloneLoop
    exact (sim_readVal R src).bindEq fun _ => (sim_runClone c _).bindEq fun _ => (sim_writeVal R dst _).bindEq fun _ => by rw [← ptr_add, ← ptr_add]; exact ih ..

theorem sim_moveLoop (R : RTy) (dst : Ptr) (xs : List Img) : Sim ρ (· = ·) (moveLoop R dst xs) (moveLoop R (ρ.ptr dst) xs) := by
  induction xs generalizing dst with
  | nil => exact .pure rfl
  | cons x xs ih => exact (sim_writeVal R dst x).bindEq fun _ => by rw [← ptr_add]; exact ih ..

theorem PlacedArr.sim {R : RTy} {I' I : ArrInit} (h : PlacedArr ρ R I' I) : ArrSim ρ I' I := by
  cases h with
  | fillSequentially => exact ⟨fun p n => sim_fillLoop R _ _ p 0 n, sim_emit _⟩
  | fromIterPrefix => exact ⟨fun p n => sim_iterLoop R _ _ p n, sim_emit _⟩
  | copyFrom => exact ⟨fun p n => .ite (fun _ => .panic _) fun _ => sim_copy _ _ _ _, .pure rfl⟩
  | cloneFrom => exact ⟨fun p n => .ite (fun _ => .panic _) fun _ => sim_cloneLoop _ _ _ _ _, .pure rfl⟩
  | moveFrom => exact ⟨fun p n => .ite (fun _ => (Sim.panic _).onUnwind (sim_emit _)) fun _ => sim_moveLoop _ _ _, sim_emit _⟩
  | user h => exact h ρ fun _ _ => ⟨rfl, .rfl⟩

theorem sim_initArray (R : RTy) {I' I : ArrInit} (h : ArrSim ρ I' I) (p : Ptr) (o n : BitVec w) : Sim ρ (· = ·) (initArray R I' p o n) (initArray R I (ρ.ptr p) o n) :=
  (sim_refArray R p o n).bind fun a' a e => by
    rw [e]; exact h.run a'.ptr a'.len

/-! ## Aggregates -/

/-- The initializers of the field correspond. -/
def FI2.Sim (ρ : Place) : FI2 w → Prop
  | .varlen _ I' I => InitSim ρ I' I
  | .array _ _ I' I => ArrSim ρ I' I
  | _ => True

theorem initLengths_eq (fis : List (FI2 w)) : initLengths (fis.map FI2.ideal) = initLengths (fis.map FI2.real) := by
  unfold initLengths
  rw [List.filterMap_map, List.filterMap_map]
  congr 1
  funext f
  cases f <;> rfl

theorem hdrView_eq (fis : List (FI2 w)) : hdrView (fis.map FI2.ideal) = hdrView (fis.map FI2.real) := by
  induction fis with
  | nil => rfl
  | cons f fs ih => cases f <;> simp [hdrView, FI2.ideal, FI2.real, ih]

theorem sim_catFieldsCautious (lens : List Img) (fis : List (FI2 w)) (h : ∀ f ∈ fis, FI2.Sim ρ f) (cur : BitVec w) :
    Sim ρ (· = ·) (catFieldsCautious lens (fis.map FI2.ideal) cur) (catFieldsCautious lens (fis.map FI2.real) cur) := by
  induction fis generalizing cur with
  | nil => exact .pure rfl
  | cons f fs ih =>
    have ih := ih fun f hf => h f (List.mem_cons_of_mem _ hf)
    have hf := h f (List.mem_cons_self ..)
    cases f with
    | normal R off img => exact ih cur
    | length R off img => exact ih cur
    | varlen T I' I =>
      show Sim ρ _ (catFieldsCautious lens (.varlen T I' :: fs.map FI2.ideal) cur) (catFieldsCautious lens (.varlen T I :: fs.map FI2.real) cur)
      unfold catFieldsCautious
      refine Sim.bindEq (x' := catFieldCautious T.ALIGN I' cur) (x := catFieldCautious T.ALIGN I cur) ?_ fun r => ?_
      · unfold catFieldCautious
        cases checkedAdd cur (T.ALIGN - 1) with
        | none => exact .pure rfl
        | some o =>
          refine hf.cautious.bindEq fun r => ?_
          cases r with
          | none => exact .pure rfl
          | some l =>
            simp only
            cases checkedAdd (maskDown o T.ALIGN) l.size with
            | none => exact .pure rfl
            | some sz => exact .pure rfl
      · cases r with
        | none => exact .pure rfl
        | some r =>
          refine (ih _).bindEq fun r2 => ?_
          cases r2 with
          | none => exact .pure rfl
          | some r2 => exact .pure rfl
    | array R len I' I =>
      show Sim ρ _ (catFieldsCautious lens (.array R len I' :: fs.map FI2.ideal) cur) (catFieldsCautious lens (.array R len I :: fs.map FI2.real) cur)
      unfold catFieldsCautious
      refine (sim_lenEval len lens).bindEq fun n => ?_
      cases catArrayFieldCautious R n cur with
      | none => exact .pure rfl
      | some r =>
        refine (ih _).bindEq fun r2 => ?_
        cases r2 with
        | none => exact .pure rfl
        | some r2 => exact .pure rfl

theorem sim_dropFIs (fis : List (FI2 w)) (h : ∀ f ∈ fis, FI2.Sim ρ f) : Sim ρ (· = ·) (dropFIs (fis.map FI2.ideal)) (dropFIs (fis.map FI2.real)) := by
  induction fis with
  | nil => exact .pure rfl
  | cons f fs ih =>
    have ih := ih fun f hf => h f (List.mem_cons_of_mem _ hf)
    have hf := h f (List.mem_cons_self ..)
    cases f with
    | normal R off img => exact (sim_emit _).bindEq fun _ => ih
    | length R off img => exact (sim_emit _).bindEq fun _ => ih
    | varlen T I' I => exact hf.drop.bindEq fun _ => ih
    | array R len I' I => exact hf.drop.bindEq fun _ => ih

theorem sim_unwindInit (tup : Bool) (done : List (RTy × Img)) (fis : List (FI2 w)) (h : ∀ f ∈ fis, FI2.Sim ρ f) :
    Sim ρ (· = ·) (unwindInit tup done (fis.map FI2.ideal)) (unwindInit tup done (fis.map FI2.real)) := by
  refine (sim_emit _).bindEq fun _ => ?_
  cases tup with
  | true =>
    rw [if_pos rfl, if_pos rfl, ← List.map_reverse, ← List.map_reverse]
    exact sim_dropFIs _ fun f hf => h f (List.mem_reverse.1 hf)
  | false => exact sim_dropFIs _ h

theorem sim_initTails (tup : Bool) (p : Ptr) (done : List (RTy × Img)) (fis : List (FI2 w)) (h : ∀ f ∈ fis, FI2.Sim ρ f) (ls : List (BitVec w × Layout w)) :
    Sim ρ (· = ·) (initTails tup p done (fis.map FI2.ideal) ls) (initTails tup (ρ.ptr p) done (fis.map FI2.real) ls) := by
  induction fis generalizing done ls with
  | nil => exact .pure rfl
  | cons f fs ih =>
    have h2 := fun f hf => h f (List.mem_cons_of_mem _ hf)
    have ih := fun d ls => ih d h2 ls
    have hf := h f (List.mem_cons_self ..)
    cases f with
    | normal R off img => exact ih _ ls
    | length R off img => exact ih _ ls
    | varlen T I' I =>
      cases ls with
      | nil => exact .ub _ _
      | cons a ls =>
        obtain ⟨o, l⟩ := a
        show Sim ρ _ (initTails tup p done (.varlen T I' :: fs.map FI2.ideal) ((o, l) :: ls)) (initTails tup (ρ.ptr p) done (.varlen T I :: fs.map FI2.real) ((o, l) :: ls))
        unfold initTails
        refine Sim.bindEq (Sim.onUnwind ?_ (sim_unwindInit tup done fs h2)) fun _ => ih _ ls
        unfold initField
        rw [← ptr_add]
        exact hf.initTo _ l
    | array R len I' I =>
      cases ls with
      | nil => exact .ub _ _
      | cons a ls =>
        obtain ⟨o, l⟩ := a
        cases l with
        | len n =>
          show Sim ρ _ (initTails tup p done (.array R len I' :: fs.map FI2.ideal) ((o, .len n) :: ls)) (initTails tup (ρ.ptr p) done (.array R len I :: fs.map FI2.real) ((o, .len n) :: ls))
          unfold initTails
          exact Sim.bindEq (Sim.onUnwind (sim_initArray R hf p o n) (sim_unwindInit tup done fs h2)) fun _ => ih _ ls
        | fixed _ => exact .ub _ _
        | array _ _ _ => exact .ub _ _
        | fields _ _ => exact .ub _ _

theorem sim_agg (tup : Bool) (headSize headAlign : Nat) (fis : List (FI2 w)) (h : ∀ f ∈ fis, FI2.Sim ρ f) :
    InitSim ρ (aggInitializer tup headSize headAlign (fis.map FI2.ideal)) (aggInitializer tup headSize headAlign (fis.map FI2.real)) := by
  refine ⟨?_, fun p l => ?_, sim_dropFIs fis h⟩
  · show Sim ρ _ (aggCautious headSize (fis.map FI2.ideal)) (aggCautious headSize (fis.map FI2.real))
    unfold aggCautious
    rw [initLengths_eq]
    refine (sim_catFieldsCautious _ fis h _).bindEq fun r => ?_
    cases r with
    | none => exact .pure rfl
    | some r => exact .pure rfl
  · show Sim ρ _ (aggInit tup headSize headAlign (fis.map FI2.ideal) p l) (aggInit tup headSize headAlign (fis.map FI2.real) (ρ.ptr p) l)
    cases l with
    | fields sz ls =>
      unfold aggInit
      rw [hdrView_eq]
      exact (sim_initTails tup p [] fis h ls).bindEq fun _ => (sim_checkAlign p _).bindEq fun _ => sim_writeBytes p _
    | fixed _ => exact .ub _ _
    | array _ _ _ => exact .ub _ _
    | len _ => exact .ub _ _

/-! ## Boxes -/

theorem sim_derefBox (T : VarLen w) (p : Ptr) : Sim ρ (fun a' a => a' = p ∧ a = ρ.ptr p) (derefBox T p) (derefBox T (ρ.ptr p)) :=
  (sim_mkRef p _ _).bindEq fun _ => .pure ⟨rfl, rfl⟩

theorem sim_derefCalc {T : VarLen w} (hT : Reloc T) (p : Ptr) : Sim ρ (· = ·) (do let q ← derefBox T p; T.calculateLayout q) (do let q ← derefBox T (ρ.ptr p); T.calculateLayout q) :=
  (sim_derefBox T p).bind fun _ _ e => by rw [e.1, e.2]; exact hT.calculateLayout ρ p

theorem sim_ownedDrop {T : VarLen w} (hT : Reloc T) (p : Ptr) : Sim ρ (· = ·) (Owned.drop T p) (Owned.drop T (ρ.ptr p)) :=
  (sim_derefBox T p).bind fun _ _ e => by
    rw [e.1, e.2]
    exact (hT.calculateLayout ρ p).bindEq fun l => (sim_derefBox T p).bind fun _ _ e => by rw [e.1, e.2]; exact hT.vdrop ρ p l

theorem sim_boxDrop {T : VarLen w} (hT : Reloc T) {p : Ptr} (hh : ρ.heap p.blk) : Sim ρ (· = ·) (VBox.drop T p) (VBox.drop T (ρ.ptr p)) :=
  (sim_derefBox T p).bind fun _ _ e => by
    rw [e.1, e.2]
    exact (hT.calculateLayout ρ p).bindEq fun l => (sim_layoutUnchecked _ _).bindEq fun _ => (sim_derefBox T p).bind fun _ _ e => by
      rw [e.1, e.2]
      exact (hT.vdrop ρ p l).bindEq fun _ => sim_dealloc hh _ _

theorem sim_cautiousBox {T : VarLen w} (hT : Reloc T) (p : Ptr) :
    Sim ρ (· = ·) (do let q ← derefBox T p; let l ← T.calculateLayout q; pure (some l) : M (Option (Layout w))) (do let q ← derefBox T (ρ.ptr p); let l ← T.calculateLayout q; pure (some l)) :=
  (sim_derefBox T p).bind fun _ _ e => by rw [e.1, e.2]; exact (hT.calculateLayout ρ p).bindEq fun _ => .pure rfl

theorem Placed.sim {I' I : Init w} (h : Placed ρ I' I) : InitSim ρ I' I := by
  induction h with
  | fixedLen => exact ⟨.pure rfl, fun p _ => sim_writeVal _ p _, sim_emit _⟩
  | cloner => exact ⟨.pure rfl, fun p _ => (sim_readVal _ _).bindEq fun _ => (sim_runClone _ _).bindEq fun _ => sim_writeVal _ p _, .pure rfl⟩
  | @sized R L len I' I h =>
    refine ⟨.pure rfl, fun p l => ?_, h.sim.drop⟩
    cases l with
    | array o n sz => exact (sim_initArray R h.sim p o n).bindEq fun _ => sim_writeVal _ p _
    | fixed _ => exact .ub _ _
    | fields _ _ => exact .ub _ _
    | len _ => exact .ub _ _
  | newtype _ ih => exact ⟨ih.cautious, ih.initTo, ih.drop⟩
  | @agg tup hs ha fis _ h2 ih =>
    refine sim_agg tup hs ha fis fun f hf => ?_
    cases f with
    | normal _ _ _ => trivial
    | length _ _ _ => trivial
    | varlen T I' I => exact ih T I' I hf
    | array R len I' I => exact (h2 R len I' I hf).sim
  | vcopy hT => exact ⟨(hT.reloc.calculateLayout ρ _).bindEq fun _ => .pure rfl, fun p l => sim_copy _ p _ _, .pure rfl⟩
  | vbox hT hh =>
    exact ⟨sim_cautiousBox hT.reloc _, fun p l => (sim_layoutUnchecked _ _).bindEq fun _ => (sim_copy _ p _ _).bindEq fun _ => sim_dealloc hh _ _, sim_boxDrop hT.reloc hh⟩
  | owned hT => exact ⟨sim_cautiousBox hT.reloc _, fun p l => sim_copy _ p _ _, sim_ownedDrop hT.reloc _⟩
  | user h => exact h ρ fun _ _ => ⟨rfl, .rfl⟩

/-! ## Places may be extended -/

theorem Place.Agree.ptr {ρ ρ' : Place} {on : Nat → Prop} (h : ρ.Agree ρ' on) {p : Ptr} (hp : on p.blk) : ρ'.ptr p = ρ.ptr p := by
  unfold Place.ptr; rw [(h _ hp).1]

theorem Place.Agree.mono {ρ ρ' : Place} {on on' : Nat → Prop} (h : ρ.Agree ρ' on) (ho : ∀ b, on' b → on b) : ρ.Agree ρ' on' := fun b hb => h b (ho b hb)
theorem Place.Agree.trans {ρ ρ' ρ'' : Place} {on : Nat → Prop} (h : ρ.Agree ρ' on) (h' : ρ'.Agree ρ'' on) : ρ.Agree ρ'' on :=
  fun b hb => ⟨(h' b hb).1.trans (h b hb).1, (h' b hb).2.trans (h b hb).2⟩

theorem PlacedArr.mono {ρ ρ' : Place} {R : RTy} {I' I : ArrInit} (h : PlacedArr ρ R I' I) (ha : ρ.Agree ρ' I'.fp) : PlacedArr ρ' R I' I := by
  cases h with
  | fillSequentially => exact .fillSequentially
  | fromIterPrefix => exact .fromIterPrefix
  | copyFrom => rw [← ha.ptr rfl]; exact .copyFrom
  | cloneFrom => rw [← ha.ptr rfl]; exact .cloneFrom
  | moveFrom => exact .moveFrom
  | user h => exact .user fun ρ'' h'' => h ρ'' (ha.trans h'')

theorem Placed.mono {ρ ρ' : Place} {I' I : Init w} (h : Placed ρ I' I) (ha : ρ.Agree ρ' I'.fp) : Placed ρ' I' I := by
  induction h with
  | fixedLen => exact .fixedLen
  | cloner => rw [← ha.ptr rfl]; exact .cloner
  | sized h => exact .sized (h.mono ha)
  | newtype _ ih => exact .newtype (ih ha)
  | @agg tup hs ha' fis _ h2 ih =>
    refine .agg (fun T I' I hf => ih T I' I hf (ha.mono fun b hb => ⟨.varlen T I', List.mem_map.2 ⟨_, hf, rfl⟩, hb⟩))
      fun R len I' I hf => (h2 R len I' I hf).mono (ha.mono fun b hb => ⟨.array R len I', List.mem_map.2 ⟨_, hf, rfl⟩, hb⟩)
  | vcopy hT => rw [← ha.ptr rfl]; exact .vcopy hT
  | vbox hT hh => rw [← ha.ptr rfl]; exact .vbox hT ((ha _ rfl).2.2 hh)
  | owned hT => rw [← ha.ptr rfl]; exact .owned hT
  | user h => exact .user fun ρ'' h'' => h ρ'' (ha.trans h'')

end Varlen.Arena
