import Verif.Proofs.Containers
/-!
# C84: values that own boxes and sequences, to any depth

A field or element may have the type `Option<VBox<T>>` or `Option<Seq<T>>`, for several `T`, which may have such fields or elements again. Spec/Containers.lean states when memory is in order (`CtrsOk`), and what destroying such values
comes to (`CtrsEffects`).
-/
namespace Varlen.UD
open Eff (World Ran Wrote)
open DP (Group Fate Plan Plans)
variable {w : Nat}

section
variable {kind : Kind w} {val : Ctr w → List V} {W : Owner} {d : Dtor} {E : Effects} {strict : Bool} {alls : List (List Nat)}

theorem nestC_mayLeak {hk : KindOk kind} (hW : W.MayLeak) : (W.nestC false hk val alls).MayLeak := by
  induction alls with
  | nil => exact hW
  | cons all alls ih => exact ctrs_mayLeak ih hk all

theorem nestC_freed {hk : KindOk kind} {s : St} {prot : Nat → Prop} (h : ((W.nestC true hk val alls).owing []).ok s prot) : ∀ all ∈ alls, ∀ b ∈ all, Freed s b := by
  induction alls generalizing prot with
  | nil => intro all h; simp at h
  | cons all alls ih =>
    obtain ⟨cs, ys, h1, h2, h3, h4, h5⟩ := h
    intro all' hall b hb
    cases h1
    rcases List.mem_cons.1 hall with rfl | hall
    · obtain ⟨_, B, hB, hl⟩ := h4 b hb
      refine ⟨B, hB, ?_⟩
      cases hlv : B.live with
      | false => rfl
      | true => have := hl rfl hlv; simp at this
    · exact ih h5 all' hall b hb

theorem nestC_weaken {hk : KindOk kind} {xs : List (RTy × Img)} {s : St} {prot : Nat → Prop} (h : ((W.nestC true hk val alls).owing xs).ok s prot) : ((W.nestC false hk val alls).owing xs).ok s prot := by
  induction alls generalizing xs prot with
  | nil => exact h
  | cons all alls ih =>
    obtain ⟨cs, ys, h1, h2, h3, h4, h5⟩ := h
    refine ⟨cs, ys, h1, h2, h3, fun b hb => ?_, ih h5⟩
    obtain ⟨hn, B, hB, _⟩ := h4 b hb
    exact ⟨hn, B, hB, fun h => by cases h⟩

/-- **C84**: the destructors of values that own containers, which own containers, and so on, keep the contract of C79: either no destructor panics or aborts (then nothing is leaked: `strict`), or the innermost values may be leaked. -/
theorem C84_contract (hk : KindOk kind) (hd : DtorOk W d E) (h1 : strict = true → Calm E) (h0 : strict = false → W.MayLeak) (alls : List (List Nat)) :
    DtorOk (W.nestC strict hk val alls) (ctrsDtor kind d alls.length) (CtrsEffects kind val E alls.length) := by
  induction alls with
  | nil => exact hd
  | cons all alls ih =>
    refine ctrDtor_ok ih (fun h => ctrs_calm (h1 h) alls.length) (fun h => ?_) all hk
    subst h
    exact nestC_mayLeak (h0 rfl)

/-- **C84**: dropping a container of such values when destructors may panic or abort: it is never undefined behaviour (in particular nothing is freed or destroyed twice, nor used after that); the plans of the values in it are carried out by
Rust's rules, destroying a container among them by carrying out the plans of the values in that one; it returns, panics or aborts accordingly; other memory is not touched, and is in order afterwards. The container is freed exactly if it
returns. -/
theorem C84_drop (hk : KindOk kind) (hd : DtorOk W d E) (hW : W.MayLeak) {c : Ctr w} (hc : LibT c.ty) {s : St} {vs : List V} (h : c.Has s vs) {gss : List (List Group)} (hg : Plans c.ty.base vs gss) {prot : Nat → Prop}
    (hp : ∀ b ∈ c.blocks, prot b) {rest : List (RTy × Img)} (hU : ((W.nestC false hk val alls).owing (gss.flatten.flatten ++ rest)).ok s prot) :
    ∃ s' es f lost, c.drop (ctrsDtor kind d alls.length) s = f.res s' ∧ RunEnds (CtrsEffects kind val E alls.length) gss.flatten es f lost ∧ s'.log = s.log ++ es ∧ ((W.nestC false hk val alls).owing rest).ok s' prot ∧
      (∀ b, prot b → b ∉ c.blocks → s'.blk b = s.blk b) ∧ ∀ b ∈ c.blocks, ∃ B, s'.blk b = some B ∧ (B.live = false ↔ f = .done) := by
  obtain ⟨s', es, f, lost, e1, e2, e3, e4, e5, e6⟩ := Ctr.drop_ends hk.width hc (C84_contract (val := val) hk hd (strict := false) (fun h => by cases h) (fun _ => hW) alls) h hg hp hU
  exact ⟨s', es, f, lost, e1, e2, e4, (nestC_mayLeak hW).all e3, e5, e6⟩

/-- **C84**: when no destructor panics or aborts, dropping a container returns, and it and every container inside it, at every level, is freed; every value is destroyed. -/
theorem C84_freed (hk : KindOk kind) (hd : DtorOk W d E) (hE : Calm E) {c : Ctr w} (hc : LibT c.ty) {s : St} {vs : List V} (h : c.Has s vs) {gss : List (List Group)} (hg : Plans c.ty.base vs gss) {prot : Nat → Prop}
    (hp : ∀ b ∈ c.blocks, prot b) (hU : ((W.nestC true hk val alls).owing gss.flatten.flatten).ok s prot) :
    ∃ s' es, c.drop (ctrsDtor kind d alls.length) s = .ok () s' ∧ RunEnds (CtrsEffects kind val E alls.length) gss.flatten es .done [] ∧ s'.log = s.log ++ es ∧ (∀ b ∈ c.blocks, Freed s' b) ∧
      (∀ all ∈ alls, ∀ b ∈ all, Freed s' b) ∧ ∀ b, prot b → b ∉ c.blocks → s'.blk b = s.blk b := by
  obtain ⟨s', es, f, lost, e1, e2, e3, e4, e5, e6⟩ := Ctr.drop_ends hk.width hc (C84_contract (val := val) hk hd (strict := true) (fun _ => hE) (fun h => by cases h) alls) h hg hp (rest := []) (by simpa using hU)
  obtain rfl := runEnds_calm (ctrs_calm hE _) e2
  obtain rfl := runEnds_done e2 rfl
  refine ⟨s', es, e1, e2, e4, fun b hb => ?_, nestC_freed (by simpa using e3), e5⟩
  obtain ⟨B, hB, hl⟩ := e6 b hb
  exact ⟨B, hB, hl.2 rfl⟩
end

/-! ## A concrete case -/

namespace Demo
open Varlen.Demo

/-- Pushing a node. -/
abbrev pushN (val : Nat) (kids : List Nat) : MQ 64 Unit := Seq.push alloc true Node.base.T (nodeInit val kids)
/-- A sequence of two nodes, the first of which owns the box in block 4 (of Props/UserDrop.lean), which owns others. -/
def k1 : St × SeqS 64 := after (pushN 5 [4]) (m4, Seq.new Node.base.T)
def k2 : St × SeqS 64 := after (pushN 6 []) k1
/-- A box with a node that owns this sequence (and another, empty one: there is none). -/
def k3 : St := after (mk 7 [100, 0]) k2.1

/-- How the bytes of such an `Option` are decoded: 100 stands for the sequence, other numbers for the boxes. -/
def decC (x : Img) : Option (Ctr 64) := if decLE x = 0 then Option.none else if decLE x = 100 then some (.seq Node true k2.2) else some (.box Node ⟨decLE x, 0⟩)
def kindC : Kind 64 := fun R => if isB R then some decC else Option.none
def valC : Ctr 64 → List V
  | .box _ p => [boxVal p]
  | .seq _ _ _ => [nodeVal 5 [4], nodeVal 6 []]

theorem kindC_ok : KindOk kindC where
  width := by decide
  drop := by
    intro R dec h
    simp only [kindC] at h
    split at h
    · exact isB_drop R (by assumption)
    · cases h
  lib := by
    intro R dec x c h hc
    simp only [kindC] at h
    split at h
    · injection h with h
      subst h
      simp only [decC] at hc
      split at hc
      · cases hc
      · split at hc
        · injection hc with hc
          subst hc
          exact Node_lib
        · injection hc with hc
          subst hc
          exact Node_lib
    · cases h

theorem node_pushArg (val : Nat) (kids : List Nat) (s : St) (q : SeqS 64) (hz : ((nodeInit val kids).lay.map fun l => decide (0 < l.size.toNat)).getD true = true) : PushArg Node.base.T (nodeInit val kids) s q where
  lawful := (nodeInit_lib val kids).lib.2
  pre := nodeInit_pre val kids s
  apart := by
    rintro ⟨f, hf, h⟩
    simp only [List.mem_cons, List.mem_nil_iff, or_false] at hf
    rcases hf with rfl | rfl | rfl <;> exact h
  nonzero := by
    intro l hl
    rw [hl] at hz
    simpa using hz

theorem k1_eq : pushN 5 [4] (m4, Seq.new Node.base.T) = .ok () k1 := run_unit _ _ (by decide +kernel)
theorem k2_eq : pushN 6 [] k1 = .ok () k2 := run_unit _ _ (by decide +kernel)
theorem k3_eq : mk 7 [100, 0] k2.1 = .ok ⟨6, 0⟩ k3 := (run_eq ⟨0, 0⟩ (mk 7 [100, 0]) k2.1 (by decide +kernel)).trans (by rw [show result ⟨0, 0⟩ (mk 7 [100, 0]) k2.1 = ⟨6, 0⟩ by decide +kernel]; rfl)

theorem push_keeps {val : Nat} {kids : List Nat} {s s' : St} {q q' : SeqS 64} {h : List (BitVec 64 × V)} {m : Nat} {t : Bool} (hh : Hist Node.base.T true s q h m t)
    (hz : ((nodeInit val kids).lay.map fun l => decide (0 < l.size.toNat)).getD true = true) (e : pushN val kids (s, q) = .ok () (s', q')) (b : Nat) (hb : s.blk b ≠ Option.none) (hne : b ≠ q.ptr.blk) : s'.blk b = s.blk b := by
  replace e : Seq.push alloc true Node.base.T (nodeInit val kids) (s, q) = .ok () (s', q') := e
  rcases hh.push_cases Node_lib.ulaw.law.law (by decide) alloc (node_pushArg val kids s q hz) with ⟨v, s2, q2, need, e2, _, _, hP, _⟩ | ⟨msg, s2, q2, e2, _⟩
  · rw [e] at e2; cases e2
    cases hB : s.blk b with
    | none => exact absurd hB hb
    | some B => exact hP.frame b B hB hne (nodeInit_owns val kids b)
  · rw [e] at e2; cases e2

theorem kh1 : ∃ m, Hist Node.base.T true k1.1 k1.2 [(0, nodeVal 5 [4])] m false := by
  have h := HistU.push alloc (v := nodeVal 5 [4]) (HistU.new m4) (node_pushArg 5 [4] _ _ (by decide +kernel)) rfl k1_eq
  exact ⟨_, _, h⟩

theorem kh2 : ∃ m, Hist Node.base.T true k2.1 k2.2 [(0, nodeVal 5 [4]), (2, nodeVal 6 [])] m false := by
  obtain ⟨m, U, h1⟩ := kh1
  have h := HistU.push alloc (v := nodeVal 6 []) h1 (node_pushArg 6 [] _ _ (by decide +kernel)) rfl k2_eq
  rw [show Seq.offset k1.2 = 2 by decide +kernel] at h
  exact ⟨_, _, h⟩

theorem m4_live {b : Nat} (hb : b = 1 ∨ b = 2 ∨ b = 3 ∨ b = 4) : m4.blk b ≠ Option.none := by
  obtain ⟨h1, h2, h3, h4⟩ := m4_boxes
  rcases hb with rfl | rfl | rfl | rfl
  · obtain ⟨B, hB⟩ := blk_of h1 rfl; simp [hB]
  · obtain ⟨B, hB⟩ := blk_of h2 rfl; simp [hB]
  · obtain ⟨B, hB⟩ := blk_of h3 rfl; simp [hB]
  · obtain ⟨B, hB⟩ := blk_of h4 rfl; simp [hB]

/-- The boxes are as they were. -/
theorem k3_keeps {b : Nat} (hb : b = 1 ∨ b = 2 ∨ b = 3 ∨ b = 4) : k3.blk b = m4.blk b := by
  have hm := m4_live hb
  obtain ⟨m, h1⟩ := kh1
  have e1 : k1.1.blk b = m4.blk b := push_keeps ⟨_, HistU.new m4⟩ (by decide +kernel) k1_eq b hm (by
    rw [show (Seq.new Node.base.T).ptr.blk = 0 by decide +kernel]
    omega)
  have e2 : k2.1.blk b = k1.1.blk b := push_keeps h1 (by decide +kernel) k2_eq b (by rw [e1]; exact hm) (by
    rw [show k1.2.ptr.blk = 5 by decide +kernel]
    omega)
  rw [(mk_box (by rfl) k3_eq).2 b (by rw [e2, e1]; exact hm), e2, e1]

theorem k3_box {q : Ptr} {v : V} (hb : q.blk = 1 ∨ q.blk = 2 ∨ q.blk = 3 ∨ q.blk = 4) (h : ∃ l, BoxHas Node.base.T m4 q v l) : (Ctr.box Node q).Has k3 [v] := by
  obtain ⟨l, h⟩ := h
  exact ⟨v, l, rfl, h.of_same (on := fun b => b = q.blk) (fun b hb' => by subst hb'; exact k3_keeps hb) rfl⟩

theorem k2_blk : k2.2.ptr.blk = 5 := by decide +kernel
theorem k2_cap : Seq.capacityInOffsets k2.2 = 4 := by decide +kernel

theorem k2_live : k2.1.blk 5 ≠ Option.none := by decide +kernel

theorem k3_seq : (Ctr.seq Node true k2.2).Has k3 [nodeVal 5 [4], nodeVal 6 []] := by
  obtain ⟨m, U, h⟩ := kh2
  refine ⟨_, m, false, ⟨U, .other h fun b hb => ?_⟩, rfl⟩
  subst hb
  rw [k2_blk]
  exact (mk_box (by rfl) k3_eq).2 5 k2_live

abbrev ownerC : Owner := (Owner.none anything).nestC true kindC_ok valC [[5], [4], [2, 3], [1]]

theorem k3_some {b : Nat} (hb : b ∈ [1, 2, 3, 4, 5, 6]) : ∃ B, k3.blk b = some B := by
  have : k3.blk b ≠ Option.none := by
    simp only [List.mem_cons, List.mem_nil_iff, or_false] at hb
    by_cases h5 : b = 5
    · subst h5
      rw [(mk_box (by rfl) k3_eq).2 5 k2_live]; exact k2_live
    · by_cases h6 : b = 6
      · subst h6
        obtain ⟨l, h⟩ := (mk_box (by rfl) k3_eq).1
        exact h.blk
      · have hb' : b = 1 ∨ b = 2 ∨ b = 3 ∨ b = 4 := by omega
        rw [k3_keeps hb']; exact m4_live hb'
  cases h : k3.blk b with
  | none => exact absurd h this
  | some B => exact ⟨B, rfl⟩

theorem k3_owner : (ownerC.owing ([[(D4, d4 7)], [(u8Ty, encLE 1 2)], ([100, 0].map bx).map fun x => (OptBox, x)] : List Group).flatten).ok k3 (fun b => b = 6) := by
  obtain ⟨h1, h2, h3, h4⟩ := m4_boxes
  have hblocks : (Ctr.seq Node true k2.2).blocks = [5] := by rw [Ctr.blocks_some (by rw [k2_cap]; decide), k2_blk]
  refine ⟨[.seq Node true k2.2], _, .plain rfl (.plain rfl (.ctr rfl rfl (.cons (plan_node 5 [4]) (.cons (plan_node 6 []) .nil)) (.empty rfl rfl .nil))), ?_, ?_, ?_, ?_⟩
  · intro c hc
    obtain rfl := List.mem_singleton.1 hc
    exact ⟨k3_seq, by rw [hblocks]; simp⟩
  · simp [hblocks]
  · intro b hb
    obtain rfl := List.mem_singleton.1 hb
    obtain ⟨B, hB⟩ := k3_some (b := 5) (by simp)
    exact ⟨by simp, B, hB, fun _ _ => by simp [hblocks]⟩
  · refine ⟨[.box Node ⟨4, 0⟩], _, .plain rfl (.plain rfl (.plain rfl (.plain rfl (.ctr rfl rfl (.cons (plan_node 1 [2, 0, 3]) .nil) (.plain rfl (.plain rfl .nil)))))), ?_, ?_, ?_, ?_⟩
    · intro c hc
      obtain rfl := List.mem_singleton.1 hc
      exact ⟨k3_box (by simp) h4, by simp [Ctr.blocks]⟩
    · simp [Ctr.blocks]
    · intro b hb
      obtain rfl := List.mem_singleton.1 hb
      obtain ⟨B, hB⟩ := k3_some (b := 4) (by simp)
      exact ⟨by simp, B, hB, fun _ _ => by simp [Ctr.blocks]⟩
    · refine ⟨[.box Node ⟨2, 0⟩, .box Node ⟨3, 0⟩], _, .plain rfl (.plain rfl (.plain rfl (.plain rfl (.plain rfl (.plain rfl (.ctr rfl rfl (.cons (plan_node 3 [1]) .nil) (.empty rfl rfl
        (.ctr rfl rfl (.cons (plan_node 2 []) .nil) (.plain rfl (.plain rfl .nil)))))))))), ?_, ?_, ?_, ?_⟩
      · intro c hc
        simp only [List.mem_cons, List.mem_nil_iff, or_false] at hc
        rcases hc with rfl | rfl
        · exact ⟨k3_box (by simp) h2, by simp [Ctr.blocks]⟩
        · exact ⟨k3_box (by simp) h3, by simp [Ctr.blocks]⟩
      · simp [Ctr.blocks]
      · intro b hb
        obtain ⟨B, hB⟩ := k3_some (b := b) (by simp only [List.mem_cons, List.mem_nil_iff, or_false] at hb ⊢; omega)
        simp only [List.mem_cons, List.mem_nil_iff, or_false] at hb
        exact ⟨by rcases hb with rfl | rfl <;> simp, B, hB, fun _ _ => by simpa [Ctr.blocks] using hb⟩
      · refine ⟨[.box Node ⟨1, 0⟩], _, .plain rfl (.plain rfl (.plain rfl (.plain rfl (.plain rfl (.plain rfl (.plain rfl (.plain rfl (.ctr rfl rfl (.cons (plan_node 4 []) .nil) (.plain rfl (.plain rfl
          (.plain rfl (.plain rfl .nil)))))))))))), ?_, ?_, ?_, ?_⟩
        · intro c hc
          obtain rfl := List.mem_singleton.1 hc
          exact ⟨k3_box (by simp) h1, by simp [Ctr.blocks]⟩
        · simp [Ctr.blocks]
        · intro b hb
          obtain rfl := List.mem_singleton.1 hb
          obtain ⟨B, hB⟩ := k3_some (b := 1) (by simp)
          exact ⟨by simp, B, hB, fun _ _ => by simp [Ctr.blocks]⟩
        · refine ⟨fun b hb => ⟨?_, fun h => h⟩, trivial⟩
          have hb' : b ∈ [1, 2, 3, 4, 5, 6] := by
            simp only [List.mem_cons, List.mem_nil_iff, or_false] at hb ⊢
            omega
          obtain ⟨B, hB⟩ := k3_some hb'
          simp [hB]

/-- The hypotheses of `C84_freed` are met: a box of a node that owns a sequence of nodes, of which one owns a box, and so on. -/
example : ∃ s' es, (Ctr.box Node ⟨6, 0⟩).drop (ctrsDtor kindC (logDtor fun _ _ => false) 4) k3 = .ok () s' ∧ s'.log = k3.log ++ es ∧ ∀ b ∈ [1, 2, 3, 4, 5, 6], Freed s' b := by
  obtain ⟨l, h⟩ := (mk_box (by rfl) k3_eq).1
  obtain ⟨s', es, e1, _, e2, e3, e4, _⟩ := C84_freed (c := .box Node ⟨6, 0⟩) kindC_ok (logDtor_ok anything fun _ _ => false) (fun _ _ _ _ _ h => h.2) Node_lib (vs := [nodeVal 7 [100, 0]]) ⟨_, l, rfl, h⟩
    (.cons (plan_node 7 [100, 0]) .nil) (prot := fun b => b = 6) (by simp [Ctr.blocks]) (alls := [[5], [4], [2, 3], [1]]) (by simpa using k3_owner)
  refine ⟨s', es, e1, e2, fun b hb => ?_⟩
  simp only [List.mem_cons, List.mem_nil_iff, or_false] at hb
  rcases hb with rfl | rfl | rfl | rfl | rfl | rfl
  · exact e4 [1] (by simp) 1 (by simp)
  · exact e4 [2, 3] (by simp) 2 (by simp)
  · exact e4 [2, 3] (by simp) 3 (by simp)
  · exact e4 [4] (by simp) 4 (by simp)
  · exact e4 [5] (by simp) 5 (by simp)
  · exact e3 6 (by simp [Ctr.blocks])

/-- And those of `C84_drop`, with a destructor that panics. -/
example : ∃ s' es f lost, (Ctr.box Node ⟨6, 0⟩).drop (ctrsDtor kindC (logDtor fun _ x => x == d4 3) 4) k3 = Fate.res f s' ∧
    RunEnds (CtrsEffects kindC valC (logEffects fun _ x => x == d4 3) 4) [[(D4, d4 7)], [(u8Ty, encLE 1 2)], ([100, 0].map bx).map fun x => (OptBox, x)] es f lost := by
  obtain ⟨l, h⟩ := (mk_box (by rfl) k3_eq).1
  obtain ⟨s', es, f, lost, e1, e2, _⟩ := C84_drop (c := .box Node ⟨6, 0⟩) kindC_ok (logDtor_ok anything fun _ x => x == d4 3) (fun _ _ _ _ h => h) Node_lib (vs := [nodeVal 7 [100, 0]]) ⟨_, l, rfl, h⟩
    (.cons (plan_node 7 [100, 0]) .nil) (prot := fun b => b = 6) (by simp [Ctr.blocks]) (alls := [[5], [4], [2, 3], [1]]) (rest := []) (nestC_weaken (by simpa using k3_owner))
  exact ⟨s', es, f, lost, e1, by simpa using e2⟩

/-- The run. -/
example : (okOf ((Ctr.box Node ⟨6, 0⟩).drop (ctrsDtor kindC (logDtor fun _ _ => false) 4) k3)).map (fun x => (x.2.log, x.2.blocks.map (·.live))) =
    some ([7, 5, 1, 3, 4, 2, 6], [false, false, false, false, false, false]) := by decide +kernel
/-- With a panic in the destructor of a value in the box in block 2: the value of block 3 (beside it) is destroyed and freed; what is around it leaks, and so does the second node of the sequence. -/
example : (panicOf ((Ctr.box Node ⟨6, 0⟩).drop (ctrsDtor kindC (logDtor fun _ x => x == d4 3) 4) k3)).map (fun x => (x.1, x.2.log, x.2.blocks.map (·.live))) =
    some (.user, [7, 5, 1, 3, 2], [true, true, false, true, true, true]) := by decide +kernel

end Demo
end Varlen.UD
