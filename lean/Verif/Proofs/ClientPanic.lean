import Verif.Spec.ClientPanic
import Verif.Proofs.ClientSteps
import Verif.Proofs.DropPanic
/-! # The invariant of worlds also holds if destructors panic -/
namespace Varlen
variable {w : Nat}
open DP (Boom LibT)

/-- The process is gone, or the invariant holds in the next world. -/
def PFine (o : POutcome w) : Prop := o = .aborted ∨ ∃ W', o = .next W' ∧ Inv W'

theorem PFine.of_res {f : DP.Fate} {s : St} {ok panic : St → World w} (h1 : f = .done → Inv (ok s)) (h2 : f = .panicked → Inv (panic s)) : PFine (afterDrop (f.res s) ok panic) := by
  cases f with
  | done => exact .inr ⟨_, rfl, h1 rfl⟩
  | panicked => exact .inr ⟨_, rfl, h2 rfl⟩
  | aborted => exact .inl rfl

theorem count_prefix {a b : List Event} (h : a <+: b) (e : Event) : a.count e ≤ b.count e := h.sublist.count_le e

theorem DP.PLawful.owes {T : DP.Ty w} (hT : DP.PLawful T) (boom : Boom) {v : V} {l : Layout w} {o : View} (hr : T.T.Rep v l o) :
    (DP.run boom (T.plan v)).1 <+: T.T.drops v ∧ ((DP.run boom (T.plan v)).2 = .done → (DP.run boom (T.plan v)).1 = T.T.drops v) := by
  rw [hT.drops v l o hr]
  refine ⟨DP.run_prefix boom _, fun h => ?_⟩
  rw [DP.run_calm boom _ ((DP.run_done_iff boom _).1 h)]

theorem DP.PLawful.owesAll {T : DP.Ty w} (hT : DP.PLawful T) (boom : Boom) {es : List (Elem w)} {s : St} {b : Ptr} (hv : ∀ e ∈ es, Valid T.T s (e.at T.T b) e.v e.l) :
    (DP.run boom (es.flatMap fun e => T.plan e.v)).1 <+: es.flatMap (fun e => T.T.drops e.v) ∧
    ((DP.run boom (es.flatMap fun e => T.plan e.v)).2 = .done → (DP.run boom (es.flatMap fun e => T.plan e.v)).1 = es.flatMap (fun e => T.T.drops e.v)) := by
  have h : es.flatMap (fun e => T.T.drops e.v) = DP.owed (es.flatMap fun e => T.plan e.v) := by
    induction es with
    | nil => rfl
    | cons e es ih => rw [List.flatMap_cons, List.flatMap_cons, DP.owed_append, ih fun x hx => hv x (List.mem_cons_of_mem _ hx), hT.drops _ _ _ (hv e (List.mem_cons_self ..)).rep]
  rw [h]
  refine ⟨DP.run_prefix boom _, fun h => ?_⟩
  rw [DP.run_calm boom _ ((DP.run_done_iff boom _).1 h)]

/-- The state in which a program stops, if it is defined. -/
def StopsIn {α : Type} (r : Res St α) (s' : St) : Prop := (∃ a, r = .ok a s') ∨ ∃ m, r = .panic m s'

theorem StopsIn.res {f : DP.Fate} {s s' : St} (h : StopsIn (f.res s) s') : s' = s := by
  rcases h with ⟨a, h⟩ | ⟨m, h⟩ <;> cases f <;> cases h <;> rfl

/-- Dropping the rest of an iterator leaves alone what lies apart from the elements to come. -/
theorem dropLoop_keeps {T : DP.Ty w} (hT : DP.PLawful T) (hw : 8 ≤ w) (boom : Boom) {b : Ptr} {fin : Nat} {e : Elem w} : ∀ {es : List (Elem w)} {fuel : Nat} {s s' : St} {it : IterS w} {cur : Nat},
    IterAt T.T s b it cur es fin → es.length < fuel → (∀ x ∈ es, EDisj T.T.ALIGN.toNat e x) → Valid T.T s (e.at T.T b) e.v e.l →
    StopsIn (DP.OwnedElems.dropLoop boom T fuel it s) s' → Valid T.T s' (e.at T.T b) e.v e.l
  | _, 0, _, _, _, _, _, hf, _, _, _ => by simp at hf
  | [], fuel + 1, s, s', it, cur, h, _, _, hv, hs => by
    simp only [DP.OwnedElems.dropLoop, bind_apply, Iter.next_nil h, Res.bind_ok] at hs
    rcases hs with ⟨a, hs⟩ | ⟨m, hs⟩
    · cases hs; exact hv
    · cases hs
  | x :: es, fuel + 1, s, s', it, cur, h, hf, hd, hv, hs => by
    have hpos := hT.law.align_pow2.pos
    obtain ⟨it1, e1, h1⟩ := Iter.next_cons hT.law hw h
    obtain ⟨s1, g1, g2, _, _⟩ := DP.Owned.drop_ends hT boom (h.valid x (by simp))
    have hv1 : Valid T.T s1 (e.at T.T b) e.v e.l := by
      refine hv.of_touch hT.law g2 (fun h => h) (.inr ?_)
      simp only [Elem.at, Ptr.add_off]
      rcases (hd x (by simp)).bytes hpos with h | h <;> omega
    simp only [DP.OwnedElems.dropLoop, bind_apply, e1, Res.bind_ok] at hs
    rw [g1] at hs
    generalize (DP.run boom (T.plan x.v)).2 = f at hs g1
    cases f with
    | done =>
      refine dropLoop_keeps hT hw boom (DP.IterAt.after hT h.packed h1 g2) (by simp at hf; omega) (fun y hy => hd y (by simp [hy])) hv1 hs
    | panicked =>
      rcases hs with ⟨a, hs⟩ | ⟨m, hs⟩
      · cases hs
      · cases hs; exact hv1
    | aborted =>
      rcases hs with ⟨a, hs⟩ | ⟨m, hs⟩
      · cases hs
      · cases hs; exact hv1

theorem dropElems_keeps {T : DP.Ty w} (hT : DP.PLawful T) (hw : 8 ≤ w) (boom : Boom) {b : Ptr} {fin : Nat} {e : Elem w} {es : List (Elem w)} {s s' : St} {it : IterS w} {cur : Nat}
    (h : IterAt T.T s b it cur es fin) (hd : ∀ x ∈ es, EDisj T.T.ALIGN.toNat e x) (hv : Valid T.T s (e.at T.T b) e.v e.l)
    (hs : StopsIn (DP.OwnedElems.drop boom T it s) s') : Valid T.T s' (e.at T.T b) e.v e.l := by
  unfold DP.OwnedElems.drop at hs
  by_cases hn : (T.T.headNeedsDrop || T.T.NEEDS_VDROP) = true
  · rw [if_pos hn] at hs
    exact dropLoop_keeps hT hw boom h (by rw [h.len]; omega) hd hv hs
  · rw [if_neg hn] at hs
    rcases hs with ⟨a, hs⟩ | ⟨m, hs⟩
    · cases hs; exact hv
    · cases hs

section
variable (hw : 8 ≤ w) {W : World w} (hi : Inv W) {boom : Boom}
include hw hi

theorem pstep_dropBox {T : DP.Ty w} (hT : LibT T) {p : Ptr} {v : V} {rest : List (Handle w)} (hp : W.objs.Perm (.box T.T p v :: rest)) :
    PFine (afterDrop (DP.VBox.drop boom T p W.st) (fun s => { W with st := s, objs := rest }) (fun s => { W with st := s, objs := rest, lost := true, leak := true })) := by
  obtain ⟨_, l, hb⟩ := hi.ok _ (hp.mem_iff.2 (List.mem_cons_self ..))
  obtain ⟨s', e, hlog, _, hfr, hdone, hnot⟩ := DP.VBox.drop_spec hT.law boom hb
  obtain ⟨o1, o2⟩ := hT.law.owes boom hb.valid.rep
  rw [e]
  have hsz : W.st.blk (Handle.box T.T p v).blk ≠ none → s'.blk (Handle.box T.T p v).blk ≠ none := fun _ => by
    by_cases hd : (DP.run boom (T.plan v)).2 = .done
    · obtain ⟨B, hB, _⟩ := hdone hd
      rw [show s'.blk (Handle.box T.T p v).blk = some B from hB]; simp
    · obtain ⟨_, B, hB, _⟩ := hnot hd
      rw [show s'.blk (Handle.box T.T p v).blk = some B from hB]; simp
  refine PFine.of_res (fun hd => ?_) (fun hd => ?_)
  · rw [o2 hd] at hlog
    obtain ⟨B, hB, hdead⟩ := hdone hd
    refine hi.local hw (now := []) hp rfl (fun b hb => hfr b hb) hsz (by simp) (.inl rfl) (fun b => ⟨.inl, fun h => h.elim id (·.2.2.2)⟩) hlog
      (List.append_nil _).symm (by simp [Handle.drops]) (fun h => ⟨h, by simp [Handle.drops]⟩) (fun h => ⟨h, fun _ => .inr fun B' hB' hl => ?_⟩)
    rw [show s'.blk (Handle.box T.T p v).blk = some B from hB] at hB'
    cases hB'
    rw [hl] at hdead; cases hdead
  · exact hi.local hw (now := []) hp rfl (fun b hb => hfr b hb) hsz (by simp) (.inl rfl) (fun b => ⟨.inl, fun h => h.elim id (·.2.2.2)⟩) hlog
      (List.append_nil _).symm (fun a => by have := count_prefix o1 a; simpa [Handle.drops] using this) (fun h => by cases h) (fun h => by cases h)

theorem pstep_dropOwned {T : DP.Ty w} (hT : LibT T) {p : Ptr} {v : V} {rest : List (Handle w)} (hp : W.objs.Perm (.owned T.T p v :: rest)) :
    PFine (afterDrop (DP.Owned.drop boom T p W.st) (fun s => { W with st := s, objs := rest, ext := fun b => W.ext b ∨ b = p.blk })
      (fun s => { W with st := s, objs := rest, ext := fun b => W.ext b ∨ b = p.blk, lost := true })) := by
  obtain ⟨_, ⟨l, hv⟩, hb⟩ := hi.ok _ (hp.mem_iff.2 (List.mem_cons_self ..))
  obtain ⟨s', e, ht, hlog, _⟩ := DP.Owned.drop_ends hT.law boom hv
  obtain ⟨o1, o2⟩ := hT.law.owes boom hv.rep
  rw [e]
  have hext : ∀ b, (W.ext b ∨ b = p.blk) ↔ W.ext b ∨ (([] : List (Handle w)) = [] ∧ b ≠ 0 ∧ b = (Handle.owned T.T p v).blk ∧ (W.ext b ∨ b = p.blk)) := by
    intro b
    constructor
    · rintro (h | h)
      · exact .inl h
      · refine .inr ⟨rfl, ?_, h, .inr h⟩
        rintro rfl
        rw [← h] at hb
        exact hb rfl
    · rintro (h | h)
      · exact .inl h
      · exact h.2.2.2
  refine PFine.of_res (fun hd => ?_) (fun hd => ?_)
  · rw [o2 hd] at hlog
    exact hi.local hw (now := []) hp rfl (fun b hb => ht.blk_eq (fun h => h) hb) ht.mono_blk (by simp) (.inl rfl) hext hlog
      (List.append_nil _).symm (by simp [Handle.drops]) (fun h => ⟨h, by simp [Handle.drops]⟩) (fun h => ⟨h, fun _ => .inl (.inr rfl)⟩)
  · exact hi.local hw (now := []) hp rfl (fun b hb => ht.blk_eq (fun h => h) hb) ht.mono_blk (by simp) (.inl rfl) hext hlog
      (List.append_nil _).symm (fun a => by have := count_prefix o1 a; simpa [Handle.drops] using this) (fun h => by cases h) (fun h => ⟨h, fun _ => .inl (.inr rfl)⟩)

theorem pstep_dropSeq {chk : Bool} {T : DP.Ty w} (hT : LibT T) {q : SeqS w} {h : List (BitVec w × V)} {t : Bool} {rest : List (Handle w)} (hp : W.objs.Perm (.seq chk T.T q h t :: rest)) :
    PFine (afterDrop (dropped (DP.Seq.drop boom chk T (W.st, q))) (fun s => { W with st := s, objs := rest }) (fun s => { W with st := s, objs := rest, lost := true, leak := true })) := by
  obtain ⟨_, m, hh⟩ := hi.ok _ (hp.mem_iff.2 (List.mem_cons_self ..))
  obtain ⟨es, i⟩ := hh.inv hT.law.law hw
  obtain ⟨s', q', e, hlog, _, hfr, hst⟩ := DP.Seq.drop_ends hT.law hw boom i.inv
  obtain ⟨o1, o2⟩ := hT.law.owesAll boom (i.inv.iterAt hT.law.law).valid
  have hdr : es.flatMap (fun e => T.T.drops e.v) = h.flatMap fun e => T.T.drops e.2 := by
    rw [← i.entries, List.flatMap_map]; rfl
  rw [hdr] at o1 o2
  have hsz : W.st.blk (Handle.seq chk T.T q h t).blk ≠ none → s'.blk (Handle.seq chk T.T q h t).blk ≠ none := fun h0 => by
    have := hst (seq_blk_ok hw hT.law.law hh fun e => h0 (by rw [show (Handle.seq chk T.T q h t).blk = 0 from e]; rfl))
    split at this
    · obtain ⟨B, hB, _⟩ := this
      rw [show s'.blk (Handle.seq chk T.T q h t).blk = some B from hB]; simp
    · obtain ⟨_, B, hB, _⟩ := this
      rw [show s'.blk (Handle.seq chk T.T q h t).blk = some B from hB]; simp
  have hres : dropped (DP.Seq.drop boom chk T (W.st, q)) = (DP.run boom (es.flatMap fun e => T.plan e.v)).2.res s' := by
    rw [e]
    generalize (DP.run boom (es.flatMap fun e => T.plan e.v)).2 = f
    cases f <;> rfl
  rw [hres]
  refine PFine.of_res (fun hd => ?_) (fun hd => ?_)
  · rw [o2 hd] at hlog
    refine hi.local hw (now := []) hp rfl (fun b hb => hfr b hb) hsz (by simp) (.inl rfl) (fun b => ⟨.inl, fun h => h.elim id (·.2.2.2)⟩) hlog
      (List.append_nil _).symm (by simp [Handle.drops]) (fun h => ⟨h, by simp [Handle.drops]⟩) (fun hk' => ⟨hk', fun _ => .inr fun B' hB' hl => ?_⟩)
    have := hst (seq_blk_ok hw hT.law.law hh fun e => by rw [show (Handle.seq chk T.T q h t).blk = 0 from e] at hB'; cases hB')
    rw [if_pos hd] at this
    obtain ⟨B, hB, hdead⟩ := this
    rw [show s'.blk (Handle.seq chk T.T q h t).blk = some B from hB] at hB'
    cases hB'
    rw [hl] at hdead; cases hdead
  · exact hi.local hw (now := []) hp rfl (fun b hb => hfr b hb) hsz (by simp) (.inl rfl) (fun b => ⟨.inl, fun h => h.elim id (·.2.2.2)⟩) hlog
      (List.append_nil _).symm (fun a => by have := count_prefix o1 a; simpa [Handle.drops] using this) (fun h => by cases h) (fun h => by cases h)

theorem pstep_dropItem {chk : Bool} {T : DP.Ty w} (hT : LibT T) {q : SeqS w} {items items' : List (Ptr × V)} {it : Option (IterS w × List V)} {p : Ptr} {v : V} {rest : List (Handle w)}
    (hp : W.objs.Perm (.drain chk T.T q items it :: rest)) (hpm : items.Perm ((p, v) :: items')) :
    PFine (afterDrop (DP.Owned.drop boom T p W.st) (fun s => { W with st := s, objs := .drain chk T.T q items' it :: rest })
      (fun s => { W with st := s, objs := .drain chk T.T q items' it :: rest, lost := true })) := by
  obtain ⟨hL, xs, ys, hd⟩ := hi.ok _ (hp.mem_iff.2 (List.mem_cons_self ..))
  obtain ⟨x, xs', rfl, rfl, rfl, hperm⟩ := hd.pick hpm
  have hx := hd.valid x (hperm.mem_iff.2 (by simp))
  obtain ⟨s', e, ht, hlog, _⟩ := DP.Owned.drop_ends hT.law boom hx
  obtain ⟨o1, o2⟩ := hT.law.owes boom hx.rep
  rw [e]
  have hc : ∀ a, (T.T.drops x.v).count a + (Handle.drain chk T.T q (xs'.map fun e => (e.at T.T q.ptr, e.v)) it).drops.count a =
      (Handle.drain chk T.T q items it).drops.count a + ([] : List Event).count a := by
    intro a
    have := items_count (T := T.T) hpm a
    simp only [Handle.drops, List.count_append, List.count_nil] at this ⊢
    omega
  refine PFine.of_res (fun hf => ?_) (fun hf => ?_)
  · rw [o2 hf] at hlog
    exact step_edit hw hi hp rfl rfl ht rfl rfl ⟨hL, xs', ys, hd.change hT.law.law hperm ht⟩ (fun _ => Iff.rfl) rfl hlog (List.append_nil _).symm (fun a => Nat.le_of_eq (hc a))
      (fun h => ⟨h, hc⟩)
  · exact step_edit hw hi hp rfl rfl ht rfl rfl ⟨hL, xs', ys, hd.change hT.law.law hperm ht⟩ (fun _ => Iff.rfl) rfl hlog (List.append_nil _).symm
      (fun a => by have := count_prefix o1 a; have := hc a; omega) (fun h => by cases h)

theorem pstep_dropIter {chk : Bool} {T : DP.Ty w} (hT : LibT T) {q : SeqS w} {items : List (Ptr × V)} {it : IterS w} {vs : List V} {rest : List (Handle w)}
    (hp : W.objs.Perm (.drain chk T.T q items (some (it, vs)) :: rest)) :
    PFine (afterDrop (DP.OwnedElems.drop boom T it W.st) (fun s => { W with st := s, objs := .drain chk T.T q items none :: rest })
      (fun s => { W with st := s, objs := .drain chk T.T q items none :: rest, lost := true })) := by
  obtain ⟨hL, xs, ys, hd⟩ := hi.ok _ (hp.mem_iff.2 (List.mem_cons_self ..))
  obtain ⟨rfl, cur, fin, hit, hfin⟩ := hd.iter it _ rfl
  obtain ⟨s', e, ht, hlog, _⟩ := DP.OwnedElems.drop_ends hT.law hw boom hit
  obtain ⟨o1, o2⟩ := hT.law.owesAll boom hit.valid
  have hkeep : ∀ x ∈ xs, Valid T.T s' (x.at T.T q.ptr) x.v x.l := by
    intro x hx
    obtain ⟨_, _, p3⟩ := List.pairwise_append.1 hd.pairwise
    refine dropElems_keeps hT.law hw boom hit (fun y hy => p3 x hx y hy) (hd.valid x (by simp [hx])) ?_ (s' := s')
    rw [e]
    generalize (DP.run boom (ys.flatMap fun e => T.plan e.v)).2 = f
    cases f
    · exact .inl ⟨_, rfl⟩
    · exact .inr ⟨_, rfl⟩
    · exact .inr ⟨_, rfl⟩
  rw [e]
  have hc : ∀ a, (ys.flatMap fun e => T.T.drops e.v).count a + (Handle.drain chk T.T q items none).drops.count a =
      (Handle.drain chk T.T q items (some (it, ys.map (·.v)))).drops.count a + ([] : List Event).count a := by
    intro a
    simp only [Handle.drops, Option.elim, List.flatMap_map, List.count_append, List.count_nil]
    omega
  obtain ⟨p1, p2, p3⟩ := List.pairwise_append.1 hd.pairwise
  have hok : DrainOk T.T chk s' q items none xs [] := by
    refine ⟨?_, hd.items, by simpa using p1, ?_, ?_, fun _ => rfl, by simp⟩
    · obtain ⟨m, hh⟩ := hd.hist
      exact ⟨m, hh.lent ht (Nat.mul_le_mul_right _ hfin)⟩
    · intro x hx
      exact hkeep x (by simpa using hx)
    · intro x hx
      exact hd.inside x (by simp at hx; simp [hx])
  refine PFine.of_res (fun hf => ?_) (fun hf => ?_)
  · rw [o2 hf] at hlog
    exact step_edit hw hi hp rfl rfl ht rfl rfl ⟨hL, xs, [], hok⟩ (fun _ => Iff.rfl) rfl hlog (List.append_nil _).symm (fun a => Nat.le_of_eq (hc a)) (fun h => ⟨h, hc⟩)
  · exact step_edit hw hi hp rfl rfl ht rfl rfl ⟨hL, xs, [], hok⟩ (fun _ => Iff.rfl) rfl hlog (List.append_nil _).symm
      (fun a => by have := count_prefix o1 a; have := hc a; omega) (fun h => by cases h)

theorem PStep.sound {o : POutcome w} (h : PStep boom W o) :
    (∃ k, (k = .allocZero ∨ k = .nullPtr) ∧ o = .ub k ∧ ∃ (A : Allocator) (T : VarLen w) (I : Init w), VBox.new A T I W.st = .ub k) ∨ PFine o := by
  cases h with
  | calm hs =>
    rcases hs.sound hw hi with ⟨k, h1, rfl, h3⟩ | ⟨W', rfl, h⟩
    · exact .inl ⟨k, h1, rfl, h3⟩
    · exact .inr (.inr ⟨W', rfl, h⟩)
  | dropBox hT hp => exact .inr (pstep_dropBox hw hi hT hp)
  | dropOwned hT hp => exact .inr (pstep_dropOwned hw hi hT hp)
  | dropSeq hT hp => exact .inr (pstep_dropSeq hw hi hT hp)
  | dropItem hT hp hpm => exact .inr (pstep_dropItem hw hi hT hp hpm)
  | dropIter hT hp => exact .inr (pstep_dropIter hw hi hT hp)
end

theorem PReach.inv (hw : 8 ≤ w) {boom : Boom} {W : World w} (h : PReach boom W) : Inv W := by
  induction h with
  | start s => exact Inv.start s
  | step _ hs ih =>
    rcases hs.sound hw ih with ⟨k, _, h, _⟩ | h | ⟨W', h, hi⟩
    · cases h
    · cases h
    · cases h; exact hi

end Varlen
