import Verif.Proofs.Client
/-! # Each step keeps the invariant -/
namespace Varlen
variable {w : Nat}

/-- The program goes on, and all is well. -/
def Fine (o : Outcome w) : Prop := ∃ W', o = .next W' ∧ Inv W'

theorem Fine.mk {W : World w} (h : Inv W) : Fine (.next W) := ⟨W, rfl, h⟩

theorem blk_none_next {s s' : St} (h : s'.blocks.length = s.blocks.length + 1) {b : Nat} {B : Block} (h1 : s'.blk b = some B) (h2 : s.blk b = none) : b = s.next := by
  cases b with
  | zero => cases h1
  | succ b =>
    simp only [St.blk, List.getElem?_eq_none_iff] at h1 h2
    have := (List.getElem?_eq_some_iff.1 h1).1
    simp only [St.next]; omega

theorem blk_none_same {s s' : St} (h : s'.blocks.length = s.blocks.length) {b : Nat} {B : Block} (h1 : s'.blk b = some B) (h2 : s.blk b = none) : False := by
  cases b with
  | zero => cases h1
  | succ b =>
    simp only [St.blk, List.getElem?_eq_none_iff] at h1 h2
    have := (List.getElem?_eq_some_iff.1 h1).1
    omega

section
variable (hw : 8 ≤ w) {W : World w} (hi : Inv W)
include hw hi

/-- The initializer was refused, and dropped. -/
theorem step_refused {T : VarLen w} {I : Init w} {base moved rest : List (Handle w)} {own mk : List Event} {s' : St} {W' : World w}
    (hp : W.objs.Perm (base ++ (moved ++ rest))) (hb : base = [] ∨ ∃ chk q h t, base = [.seq chk T q h t] ∧ ¬ I.fp q.ptr.blk)
    (ha : Arg W T I moved own mk) (hd : Dropped I W.st s') (hst : W'.st = s') (hobjs : W'.objs = base ++ rest)
    (hmade : W'.made = W.made ++ (own ++ if I.val.isNone then mk else [])) (hext : ∀ b, W'.ext b ↔ W.ext b ∨ arena moved b)
    (hlost : W'.lost = (W.lost || I.val.isNone)) (hleak : W'.leak = false → W.leak = false) : Inv W' := by
  obtain ⟨hT, hI⟩ := ha.lib.lib
  subst hst
  have hok : ∀ h ∈ base, h.Ok W'.st := by
    intro h hh
    refine (hi.ok h (hp.mem_iff.2 (by simp [hh]))).of_same (hd.frame _ fun hm => ?_)
    rcases hb with rfl | ⟨chk, q, h', t, rfl, hfp⟩
    · simp at hh
    · rw [List.mem_singleton.1 hh] at hm
      exact hfp (hI.mods_fp _ hm)
  refine hi.useInit hw (base := base) (E := fun _ => False) hp ha hobjs (fun b B hB _ hm => by rw [hd.frame b hm, hB]) (by rw [hd.size]; exact Nat.le_refl _) hd.freed hok ?_ (fun h hh => .inr (.inr ⟨h, hh, rfl⟩))
    (by simpa using hext) (fun _ h => h.elim) hd.log hmade ?_ ?_ ?_
  · rcases hb with rfl | ⟨chk, q, h', t, rfl, hfp⟩ <;> simp
  · intro a
    have := ha.count_owes a
    rw [List.count_append]
    omega
  · rw [hlost]
    intro hl
    simp only [Bool.or_eq_false_iff] at hl
    refine ⟨hl.1, fun a => ?_⟩
    have := ha.count_owes a
    rw [List.count_append, hl.2]
    simp
    omega
  · intro hl
    exact ⟨hleak hl, fun b B hB _ h0 => (blk_none_same hd.size hB h0).elim, fun u hu _ _ _ => ⟨u, hu, rfl⟩⟩

theorem step_newBox (A : Allocator) {T : VarLen w} {I : Init w} {moved rest : List (Handle w)} {own mk : List Event} (hp : W.objs.Perm (moved ++ rest)) (ha : Arg W T I moved own mk) :
    (∃ k, (k = .allocZero ∨ k = .nullPtr) ∧ VBox.new A T I W.st = .ub k) ∨
    Fine (after (VBox.new A T I W.st) (fun p s => W.used s (.box T p I.value :: rest) (own ++ mk) moved)
        (fun s => { W.unwound s rest I own mk moved with leak := W.leak || I.val.isNone })) := by
  obtain ⟨hT, hI⟩ := ha.lib.lib
  rcases VBox.new_made A hT.lawful hI ha.usable with h | h | ⟨r, e, h⟩
  · exact .inl ⟨_, .inl rfl, h⟩
  · exact .inl ⟨_, .inr rfl, h⟩
  right
  rw [e]
  cases h with
  | @refused m s' hd =>
    refine Fine.mk (step_refused hw hi (base := []) (W' := { W.unwound s' rest I own mk moved with leak := W.leak || I.val.isNone }) hp (.inl rfl) ha hd rfl rfl rfl (fun _ => Iff.rfl) rfl ?_)
    simp only [Bool.or_eq_false_iff]
    exact fun h => h.1
  | @ok s' v hv hg hlog hfr hfreed hsz =>
    have hval : I.value = v := by simp [Init.value, hv]
    refine Fine.mk (hi.useInit hw (base := []) (now := [.box T ⟨W.st.next, 0⟩ I.value]) (E := fun _ => False) hp ha rfl
      (fun b B hB _ hm => hfr b B hB fun ho => hm (hI.owns_mods b ho)) (by show W.st.blocks.length ≤ s'.blocks.length; omega) hfreed ?_ (by simp) ?_ (by simp [World.used]) (fun _ h => h.elim)
      hlog rfl ?_ ?_ ?_)
    · intro h hh
      rw [List.mem_singleton.1 hh, hval]
      exact ⟨hT, hg⟩
    · intro h hh
      rw [List.mem_singleton.1 hh]
      exact .inr (.inl W.st.blk_next)
    · intro a
      have := ha.count_ok hv a
      simp only [List.flatMap_cons, List.flatMap_nil, List.append_nil, Handle.drops, hval, List.count_nil]
      omega
    · intro hl
      refine ⟨hl, fun a => ?_⟩
      have := ha.count_ok hv a
      simp only [List.flatMap_cons, List.flatMap_nil, List.append_nil, Handle.drops, hval, List.count_nil]
      omega
    · intro hl
      refine ⟨hl, fun b B hB _ h0 => .inr ⟨_, List.mem_singleton_self _, ?_⟩, by simp⟩
      exact (blk_none_next hsz hB h0).symm
  | @panic m s' hv hlog hfr hfreed hsz =>
    refine Fine.mk (hi.useInit hw (base := []) (now := []) (E := fun _ => False) hp ha rfl (fun b B hB _ hm => hfr b B hB hm) (by show W.st.blocks.length ≤ s'.blocks.length; omega)
      hfreed (by simp) (by simp) (by simp) (by simp [World.used, World.unwound]) (fun _ h => h.elim) hlog rfl ?_ ?_ ?_)
    · intro a
      have := ha.count_lost hv a
      simp only [hv, Option.isNone_none, if_true, List.flatMap_nil, List.count_nil]
      omega
    · simp [World.unwound, hv]
    · simp [hv]

theorem step_newOwned (A : Allocator) {T : VarLen w} {I : Init w} {moved rest : List (Handle w)} {own mk : List Event} (hp : W.objs.Perm (moved ++ rest)) (ha : Arg W T I moved own mk) :
    Fine (after (Owned.newIn A T I W.st) (fun p s => W.used s (.owned T p I.value :: rest) (own ++ mk) moved)
        (fun s => { W.unwound s rest I own mk moved with ext := fun b => W.ext b ∨ arena moved b ∨ (W.st.blk b = none ∧ s.blk b ≠ none) })) := by
  obtain ⟨hT, hI⟩ := ha.lib.lib
  obtain ⟨r, e, h⟩ := Owned.newIn_made A hT.lawful hI ha.usable
  rw [e]
  cases h with
  | @refused m s' hd =>
    refine Fine.mk (step_refused hw hi (base := []) (W' := { W.unwound s' rest I own mk moved with ext := fun b => W.ext b ∨ arena moved b ∨ (W.st.blk b = none ∧ s'.blk b ≠ none) })
      hp (.inl rfl) ha hd rfl rfl rfl (fun b => ?_) rfl (fun h => h))
    simp only
    constructor
    · rintro (h | h | ⟨h1, h2⟩)
      · exact .inl h
      · exact .inr h
      · cases hB : s'.blk b with
        | none => exact absurd hB h2
        | some B => exact (blk_none_same hd.size hB h1).elim
    · rintro (h | h)
      · exact .inl h
      · exact .inr (.inl h)
  | @ok s' v hv hg hlog hfr hfreed hsz =>
    have hval : I.value = v := by simp [Init.value, hv]
    refine Fine.mk (hi.useInit hw (base := []) (now := [.owned T ⟨W.st.next, 0⟩ I.value]) (E := fun _ => False) hp ha rfl
      (fun b B hB _ hm => hfr b B hB fun ho => hm (hI.owns_mods b ho)) (by show W.st.blocks.length ≤ s'.blocks.length; omega) hfreed ?_ (by simp) ?_ (by simp [World.used]) (fun _ h => h.elim)
      hlog rfl ?_ ?_ ?_)
    · intro h hh
      rw [List.mem_singleton.1 hh, hval]
      refine ⟨hT, hg, ?_⟩
      show s'.blocks[W.st.blocks.length]? ≠ none
      rw [ne_eq, List.getElem?_eq_none_iff]; omega
    · intro h hh
      rw [List.mem_singleton.1 hh]
      exact .inr (.inl W.st.blk_next)
    · intro a
      have := ha.count_ok hv a
      simp only [List.flatMap_cons, List.flatMap_nil, List.append_nil, Handle.drops, hval, List.count_nil]
      omega
    · intro hl
      refine ⟨hl, fun a => ?_⟩
      have := ha.count_ok hv a
      simp only [List.flatMap_cons, List.flatMap_nil, List.append_nil, Handle.drops, hval, List.count_nil]
      omega
    · intro hl
      refine ⟨hl, fun b B hB _ h0 => .inr ⟨_, List.mem_singleton_self _, ?_⟩, by simp⟩
      exact (blk_none_next hsz hB h0).symm
  | @panic m s' hv hlog hfr hfreed hsz =>
    refine Fine.mk (hi.useInit hw (base := []) (now := []) (E := fun b => W.st.blk b = none ∧ s'.blk b ≠ none) hp ha rfl (fun b B hB _ hm => hfr b B hB hm)
      (by show W.st.blocks.length ≤ s'.blocks.length; omega)
      hfreed (by simp) (by simp) (by simp) (by simp) (fun _ h => ⟨h.1, h.2, by simp⟩) hlog rfl ?_ ?_ ?_)
    · intro a
      have := ha.count_lost hv a
      simp only [hv, Option.isNone_none, if_true, List.flatMap_nil, List.count_nil]
      omega
    · simp [World.unwound, hv]
    · intro hl
      exact ⟨hl, fun b B hB _ h0 => .inl ⟨h0, by rw [show s'.blk b = some B from hB]; simp⟩, by simp⟩

theorem step_discard {T : VarLen w} {I : Init w} {moved rest : List (Handle w)} {own mk : List Event} (hp : W.objs.Perm (moved ++ rest)) (ha : Arg W T I moved own mk) :
    Fine (after (I.dropI W.st) (fun _ s => W.used s rest own moved) (fun s => { W with st := s })) := by
  obtain ⟨hT, hI⟩ := ha.lib.lib
  obtain ⟨s', e, hd⟩ := hI.dropped ha.usable
  rw [e]
  refine Fine.mk (hi.useInit hw (base := []) (now := []) (E := fun _ => False) hp ha rfl (fun b B hB _ hm => by rw [show (W.used s' rest own moved).st = s' from rfl, hd.frame b hm, hB])
    (by show W.st.blocks.length ≤ s'.blocks.length; rw [hd.size]; exact Nat.le_refl _) hd.freed (by simp) (by simp) (by simp) (by simp [World.used]) (fun _ h => h.elim) hd.log rfl ?_ ?_ ?_)
  · intro a
    have := ha.count_owes a
    simp only [List.flatMap_nil, List.count_nil]
    omega
  · intro hl
    refine ⟨hl, fun a => ?_⟩
    have := ha.count_owes a
    simp only [List.flatMap_nil, List.count_nil]
    omega
  · intro hl
    exact ⟨hl, fun b B hB _ h0 => (blk_none_same hd.size hB h0).elim, by simp⟩

omit hi in
theorem seq_blk_ok {T : VarLen w} (hT : Lawful T) {chk s q h m t} (hh : Hist T chk s q h m t) : q.ptr.blk ≠ 0 → q.cap.toNat ≠ 0 := by
  intro h0 hc
  obtain ⟨es, i⟩ := hh.inv hT hw
  rw [i.inv.dang hc] at h0
  exact h0 rfl

/-- A push that wrote to the sequence's storage. -/
theorem step_pushed {T : VarLen w} {chk : Bool} {I : Init w} {q q' : SeqS w} {h h' : List (BitVec w × V)} {t : Bool} {moved rest : List (Handle w)} {own mk fresh ev : List Event} {need m0 : Nat}
    {on : Nat → Prop} {s' : St} {W' : World w} (hp : W.objs.Perm (.seq chk T q h t :: moved ++ rest)) (ha : Arg W T I moved own mk)
    (hon : ∀ b, on b → I.mods b) (hpu : Pushed T chk on ev W.st s' q q' need) (hh : Hist T chk s' q' h' m0 t)
    (freed : ∀ b, I.owns b → ∃ B, s'.blk b = some B ∧ B.live = false)
    (hst : W'.st = s') (hobjs : W'.objs = .seq chk T q' h' t :: rest) (hmade : W'.made = W.made ++ fresh) (hext : ∀ b, W'.ext b ↔ W.ext b ∨ arena moved b) (hleak : W'.leak = W.leak)
    (l3 : ∀ a, ev.count a + (h'.flatMap fun e => T.drops e.2).count a ≤ (h.flatMap fun e => T.drops e.2).count a + (moved.flatMap Handle.drops).count a + fresh.count a)
    (l4 : W'.lost = false → W.lost = false ∧
      ∀ a, ev.count a + (h'.flatMap fun e => T.drops e.2).count a = (h.flatMap fun e => T.drops e.2).count a + (moved.flatMap Handle.drops).count a + fresh.count a) : Inv W' := by
  subst hst
  have hk := hi.ok _ (hp.mem_iff.2 (by simp : Handle.seq chk T q h t ∈ _))
  obtain ⟨hT, m, hh0⟩ := hk
  have hnew : ¬ need ≤ q.cap.toNat → W'.st.blocks.length = W.st.blocks.length + 1 := fun hn => by rw [hpu.size, if_neg hn]
  refine hi.useInit hw (base := [.seq chk T q h t]) (now := [.seq chk T q' h' t]) (E := fun _ => False) hp ha hobjs ?_ (by rw [hpu.size]; omega) freed ?_ (by simp) ?_
    (by simpa using hext) (fun _ h => h.elim) hpu.log hmade ?_ ?_ ?_
  · intro b B hB hb hm
    exact hpu.frame b B hB (fun e => hb _ (List.mem_singleton_self _) e.symm) fun ho => hm (hon b ho)
  · intro x hx
    rw [List.mem_singleton.1 hx]
    exact ⟨hT, _, hh⟩
  · intro x hx
    rw [List.mem_singleton.1 hx]
    by_cases hn : need ≤ q.cap.toNat
    · exact .inr (.inr ⟨_, List.mem_singleton_self _, by simp only [Handle.blk, hpu.ptr hn]⟩)
    · exact .inr (.inl (hpu.fresh hn))
  · intro a
    have := l3 a
    simp only [List.flatMap_cons, List.flatMap_nil, List.append_nil, Handle.drops]
    omega
  · intro hl
    obtain ⟨h1, h2⟩ := l4 hl
    refine ⟨h1, fun a => ?_⟩
    have := h2 a
    simp only [List.flatMap_cons, List.flatMap_nil, List.append_nil, Handle.drops]
    omega
  · intro hl
    refine ⟨by rw [← hleak]; exact hl, fun b B hB _ h0 => .inr ⟨_, List.mem_singleton_self _, ?_⟩, fun u hu B hB hlive => ?_⟩
    · by_cases hn : need ≤ q.cap.toNat
      · exact (blk_none_same (by rw [hpu.size, if_pos hn]; rfl) hB h0).elim
      · have h1 := blk_none_next (hnew hn) hB h0
        rcases hh.blk hw hT.lawful with ⟨_, h2⟩ | h2
        · have := hpu.cap_le; omega
        · cases hB' : W'.st.blk q'.ptr.blk with
          | none => exact absurd hB' h2
          | some B' =>
            have h3 := blk_none_next (hnew hn) hB' (hpu.fresh hn)
            rw [h1, ← h3]; rfl
    · rw [List.mem_singleton.1 hu] at hB ⊢
      refine ⟨_, List.mem_singleton_self _, ?_⟩
      by_cases hn : need ≤ q.cap.toNat
      · simp only [Handle.blk, hpu.ptr hn]
      · have hne : q.ptr.blk ≠ 0 := by
          intro e
          rw [show (Handle.seq chk T q h t).blk = q.ptr.blk from rfl, e] at hB
          cases hB
        obtain ⟨B', hB', hd⟩ := hpu.freed hn (seq_blk_ok hw hT.lawful hh0 hne)
        rw [show W'.st.blk q.ptr.blk = some B from hB] at hB'
        cases hB'
        rw [hlive] at hd; cases hd

omit hw hi in
theorem tryPush_of_push {A : Allocator} {chk : Bool} {T : VarLen w} {I : Init w} {σ σ' : St × SeqS w} :
    (Seq.push A chk T I σ = .ok () σ' → Seq.tryPush A chk T I σ = .ok true σ') ∧
    (∀ m, Seq.push A chk T I σ = .panic m σ' → Seq.tryPush A chk T I σ = .ok false σ' ∨ ∃ m, Seq.tryPush A chk T I σ = .panic m σ') := by
  unfold Seq.push
  simp only [bind_apply]
  cases h : Seq.tryPush A chk T I σ with
  | ok b σ1 =>
    cases b with
    | true => exact ⟨fun e => by cases e; rfl, fun m e => by cases e⟩
    | false => exact ⟨fun e => (by cases e), fun m e => by cases e; exact .inl rfl⟩
  | panic m σ1 => exact ⟨fun e => (by cases e), fun m e => by cases e; exact .inr ⟨_, rfl⟩⟩
  | ub k => exact ⟨fun e => (by cases e), fun m e => by cases e⟩

/-- All outcomes of a push: either it returns, and all is well; or it panics, and all is well. -/
theorem step_push_cases (A : Allocator) {chk : Bool} {T : VarLen w} {q : SeqS w} {h : List (BitVec w × V)} {t : Bool} {I : Init w} {moved rest : List (Handle w)} {own mk : List Event}
    (hp : W.objs.Perm (.seq chk T q h t :: moved ++ rest)) (ha : Arg W T I moved own mk) (hfp : ¬ I.fp q.ptr.blk) (hsz : ∀ l, I.lay = some l → 0 < l.size.toNat) :
    ∃ s' q', (Seq.push A chk T I (W.st, q) = .ok () (s', q') ∧ Inv (W.used s' (.seq chk T q' (h ++ [(Seq.offset q, I.value)]) t :: rest) (own ++ mk) moved)) ∨
      (∃ m, Seq.push A chk T I (W.st, q) = .panic m (s', q') ∧ Inv (W.unwound s' (.seq chk T q' h t :: rest) I own mk moved)) := by
  obtain ⟨hT, hI⟩ := ha.lib.lib
  obtain ⟨_, m, hh⟩ := hi.ok _ (hp.mem_iff.2 (by simp : Handle.seq chk T q h t ∈ _))
  rcases hh.push_cases hT.lawful hw A ⟨hI, ha.usable, hfp, hsz⟩ with ⟨v, s', q', need, e, hv, hh', hpu, hfr⟩ | ⟨msg, s', q', e, hh', hev, hfr⟩
  · have hval : I.value = v := by simp [Init.value, hv]
    refine ⟨s', q', .inl ⟨e, step_pushed hw hi hp ha (fun b => hI.owns_mods b) hpu (by rw [hval]; exact hh') hfr rfl rfl rfl (fun _ => Iff.rfl) rfl ?_ ?_⟩⟩
    · intro a
      have := ha.count_ok hv a
      simp only [List.flatMap_append, List.flatMap_cons, List.flatMap_nil, List.append_nil, List.count_append, hval] at this ⊢
      omega
    · intro hl
      refine ⟨hl, fun a => ?_⟩
      have := ha.count_ok hv a
      simp only [List.flatMap_append, List.flatMap_cons, List.flatMap_nil, List.append_nil, List.count_append, hval] at this ⊢
      omega
  · refine ⟨s', q', .inr ⟨msg, e, ?_⟩⟩
    rcases hev with ⟨hd, rfl⟩ | ⟨hv, need, hpu⟩
    · exact step_refused hw hi (base := [.seq chk T q' h t]) hp (.inr ⟨chk, q', h, t, rfl, hfp⟩) ha hd rfl rfl rfl (fun _ => Iff.rfl) rfl (fun h => h)
    · refine step_pushed hw hi hp ha (fun b h => h) hpu hh' hfr rfl rfl rfl (fun _ => Iff.rfl) rfl ?_ ?_
      · intro a
        have := ha.count_lost hv a
        simp only [hv, Option.isNone_none, if_true]
        omega
      · simp [World.unwound, hv]

theorem step_push (A : Allocator) {chk : Bool} {T : VarLen w} {q : SeqS w} {h : List (BitVec w × V)} {t : Bool} {I : Init w} {moved rest : List (Handle w)} {own mk : List Event}
    (hp : W.objs.Perm (.seq chk T q h t :: moved ++ rest)) (ha : Arg W T I moved own mk) (hfp : ¬ I.fp q.ptr.blk) (hsz : ∀ l, I.lay = some l → 0 < l.size.toNat) :
    Fine (afterQ (Seq.push A chk T I (W.st, q)) (fun _ s q' => W.used s (.seq chk T q' (h ++ [(Seq.offset q, I.value)]) t :: rest) (own ++ mk) moved)
        (fun s q' => W.unwound s (.seq chk T q' h t :: rest) I own mk moved)) := by
  obtain ⟨s', q', ⟨e, h1⟩ | ⟨m, e, h1⟩⟩ := step_push_cases hw hi A hp ha hfp hsz
  · rw [e]; exact Fine.mk h1
  · rw [e]; exact Fine.mk h1

theorem step_tryPush (A : Allocator) {chk : Bool} {T : VarLen w} {q : SeqS w} {h : List (BitVec w × V)} {t : Bool} {I : Init w} {moved rest : List (Handle w)} {own mk : List Event}
    (hp : W.objs.Perm (.seq chk T q h t :: moved ++ rest)) (ha : Arg W T I moved own mk) (hfp : ¬ I.fp q.ptr.blk) (hsz : ∀ l, I.lay = some l → 0 < l.size.toNat) :
    Fine (afterQ (Seq.tryPush A chk T I (W.st, q))
        (fun b s q' => if b then W.used s (.seq chk T q' (h ++ [(Seq.offset q, I.value)]) t :: rest) (own ++ mk) moved else W.unwound s (.seq chk T q' h t :: rest) I own mk moved)
        (fun s q' => W.unwound s (.seq chk T q' h t :: rest) I own mk moved)) := by
  obtain ⟨s', q', ⟨e, h1⟩ | ⟨m, e, h1⟩⟩ := step_push_cases hw hi A hp ha hfp hsz
  · rw [tryPush_of_push.1 e]; exact Fine.mk h1
  · rcases tryPush_of_push.2 m e with e | ⟨m', e⟩
    · rw [e]; exact Fine.mk h1
    · rw [e]; exact Fine.mk h1

/-! ## Dropping, forgetting, modifying -/

theorem step_dropBox {T : VarLen w} {p : Ptr} {v : V} {rest : List (Handle w)} (hp : W.objs.Perm (.box T p v :: rest)) :
    Fine (after (VBox.drop T p W.st) (fun _ s => { W with st := s, objs := rest }) (fun s => { W with st := s })) := by
  obtain ⟨hT, l, hb⟩ := hi.ok _ (hp.mem_iff.2 (List.mem_cons_self ..))
  obtain ⟨s', e, hlog, _, hfr, B, hB, hd⟩ := VBox.drop_spec hT.lawful hb
  rw [e]
  refine Fine.mk (hi.local hw (now := []) hp rfl (fun b hb => hfr b hb) (fun _ => ?_) (by simp) (.inl rfl) (fun b => ⟨.inl, fun h => h.elim id (·.2.2.2)⟩) hlog
    (List.append_nil _).symm (by simp [Handle.drops]) (fun h => ⟨h, by simp [Handle.drops]⟩) (fun h => ⟨h, fun _ => .inr fun B' hB' hl => ?_⟩))
  · rw [show s'.blk (Handle.box T p v).blk = some B from hB]; simp
  · rw [show s'.blk (Handle.box T p v).blk = some B from hB] at hB'
    cases hB'
    rw [hl] at hd; cases hd

omit hw hi in
theorem Touch.mono_blk {s s' : St} {p : Ptr} {n own} (h : Touch s s' p n own) {b : Nat} : s.blk b ≠ Option.none → s'.blk b ≠ Option.none := fun hb he => hb (h.none.1 he)

theorem step_dropOwned {T : VarLen w} {p : Ptr} {v : V} {rest : List (Handle w)} (hp : W.objs.Perm (.owned T p v :: rest)) :
    Fine (after (Owned.drop T p W.st) (fun _ s => { W with st := s, objs := rest, ext := fun b => W.ext b ∨ b = p.blk }) (fun s => { W with st := s })) := by
  obtain ⟨hT, ⟨l, hv⟩, hb⟩ := hi.ok _ (hp.mem_iff.2 (List.mem_cons_self ..))
  obtain ⟨s', e, ht, hlog, _⟩ := Owned.drop_spec hT.lawful hv
  rw [e]
  refine Fine.mk (hi.local hw (now := []) hp rfl (fun b hb => ht.blk_eq (fun h => h) hb) ht.mono_blk (by simp) (.inl rfl) (fun b => ⟨?_, ?_⟩) hlog
    (List.append_nil _).symm (by simp [Handle.drops]) (fun h => ⟨h, by simp [Handle.drops]⟩) (fun h => ⟨h, fun _ => .inl (.inr rfl)⟩))
  · rintro (h | h)
    · exact .inl h
    · refine .inr ⟨rfl, ?_, h, .inr h⟩
      rintro rfl
      rw [← h] at hb
      exact hb rfl
  · rintro (h | h)
    · exact .inl h
    · exact h.2.2.2

theorem step_dropSeq {chk : Bool} {T : VarLen w} {q : SeqS w} {h : List (BitVec w × V)} {t : Bool} {rest : List (Handle w)} (hp : W.objs.Perm (.seq chk T q h t :: rest)) :
    Fine (afterQ (Seq.drop chk T (W.st, q)) (fun _ s _ => { W with st := s, objs := rest }) (fun s _ => { W with st := s })) := by
  obtain ⟨hT, m, hh⟩ := hi.ok _ (hp.mem_iff.2 (List.mem_cons_self ..))
  obtain ⟨es, i⟩ := hh.inv hT.lawful hw
  obtain ⟨s', q', e, hlog, _, hfr, hfreed⟩ := Seq.drop_spec hT.lawful hw i.inv
  have hdr : es.flatMap (fun e => T.drops e.v) = h.flatMap fun e => T.drops e.2 := by
    rw [← i.entries, List.flatMap_map]; rfl
  rw [hdr] at hlog
  rw [e]
  refine Fine.mk (hi.local hw (now := []) hp rfl (fun b hb => hfr b hb) (fun h0 => ?_) (by simp) (.inl rfl) (fun b => ⟨.inl, fun h => h.elim id (·.2.2.2)⟩) hlog
    (List.append_nil _).symm (by simp [Handle.drops]) (fun h => ⟨h, by simp [Handle.drops]⟩) (fun hk' => ⟨hk', fun _ => .inr fun B' hB' hl => ?_⟩))
  · obtain ⟨B, hB, _⟩ := hfreed (seq_blk_ok hw hT.lawful hh fun e => h0 (by rw [show (Handle.seq chk T q h t).blk = 0 from e]; rfl))
    rw [show s'.blk (Handle.seq chk T q h t).blk = some B from hB]; simp
  · obtain ⟨B, hB, hd⟩ := hfreed (seq_blk_ok hw hT.lawful hh fun e => by rw [show (Handle.seq chk T q h t).blk = 0 from e] at hB'; cases hB')
    rw [show s'.blk (Handle.seq chk T q h t).blk = some B from hB] at hB'
    cases hB'
    rw [hl] at hd; cases hd

theorem step_forget {h : Handle w} {rest : List (Handle w)} (hp : W.objs.Perm (h :: rest)) : Inv { W with objs := rest, lost := true, leak := true } :=
  hi.local hw (now := []) hp rfl (fun _ _ => rfl) (fun h => h) (by simp) (.inl rfl) (fun b => ⟨.inl, fun h => h.elim id (·.2.2.2)⟩) (ev := []) (fresh := []) (List.append_nil _).symm
    (List.append_nil _).symm (by simp) (fun h => by cases h) (fun h => by cases h)

/-- Modification of a box or an owned value: only one object is involved, and it stays where it is. -/
theorem step_edit {u u' : Handle w} {rest : List (Handle w)} {s' : St} {W' : World w} {p : Ptr} {n : Nat} {ev fresh : List Event} (hp : W.objs.Perm (u :: rest))
    (hobjs : W'.objs = u' :: rest) (hst : W'.st = s') (ht : Touch W.st s' p n (fun _ => False)) (hpb : p.blk = u.blk) (hub : u'.blk = u.blk) (hok : u'.Ok s')
    (hext : ∀ b, W'.ext b ↔ W.ext b) (hleak : W'.leak = W.leak) (hlog : s'.log = W.st.log ++ ev) (hmade : W'.made = W.made ++ fresh)
    (hev : ∀ a, ev.count a + u'.drops.count a ≤ u.drops.count a + fresh.count a)
    (hlost : W'.lost = false → W.lost = false ∧ ∀ a, ev.count a + u'.drops.count a = u.drops.count a + fresh.count a) : Inv W' := by
  subst hst
  refine hi.local hw (now := [u']) hp hobjs (fun b hb => ht.blk_eq (fun h => h) (by rw [hpb]; exact hb)) ht.mono_blk (by simpa using hok) (.inr ⟨u', rfl, hub⟩)
    (fun b => by rw [hext b]; simp) hlog hmade (by simpa using hev) (by simpa using hlost) (fun h => ⟨by rw [← hleak]; exact h, by simp⟩)

omit hw hi in
theorem Edit.valid {T : VarLen w} (hT : Lawful T) {s s' : St} {p : Ptr} {v v' : V} {ev fresh : List Event} (he : Edit T s s' p v v' ev fresh) {l : Layout w} (hv : Valid T s p v l) :
    Touch s s' p l.size.toNat (fun _ => False) ∧ Valid T s' p v' l := by
  obtain ⟨l', e1, e2, e3⟩ := he.touch
  rw [hT.calc_ok _ _ _ _ hv] at e1
  cases e1
  exact ⟨e2, e2.acc (fun h => h) hv.acc, e2.aligned (fun h => h) hv.aligned, e3⟩

omit hw hi in
theorem Edit.count {T : VarLen w} {s s' : St} {p : Ptr} {v v' : V} {ev fresh : List Event} (he : Edit T s s' p v v' ev fresh) (a : Event) :
    ev.count a + (T.drops v').count a = (T.drops v).count a + fresh.count a := by
  have := List.perm_iff_count.1 he.values a
  simpa only [List.count_append] using this

theorem step_editBox {T : VarLen w} {p : Ptr} {v v' : V} {s : St} {ev fresh : List Event} {rest : List (Handle w)} (hp : W.objs.Perm (.box T p v :: rest)) (he : Edit T W.st s p v v' ev fresh) :
    Inv { W with st := s, objs := .box T p v' :: rest, made := W.made ++ fresh } := by
  obtain ⟨hT, l, hb⟩ := hi.ok _ (hp.mem_iff.2 (List.mem_cons_self ..))
  obtain ⟨ht, hv⟩ := he.valid hT.lawful hb.valid
  exact step_edit hw hi hp rfl rfl ht rfl rfl ⟨hT, l, hv, hb.owns.of_touch ht (fun h => h), hb.fits⟩ (fun _ => Iff.rfl) rfl he.log rfl (fun a => Nat.le_of_eq (he.count a)) (fun h => ⟨h, he.count⟩)

theorem step_editOwned {T : VarLen w} {p : Ptr} {v v' : V} {s : St} {ev fresh : List Event} {rest : List (Handle w)} (hp : W.objs.Perm (.owned T p v :: rest)) (he : Edit T W.st s p v v' ev fresh) :
    Inv { W with st := s, objs := .owned T p v' :: rest, made := W.made ++ fresh } := by
  obtain ⟨hT, ⟨l, hb⟩, h0⟩ := hi.ok _ (hp.mem_iff.2 (List.mem_cons_self ..))
  obtain ⟨ht, hv⟩ := he.valid hT.lawful hb
  exact step_edit hw hi hp rfl rfl ht rfl rfl ⟨hT, ⟨l, hv⟩, ht.mono_blk h0⟩ (fun _ => Iff.rfl) rfl he.log rfl (fun a => Nat.le_of_eq (he.count a)) (fun h => ⟨h, he.count⟩)

theorem step_editElem {chk : Bool} {T : VarLen w} {q : SeqS w} {h1 h2 : List (BitVec w × V)} {t : Bool} {o : BitVec w} {p : Ptr} {v v' : V} {s : St} {ev fresh : List Event} {rest : List (Handle w)}
    (hp : W.objs.Perm (.seq chk T q (h1 ++ (o, v) :: h2) t :: rest)) (hf : Seq.fromOffsetUnchecked T q o W.st = .ok p W.st) (he : Edit T W.st s p v v' ev fresh) :
    Inv { W with st := s, objs := .seq chk T q (h1 ++ (o, v') :: h2) t :: rest, made := W.made ++ fresh } := by
  obtain ⟨hT, m, hh⟩ := hi.ok _ (hp.mem_iff.2 (List.mem_cons_self ..))
  obtain ⟨l, e1, e2, e3⟩ := he.touch
  have hpb : p.blk = q.ptr.blk := by
    unfold Seq.fromOffsetUnchecked derefBox at hf
    simp only [bind_apply] at hf
    cases hm : mkRef (q.ptr.add (o * T.ALIGN).toNat) T.headSize T.headAlign W.st <;> rw [hm] at hf <;> cases hf
    rfl
  have hc : ∀ a, ev.count a + (Handle.seq chk T q (h1 ++ (o, v') :: h2) t).drops.count a = (Handle.seq chk T q (h1 ++ (o, v) :: h2) t).drops.count a + fresh.count a := by
    intro a
    have := he.count a
    simp only [Handle.drops, List.flatMap_append, List.flatMap_cons, List.count_append]
    omega
  exact step_edit hw hi hp rfl rfl e2 hpb rfl ⟨hT, m, hh.modify hf e1 e2 e3⟩ (fun _ => Iff.rfl) rfl he.log rfl (fun a => Nat.le_of_eq (hc a)) (fun h => ⟨h, hc⟩)

/-! ## Draining -/

theorem step_takeElems {chk : Bool} {T : VarLen w} {q : SeqS w} {h : List (BitVec w × V)} {t : Bool} {rest : List (Handle w)} (hp : W.objs.Perm (.seq chk T q h t :: rest)) :
    Fine (afterQ (Seq.takeElems chk T (W.st, q)) (fun it s q' => { W with st := s, objs := .drain chk T q' [] (some (it, h.map (·.2))) :: rest }) (fun s _ => { W with st := s })) := by
  obtain ⟨hT, m, hh⟩ := hi.ok _ (hp.mem_iff.2 (List.mem_cons_self ..))
  obtain ⟨es, i⟩ := hh.inv hT.lawful hw
  have e := Seq.takeElems_spec (T := T) (chk := chk) hw W.st q
  have hpos := hT.lawful.align_pow2.pos
  have hvs : h.map (·.2) = es.map (·.v) := by rw [← i.entries, List.map_map]; rfl
  rw [e]
  have hc : ∀ a, ([] : List Event).count a + (Handle.drain chk T { q with len := 0, occ := 0 } [] (some (Seq.iter q, h.map (·.2)))).drops.count a =
      (Handle.seq chk T q h t).drops.count a + ([] : List Event).count a := by
    intro a
    simp only [Handle.drops, List.flatMap_nil, List.nil_append, Option.elim, List.flatMap_map, List.count_nil, Nat.zero_add, Nat.add_zero]
  refine Fine.mk (step_edit hw hi (p := q.ptr) (n := 0) (ev := []) (fresh := []) hp rfl rfl (Touch.refl ..) rfl rfl ⟨hT, [], es, ?_⟩ (fun _ => Iff.rfl) rfl
    (List.append_nil _).symm (List.append_nil _).symm (fun a => Nat.le_of_eq (hc a)) (fun h => ⟨h, hc⟩))
  refine ⟨⟨m, hh.forget e⟩, rfl, by simpa using Packed.pairwise hpos i.inv.packed, fun x hx => i.inv.valid x (by simpa using hx), ?_, by simp, ?_⟩
  · intro x hx
    have h1 := i.inv.packed.bytes hpos (e := x) (by simpa using hx)
    have h2 := Nat.mul_le_mul_right T.ALIGN.toNat i.inv.le
    simp only
    omega
  · intro it0 vs e0
    cases e0
    exact ⟨hvs, 0, q.occ.toNat, i.inv.iterAt hT.lawful, i.inv.le⟩

theorem step_nextItem {chk : Bool} {T : VarLen w} {q : SeqS w} {items : List (Ptr × V)} {it : IterS w} {vs : List V} {rest : List (Handle w)}
    (hp : W.objs.Perm (.drain chk T q items (some (it, vs)) :: rest)) :
    Fine (after (Iter.next T it W.st) (fun r s => match r with
        | (none, it') => { W with st := s, objs := .drain chk T q items (some (it', vs)) :: rest }
        | (some p, it') => { W with st := s, objs := .drain chk T q ((p, vs.headD (.leaf [])) :: items) (some (it', vs.tail)) :: rest }) (fun s => { W with st := s })) := by
  obtain ⟨hT, xs, ys, hd⟩ := hi.ok _ (hp.mem_iff.2 (List.mem_cons_self ..))
  obtain ⟨rfl, cur, fin, hit, hfin⟩ := hd.iter it _ rfl
  cases ys with
  | nil =>
    rw [Iter.next_nil hit]
    exact Fine.mk (step_edit hw hi (p := q.ptr) (n := 0) (ev := []) (fresh := []) hp rfl rfl (Touch.refl ..) rfl rfl ⟨hT, xs, [], hd⟩ (fun _ => Iff.rfl) rfl
      (List.append_nil _).symm (List.append_nil _).symm (by simp) (fun h => ⟨h, by simp⟩))
  | cons y ys =>
    obtain ⟨it', e, hit'⟩ := Iter.next_cons hT.lawful hw hit
    rw [e]
    have hc : ∀ a, ([] : List Event).count a + (Handle.drain chk T q ((y.at T q.ptr, y.v) :: items) (some (it', ys.map (·.v)))).drops.count a =
        (Handle.drain chk T q items (some (it, (y :: ys).map (·.v)))).drops.count a + ([] : List Event).count a := by
      intro a
      simp only [Handle.drops, List.flatMap_cons, Option.elim, List.map_cons, List.count_append, List.count_nil]
      omega
    have hperm : (y :: xs ++ ys).Perm (xs ++ y :: ys) := List.perm_middle.symm
    refine Fine.mk (step_edit hw hi (p := q.ptr) (n := 0) (ev := []) (fresh := []) hp rfl rfl (Touch.refl ..) rfl rfl ⟨hT, y :: xs, ys, ?_⟩ (fun _ => Iff.rfl) rfl
      (List.append_nil _).symm (List.append_nil _).symm (fun a => Nat.le_of_eq (hc a)) (fun h => ⟨h, hc⟩))
    refine ⟨hd.hist, congrArg ((y.at T q.ptr, y.v) :: ·) hd.items, hperm.symm.pairwise hd.pairwise (fun h => h.symm), fun x hx => hd.valid x (hperm.mem_iff.1 hx),
      fun x hx => hd.inside x (hperm.mem_iff.1 hx), by simp, ?_⟩
    intro it0 vs e0
    cases e0
    exact ⟨rfl, _, _, hit', hfin⟩

omit hw hi in
/-- An item is the element it stands for. -/
theorem DrainOk.pick {T : VarLen w} {chk s q items items' it xs ys p v} (hd : DrainOk T chk s q items it xs ys) (hpm : items.Perm ((p, v) :: items')) :
    ∃ x xs', p = x.at T q.ptr ∧ v = x.v ∧ items' = xs'.map (fun e => (e.at T q.ptr, e.v)) ∧ (xs ++ ys).Perm (x :: (xs' ++ ys)) := by
  obtain ⟨L, h1, h2⟩ := Perm.of_map hpm.symm xs hd.items
  obtain ⟨x, xs', rfl, h3, h4⟩ := List.map_eq_cons_iff.1 h2.symm
  cases h3
  exact ⟨x, xs', rfl, rfl, h4.symm, h1.symm.append_right ys⟩

omit hw hi in
/-- A change inside one item. -/
theorem DrainOk.change {T : VarLen w} (hT : Lawful T) {chk s s' q} {items : List (Ptr × V)} {it xs ys} {x : Elem w} (hd : DrainOk T chk s q items it xs ys) {xs' : List (Elem w)}
    (hperm : (xs ++ ys).Perm (x :: (xs' ++ ys))) (ht : Touch s s' (x.at T q.ptr) x.l.size.toNat (fun _ => False)) :
    DrainOk T chk s' q (xs'.map fun e => (e.at T q.ptr, e.v)) it xs' ys := by
  have hpos := hT.align_pow2.pos
  have hpw := hperm.pairwise hd.pairwise (fun h => h.symm)
  rw [List.pairwise_cons] at hpw
  have hin := hd.inside x (hperm.mem_iff.2 (by simp))
  have hv : ∀ e ∈ xs' ++ ys, Valid T s' (e.at T q.ptr) e.v e.l := by
    intro e he
    refine (hd.valid e (hperm.mem_iff.2 (List.mem_cons_of_mem _ he))).of_touch hT ht (fun h => h) (.inr ?_)
    have := (hpw.1 e he).bytes hpos
    simp only [Elem.at, Ptr.add_off]
    omega
  refine ⟨?_, rfl, hpw.2, hv, fun e he => hd.inside e (hperm.mem_iff.2 (List.mem_cons_of_mem _ he)), hd.none, ?_⟩
  · obtain ⟨m, hh⟩ := hd.hist
    exact ⟨m, hh.lent (n := q.cap.toNat * T.ALIGN.toNat) (ht.sub hin) (Nat.le_refl _)⟩
  · intro it0 vs e
    obtain ⟨h1, cur, fin, h2, h3⟩ := hd.iter it0 vs e
    exact ⟨h1, cur, fin, h2.of_valid (fun e he => hv e (by simp [he])), h3⟩

omit hw hi in
theorem items_count {T : VarLen w} {items items' : List (Ptr × V)} {p : Ptr} {v : V} (hpm : items.Perm ((p, v) :: items')) (a : Event) :
    (items.flatMap fun i => T.drops i.2).count a = (T.drops v).count a + (items'.flatMap fun i => T.drops i.2).count a := by
  have := List.perm_iff_count.1 (hpm.flatMap_right fun i => T.drops i.2) a
  simpa only [List.flatMap_cons, List.count_append] using this

theorem step_dropItem {chk : Bool} {T : VarLen w} {q : SeqS w} {items items' : List (Ptr × V)} {it : Option (IterS w × List V)} {p : Ptr} {v : V} {rest : List (Handle w)}
    (hp : W.objs.Perm (.drain chk T q items it :: rest)) (hpm : items.Perm ((p, v) :: items')) :
    Fine (after (Owned.drop T p W.st) (fun _ s => { W with st := s, objs := .drain chk T q items' it :: rest }) (fun s => { W with st := s })) := by
  obtain ⟨hT, xs, ys, hd⟩ := hi.ok _ (hp.mem_iff.2 (List.mem_cons_self ..))
  obtain ⟨x, xs', rfl, rfl, rfl, hperm⟩ := hd.pick hpm
  obtain ⟨s', e, ht, hlog, _⟩ := Owned.drop_spec hT.lawful (hd.valid x (hperm.mem_iff.2 (by simp)))
  rw [e]
  have hc : ∀ a, (T.drops x.v).count a + (Handle.drain chk T q (xs'.map fun e => (e.at T q.ptr, e.v)) it).drops.count a =
      (Handle.drain chk T q items it).drops.count a + ([] : List Event).count a := by
    intro a
    have := items_count (T := T) hpm a
    simp only [Handle.drops, List.count_append, List.count_nil] at this ⊢
    omega
  exact Fine.mk (step_edit hw hi hp rfl rfl ht rfl rfl ⟨hT, xs', ys, hd.change hT.lawful hperm ht⟩ (fun _ => Iff.rfl) rfl hlog (List.append_nil _).symm (fun a => Nat.le_of_eq (hc a))
    (fun h => ⟨h, hc⟩))

theorem step_forgetItem {chk : Bool} {T : VarLen w} {q : SeqS w} {items items' : List (Ptr × V)} {it : Option (IterS w × List V)} {p : Ptr} {v : V} {rest : List (Handle w)}
    (hp : W.objs.Perm (.drain chk T q items it :: rest)) (hpm : items.Perm ((p, v) :: items')) :
    Inv { W with objs := .drain chk T q items' it :: rest, lost := true } := by
  obtain ⟨hT, xs, ys, hd⟩ := hi.ok _ (hp.mem_iff.2 (List.mem_cons_self ..))
  obtain ⟨x, xs', rfl, rfl, rfl, hperm⟩ := hd.pick hpm
  refine step_edit hw hi (p := x.at T q.ptr) (n := x.l.size.toNat) (ev := []) (fresh := []) hp rfl rfl (Touch.refl ..) rfl rfl ⟨hT, xs', ys, hd.change hT.lawful hperm (Touch.refl ..)⟩
    (fun _ => Iff.rfl) rfl (List.append_nil _).symm (List.append_nil _).symm (fun a => ?_) (fun h => by cases h)
  have := items_count (T := T) hpm a
  simp only [Handle.drops, List.count_append, List.count_nil] at this ⊢
  omega

theorem step_editItem {chk : Bool} {T : VarLen w} {q : SeqS w} {items items' : List (Ptr × V)} {it : Option (IterS w × List V)} {p : Ptr} {v v' : V} {s : St} {ev fresh : List Event}
    {rest : List (Handle w)} (hp : W.objs.Perm (.drain chk T q items it :: rest)) (hpm : items.Perm ((p, v) :: items')) (he : Edit T W.st s p v v' ev fresh) :
    Inv { W with st := s, objs := .drain chk T q ((p, v') :: items') it :: rest, made := W.made ++ fresh } := by
  obtain ⟨hT, xs, ys, hd⟩ := hi.ok _ (hp.mem_iff.2 (List.mem_cons_self ..))
  obtain ⟨x, xs', rfl, rfl, rfl, hperm⟩ := hd.pick hpm
  obtain ⟨ht, hv⟩ := he.valid hT.lawful (hd.valid x (hperm.mem_iff.2 (by simp)))
  have hch := hd.change hT.lawful hperm ht
  have hpw := hperm.pairwise hd.pairwise (fun h => h.symm)
  rw [List.pairwise_cons] at hpw
  have hc : ∀ a, ev.count a + (Handle.drain chk T q ((x.at T q.ptr, v') :: xs'.map fun e => (e.at T q.ptr, e.v)) it).drops.count a =
      (Handle.drain chk T q items it).drops.count a + fresh.count a := by
    intro a
    have h1 := items_count (T := T) hpm a
    have h2 := he.count a
    simp only [Handle.drops, List.flatMap_cons, List.count_append] at h1 ⊢
    omega
  refine step_edit hw hi hp rfl rfl ht rfl rfl ⟨hT, ⟨x.off, v', x.l⟩ :: xs', ys, ?_⟩ (fun _ => Iff.rfl) rfl he.log rfl (fun a => Nat.le_of_eq (hc a)) (fun h => ⟨h, hc⟩)
  refine ⟨hch.hist, rfl, List.pairwise_cons.2 ⟨fun e he => hpw.1 e he, hpw.2⟩, ?_, ?_, hch.none, hch.iter⟩
  · intro e he
    rcases List.mem_cons.1 he with rfl | he
    · exact hv
    · exact hch.valid e he
  · intro e he
    rcases List.mem_cons.1 he with rfl | he
    · exact hd.inside x (hperm.mem_iff.2 (by simp))
    · exact hch.inside e he

theorem step_dropIter {chk : Bool} {T : VarLen w} {q : SeqS w} {items : List (Ptr × V)} {it : IterS w} {vs : List V} {rest : List (Handle w)}
    (hp : W.objs.Perm (.drain chk T q items (some (it, vs)) :: rest)) :
    Fine (after (OwnedElems.drop T it W.st) (fun _ s => { W with st := s, objs := .drain chk T q items none :: rest }) (fun s => { W with st := s })) := by
  obtain ⟨hT, xs, ys, hd⟩ := hi.ok _ (hp.mem_iff.2 (List.mem_cons_self ..))
  obtain ⟨rfl, cur, fin, hit, hfin⟩ := hd.iter it _ rfl
  obtain ⟨s', e, ht, hlog, _, hkeep⟩ := OwnedElems.drop_spec hT.lawful hw hit
  rw [e]
  have hc : ∀ a, (ys.flatMap fun e => T.drops e.v).count a + (Handle.drain chk T q items none).drops.count a =
      (Handle.drain chk T q items (some (it, ys.map (·.v)))).drops.count a + ([] : List Event).count a := by
    intro a
    simp only [Handle.drops, Option.elim, List.flatMap_map, List.count_append, List.count_nil]
    omega
  obtain ⟨p1, p2, p3⟩ := List.pairwise_append.1 hd.pairwise
  refine Fine.mk (step_edit hw hi hp rfl rfl ht rfl rfl ⟨hT, xs, [], ?_⟩ (fun _ => Iff.rfl) rfl hlog (List.append_nil _).symm (fun a => Nat.le_of_eq (hc a)) (fun h => ⟨h, hc⟩))
  refine ⟨?_, hd.items, by simpa using p1, ?_, ?_, fun _ => rfl, by simp⟩
  · obtain ⟨m, hh⟩ := hd.hist
    exact ⟨m, hh.lent ht (Nat.mul_le_mul_right _ hfin)⟩
  · intro x hx
    have hx : x ∈ xs := by simpa using hx
    exact hkeep x (fun y hy => p3 x hx y hy) (hd.valid x (by simp [hx]))
  · intro x hx
    exact hd.inside x (by simp at hx; simp [hx])

theorem step_forgetIter {chk : Bool} {T : VarLen w} {q : SeqS w} {items : List (Ptr × V)} {it : IterS w} {vs : List V} {rest : List (Handle w)}
    (hp : W.objs.Perm (.drain chk T q items (some (it, vs)) :: rest)) : Inv { W with objs := .drain chk T q items none :: rest, lost := true } := by
  obtain ⟨hT, xs, ys, hd⟩ := hi.ok _ (hp.mem_iff.2 (List.mem_cons_self ..))
  obtain ⟨p1, p2, p3⟩ := List.pairwise_append.1 hd.pairwise
  refine step_edit hw hi (p := q.ptr) (n := 0) (ev := []) (fresh := []) hp rfl rfl (Touch.refl ..) rfl rfl
    ⟨hT, xs, [], hd.hist, hd.items, by simpa using p1, fun x hx => hd.valid x (by simp at hx; simp [hx]), fun x hx => hd.inside x (by simp at hx; simp [hx]), fun _ => rfl, by simp⟩
    (fun _ => Iff.rfl) rfl (List.append_nil _).symm (List.append_nil _).symm (fun a => ?_) (fun h => by cases h)
  simp only [Handle.drops, Option.elim, List.count_append, List.count_nil]
  omega

theorem step_endDrain {chk : Bool} {T : VarLen w} {q : SeqS w} {rest : List (Handle w)} (hp : W.objs.Perm (.drain chk T q [] none :: rest)) :
    Inv { W with objs := .seq chk T q [] true :: rest } := by
  obtain ⟨hT, xs, ys, hd⟩ := hi.ok _ (hp.mem_iff.2 (List.mem_cons_self ..))
  exact step_edit hw hi (p := q.ptr) (n := 0) (ev := []) (fresh := []) hp rfl rfl (Touch.refl ..) rfl rfl ⟨hT, hd.hist⟩
    (fun _ => Iff.rfl) rfl (List.append_nil _).symm (List.append_nil _).symm (by simp [Handle.drops]) (fun h => ⟨h, by simp [Handle.drops]⟩)

/-! ## The rest -/

theorem step_newSeq (chk : Bool) {T : VarLen w} (hT : LibType T) : Inv { W with objs := .seq chk T (Seq.new T) [] false :: W.objs } := by
  refine hi.step hw (used := []) (now := [.seq chk T (Seq.new T) [] false]) (.refl _) rfl (fun _ _ _ _ => rfl) (fun _ h => h) ?_ (by simp) ?_ (fun _ h => h) (fun _ h => .inl h)
    ⟨[], [], (List.append_nil _).symm, (List.append_nil _).symm, by simp [Handle.drops], fun h => ⟨h, by simp [Handle.drops]⟩⟩ ?_
  · intro h hh
    rw [List.mem_singleton.1 hh]
    exact ⟨hT, 0, Hist.new _⟩
  · intro h hh
    rw [List.mem_singleton.1 hh]
    exact .inl rfl
  · intro hl
    exact ⟨hl, fun b B hB _ => .inr (.inr ⟨by rw [show W.st.blk b = some B from hB]; simp, by simp⟩)⟩

theorem step_other {s : St} {ev : List Event} (h1 : ∀ b, W.st.blk b ≠ none → s.blk b ≠ none) (h2 : ∀ b, W.st.blk b ≠ none → ¬ W.ext b → s.blk b = W.st.blk b) (h3 : s.log = W.st.log ++ ev) :
    Inv { W with st := s, made := W.made ++ ev, ext := fun b => W.ext b ∨ (W.st.blk b = none ∧ s.blk b ≠ none) } := by
  refine hi.step hw (used := []) (now := []) (.refl _) rfl (fun b hb hx _ => h2 b hb hx) h1 (by simp) (by simp) (by simp) (fun _ h => .inl h) ?_
    ⟨ev, ev, h3, rfl, by simp, fun h => ⟨h, by simp⟩⟩ ?_
  · rintro b (h | h)
    · exact .inl h
    · exact .inr ⟨.inl h, by simp⟩
  · intro hl
    refine ⟨hl, fun b B hB _ => ?_⟩
    by_cases hb : W.st.blk b = none
    · exact .inl (.inr ⟨hb, by rw [show s.blk b = some B from hB]; simp⟩)
    · exact .inr (.inr ⟨hb, by simp⟩)

omit hi in
/-- Looking changes nothing. -/
theorem Look.pure {h : Handle w} {α : Type} {x : M α} (hl : Look h x) {s : St} (hk : h.Ok s) : (∃ a, x s = .ok a s) ∨ ∃ m, x s = .panic m s := by
  cases hl with
  | box =>
    obtain ⟨hT, l, hb⟩ := hk
    exact .inl ⟨l, by simp [derefBox_ok hT.lawful hb.valid, hT.lawful.calc_ok _ _ _ _ hb.valid]⟩
  | owned =>
    obtain ⟨hT, ⟨l, hb⟩, _⟩ := hk
    exact .inl ⟨l, by simp [derefBox_ok hT.lawful hb, hT.lawful.calc_ok _ _ _ _ hb]⟩
  | iter k =>
    obtain ⟨hT, m, hh⟩ := hk
    obtain ⟨es, i⟩ := hh.inv hT.lawful hw
    obtain ⟨it', cur, e, _⟩ := Iter.take_spec hT.lawful hw k (i.inv.iterAt hT.lawful)
    exact .inl ⟨_, e⟩
  | offsetOf p =>
    unfold Seq.offsetOf
    simp only
    split
    · exact .inr ⟨_, rfl⟩
    · exact .inl ⟨_, rfl⟩
  | isOffsetValid o =>
    obtain ⟨hT, m, hh⟩ := hk
    obtain ⟨es, i⟩ := hh.inv hT.lawful hw
    exact .inl ⟨_, Seq.isOffsetValid_spec hT.lawful hw i.inv o⟩
  | fromOffset o =>
    obtain ⟨hT, m, hh⟩ := hk
    obtain ⟨es, i⟩ := hh.inv hT.lawful hw
    rcases Seq.fromOffset_spec hT.lawful hw i.inv (i.clean rfl) o with ⟨e, _, _, _, h⟩ | ⟨_, _, h⟩
    · exact .inl ⟨_, h⟩
    · exact .inr ⟨_, h⟩
  | @fromOffsetUnchecked _ _ _ _ _ o v hm =>
    obtain ⟨hT, m, hh⟩ := hk
    obtain ⟨es, i⟩ := hh.inv hT.lawful hw
    rw [← i.entries] at hm
    obtain ⟨e, he, h⟩ := List.mem_map.1 hm
    cases h
    exact .inl ⟨_, Seq.fromOffsetUnchecked_spec hT.lawful i.inv he (i.inv.elem_off hT.lawful he).2.1⟩
  | item hm =>
    obtain ⟨hT, xs, ys, hd⟩ := hk
    rw [hd.items] at hm
    obtain ⟨e, he, h⟩ := List.mem_map.1 hm
    cases h
    have hv := hd.valid e (by simp [he])
    exact .inl ⟨e.l, by simp [derefBox_ok hT.lawful hv, hT.lawful.calc_ok _ _ _ _ hv]⟩

theorem step_look {h : Handle w} {α : Type} {x : M α} (hm : h ∈ W.objs) (hl : Look h x) : Fine (after (x W.st) (fun _ s => { W with st := s }) (fun s => { W with st := s })) := by
  rcases hl.pure hw (hi.ok h hm) with ⟨a, e⟩ | ⟨m, e⟩
  · rw [e]; exact Fine.mk hi
  · rw [e]; exact Fine.mk hi

/-- Every step: undefined behaviour only where `VBox::new` does not check the result of `alloc` (C42); otherwise the invariant is kept. -/
theorem Step.sound {o : Outcome w} (h : Step W o) : (∃ k, (k = .allocZero ∨ k = .nullPtr) ∧ o = .ub k ∧ ∃ (A : Allocator) (T : VarLen w) (I : Init w), VBox.new A T I W.st = .ub k) ∨ Fine o := by
  cases h with
  | newBox A hp ha =>
    rcases step_newBox hw hi A hp ha with ⟨k, h1, h2⟩ | h
    · exact .inl ⟨k, h1, by rw [h2]; rfl, A, _, _, h2⟩
    · exact .inr h
  | newOwned A hp ha => exact .inr (step_newOwned hw hi A hp ha)
  | discard hp ha => exact .inr (step_discard hw hi hp ha)
  | newSeq chk hT => exact .inr (Fine.mk (step_newSeq hw hi chk hT))
  | push A hp ha h1 h2 => exact .inr (step_push hw hi A hp ha h1 h2)
  | tryPush A hp ha h1 h2 => exact .inr (step_tryPush hw hi A hp ha h1 h2)
  | dropBox hp => exact .inr (step_dropBox hw hi hp)
  | dropOwned hp => exact .inr (step_dropOwned hw hi hp)
  | dropSeq hp => exact .inr (step_dropSeq hw hi hp)
  | forget hp => exact .inr (Fine.mk (step_forget hw hi hp))
  | editBox hp he => exact .inr (Fine.mk (step_editBox hw hi hp he))
  | editOwned hp he => exact .inr (Fine.mk (step_editOwned hw hi hp he))
  | editElem hp hf he => exact .inr (Fine.mk (step_editElem hw hi hp hf he))
  | editItem hp hpm he => exact .inr (Fine.mk (step_editItem hw hi hp hpm he))
  | takeElems hp => exact .inr (step_takeElems hw hi hp)
  | nextItem hp => exact .inr (step_nextItem hw hi hp)
  | dropItem hp hpm => exact .inr (step_dropItem hw hi hp hpm)
  | forgetItem hp hpm => exact .inr (Fine.mk (step_forgetItem hw hi hp hpm))
  | dropIter hp => exact .inr (step_dropIter hw hi hp)
  | forgetIter hp => exact .inr (Fine.mk (step_forgetIter hw hi hp))
  | endDrain hp => exact .inr (Fine.mk (step_endDrain hw hi hp))
  | look hm hl => exact .inr (step_look hw hi hm hl)
  | other h1 h2 h3 => exact .inr (Fine.mk (step_other hw hi h1 h2 h3))

end

theorem Reach.inv (hw : 8 ≤ w) {W : World w} (h : Reach W) : Inv W := by
  induction h with
  | start s => exact Inv.start s
  | step _ hs ih =>
    rcases hs.sound hw ih with ⟨k, _, h, _⟩ | ⟨W', h, hi⟩
    · cases h
    · cases h; exact hi

end Varlen
