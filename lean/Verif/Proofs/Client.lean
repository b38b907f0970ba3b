import Verif.Spec.Client
import Verif.Proofs.Moves
import Verif.Proofs.SeqExtend
import Verif.Proofs.LibType
/-! # What holds in every world that a program gets to -/
namespace Varlen
variable {w : Nat}

/-- What the proof keeps about a sequence being drained: `xs` are the items outside, `ys` those still to come. -/
structure DrainOk (T : VarLen w) (chk : Bool) (s : St) (q : SeqS w) (items : List (Ptr × V)) (it : Option (IterS w × List V)) (xs ys : List (Elem w)) : Prop where
  hist : ∃ m, Hist T chk s q [] m true
  items : items = xs.map fun e => (e.at T q.ptr, e.v)
  pairwise : (xs ++ ys).Pairwise (EDisj T.ALIGN.toNat)
  valid : ∀ e ∈ xs ++ ys, Valid T s (e.at T q.ptr) e.v e.l
  inside : ∀ e ∈ xs ++ ys, e.off * T.ALIGN.toNat + e.l.size.toNat ≤ q.cap.toNat * T.ALIGN.toNat
  none : it = none → ys = []
  iter : ∀ it0 vs, it = some (it0, vs) → vs = ys.map (·.v) ∧ ∃ cur fin, IterAt T s q.ptr it0 cur ys fin ∧ fin ≤ q.cap.toNat

/-- The object is as it should be. -/
def Handle.Ok (s : St) : Handle w → Prop
  | .box T p v => LibType T ∧ ∃ l, BoxHas T s p v l
  | .owned T p v => LibType T ∧ (∃ l, Valid T s p v l) ∧ s.blk p.blk ≠ none
  | .seq chk T q h taken => LibType T ∧ ∃ m, Hist T chk s q h m taken
  | .drain chk T q items it => LibType T ∧ ∃ xs ys, DrainOk T chk s q items it xs ys

theorem DrainOk.of_same {T : VarLen w} {chk s s' q items it xs ys} (h : DrainOk T chk s q items it xs ys) (hs : Same s s' (fun b => b = q.ptr.blk)) :
    DrainOk T chk s' q items it xs ys := by
  have hv : ∀ e ∈ xs ++ ys, Valid T s' (e.at T q.ptr) e.v e.l := fun e he => (h.valid e he).of_same hs rfl
  refine ⟨?_, h.items, h.pairwise, hv, h.inside, h.none, fun it0 vs e => ?_⟩
  · obtain ⟨m, hh⟩ := h.hist
    exact ⟨m, hh.other hs⟩
  · obtain ⟨h1, cur, fin, h2, h3⟩ := h.iter it0 vs e
    exact ⟨h1, cur, fin, h2.of_valid (fun e he => hv e (by simp [he])), h3⟩

theorem Handle.Ok.of_same {s s' : St} {h : Handle w} (hk : h.Ok s) (hs : s'.blk h.blk = s.blk h.blk) : h.Ok s' := by
  have hs' : Same s s' (fun b => b = h.blk) := by rintro b rfl; exact hs
  cases h with
  | box T p v => obtain ⟨h1, l, h2⟩ := hk; exact ⟨h1, l, h2.of_same hs' rfl⟩
  | owned T p v => obtain ⟨h1, ⟨l, h2⟩, h3⟩ := hk; exact ⟨h1, ⟨l, h2.of_same hs' rfl⟩, by rw [show s'.blk p.blk = s.blk p.blk from hs]; exact h3⟩
  | seq chk T q h t => obtain ⟨h1, m, h2⟩ := hk; exact ⟨h1, m, h2.other hs'⟩
  | drain chk T q items it => obtain ⟨h1, xs, ys, h2⟩ := hk; exact ⟨h1, xs, ys, h2.of_same hs'⟩

theorem Hist.blk (hw : 8 ≤ w) {T : VarLen w} (hT : Lawful T) {chk s q h m t} (hh : Hist T chk s q h m t) : q.ptr.blk = 0 ∧ q.cap.toNat = 0 ∨ s.blk q.ptr.blk ≠ none := by
  obtain ⟨es, i⟩ := hh.inv hT hw
  by_cases hc : q.cap.toNat = 0
  · left; rw [i.inv.dang hc]; exact ⟨rfl, hc⟩
  · right
    obtain ⟨_, B, h1, _⟩ := i.inv.store.owns hc
    simp [h1]

theorem Handle.Ok.blk (hw : 8 ≤ w) {s : St} {h : Handle w} (hk : h.Ok s) : h.blk = 0 ∨ s.blk h.blk ≠ none := by
  cases h with
  | box T p v => obtain ⟨h1, l, h2⟩ := hk; exact .inr h2.blk
  | owned T p v => exact .inr hk.2.2
  | seq chk T q h t => obtain ⟨h1, m, h2⟩ := hk; exact (h2.blk hw h1.lawful).imp_left (·.1)
  | drain chk T q items it => obtain ⟨h1, xs, ys, h2⟩ := hk; obtain ⟨m, hh⟩ := h2.hist; exact (hh.blk hw h1.lawful).imp_left (·.1)

/-- The invariant of worlds. -/
structure Inv (W : World w) : Prop where
  ok : ∀ h ∈ W.objs, h.Ok W.st
  apart : W.objs.Pairwise fun a b => a.blk = b.blk → a.blk = 0
  foreign : ∀ h ∈ W.objs, ¬ W.ext h.blk
  ext : ∀ b, W.ext b → W.st.blk b ≠ none
  once : ∀ e, W.st.log.count e + (W.objs.flatMap Handle.drops).count e ≤ W.made.count e
  exact : W.lost = false → ∀ e, W.st.log.count e + (W.objs.flatMap Handle.drops).count e = W.made.count e
  noLeak : W.leak = false → ∀ b B, W.st.blk b = some B → B.live = true → W.ext b ∨ ∃ h ∈ W.objs, h.blk = b

theorem Inv.start (s : St) : Inv (World.start w s) where
  ok := by simp [World.start]
  apart := by simp [World.start]
  foreign := by simp [World.start]
  ext := fun _ h => h
  once := by simp [World.start]
  exact := by simp [World.start]
  noLeak := fun _ b B hb _ => .inl (by intro h; rw [show s.blk b = some B from hb] at h; cases h)

/-- One step of a program: the objects `used` are replaced by `now`. -/
theorem Inv.step (hw : 8 ≤ w) {W W' : World w} (hi : Inv W) {used now rest : List (Handle w)} (hp : W.objs.Perm (used ++ rest)) (hn : W'.objs = now ++ rest)
    (keep : ∀ b, W.st.blk b ≠ none → ¬ W.ext b → (∀ h ∈ used, h.blk ≠ b) → W'.st.blk b = W.st.blk b)
    (mono : ∀ b, W.st.blk b ≠ none → W'.st.blk b ≠ none)
    (ok : ∀ h ∈ now, h.Ok W'.st)
    (apart : now.Pairwise fun a b => a.blk = b.blk → a.blk = 0)
    (blks : ∀ h ∈ now, h.blk = 0 ∨ W.st.blk h.blk = none ∨ ∃ u ∈ used, u.blk = h.blk)
    (extMono : ∀ b, W.ext b → W'.ext b)
    (ext : ∀ b, W'.ext b → W.ext b ∨ (((W.st.blk b = none ∧ W'.st.blk b ≠ none) ∨ (b ≠ 0 ∧ ∃ u ∈ used, u.blk = b)) ∧ ∀ h ∈ now, h.blk ≠ b))
    (log : ∃ ev fresh, W'.st.log = W.st.log ++ ev ∧ W'.made = W.made ++ fresh ∧
      (∀ a, ev.count a + (now.flatMap Handle.drops).count a ≤ (used.flatMap Handle.drops).count a + fresh.count a) ∧
      (W'.lost = false → W.lost = false ∧ ∀ a, ev.count a + (now.flatMap Handle.drops).count a = (used.flatMap Handle.drops).count a + fresh.count a))
    (live : W'.leak = false → W.leak = false ∧ ∀ b B, W'.st.blk b = some B → B.live = true →
      W'.ext b ∨ (∃ h ∈ now, h.blk = b) ∨ (W.st.blk b ≠ none ∧ ∀ u ∈ used, u.blk ≠ b)) : Inv W' := by
  have hap : (used ++ rest).Pairwise fun a b => a.blk = b.blk → a.blk = 0 :=
    hp.pairwise hi.apart (fun {a b} h e => e.trans (h e.symm))
  obtain ⟨_, ap2, ap3⟩ := List.pairwise_append.1 hap
  have hmem : ∀ h, h ∈ W.objs ↔ h ∈ used ∨ h ∈ rest := fun h => by rw [hp.mem_iff, List.mem_append]
  have hru : ∀ r ∈ rest, W.st.blk r.blk ≠ none → ∀ u ∈ used, u.blk ≠ r.blk := by
    intro r hr hb u hu e
    have h0 := ap3 u hu r hr e
    rw [← e, h0] at hb
    exact hb rfl
  have hrest : ∀ r ∈ rest, W'.st.blk r.blk = W.st.blk r.blk := by
    intro r hr
    have hro := (hmem r).2 (.inr hr)
    rcases (hi.ok r hro).blk hw with h0 | hb
    · rw [h0]; rfl
    · exact keep _ hb (hi.foreign r hro) (hru r hr hb)
  have hd := fun a => List.perm_iff_count.1 (hp.flatMap_right Handle.drops) a
  simp only [List.flatMap_append, List.count_append] at hd
  obtain ⟨ev, fresh, l1, l2, l3, l4⟩ := log
  refine ⟨?_, ?_, ?_, ?_, ?_, ?_, ?_⟩
  · intro h hh
    rw [hn, List.mem_append] at hh
    rcases hh with hh | hh
    · exact ok h hh
    · exact (hi.ok h ((hmem h).2 (.inr hh))).of_same (hrest h hh)
  · rw [hn]
    refine List.pairwise_append.2 ⟨apart, ap2, fun h hh r hr e => ?_⟩
    have hro := (hmem r).2 (.inr hr)
    rcases (hi.ok r hro).blk hw with h0 | hb
    · rw [e, h0]
    · rcases blks h hh with h1 | h1 | ⟨u, hu, h1⟩
      · exact h1
      · rw [e] at h1; exact absurd h1 hb
      · exact absurd (h1.trans e) (hru r hr hb u hu)
  · intro h hh hx
    rw [hn, List.mem_append] at hh
    rcases hh with hh | hr
    · rcases ext _ hx with h1 | ⟨_, h1⟩
      · rcases blks h hh with h2 | h2 | ⟨u, hu, h2⟩
        · rw [h2] at h1; exact hi.ext _ h1 rfl
        · exact hi.ext _ h1 h2
        · rw [← h2] at h1; exact hi.foreign u ((hmem u).2 (.inl hu)) h1
      · exact h1 h hh rfl
    · have hro := (hmem h).2 (.inr hr)
      have hb : W.st.blk h.blk ≠ none := by
        rw [← hrest h hr]
        rcases (hi.ok h hro).blk hw with h0 | hb
        · rcases ext _ hx with h1 | ⟨⟨h1, h2⟩ | ⟨h1, _⟩, _⟩
          · rw [h0] at h1; exact absurd rfl (hi.ext _ h1)
          · exact h2
          · exact absurd h0 h1
        · rw [hrest h hr]; exact hb
      rcases ext _ hx with h1 | ⟨⟨h1, h2⟩ | ⟨h1, u, hu, h2⟩, _⟩
      · exact hi.foreign h hro h1
      · exact hb h1
      · exact hru h hr hb u hu h2
  · intro b hb
    rcases ext b hb with h1 | ⟨⟨h1, h2⟩ | ⟨h1, u, hu, rfl⟩, _⟩
    · exact mono _ (hi.ext b h1)
    · exact h2
    · rcases (hi.ok u ((hmem u).2 (.inl hu))).blk hw with h0 | hb
      · exact absurd h0 h1
      · exact mono _ hb
  · intro a
    have h1 := hi.once a
    have h2 := l3 a
    have h3 := hd a
    rw [hn, l1, l2]
    simp only [List.flatMap_append, List.count_append]
    omega
  · intro hl a
    obtain ⟨h0, h2⟩ := l4 hl
    have h1 := hi.exact h0 a
    have h2 := h2 a
    have h3 := hd a
    rw [hn, l1, l2]
    simp only [List.flatMap_append, List.count_append]
    omega
  · intro hl b B hB hlive
    obtain ⟨h0, h1⟩ := live hl
    rw [hn]
    rcases h1 b B hB hlive with h2 | ⟨h, hh, h2⟩ | ⟨h2, h3⟩
    · exact .inl h2
    · exact .inr ⟨h, by simp [hh], h2⟩
    · by_cases hx : W.ext b
      · exact .inl (extMono b hx)
      · rw [keep b h2 hx h3] at hB
        rcases hi.noLeak h0 b B hB hlive with h4 | ⟨h, hh, rfl⟩
        · exact absurd h4 hx
        · rcases (hmem h).1 hh with hh | hh
          · exact absurd rfl (h3 h hh)
          · exact .inr ⟨h, by simp [hh], rfl⟩

/-- Steps that change at most the memory of the objects used, and neither allocate nor free. -/
theorem Inv.local (hw : 8 ≤ w) {W W' : World w} (hi : Inv W) {u : Handle w} {now rest : List (Handle w)} (hp : W.objs.Perm (u :: rest)) (hn : W'.objs = now ++ rest)
    (keep : ∀ b, b ≠ u.blk → W'.st.blk b = W.st.blk b) (size : W.st.blk u.blk ≠ none → W'.st.blk u.blk ≠ none)
    (ok : ∀ h ∈ now, h.Ok W'.st) (one : now = [] ∨ ∃ h, now = [h] ∧ h.blk = u.blk)
    (ext : ∀ b, W'.ext b ↔ W.ext b ∨ (now = [] ∧ b ≠ 0 ∧ b = u.blk ∧ W'.ext b))
    {ev fresh : List Event} (l1 : W'.st.log = W.st.log ++ ev) (l2 : W'.made = W.made ++ fresh)
    (l3 : ∀ a, ev.count a + (now.flatMap Handle.drops).count a ≤ u.drops.count a + fresh.count a)
    (l4 : W'.lost = false → W.lost = false ∧ ∀ a, ev.count a + (now.flatMap Handle.drops).count a = u.drops.count a + fresh.count a)
    (live : W'.leak = false → W.leak = false ∧ (now = [] → W'.ext u.blk ∨ ∀ B, W'.st.blk u.blk = some B → B.live = true → False)) : Inv W' := by
  refine hi.step hw (used := [u]) hp hn (fun b _ _ hb => keep b fun e => hb u (by simp) e.symm) ?_ ok ?_ ?_ (fun b hb => (ext b).2 (.inl hb)) ?_ ⟨ev, fresh, l1, l2, ?_, ?_⟩ ?_
  · intro b hb
    by_cases e : b = u.blk
    · subst e; exact size hb
    · rw [keep b e]; exact hb
  · rcases one with rfl | ⟨h, rfl, _⟩ <;> simp
  · intro h hh
    rcases one with rfl | ⟨h', rfl, e⟩
    · simp at hh
    · rw [List.mem_singleton.1 hh]
      exact .inr (.inr ⟨u, by simp, e.symm⟩)
  · intro b hb
    rcases (ext b).1 hb with h | ⟨rfl, h1, h2, _⟩
    · exact .inl h
    · exact .inr ⟨.inr ⟨h1, u, by simp, h2.symm⟩, by simp⟩
  · simpa using l3
  · simpa using l4
  · intro hl
    obtain ⟨h1, h2⟩ := live hl
    refine ⟨h1, fun b B hB hlive => ?_⟩
    by_cases e : b = u.blk
    · subst e
      rcases one with h3 | ⟨h, rfl, h3⟩
      · rcases h2 h3 with h4 | h4
        · exact .inl h4
        · exact absurd hlive (fun hh => h4 B hB hh)
      · exact .inr (.inl ⟨h, by simp, h3⟩)
    · refine .inr (.inr ⟨?_, by simpa using fun h => e h.symm⟩)
      rw [← keep b e]; simp [hB]

/-! ## Initializers -/

theorem Arg.count_ok {W : World w} {T : VarLen w} {I : Init w} {moved own mk} (ha : Arg W T I moved own mk) {v : V} (hv : I.val = some v) (a : Event) :
    I.left.count a + (T.drops v).count a = (moved.flatMap Handle.drops).count a + (own ++ mk).count a := by
  obtain ⟨held, h1, h2⟩ := ha.holds
  have h1 := List.perm_iff_count.1 (h1.sums.ok v hv) a
  have h2 := List.perm_iff_count.1 h2 a
  simp only [List.count_append] at h1 h2 ⊢
  omega

theorem Arg.count_owes {W : World w} {T : VarLen w} {I : Init w} {moved own mk} (ha : Arg W T I moved own mk) (a : Event) :
    I.owes.count a = (moved.flatMap Handle.drops).count a + own.count a := by
  obtain ⟨held, h1, h2⟩ := ha.holds
  rw [h1.sums.owes, List.perm_iff_count.1 h2 a, List.count_append]

theorem Arg.count_lost {W : World w} {T : VarLen w} {I : Init w} {moved own mk} (ha : Arg W T I moved own mk) (hv : I.val = none) (a : Event) :
    I.lost.count a ≤ (moved.flatMap Handle.drops).count a + (own ++ mk).count a := by
  obtain ⟨held, h1, h2⟩ := ha.holds
  have h1 := h1.sums.panic hv a
  have h2 := List.perm_iff_count.1 h2 a
  simp only [List.count_append] at h1 h2 ⊢
  omega

theorem Handle.Ok.owned_ne {s : St} {h : Handle w} (hk : h.Ok s) (ho : h.isOwned) : h.blk ≠ 0 := by
  cases h with
  | owned T p v => intro e; exact hk.2.2 (by rw [show p.blk = 0 from e]; rfl)
  | _ => exact ho.elim

/-- After a successful allocation, no more blocks appear. -/
theorem init_fresh_size {T : VarLen w} {I : Init w} (hI : InitLawful T I) {s : St} (hp : I.pre s) {l : Layout w} (hl : I.lay = some l)
    {base : Nat} (hb : base % T.ALIGN.toNat = 0) :
    (∀ s', I.initTo ⟨s.next, 0⟩ l (s.push ⟨base, l.size.toNat, T.ALIGN.toNat, true, fun _ => none⟩) = .ok () s' → s'.blocks.length = s.blocks.length + 1) ∧
    (∀ m s', I.initTo ⟨s.next, 0⟩ l (s.push ⟨base, l.size.toNat, T.ALIGN.toNat, true, fun _ => none⟩) = .panic m s' → s'.blocks.length = s.blocks.length + 1) := by
  obtain ⟨h1, h2, h3, h4⟩ := push_suitable hI hp (size := l.size.toNat) (d := fun _ => none) hb
  cases hv : I.val with
  | some v =>
    obtain ⟨s', e1, e2, _⟩ := hI.init_ok _ _ l v h1 hl hv h2 h3 h4
    refine ⟨fun s'' e => ?_, fun m s'' e => ?_⟩
    · rw [e1] at e; cases e
      simpa [St.push] using e2.len
    · rw [e1] at e; cases e
  | none =>
    obtain ⟨m, s', e1, e2, _⟩ := hI.init_panic _ _ l h1 hl hv h2 h3 h4
    refine ⟨fun s'' e => ?_, fun m s'' e => ?_⟩
    · rw [e1] at e; cases e
    · rw [e1] at e; cases e
      simpa [St.push] using e2.len

/-- The outcomes of making an object from an initializer. -/
inductive Made (I : Init w) (s : St) (good : Ptr → V → St → Prop) : Res St Ptr → Prop
  | refused {m s'} : Dropped I s s' → Made I s good (.panic m s')
  | ok {s' v} : I.val = some v → good ⟨s.next, 0⟩ v s' → s'.log = s.log ++ I.left → (∀ b B, s.blk b = some B → ¬ I.owns b → s'.blk b = some B) →
      (∀ b, I.owns b → ∃ B, s'.blk b = some B ∧ B.live = false) → s'.blocks.length = s.blocks.length + 1 → Made I s good (.ok ⟨s.next, 0⟩ s')
  | panic {m s'} : I.val = none → s'.log = s.log ++ I.lost → (∀ b B, s.blk b = some B → ¬ I.mods b → s'.blk b = some B) →
      (∀ b, I.owns b → ∃ B, s'.blk b = some B ∧ B.live = false) → s'.blocks.length = s.blocks.length + 1 → Made I s good (.panic m s')

theorem VBox.new_made (A : Allocator) {T : VarLen w} (hT : Lawful T) {I : Init w} (hI : InitLawful T I) {s : St} (hp : I.pre s) :
    VBox.new A T I s = .ub .allocZero ∨ VBox.new A T I s = .ub .nullPtr ∨ ∃ r, VBox.new A T I s = r ∧ Made I s (fun p v s' => ∃ l, BoxHas T s' p v l) r := by
  obtain ⟨sd, hd1, hd2⟩ := hI.dropped hp
  unfold VBox.new
  simp only [bind_apply]
  cases hl : I.lay with
  | none =>
    cases hb : I.bad with
    | true => exact .inr (.inr ⟨_, by rw [onUnwind_panic (hI.calc_panic s hp hb) hd1]; rfl, .refused hd2⟩)
    | false => exact .inr (.inr ⟨_, by rw [onUnwind_ok (hI.calc_ok s hp hb), hl]; exact onUnwind_panic rfl hd1, .refused hd2⟩)
  | some l =>
    rw [onUnwind_ok (hI.calc_some hp hl)]
    simp only [Res.bind_ok]
    by_cases hf : fromSizeAlign w l.size.toNat T.ALIGN.toNat = true
    · simp only [hf, if_true]
      by_cases h0 : l.size.toNat = 0
      · simp [h0, allocM]
      · simp only [bind_apply, allocM, h0, hf, if_false, reduceCtorEq]
        cases hpk : pick w A s l.size.toNat T.ALIGN.toNat with
        | none => exact .inr (.inl rfl)
        | some base =>
          obtain ⟨k1, k2⟩ := init_fresh hT hI hp hl (pick_some hpk).2.1 hf
          obtain ⟨z1, z2⟩ := init_fresh_size hI hp hl (pick_some hpk).2.1
          simp only [Res.bind_ok, bind_apply]
          right; right
          cases hv : I.val with
          | some v =>
            obtain ⟨s', e1, e2, e3, e4, e5, e6⟩ := k1 v hv
            refine ⟨_, ?_, .ok hv ⟨l, e2⟩ e3 e5 e6 (z1 s' e1)⟩
            rw [e1]
            simp [derefBox_ok hT e2.valid, hT.calc_ok _ _ _ _ e2.valid]
          | none =>
            obtain ⟨m, s', e1, e2, e3, e4, e5⟩ := k2 hv
            exact ⟨_, by rw [e1]; rfl, .panic hv e2 e4 e5 (z2 m s' e1)⟩
    · simp only [hf]; exact .inr (.inr ⟨_, onUnwind_panic rfl hd1, .refused hd2⟩)

theorem Owned.newIn_made (A : Allocator) {T : VarLen w} (hT : Lawful T) {I : Init w} (hI : InitLawful T I) {s : St} (hp : I.pre s) :
    ∃ r, Owned.newIn A T I s = r ∧ Made I s (fun p v s' => ∃ l, Valid T s' p v l) r := by
  obtain ⟨sd, hd1, hd2⟩ := hI.dropped hp
  unfold Owned.newIn
  simp only [bind_apply]
  cases hl : I.lay with
  | none =>
    cases hb : I.bad with
    | true => exact ⟨_, by rw [onUnwind_panic (hI.calc_panic s hp hb) hd1]; rfl, .refused hd2⟩
    | false => exact ⟨_, by rw [onUnwind_ok (hI.calc_ok s hp hb), hl]; exact onUnwind_panic rfl hd1, .refused hd2⟩
  | some l =>
    rw [onUnwind_ok (hI.calc_some hp hl)]
    simp only [Res.bind_ok]
    by_cases hf : fromSizeAlign w l.size.toNat T.ALIGN.toNat = true
    · simp only [hf, if_true]
      simp only [bind_apply]
      cases hpk : pick w A s l.size.toNat T.ALIGN.toNat with
      | none => exact ⟨_, by rw [onUnwind_panic (by simp [bumpAlloc, hpk, hf]; rfl) hd1]; rfl, .refused hd2⟩
      | some base =>
        have hba : bumpAlloc w A l.size.toNat T.ALIGN.toNat s = .ok ⟨s.next, 0⟩ (s.push ⟨base, l.size.toNat, T.ALIGN.toNat, true, fun _ => none⟩) := by
          simp [bumpAlloc, hpk, hf]
        rw [onUnwind_ok hba]
        obtain ⟨k1, k2⟩ := init_fresh hT hI hp hl (pick_some hpk).2.1 hf
        obtain ⟨z1, z2⟩ := init_fresh_size hI hp hl (pick_some hpk).2.1
        simp only [Res.bind_ok, bind_apply]
        cases hv : I.val with
        | some v =>
          obtain ⟨s', e1, e2, e3, e4, e5, e6⟩ := k1 v hv
          exact ⟨_, by rw [e1]; rfl, .ok hv ⟨l, e2.valid⟩ e3 e5 e6 (z1 s' e1)⟩
        | none =>
          obtain ⟨m, s', e1, e2, e3, e4, e5⟩ := k2 hv
          exact ⟨_, by rw [e1]; rfl, .panic hv e2 e4 e5 (z2 m s' e1)⟩
    · simp only [hf]; exact ⟨_, onUnwind_panic rfl hd1, .refused hd2⟩

/-- An initializer is used up; `base` is the sequence pushed to, if any. -/
theorem Inv.useInit (hw : 8 ≤ w) {W W' : World w} (hi : Inv W) {T : VarLen w} {I : Init w} {base moved now rest : List (Handle w)} {own mk : List Event} {E : Nat → Prop}
    (hp : W.objs.Perm (base ++ (moved ++ rest))) (ha : Arg W T I moved own mk) (hn : W'.objs = now ++ rest)
    (frame : ∀ b B, W.st.blk b = some B → (∀ h ∈ base, h.blk ≠ b) → ¬ I.mods b → W'.st.blk b = some B)
    (mono : W.st.blocks.length ≤ W'.st.blocks.length)
    (freed : ∀ b, I.owns b → ∃ B, W'.st.blk b = some B ∧ B.live = false)
    (ok : ∀ h ∈ now, h.Ok W'.st)
    (apart : now.Pairwise fun a b => a.blk = b.blk → a.blk = 0)
    (blks : ∀ h ∈ now, h.blk = 0 ∨ W.st.blk h.blk = none ∨ ∃ u ∈ base, u.blk = h.blk)
    (ext : ∀ b, W'.ext b ↔ W.ext b ∨ arena moved b ∨ E b)
    (extE : ∀ b, E b → W.st.blk b = none ∧ W'.st.blk b ≠ none ∧ ∀ h ∈ now, h.blk ≠ b)
    {ev fresh : List Event} (l1 : W'.st.log = W.st.log ++ ev) (l2 : W'.made = W.made ++ fresh)
    (l3 : ∀ a, ev.count a + (now.flatMap Handle.drops).count a ≤ (base.flatMap Handle.drops).count a + (moved.flatMap Handle.drops).count a + fresh.count a)
    (l4 : W'.lost = false → W.lost = false ∧
      ∀ a, ev.count a + (now.flatMap Handle.drops).count a = (base.flatMap Handle.drops).count a + (moved.flatMap Handle.drops).count a + fresh.count a)
    (live : W'.leak = false → W.leak = false ∧ (∀ b B, W'.st.blk b = some B → B.live = true → W.st.blk b = none → E b ∨ ∃ h ∈ now, h.blk = b) ∧
      (∀ u ∈ base, ∀ B, W'.st.blk u.blk = some B → B.live = true → ∃ h ∈ now, h.blk = u.blk)) : Inv W' := by
  have hap : (base ++ (moved ++ rest)).Pairwise fun a b => a.blk = b.blk → a.blk = 0 := hp.pairwise hi.apart (fun {a b} h e => e.trans (h e.symm))
  obtain ⟨_, _, ap3⟩ := List.pairwise_append.1 hap
  have hbm : ∀ u ∈ base, ∀ h ∈ moved, u.blk = h.blk → u.blk = 0 := fun u hu h hh => ap3 u hu h (by simp [hh])
  have hokm : ∀ h ∈ moved, h.Ok W.st := fun h hh => hi.ok h (hp.mem_iff.2 (by simp [hh]))
  have hmono : ∀ b, W.st.blk b ≠ none → W'.st.blk b ≠ none := by
    intro b hb
    cases b with
    | zero => exact absurd rfl hb
    | succ b =>
      simp only [St.blk, ne_eq, List.getElem?_eq_none_iff, Nat.not_le] at hb ⊢
      omega
  refine hi.step hw (used := base ++ moved) (by rw [List.append_assoc]; exact hp) hn ?_ hmono ok apart ?_ (fun b hb => (ext b).2 (.inl hb)) ?_ ⟨ev, fresh, l1, l2, ?_, ?_⟩ ?_
  · intro b hb hx hu
    have hm : ¬ I.mods b := by
      intro hm
      rcases ha.mods b hm with h | ⟨h, hh, e⟩
      · exact hx h
      · exact hu h (by simp [hh]) e
    cases hB : W.st.blk b with
    | none => exact absurd hB hb
    | some B => exact frame b B hB (fun h hh => hu h (by simp [hh])) hm
  · intro h hh
    rcases blks h hh with h1 | h1 | ⟨u, hu, h1⟩
    · exact .inl h1
    · exact .inr (.inl h1)
    · exact .inr (.inr ⟨u, by simp [hu], h1⟩)
  · intro b hb
    rcases (ext b).1 hb with h | ⟨h, hh, ho, rfl⟩ | h
    · exact .inl h
    · have h0 := (hokm h hh).owned_ne ho
      have h1 := (hokm h hh).blk hw
      refine .inr ⟨.inr ⟨h0, h, by simp [hh], rfl⟩, fun x hx e => ?_⟩
      rcases blks x hx with h2 | h2 | ⟨u, hu, h2⟩
      · exact h0 (e.symm.trans h2)
      · rw [e] at h2
        rcases h1 with h1 | h1
        · exact h0 h1
        · exact h1 h2
      · have h3 := hbm u hu h hh (h2.trans e)
        exact h0 (by rw [← e, ← h2, h3])
    · obtain ⟨h1, h2, h3⟩ := extE b h
      exact .inr ⟨.inl ⟨h1, h2⟩, h3⟩
  · intro a
    have := l3 a
    simp only [List.flatMap_append, List.count_append]
    omega
  · intro hl
    obtain ⟨h1, h2⟩ := l4 hl
    refine ⟨h1, fun a => ?_⟩
    have := h2 a
    simp only [List.flatMap_append, List.count_append]
    omega
  · intro hl
    obtain ⟨h1, h2, h3⟩ := live hl
    refine ⟨h1, fun b B hB hlive => ?_⟩
    by_cases hb : W.st.blk b = none
    · rcases h2 b B hB hlive hb with h | h
      · exact .inl ((ext b).2 (.inr (.inr h)))
      · exact .inr (.inl h)
    · by_cases hu : ∃ u ∈ base ++ moved, u.blk = b
      · obtain ⟨u, hu, rfl⟩ := hu
        rcases List.mem_append.1 hu with hu | hu
        · exact .inr (.inl (h3 u hu B hB hlive))
        · rcases ha.kinds u hu with hk | hk
          · obtain ⟨B', hB', hd⟩ := freed _ (ha.boxes u hu hk)
            rw [hB] at hB'; cases hB'
            rw [hlive] at hd; cases hd
          · exact .inl ((ext _).2 (.inr (.inl ⟨u, hu, hk, rfl⟩)))
      · exact .inr (.inr ⟨hb, fun u hm e => hu ⟨u, hm, e⟩⟩)

end Varlen
