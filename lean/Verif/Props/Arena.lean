import Verif.Proofs.ArenaSeq
/-!
# C85: objects that share the chunks of an arena

`Sound W ρ m` (Spec/Arena.lean) is the invariant: the real memory `m` is a packed form of the memory of a program `W` in which every object has an allocation of its own. It holds at the start, every
operation keeps it, and its results are those of the ideal program. So what C56 says about ideal programs holds of the real ones.
-/
namespace Varlen.Arena
variable {w : Nat} {W : World w} {ρ : Place} {m : St}

theorem Sound.exists (hw : 8 ≤ w) (hs : Sound W ρ m) {h : Handle w} (hh : h ∈ W.objs) {T : VarLen w} {p : Ptr} {v : V} (e : h = .box T p v ∨ h = .owned T p v) :
    LibType T ∧ (∃ l, Valid T W.st p v l) ∧ W.st.blk p.blk ≠ none := by
  have hk := (hs.reach.inv hw).ok h hh
  rcases e with rfl | rfl
  · obtain ⟨h1, l, h2⟩ := hk
    obtain ⟨_, B, h3, _⟩ := h2.owns
    exact ⟨h1, ⟨l, h2.valid⟩, by rw [h3]; simp⟩
  · exact hk

theorem Sound.box (hw : 8 ≤ w) (hs : Sound W ρ m) {T : VarLen w} {p : Ptr} {v : V} (hh : Handle.box T p v ∈ W.objs) : ρ.heap p.blk := by
  rcases hs.heap _ hh with f | e | h
  · exact f.elim
  · exact absurd (show W.st.blk p.blk = none by rw [show p.blk = 0 from e]; rfl) (hs.exists hw hh (.inl rfl)).2.2
  · exact h

theorem Sound.next (hw : 8 ≤ w) (hs : Sound W ρ m) {W' : World w} {ρ' : Place} {m' : St} (st : Step W (.next W')) (hp : Packed ρ' W'.st m') (ha : ρ.Agree ρ' (fun b => W.st.blk b ≠ none))
    (hb : ∀ h ∈ W'.objs, h ∈ W.objs ∨ ((h.isOwned ∨ h.blk = 0 ∨ ρ'.heap h.blk) ∧ Movable (typeOf h))) : Next W ρ W' ρ' m' := by
  refine ⟨st, ⟨.step hs.reach st, hp, fun h hh => ?_, fun h hh => ?_⟩, ha⟩
  · rcases hb h hh with h1 | h1
    · rcases ((hs.reach.inv hw).ok h h1).blk hw with e | e
      · exact .inr (.inl e)
      · exact (hs.heap h h1).imp_right (Or.imp_right (ha _ e).2.2)
    · exact h1.1
  · rcases hb h hh with h1 | h1
    · exact hs.types h h1
    · exact h1.2

theorem addr_of_blk {s : St} {p : Ptr} {B : Block} (h : s.blk p.blk = some B) : s.addr p = B.base + p.off := by
  unfold St.addr; rw [h]

theorem viewAt_of_blk {s : St} {p : Ptr} {B : Block} (h : s.blk p.blk = some B) (i : Nat) : viewAt s p i = B.data (p.off + i) := by
  unfold viewAt; rw [h]

theorem goes_of {W W' : World w} {x : List Event} {a b : Bool} (h : W'.made = W.made ++ x ∧ W'.lost = (W.lost || a) ∧ W'.leak = (W.leak || b)) : Goes W W' x a b := ⟨h.1, h.2.1, h.2.2⟩

theorem agree_self (ρ : Place) (on : Nat → Prop) : ρ.Agree ρ on := fun _ _ => ⟨rfl, .rfl⟩

/-- At the start there are no objects. Some of the real allocations may be chunks of arenas (all free); memory of its own that the program wants to copy from is brought in by `C85_own_memory`. -/
theorem C85_start (m : St) (h : ∀ c c' C C', c ≠ c' → m.blk c = some C → m.blk c' = some C' → C.live = true → C'.live = true → C.base + C.size ≤ C'.base ∨ C'.base + C'.size ≤ C.base)
    (chunk : Nat → Prop) (hc : ∀ c, chunk c → m.blk c ≠ none) :
    ∃ ρ : Place, Sound (World.start w ⟨[], m.log, 0⟩) ρ m ∧ ρ.chunk = chunk ∧ ∀ c lo hi, chunk c → Room ρ c lo hi := by
  have none : ∀ b, (⟨[], m.log, 0⟩ : St).blk b = none := by intro b; cases b <;> rfl
  refine ⟨⟨fun _ => ⟨0, 0⟩, fun _ => Option.none, chunk, fun _ => False⟩, ⟨.start _, ⟨rfl, fun _ _ => rfl, fun b B hb => ?_, fun b B C hb => ?_, fun b b' B B' _ hb => ?_, fun _ _ f => f.elim, h, fun b B hb => ?_,
    fun c h => ⟨hc c h, fun _ f => f.elim⟩⟩, by simp [World.start], by simp [World.start]⟩, rfl, fun c lo hi _ b n _ e => by cases e⟩
  all_goals
    have hb : (⟨[], m.log, 0⟩ : St).blk b = some B := hb
    rw [none] at hb; cases hb

/-- `Owned::new_in`, wherever in its chunks the arena puts the object, and also if it is built from objects in the same chunk: it behaves as in the ideal program. It returns the place the arena chose,
or panics; nothing else happens. -/
theorem C85_new_in (hw : 8 ≤ w) (hs : Sound W ρ m) {T : VarLen w} {I' I : Init w} {moved rest : List (Handle w)} {own mk : List Event} (hm : W.objs.Perm (moved ++ rest))
    (ha : Arg W T I' moved own mk) (hT : Movable T) (hI : Placed ρ I' I) {r : Option Ptr}
    (vac : ∀ l m1 q, I.cautious m = .ok (some l) m1 → r = some q → Vacant w ρ m1 q l.size.toNat T.ALIGN.toNat) :
    (∃ q m' p' W' ρ', newIn r T I m = .ok q m' ∧ r = some q ∧ Next W ρ W' ρ' m' ∧ W'.objs = .owned T p' I'.value :: rest ∧ ρ'.ptr p' = q ∧ (∃ l, I'.lay = some l ∧ Takes ρ ρ' (some (q, l.size.toNat))) ∧ Goes W W' (own ++ mk) false false) ∨
    (∃ e m' W' ρ', newIn r T I m = .panic e m' ∧ Next W ρ W' ρ' m' ∧ W'.objs = rest ∧ Takes ρ ρ' (r.bind fun q => I'.lay.map fun l => (q, l.size.toNat)) ∧
      Goes W W' (own ++ if I'.val.isNone then mk else []) I'.val.isNone false) := by
  have law := ha.lib.lib
  obtain ⟨A, hE, hq⟩ := newIn_sim hs.packed law.2 ha.usable hI vac
  have st := Step.newOwned A hm ha
  have hrest : ∀ h ∈ rest, h ∈ W.objs := fun h hh => (hm.mem_iff).2 (List.mem_append_right _ hh)
  cases hr : Owned.newIn A T I' W.st with
  | ub k =>
    have hs2 := Owned.newIn_spec A law.1.lawful law.2 ha.usable
    exfalso
    revert hs2
    rw [hr]
    cases I'.lay with
    | none => rintro ⟨_, e, _⟩; cases e
    | some l =>
      simp only
      split
      · cases pick w A W.st l.size.toNat T.ALIGN.toNat with
        | none => rintro ⟨_, e, _⟩; cases e
        | some b =>
          cases I'.val with
          | none => rintro ⟨_, _, e, _⟩; cases e
          | some v => rintro ⟨_, e, _⟩; cases e
      · rintro ⟨_, e, _⟩; cases e
  | ok p' s' =>
    rw [hr] at hE st
    obtain ⟨q, m', n, e1, e2, e3, e4⟩ := hE
    obtain ⟨q2, m2, f1, f2⟩ := hq p' s' hr
    rw [e1] at f2
    injection f2 with f2 f3
    subst f2 f3
    refine .inl ⟨q, m', p', _, _, e1, f1, hs.next hw st e3 (ρ.put_agree W.st q n False) fun h hh => ?_, rfl, by rw [e2]; exact Place.put_ptr .., ?_, goes_of (by simp [World.used, World.unwound])⟩
    rcases List.mem_cons.1 hh with rfl | hh
    · exact .inr ⟨.inl trivial, hT⟩
    · exact .inl (hrest h hh)
    · have hs2 := Owned.newIn_spec A law.1.lawful law.2 ha.usable
      cases hl : I'.lay with
      | none => rw [hl] at hs2; obtain ⟨_, e, _⟩ := hs2; rw [hr] at e; cases e
      | some l => exact ⟨l, rfl, by rw [f1, hl] at e4; exact e4⟩
  | panic e s' =>
    rw [hr] at hE st
    obtain ⟨m', ρ', e1, e2, e3, e4⟩ := hE
    exact .inr ⟨e, m', _, ρ', e1, hs.next hw st e2 e3 fun h hh => .inl (hrest h hh), rfl, e4, goes_of (by simp [World.used, World.unwound])⟩

/-- `VBox::new` from an initializer that may take its contents from objects in arenas. The only undefined behaviour is that of C42 (no memory, or a value of size zero). -/
theorem C85_new_box (hw : 8 ≤ w) (hs : Sound W ρ m) {T : VarLen w} {I' I : Init w} {moved rest : List (Handle w)} {own mk : List Event} (hm : W.objs.Perm (moved ++ rest))
    (ha : Arg W T I' moved own mk) (hT : Movable T) (hI : Placed ρ I' I) (A : Allocator) :
    (∃ k, VBox.new A T I m = .ub k ∧ (k = .nullPtr ∨ k = .allocZero)) ∨
    (∃ q m' p' W' ρ', VBox.new A T I m = .ok q m' ∧ Next W ρ W' ρ' m' ∧ W'.objs = .box T p' I'.value :: rest ∧ ρ'.ptr p' = q ∧ Takes ρ ρ' none ∧ Goes W W' (own ++ mk) false false) ∨
    (∃ e m' W' ρ', VBox.new A T I m = .panic e m' ∧ Next W ρ W' ρ' m' ∧ W'.objs = rest ∧ Takes ρ ρ' none ∧
      Goes W W' (own ++ if I'.val.isNone then mk else []) I'.val.isNone I'.val.isNone) := by
  have law := ha.lib.lib
  rcases boxNew_sim hT.reloc A hs.packed law.2 ha.usable hI with h | ⟨A', hE, hpk⟩
  · exact .inl h
  have st := Step.newBox A' hm ha
  have hrest : ∀ h ∈ rest, h ∈ W.objs := fun h hh => (hm.mem_iff).2 (List.mem_append_right _ hh)
  cases hr : VBox.new A' T I' W.st with
  | ub k =>
    have hs2 := VBox.new_spec A' law.1.lawful law.2 ha.usable
    exfalso
    revert hs2
    rw [hr]
    cases hl : I'.lay with
    | none => rintro ⟨_, e, _⟩; cases e
    | some l =>
      simp only
      split
      · next hf =>
        obtain ⟨h0, base, hb⟩ := hpk l hl hf
        rw [if_neg h0, hb]
        cases I'.val with
        | none => rintro ⟨_, _, e, _⟩; cases e
        | some v => rintro ⟨_, e, _⟩; cases e
      · rintro ⟨_, e, _⟩; cases e
  | ok p' s' =>
    rw [hr] at hE st
    obtain ⟨q, m', n, e1, e2, e3, e4⟩ := hE
    refine .inr (.inl ⟨q, m', p', _, _, e1, hs.next hw st e3 (ρ.put_agree W.st q n True) fun h hh => ?_, rfl, by rw [e2]; exact Place.put_ptr .., e4, goes_of (by simp [World.used, World.unwound])⟩)
    rcases List.mem_cons.1 hh with rfl | hh
    · exact .inr ⟨.inr (.inr (by subst e2; exact .inl ⟨rfl, trivial⟩)), hT⟩
    · exact .inl (hrest h hh)
  | panic e s' =>
    rw [hr] at hE st
    obtain ⟨m', ρ', e1, e2, e3, e4⟩ := hE
    exact .inr (.inr ⟨e, m', _, ρ', e1, hs.next hw st e2 e3 fun h hh => .inl (hrest h hh), rfl, e4, goes_of (by simp [World.used, World.unwound])⟩)

/-- An initializer is dropped without being used. -/
theorem C85_discard (hw : 8 ≤ w) (hs : Sound W ρ m) {T : VarLen w} {I' I : Init w} {moved rest : List (Handle w)} {own mk : List Event} (hm : W.objs.Perm (moved ++ rest))
    (ha : Arg W T I' moved own mk) (hI : Placed ρ I' I) : ∃ m' W', I.dropI m = .ok () m' ∧ Next W ρ W' ρ m' ∧ W'.objs = rest ∧ Goes W W' own false false := by
  have st := Step.discard hm ha
  obtain ⟨s', e1, _⟩ := ha.lib.lib.2.drop_ok _ ha.usable
  have h1 := hI.sim.drop.run _ _ hs.packed
  rw [e1] at h1 st
  obtain ⟨_, m', f1, f2, _⟩ := h1
  exact ⟨m', _, f1, hs.next hw st f2 (agree_self _ _) fun h hh => .inl ((hm.mem_iff).2 (List.mem_append_right _ hh)), rfl, goes_of (by simp [World.used, World.unwound])⟩

/-- Dropping a value in an arena. -/
theorem C85_drop_owned (hw : 8 ≤ w) (hs : Sound W ρ m) {T : VarLen w} {p : Ptr} {v : V} {rest : List (Handle w)} (hm : W.objs.Perm (.owned T p v :: rest)) :
    ∃ m' W', Owned.drop T (ρ.ptr p) m = .ok () m' ∧ Next W ρ W' ρ m' ∧ W'.objs = rest ∧ Goes W W' [] false false := by
  have hmem : Handle.owned T p v ∈ W.objs := (hm.mem_iff).2 (List.mem_cons_self ..)
  have st := Step.dropOwned hm
  obtain ⟨hT, ⟨l, hv⟩, _⟩ := hs.exists hw hmem (.inr rfl)
  obtain ⟨s', e1, _⟩ := Owned.drop_spec hT.lawful hv
  have h1 := (sim_ownedDrop (T := T) (hs.types _ hmem).reloc p).run _ _ hs.packed
  rw [e1] at h1 st
  obtain ⟨_, m', f1, f2, _⟩ := h1
  exact ⟨m', _, f1, hs.next hw st f2 (agree_self _ _) fun h hh => .inl ((hm.mem_iff).2 (List.mem_cons_of_mem _ hh)), rfl, goes_of (by simp [World.used, World.unwound])⟩

/-- Dropping a box. -/
theorem C85_drop_box (hw : 8 ≤ w) (hs : Sound W ρ m) {T : VarLen w} {p : Ptr} {v : V} {rest : List (Handle w)} (hm : W.objs.Perm (.box T p v :: rest)) :
    ∃ m' W', VBox.drop T (ρ.ptr p) m = .ok () m' ∧ Next W ρ W' ρ m' ∧ W'.objs = rest ∧ Goes W W' [] false false := by
  have hmem : Handle.box T p v ∈ W.objs := (hm.mem_iff).2 (List.mem_cons_self ..)
  have st := Step.dropBox hm
  obtain ⟨hT, l, hv⟩ := (hs.reach.inv hw).ok _ hmem
  obtain ⟨s', e1, _⟩ := VBox.drop_spec hT.lawful hv
  have h1 := (sim_boxDrop (T := T) (hs.types _ hmem).reloc (hs.box hw hmem)).run _ _ hs.packed
  rw [e1] at h1 st
  obtain ⟨_, m', f1, f2, _⟩ := h1
  exact ⟨m', _, f1, hs.next hw st f2 (agree_self _ _) fun h hh => .inl ((hm.mem_iff).2 (List.mem_cons_of_mem _ hh)), rfl, goes_of (by simp [World.used, World.unwound])⟩

/-- `mem::forget` of an object. -/
theorem C85_forget (hw : 8 ≤ w) (hs : Sound W ρ m) {h : Handle w} {rest : List (Handle w)} (hm : W.objs.Perm (h :: rest)) : ∃ W', Next W ρ W' ρ m ∧ W'.objs = rest ∧ W'.made = W.made :=
  ⟨_, hs.next hw (Step.forget hm) hs.packed (agree_self _ _) fun h hh => .inl ((hm.mem_iff).2 (List.mem_cons_of_mem _ hh)), rfl, rfl⟩

/-- Modifying an object in place, through a mutable reference. -/
theorem C85_edit_owned (hw : 8 ≤ w) (hs : Sound W ρ m) {T : VarLen w} {p : Ptr} {v v' : V} {rest : List (Handle w)} {m' : St} {ev fresh : List Event} (hm : W.objs.Perm (.owned T p v :: rest))
    (he : Edit T m m' (ρ.ptr p) v v' ev fresh) : ∃ W', Next W ρ W' ρ m' ∧ W'.objs = .owned T p v' :: rest ∧ Goes W W' fresh false false := by
  have hmem : Handle.owned T p v ∈ W.objs := (hm.mem_iff).2 (List.mem_cons_self ..)
  obtain ⟨hT, ⟨l, hv⟩, _⟩ := hs.exists hw hmem (.inr rfl)
  have hM : Movable T := hs.types _ hmem
  obtain ⟨s', e1, e2⟩ := hs.packed.edit hT.lawful hM.reloc hv he
  refine ⟨_, hs.next hw (Step.editOwned hm e1) e2 (agree_self _ _) fun h hh => ?_, rfl, goes_of (by simp [World.used, World.unwound])⟩
  rcases List.mem_cons.1 hh with rfl | hh
  · exact .inr ⟨.inl trivial, hM⟩
  · exact .inl ((hm.mem_iff).2 (List.mem_cons_of_mem _ hh))

theorem C85_edit_box (hw : 8 ≤ w) (hs : Sound W ρ m) {T : VarLen w} {p : Ptr} {v v' : V} {rest : List (Handle w)} {m' : St} {ev fresh : List Event} (hm : W.objs.Perm (.box T p v :: rest))
    (he : Edit T m m' (ρ.ptr p) v v' ev fresh) : ∃ W', Next W ρ W' ρ m' ∧ W'.objs = .box T p v' :: rest ∧ Goes W W' fresh false false := by
  have hmem : Handle.box T p v ∈ W.objs := (hm.mem_iff).2 (List.mem_cons_self ..)
  obtain ⟨hT, ⟨l, hv⟩, _⟩ := hs.exists hw hmem (.inl rfl)
  have hM : Movable T := hs.types _ hmem
  obtain ⟨s', e1, e2⟩ := hs.packed.edit hT.lawful hM.reloc hv he
  refine ⟨_, hs.next hw (Step.editBox hm e1) e2 (agree_self _ _) fun h hh => ?_, rfl, goes_of (by simp [World.used, World.unwound])⟩
  rcases List.mem_cons.1 hh with rfl | hh
  · exact .inr ⟨.inr (.inr (hs.box hw hmem)), hM⟩
  · exact .inl ((hm.mem_iff).2 (List.mem_cons_of_mem _ hh))

/-- The rest of the program does something (the arena may get new chunks, too). -/
theorem C85_other (hw : 8 ≤ w) (hs : Sound W ρ m) {m' : St} {ev : List Event} (he : Elsewhere W ρ m m' ev) : ∃ W', Next W ρ W' ρ m' ∧ W'.objs = W.objs ∧ Goes W W' ev false false := by
  have hlog : (mirrorSt ρ W.ext W.st m').log = W.st.log ++ ev := by
    show m'.log = _
    rw [he.log, hs.packed.log]
  have st := Step.other (W := W) (s := mirrorSt ρ W.ext W.st m') (ev := ev) (fun b hb => by
      rw [mirrorSt_blk]; intro e; exact hb (Option.map_eq_none_iff.1 e)) (fun b hb hx => by
      rw [mirrorSt_blk]
      cases hB : W.st.blk b with
      | none => rfl
      | some B => rw [Option.map_some, mirror_not B hx]) hlog
  exact ⟨_, hs.next hw st (hs.packed.elsewhere he) (agree_self _ _) fun h hh => .inl hh, rfl, goes_of (by simp [World.used, World.unwound])⟩

/-- The arena gets a new chunk from the global allocator: it is free. -/
theorem C85_new_chunk (hw : 8 ≤ w) (hs : Sound W ρ m) {m' : St} {ev : List Event} (he : Elsewhere W ρ m m' ev) {c : Nat} (hn : m.blk c = none) (hc : m'.blk c ≠ none) :
    ∃ W' ρ', Next W ρ W' ρ' m' ∧ W'.objs = W.objs ∧ ρ'.chunk c ∧ (∀ lo hi, Room ρ' c lo hi) ∧ Takes ρ ρ' none ∧ Goes W W' ev false false := by
  obtain ⟨W', h1, h2, h3⟩ := C85_other hw hs he
  have h0 : ∀ b, ρ.loc b = ⟨0, 0⟩ ∨ (ρ.loc b).blk ≠ c := by
    intro b
    cases hb : W.st.blk b with
    | none => exact .inl (hs.packed.unused b hb)
    | some B =>
      obtain ⟨C, k1, _⟩ := hs.packed.addr b B hb
      exact .inr (by rintro rfl; rw [hn] at k1; cases k1)
  have hc0 : c ≠ 0 := by rintro rfl; exact hc rfl
  have hne : ∀ b, (ρ.loc b).blk ≠ c := fun b => (h0 b).elim (fun e => by rw [e]; exact hc0.symm) id
  have hp := h1.sound.packed
  exact ⟨W', { ρ with chunk := fun x => ρ.chunk x ∨ x = c }, ⟨h1.step, ⟨h1.sound.reach, ⟨hp.log, hp.unused, hp.addr, hp.live, hp.disj, hp.heap, hp.apart, hp.len, fun x hx =>
      hx.elim (hp.chunks x) (fun e => by subst e; exact ⟨hc, fun b _ => hne b⟩)⟩, h1.sound.heap, h1.sound.types⟩, fun _ _ => ⟨rfl, .rfl⟩⟩, h2, .inr rfl,
    fun lo hi b n e => absurd e (hne b), fun x hx => ⟨.inl hx, fun _ _ hr _ => hr⟩, h3⟩

/-- `Bump::reset`: if no object is in the chunk `c` any more, all of it is free again (unless objects were forgotten, or `VBox::new` panicked: then it is only safe to go on as before). -/
theorem C85_reset (hw : 8 ≤ w) (hs : Sound W ρ m) (hl : W.leak = false) {c : Nat} (hc : ρ.chunk c) (hno : ∀ h ∈ W.objs, (ρ.loc h.blk).blk ≠ c) :
    ∃ W' ρ', Next W ρ W' ρ' m ∧ W'.objs = W.objs ∧ Takes ρ ρ' none ∧ (∀ lo hi, Room ρ' c lo hi) ∧ Goes W W' [] false false := by
  classical
  let N : Nat → Prop := fun b => (ρ.loc b).blk = c
  let E : Nat → Prop := fun b => N b ∧ W.ext b
  have hN : ∀ b B, W.st.blk b = some B → B.live = true → N b → E b := fun b B hb hlv h => ⟨h, by
    rcases C56_no_leak hw hs.reach hl hb hlv with h1 | ⟨o, h1, rfl⟩
    · exact h1
    · exact absurd h (hno o h1)⟩
  have hblk := forgetSt_blk E W.st
  have st := Step.other (W := W) (s := forgetSt E W.st) (ev := []) (fun b hb e => by
      rw [hblk] at e; exact hb (Option.map_eq_none_iff.1 e)) (fun b hb hx => by
      rw [hblk]
      cases hB : W.st.blk b with
      | none => rfl
      | some B => rw [Option.map_some, if_neg (fun h : E b => hx h.2)]) (by simp [forgetSt])
  refine ⟨_, { ρ with len := fun b => if N b then none else ρ.len b }, hs.next hw st (hs.packed.forget E N hN) (fun _ _ => ⟨rfl, .rfl⟩) fun h hh => .inl hh, rfl,
    fun c hc => ⟨hc, fun lo hi hr _ b n e1 e2 => ?_⟩, fun lo hi b n e1 e2 => ?_, goes_of (by simp [World.used, World.unwound])⟩
  all_goals
    simp only at e2
    split at e2
    · cases e2
  · exact hr b n e1 e2
  · next h => exact absurd e1 h

/-- The program begins to use memory of its own (from which it may later copy): any range that no object is in. -/
theorem C85_own_memory (hw : 8 ≤ w) (hs : Sound W ρ m) {q : Ptr} {n : Nat} {C : Block} (hC : m.blk q.blk = some C) (hl : C.live = true) (hn : q.off + n ≤ C.size)
    (free : ∀ b B, W.st.blk b = some B → B.live = true → (ρ.loc b).blk = q.blk → q.off + n ≤ (ρ.loc b).off ∨ (ρ.loc b).off + B.size ≤ q.off)
    (chunks : ∀ b B, ρ.heap b → W.st.blk b = some B → B.live = true → (ρ.loc b).blk ≠ q.blk) :
    ∃ W' ρ' p, Next W ρ W' ρ' m ∧ W'.objs = W.objs ∧ ρ'.ptr p = q ∧ Acc W'.st p n ∧ W'.st.addr p = m.addr q ∧ W'.ext p.blk ∧ (∀ i, i < n → viewAt W'.st p i = viewAt m q i) ∧ Takes ρ ρ' (some (q, n)) ∧ Goes W W' [] false false := by
  have h1 := hs.packed.put (align := 1) (d := viewAt m q) (hp := False) hC hl hn False.elim free chunks False.elim fun _ _ => rfl
  have hb : (W.st.push ⟨m.addr q, n, 1, true, viewAt m q⟩).blk W.st.next = some ⟨m.addr q, n, 1, true, viewAt m q⟩ := by rw [St.blk_push, if_pos rfl]
  have hne : ∀ b, W.st.blk b ≠ none → b ≠ W.st.next := by rintro b hb rfl; exact hb (St.blk_next _)
  have st := Step.other (W := W) (s := W.st.push ⟨m.addr q, n, 1, true, viewAt m q⟩) (ev := []) (fun b hb => by
      rw [St.blk_push, if_neg (hne b hb)]; exact hb) (fun b hb _ => by rw [St.blk_push, if_neg (hne b hb)]) (by simp)
  refine ⟨_, _, ⟨W.st.next, 0⟩, hs.next hw st h1 (ρ.put_agree W.st q n False) fun h hh => .inl hh, rfl, Place.put_ptr .., .inr ⟨_, hb, rfl, by simp⟩, ?_, .inr ⟨St.blk_next _, by rw [hb]; simp⟩, fun i _ => ?_, ρ.put_takes _ _ _ _ (.inl rfl), goes_of (by simp [World.used, World.unwound])⟩
  · exact addr_of_blk (p := ⟨W.st.next, 0⟩) hb
  · rw [show viewAt (W.st.push _) ⟨W.st.next, 0⟩ i = _ from viewAt_of_blk (p := ⟨W.st.next, 0⟩) hb i]
    simp

/-! ## What follows for the objects -/

/-- At any time, every object in an arena, and in a box, is intact where it really is. -/
theorem C85_intact (hw : 8 ≤ w) (hs : Sound W ρ m) {T : VarLen w} {p : Ptr} {v : V} :
    (.owned T p v ∈ W.objs → RefTo T m (ρ.ptr p) v) ∧ (.box T p v ∈ W.objs → ∃ l, BoxHas T m (ρ.ptr p) v l) := by
  constructor
  · intro hm
    obtain ⟨hT, ⟨l, hv⟩, _⟩ := hs.exists hw hm (.inr rfl)
    exact ⟨l, hs.packed.valid hT.lawful hv⟩
  · intro hm
    obtain ⟨hT, l, hv⟩ := (hs.reach.inv hw).ok _ hm
    obtain ⟨h0, B, h1, h2, h3, h4⟩ := hv.owns
    obtain ⟨g1, ⟨C, g2, g3, g4⟩, _⟩ := hs.packed.heap _ B (hs.box hw hm) h1 h2
    exact ⟨l, hs.packed.valid hT.lawful hv.valid, ⟨by rw [ptr_off]; exact (by rw [show (ρ.loc p.blk).off = 0 from g1, h0] : (ρ.loc p.blk).off + p.off = 0), C, g2, (hs.packed.live _ B C h1 h2 g2).1, g3.trans h3, g4.trans h4⟩, hv.fits⟩

theorem Sound.covers (hw : 8 ≤ w) (hs : Sound W ρ m) {h : Handle w} (hh : h ∈ W.objs) {p : Ptr} {n : Nat} (hc : Covers m (ρ.handle h) p n) (hn : 0 < n) :
    ∃ B o, W.st.blk h.blk = some B ∧ B.live = true ∧ m.addr p = B.base + o ∧ o + n ≤ B.size := by
  have val : ∀ {T : VarLen w} {p0 : Ptr} {v : V} {l : Layout w}, (h = .box T p0 v ∨ h = .owned T p0 v) → Valid T m (ρ.ptr p0) v l → 0 < l.size.toNat →
      ∃ B o, W.st.blk p0.blk = some B ∧ B.live = true ∧ m.addr (ρ.ptr p0) = B.base + o ∧ o + l.size.toNat ≤ B.size := by
    intro T p0 v l e hv hl
    obtain ⟨hT, ⟨k, hk⟩, h0⟩ := hs.exists hw hh e
    have e1 := (hT.lawful.rep_unique _ _ _ _ _ hv.rep (hs.packed.valid hT.lawful hk).rep).2
    subst e1
    obtain ⟨B, h1, h2, h3⟩ := hk.acc.resolve_left (by omega)
    exact ⟨B, p0.off, h1, h2, by rw [hs.packed.addr_ptr, addr_of_blk h1], h3⟩
  have sto : ∀ {chk : Bool} {T : VarLen w} {q : SeqS w}, Store T chk W.st q.ptr q.cap.toNat → 0 < storageSize chk T.ALIGN.toNat q.cap.toNat →
      ∃ B o, W.st.blk q.ptr.blk = some B ∧ B.live = true ∧ m.addr (ρ.ptr q.ptr) = B.base + o ∧ o + storageSize chk T.ALIGN.toNat q.cap.toNat ≤ B.size := by
    intro chk T q hst hpos
    obtain ⟨h0, B, h1, h2, h3, _⟩ := hst.owns (fun e => by rw [e, storageSize_zero] at hpos; exact Nat.lt_irrefl _ hpos)
    exact ⟨B, q.ptr.off, h1, h2, by rw [hs.packed.addr_ptr, addr_of_blk h1], by omega⟩
  cases h with
  | box T p0 v => cases hc with | box hv => exact val (.inl rfl) hv hn
  | owned T p0 v => cases hc with | owned hv => exact val (.inr rfl) hv hn
  | seq chk T q h t =>
    cases hc
    obtain ⟨hT, k, hk⟩ := (hs.reach.inv hw).ok _ hh
    obtain ⟨es, i⟩ := hk.inv hT.lawful hw
    exact sto i.inv.store hn
  | drain chk T q items it =>
    cases hc
    obtain ⟨hT, xs, ys, hd⟩ := (hs.reach.inv hw).ok _ hh
    obtain ⟨k, hk⟩ := hd.hist
    obtain ⟨es, i⟩ := hk.inv hT.lawful hw
    exact sto i.inv.store hn

/-- No two objects overlap, even in the same chunk. -/
theorem C85_disjoint (hw : 8 ≤ w) (hs : Sound W ρ m) : (W.objs.map ρ.handle).Pairwise fun a b => ∀ p n p' n', Covers m a p n → Covers m b p' n' → 0 < n → 0 < n' →
    m.addr p + n ≤ m.addr p' ∨ m.addr p' + n' ≤ m.addr p := by
  rw [List.pairwise_map]
  refine ((hs.reach.inv hw).apart).imp_of_mem ?_
  intro a b ha hb hab p n p' n' hc hc' hn hn'
  obtain ⟨B, o, f1, f2, f3, f4⟩ := hs.covers hw ha hc hn
  obtain ⟨B', o', g1, g2, g3, g4⟩ := hs.covers hw hb hc' hn'
  have hne : a.blk ≠ b.blk := by
    intro e
    have := hab e
    rw [this] at f1
    cases f1
  obtain ⟨C, c1, c2⟩ := hs.packed.addr _ B f1
  obtain ⟨C', d1, d2⟩ := hs.packed.addr _ B' g1
  obtain ⟨c3, c4, _⟩ := hs.packed.live _ B C f1 f2 c1
  obtain ⟨d3, d4, _⟩ := hs.packed.live _ B' C' g1 g2 d1
  by_cases e : (ρ.loc a.blk).blk = (ρ.loc b.blk).blk
  · rw [e, d1] at c1
    injection c1 with c1
    subst c1
    rcases hs.packed.disj _ _ B B' hne f1 g1 f2 g2 e with d | d <;> omega
  · rcases hs.packed.apart _ _ C C' e c1 d1 c3 d3 with d | d <;> omega

/-- No value is destroyed twice, and unless values were lost (as in C56) each is destroyed exactly once. -/
theorem C85_once (hw : 8 ≤ w) (hs : Sound W ρ m) : AtMost (m.log ++ W.objs.flatMap Handle.drops) W.made ∧ (W.lost = false → (m.log ++ W.objs.flatMap Handle.drops).Perm W.made) := by
  rw [hs.packed.log]
  exact ⟨C56_at_most_once hw hs.reach, C56_exactly_once hw hs.reach⟩

/-- Looking at an object: `Deref` and `calculate_layout`. -/
theorem C85_look (hw : 8 ≤ w) (hs : Sound W ρ m) {h : Handle w} {T : VarLen w} {p : Ptr} {v : V} (hm : h ∈ W.objs) (e : h = .box T p v ∨ h = .owned T p v) :
    ∃ l, derefBox T (ρ.ptr p) m = .ok (ρ.ptr p) m ∧ T.calculateLayout (ρ.ptr p) m = .ok l m ∧ Valid T m (ρ.ptr p) v l := by
  obtain ⟨hT, ⟨l, hv⟩, _⟩ := hs.exists hw hm e
  have hv' := hs.packed.valid hT.lawful hv
  exact ⟨l, derefBox_ok hT.lawful hv', hT.lawful.calc_ok _ _ _ _ hv', hv'⟩

/-- `vclone` of an object gives an initializer that can be used for a new object, in the same chunk, another one, a box, or a sequence; it clones the value, moves nothing, and needs no memory but that of
the original. -/
theorem C85_vclone (hw : 8 ≤ w) (hs : Sound W ρ m) {h : Handle w} {T : VarLen w} {C : VClone w} {p : Ptr} {v : V} (hm : h ∈ W.objs) (e : h = .box T p v ∨ h = .owned T p v) (hC : MClone C)
    (hL : LibClone T C) {made : List Event} (hmade : ∀ v', C.cloneV v = some v' → Destroys T v' made) :
    ∃ I' I m', C.vclone (ρ.ptr p) v m = .ok I m' ∧ Placed ρ I' I ∧ Sound W ρ m' ∧ Arg W T I' [] [] made ∧ I'.val = C.cloneV v ∧ (∀ b, I'.fp b → b = p.blk) ∧
      (∀ l, T.calculateLayout (ρ.ptr p) m = .ok l m → I'.lay = some l) := by
  obtain ⟨hT, ⟨l, hv⟩, h0⟩ := hs.exists hw hm e
  obtain ⟨I', e1, e2, e3, e4, e5, e6, e7, _⟩ := hL.lib.2.ok _ _ _ _ hv h0
  have h1 := (hC.sim ρ p v).run _ _ hs.packed
  rw [e1] at h1
  obtain ⟨I, m', f1, f2, f3⟩ := h1
  refine ⟨I', I, m', f1, f3, ⟨hs.reach, f2, hs.heap, hs.types⟩, ⟨.vclone hL hv h0 e1, e3, ⟨[], .vclone hL hv h0 e1 hmade, .refl _⟩, by simp, fun b hb => absurd hb (e5 b), by simp⟩, e7, e6, fun l' hl => ?_⟩
  rw [hT.lawful.calc_ok _ _ _ _ (hs.packed.valid hT.lawful hv)] at hl
  injection hl with hl
  rw [e4, hl]

/-- `vcopy` of an object whose type has no destructors, likewise. -/
theorem C85_vcopy (hw : 8 ≤ w) (hs : Sound W ρ m) {h : Handle w} {T : VarLen w} {p : Ptr} {v : V} (hm : h ∈ W.objs) (e : h = .box T p v ∨ h = .owned T p v) (hd : Destroys T v []) {l : Layout w}
    (hl : T.calculateLayout (ρ.ptr p) m = .ok l m) : Placed ρ (VCopier T p v l) (VCopier T (ρ.ptr p) v l) ∧ Arg W T (VCopier T p v l) [] [] [] := by
  obtain ⟨hT, ⟨l', hv⟩, h0⟩ := hs.exists hw hm e
  rw [hT.lawful.calc_ok _ _ _ _ (hs.packed.valid hT.lawful hv)] at hl
  injection hl with hl
  subst hl
  have hM : Movable T := by
    have h := hs.types _ hm
    rcases e with rfl | rfl <;> exact h
  exact ⟨.vcopy hM, .vcopy hT, ⟨hv, h0⟩, ⟨[], .vcopy hd, .refl _⟩, by simp, fun b hb => False.elim hb, by simp⟩

/-- A box can be moved into another object. -/
theorem C85_box_as_init (hw : 8 ≤ w) (hs : Sound W ρ m) {T : VarLen w} {p : Ptr} {v : V} (hm : Handle.box T p v ∈ W.objs) :
    ∃ l, T.calculateLayout (ρ.ptr p) m = .ok l m ∧ Placed ρ (VBox.init T p v l) (VBox.init T (ρ.ptr p) v l) ∧ Arg W T (VBox.init T p v l) [.box T p v] [] [] := by
  obtain ⟨hT, l, hb⟩ := (hs.reach.inv hw).ok _ hm
  have hM : Movable T := hs.types _ hm
  refine ⟨l, hT.lawful.calc_ok _ _ _ _ (hs.packed.valid hT.lawful hb.valid), .vbox hM (hs.box hw hm), .vbox hT, hb, ⟨T.drops v, .vbox (.user hT.lawful), by simp [Handle.drops]⟩, by simp [Handle.isBox], ?_, ?_⟩
  · rintro b rfl
    exact .inr ⟨_, List.mem_singleton_self _, rfl⟩
  · intro h hh _
    rw [List.mem_singleton.1 hh]
    rfl

/-- So can an object in an arena (where that code is right, see C17). -/
theorem C85_owned_as_init (hw : 8 ≤ w) (hs : Sound W ρ m) {T : VarLen w} {p : Ptr} {v : V} (hm : Handle.owned T p v ∈ W.objs) (h1 : T.headSize = 1) :
    ∃ l, T.calculateLayout (ρ.ptr p) m = .ok l m ∧ Placed ρ (Owned.init T p v l) (Owned.init T (ρ.ptr p) v l) ∧ Arg W T (Owned.init T p v l) [.owned T p v] [] [] := by
  obtain ⟨hT, ⟨l, hv⟩, h0⟩ := hs.exists hw hm (.inr rfl)
  have hM : Movable T := hs.types _ hm
  refine ⟨l, hT.lawful.calc_ok _ _ _ _ (hs.packed.valid hT.lawful hv), .owned hM, .owned hT h1, ⟨hv, h0⟩, ⟨T.drops v, .owned (.user hT.lawful), by simp [Handle.drops]⟩, by simp [Handle.isOwned], ?_, ?_⟩
  · intro b hb
    exact .inr ⟨_, List.mem_singleton_self _, hb.symm⟩
  · intro h hh hbox
    rw [List.mem_singleton.1 hh] at hbox
    cases hbox

/-! ## An example: two arrays in one chunk -/
namespace Demo
open Varlen.Demo

/-- The real memory: a chunk of 64 bytes. -/
def c1 : St := ⟨[⟨4096, 64, 8, true, fun _ => none⟩], [], 0⟩
def c2 : St := Varlen.Demo.after (newIn (some ⟨1, 0⟩) ArrT (arrInit [1, 2, 3])) c1
def c3 : St := Varlen.Demo.after (newIn (some ⟨1, 16⟩) ArrT (arrInit [4, 5])) c2
def c4 : St := Varlen.Demo.after (Owned.drop ArrT ⟨1, 0⟩) c3

theorem new_arr {W : World 64} {ρ : Place} {m : St} (hs : Sound W ρ m) (xs : List Nat) (hx : ∀ x ∈ xs, x < 2 ^ 32) (n : Nat) (hn : (arrInit xs).lay.map (·.size.toNat) = some n) {q : Ptr}
    (vac : Vacant 64 ρ m q n 4) (e : isOk (newIn (some q) ArrT (arrInit xs) m) = true) :
    ∃ W' ρ' p', Next W ρ W' ρ' (Varlen.Demo.after (newIn (some q) ArrT (arrInit xs)) m) ∧ W'.objs = .owned ArrT p' (arrInit xs).value :: W.objs ∧ ρ'.ptr p' = q ∧ Takes ρ ρ' (some (q, n)) ∧ Goes W W' (xs ++ []) false false := by
  have hv : ∀ l m1 q', (arrInit xs).cautious m = .ok (some l) m1 → some q = some q' → Vacant 64 ρ m1 q' l.size.toNat (ArrT).ALIGN.toNat := by
    intro l m1 q' h1 h2
    rw [(arrInit_lib xs).lib.2.calc_ok m trivial rfl] at h1
    injection h1 with h1 h3
    cases h2; subst h3
    rw [h1] at hn
    have : l.size.toNat = n := by simpa using hn
    rw [this]; exact vac
  have hI : Placed ρ (arrInit xs) (arrInit xs) := .sized .moveFrom
  rcases C85_new_in (by decide) hs (moved := []) (rest := W.objs) (.refl _) (arrInit_arg W xs hx) .array hI hv with ⟨q', m', p', W', ρ', h1, h2, h3, h4, h5, ⟨l, h6, h7⟩, h8⟩ | ⟨e', m', W', ρ', h1, _⟩
  · cases h2
    have hl : l.size.toNat = n := by rw [h6] at hn; simpa using hn
    rw [hl] at h7
    have h9 : Varlen.Demo.after (newIn (some q) ArrT (arrInit xs)) m = m' := by unfold Varlen.Demo.after; rw [h1]
    rw [h9]
    exact ⟨W', ρ', p', h3, h4, h5, h7, h8⟩
  · rw [h1] at e; cases e

theorem chunk_live {m : St} (h : (m.blk 1).map (fun B => (B.base, B.size, B.live)) = some (4096, 64, true)) : ∃ C, m.blk 1 = some C ∧ C.base = 4096 ∧ C.size = 64 ∧ C.live = true := by
  obtain ⟨C, h1, h2⟩ := Option.map_eq_some_iff.1 h
  injection h2 with h2 h3
  injection h3 with h3 h4
  exact ⟨C, h1, h2, h3, h4⟩

theorem vacant {ρ : Place} {m : St} (h : (m.blk 1).map (fun B => (B.base, B.size, B.live)) = some (4096, 64, true)) (hc : ρ.chunk 1) {o n : Nat} (ho : o % 4 = 0) (hn : o + n ≤ 64) (hr : Room ρ 1 o (o + n)) :
    Vacant 64 ρ m ⟨1, o⟩ n 4 := by
  obtain ⟨C, h1, h2, h3, h4⟩ := chunk_live h
  have ha : m.addr ⟨1, o⟩ = 4096 + o := by rw [addr_of_blk (p := ⟨1, o⟩) h1, h2]
  refine ⟨hc, ⟨C, h1, h4, by rw [h3]; exact hn⟩, ?_, by rw [ha]; omega, by rw [ha]; omega, hr⟩
  show m.addr ⟨1, o⟩ % 4 = 0
  rw [ha]; omega

theorem elsewhere1 (ρ : Place) (W : World 64) : Elsewhere W ρ st0 c1 [] where
  log := rfl
  blocks := fun c C h => by cases c <;> cases h
  apart := fun c c' C C' hne h h' => by
    match c, c' with
    | 0, _ => cases h
    | _, 0 => cases h'
    | 1, 1 => exact absurd rfl hne
    | 1, k + 2 => cases h'
    | k + 2, _ => cases h
  held := fun b B C C' _ _ _ h => by
    revert h
    cases (ρ.loc b).blk <;> (intro h; cases h)

/-- Two arrays in one chunk; the first is dropped, and the second is intact. -/
theorem two : ∃ (W : World 64) (ρ : Place) (p : Ptr), Sound W ρ c4 ∧ W.objs = [.owned ArrT p (elem [4, 5])] ∧ ρ.ptr p = ⟨1, 16⟩ ∧ RefTo ArrT c4 ⟨1, 16⟩ (elem [4, 5]) ∧ c4.log = [1, 2, 3] ∧
    ρ.chunk 1 ∧ Room ρ 1 28 64 ∧ W.made = [1, 2, 3, 4, 5] ∧ W.lost = false ∧ W.leak = false := by
  obtain ⟨ρ0, h0, _, _⟩ := C85_start (w := 64) st0 (fun c c' C C' _ h => by cases c <;> cases h) (fun _ => False) (fun _ f => f.elim)
  obtain ⟨W1, ρ1, h1, o1, k1, r1, _, g1⟩ := C85_new_chunk (by decide) h0 (elsewhere1 _ _ ) (c := 1) rfl (by decide)
  obtain ⟨W2, ρ2, p2, h2, o2, a2, t2, g2⟩ := new_arr h1.sound [1, 2, 3] (by decide) 16 (by decide +kernel) (q := ⟨1, 0⟩) (vacant (by decide +kernel) k1 (by decide) (by decide) (r1 _ _)) (by decide +kernel)
  obtain ⟨k2, r2⟩ := t2 1 k1
  have r2 := r2 16 64 (r1 _ _) (fun q n e _ => by cases e; exact .inr (by decide))
  obtain ⟨W3, ρ3, p3, h3, o3, a3, t3, g3⟩ := new_arr h2.sound [4, 5] (by decide) 12 (by decide +kernel) (q := ⟨1, 16⟩) (m := c2)
    (vacant (by decide +kernel) k2 (by decide) (by decide) (fun b n e1 e2 => (r2 b n e1 e2).imp (fun h => by omega) id)) (by decide +kernel)
  obtain ⟨k3, r3⟩ := t3 1 k2
  have r3 := r3 28 64 (fun b n e1 e2 => (r2 b n e1 e2).imp id fun h => by omega) (fun q n e _ => by cases e; exact .inr (by decide))
  have h2' : ρ3.ptr p2 = ⟨1, 0⟩ := by
    have hx := (h2.sound.exists (by decide) (h := .owned ArrT p2 (elem [1, 2, 3])) (by rw [o2]; exact List.mem_cons_self ..) (.inr rfl)).2.2
    unfold Place.ptr
    rw [(h3.stays _ hx).1]
    exact a2
  obtain ⟨m4, W4, e4, h4, o4, g4⟩ := C85_drop_owned (by decide) h3.sound (T := ArrT) (p := p2) (v := elem [1, 2, 3]) (rest := [.owned ArrT p3 (elem [4, 5])]) (by
    rw [o3, o2, o1]; exact .swap ..)
  rw [h2'] at e4
  have e5 : c4 = m4 := by
    show Varlen.Demo.after (Owned.drop ArrT ⟨1, 0⟩) c3 = m4
    have e4 : Owned.drop ArrT ⟨1, 0⟩ c3 = .ok () m4 := e4
    unfold Varlen.Demo.after; rw [e4]
  rw [← e5] at h4
  refine ⟨W4, ρ3, p3, h4.sound, o4, a3, ?_, by decide +kernel, k3, r3, by rw [g4.made, g3.made, g2.made, g1.made]; rfl, by rw [g4.lost, g3.lost, g2.lost, g1.lost]; rfl, by rw [g4.leak, g3.leak, g2.leak, g1.leak]; rfl⟩
  have := (C85_intact (by decide) h4.sound (p := p3) (T := ArrT) (v := elem [4, 5])).1 (by rw [o4]; exact List.mem_cons_self ..)
  rwa [a3] at this

/-- Then the second is dropped, too: every value has been destroyed exactly once. The arena is reset, and the next array is built where the first was. -/
def c5 : St := Varlen.Demo.after (Owned.drop ArrT ⟨1, 16⟩) c4
def c6 : St := Varlen.Demo.after (newIn (some ⟨1, 0⟩) ArrT (arrInit [6, 7, 8, 9])) c5

theorem reuse : ∃ (W : World 64) (ρ : Place) (p : Ptr), Sound W ρ c6 ∧ W.objs = [.owned ArrT p (elem [6, 7, 8, 9])] ∧ RefTo ArrT c6 ⟨1, 0⟩ (elem [6, 7, 8, 9]) ∧ c6.log = [1, 2, 3, 4, 5] := by
  obtain ⟨W, ρ, p, hs, o, a, _, _, hc, _, g1, g2, g3⟩ := two
  obtain ⟨m5, W5, e5, h5, o5, l5⟩ := C85_drop_owned (by decide) hs (T := ArrT) (p := p) (v := elem [4, 5]) (rest := []) (by rw [o])
  rw [a] at e5
  have e : c5 = m5 := by unfold c5 Varlen.Demo.after; rw [e5]
  rw [← e] at h5
  obtain ⟨W6, ρ6, h6, o6, t6, r6, _⟩ := C85_reset (by decide) h5.sound (by rw [l5.leak, g3]; rfl) hc (by rw [o5]; simp)
  obtain ⟨W7, ρ7, p7, h7, o7, a7, _⟩ := new_arr h6.sound [6, 7, 8, 9] (by decide) 20 (by decide +kernel) (q := ⟨1, 0⟩) (vacant (by decide +kernel) (t6 1 hc).1 (by decide) (by decide) (r6 _ _)) (by decide +kernel)
  refine ⟨W7, ρ7, p7, h7.sound, by rw [o7, o6, o5]; rfl, ?_, by decide +kernel⟩
  have := (C85_intact (by decide) h7.sound (p := p7) (T := ArrT) (v := elem [6, 7, 8, 9])).1 (by rw [o7]; exact List.mem_cons_self ..)
  rwa [show ρ7.ptr p7 = ⟨1, 0⟩ from a7] at this

end Demo

end Varlen.Arena
