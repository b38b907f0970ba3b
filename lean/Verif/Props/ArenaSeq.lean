import Verif.Props.Arena
/-!
# C85, continued: sequences whose contents come from objects in arenas

The storage of a sequence is from the global allocator; its elements may be built from objects in arenas (`push` of an `Owned`, of a copy of it, …), and a program holds sequences, boxes and objects in
arenas at the same time.
-/
namespace Varlen.Arena
variable {w : Nat} {W : World w} {ρ : Place} {m : St}

theorem Sound.stored (hs : Sound W ρ m) {chk : Bool} {T : VarLen w} {q : SeqS w} {h : List (BitVec w × V)} {t : Bool} (hh : Handle.seq chk T q h t ∈ W.objs) : Stored ρ q :=
  (hs.heap _ hh).resolve_left fun f => f

theorem Sound.storedD (hs : Sound W ρ m) {chk : Bool} {T : VarLen w} {q : SeqS w} {items : List (Ptr × V)} {it : Option (IterS w × List V)} (hh : Handle.drain chk T q items it ∈ W.objs) : Stored ρ q :=
  (hs.heap _ hh).resolve_left fun f => f

/-- `Seq::new`. -/
theorem C85_new_seq (hw : 8 ≤ w) (hs : Sound W ρ m) (chk : Bool) {T : VarLen w} (hT : LibType T) (hM : Movable T) :
    ∃ W' q', ρ.seq q' = Seq.new T ∧ q' = Seq.new T ∧ Next W ρ W' ρ m ∧ W'.objs = .seq chk T q' [] false :: W.objs ∧ Goes W W' [] false false :=
  ⟨_, Seq.new T, by
      show (⟨ρ.ptr ⟨0, T.headAlign⟩, 0, 0, 0⟩ : SeqS w) = ⟨⟨0, T.headAlign⟩, 0, 0, 0⟩
      unfold Place.ptr
      rw [show ρ.loc (⟨0, T.headAlign⟩ : Ptr).blk = ⟨0, 0⟩ from hs.packed.loc0]
      simp [Ptr.add], rfl,
    hs.next hw (Step.newSeq chk hT) hs.packed (agree_self _ _) (fun h hh => by
      rcases List.mem_cons.1 hh with rfl | hh
      · exact .inr ⟨.inr (.inl rfl), hM⟩
      · exact .inl hh), rfl, goes_of (by simp)⟩

/-- `push`: it does what it does in the ideal program. It returns, or panics; nothing else happens. -/
theorem C85_push (hw : 8 ≤ w) (hs : Sound W ρ m) (A : Allocator) {chk : Bool} {T : VarLen w} {q : SeqS w} {h : List (BitVec w × V)} {t : Bool} {I' I : Init w} {moved rest : List (Handle w)}
    {own mk : List Event} (hm : W.objs.Perm (.seq chk T q h t :: moved ++ rest)) (ha : Arg W T I' moved own mk) (hI : Placed ρ I' I) (hb : ¬ I'.fp q.ptr.blk)
    (hz : ∀ l, I'.lay = some l → 0 < l.size.toNat) :
    (∃ m' q' W' ρ', Seq.push A chk T I (m, ρ.seq q) = .ok () (m', ρ'.seq q') ∧ Next W ρ W' ρ' m' ∧ W'.objs = .seq chk T q' (h ++ [(Seq.offset q, I'.value)]) t :: rest ∧
      Takes ρ ρ' none ∧ Goes W W' (own ++ mk) false false) ∨
    (∃ e m' q' W' ρ', Seq.push A chk T I (m, ρ.seq q) = .panic e (m', ρ'.seq q') ∧ Next W ρ W' ρ' m' ∧ W'.objs = .seq chk T q' h t :: rest ∧ Takes ρ ρ' none ∧
      Goes W W' (own ++ if I'.val.isNone then mk else []) I'.val.isNone false) := by
  have hmem : Handle.seq chk T q h t ∈ W.objs := (hm.mem_iff).2 (List.mem_cons_self ..)
  have hM : Movable T := hs.types _ hmem
  have hrest : ∀ x ∈ rest, x ∈ W.objs := fun x hx => (hm.mem_iff).2 (List.mem_cons_of_mem _ (List.mem_append_right _ hx))
  obtain ⟨A', hE⟩ := push_sim A chk hs.packed ha.lib.lib.2 ha.usable hI (hs.stored hmem) (((hs.reach.inv hw).ok _ hmem).blk hw)
  have st := Step.push A' hm ha hb hz
  rcases step_push_cases hw (hs.reach.inv hw) A' hm ha hb hz with ⟨s', q', ⟨e, _⟩ | ⟨msg, e, _⟩⟩
  · rw [e] at hE st
    obtain ⟨m', ρ', e1, e2, e3, e4⟩ := hE
    refine .inl ⟨m', q', _, ρ', e1, hs.next hw st e2 e3.agree fun x hx => ?_, rfl, e3.takes, goes_of (by simp [World.used])⟩
    rcases List.mem_cons.1 hx with rfl | hx
    · exact .inr ⟨.inr e4, hM⟩
    · exact .inl (hrest x hx)
  · rw [e] at hE st
    obtain ⟨m', ρ', e1, e2, e3, e4⟩ := hE
    refine .inr ⟨msg, m', q', _, ρ', e1, hs.next hw st e2 e3.agree fun x hx => ?_, rfl, e3.takes, goes_of (by simp [World.used, World.unwound])⟩
    rcases List.mem_cons.1 hx with rfl | hx
    · exact .inr ⟨.inr e4, hM⟩
    · exact .inl (hrest x hx)

/-- `try_push`, likewise; instead of panicking it may return `false`. -/
theorem C85_try_push (hw : 8 ≤ w) (hs : Sound W ρ m) (A : Allocator) {chk : Bool} {T : VarLen w} {q : SeqS w} {h : List (BitVec w × V)} {t : Bool} {I' I : Init w} {moved rest : List (Handle w)}
    {own mk : List Event} (hm : W.objs.Perm (.seq chk T q h t :: moved ++ rest)) (ha : Arg W T I' moved own mk) (hI : Placed ρ I' I) (hb : ¬ I'.fp q.ptr.blk)
    (hz : ∀ l, I'.lay = some l → 0 < l.size.toNat) :
    (∃ m' q' W' ρ', Seq.tryPush A chk T I (m, ρ.seq q) = .ok true (m', ρ'.seq q') ∧ Next W ρ W' ρ' m' ∧ W'.objs = .seq chk T q' (h ++ [(Seq.offset q, I'.value)]) t :: rest ∧
      Takes ρ ρ' none ∧ Goes W W' (own ++ mk) false false) ∨
    (∃ m' q' W' ρ', (Seq.tryPush A chk T I (m, ρ.seq q) = .ok false (m', ρ'.seq q') ∨ ∃ e, Seq.tryPush A chk T I (m, ρ.seq q) = .panic e (m', ρ'.seq q')) ∧ Next W ρ W' ρ' m' ∧
      W'.objs = .seq chk T q' h t :: rest ∧ Takes ρ ρ' none ∧ Goes W W' (own ++ if I'.val.isNone then mk else []) I'.val.isNone false) := by
  have hmem : Handle.seq chk T q h t ∈ W.objs := (hm.mem_iff).2 (List.mem_cons_self ..)
  have hM : Movable T := hs.types _ hmem
  have hrest : ∀ x ∈ rest, x ∈ W.objs := fun x hx => (hm.mem_iff).2 (List.mem_cons_of_mem _ (List.mem_append_right _ hx))
  obtain ⟨A', hE⟩ := tryPush_sim A chk hs.packed ha.lib.lib.2 ha.usable hI (hs.stored hmem) (((hs.reach.inv hw).ok _ hmem).blk hw)
  have st := Step.tryPush A' hm ha hb hz
  have cases3 : ∃ s' q', Seq.tryPush A' chk T I' (W.st, q) = .ok true (s', q') ∨ Seq.tryPush A' chk T I' (W.st, q) = .ok false (s', q') ∨ ∃ e, Seq.tryPush A' chk T I' (W.st, q) = .panic e (s', q') := by
    rcases step_push_cases hw (hs.reach.inv hw) A' hm ha hb hz with ⟨s', q', ⟨e, _⟩ | ⟨msg, e, _⟩⟩
    · exact ⟨s', q', .inl (tryPush_of_push.1 e)⟩
    · exact ⟨s', q', (tryPush_of_push.2 _ e).imp id id |> .inr⟩
  obtain ⟨s', q', e | e | ⟨msg, e⟩⟩ := cases3
  · rw [e] at hE st
    obtain ⟨m', ρ', e1, e2, e3, e4⟩ := hE
    refine .inl ⟨m', q', _, ρ', e1, hs.next hw st e2 e3.agree fun x hx => ?_, rfl, e3.takes, goes_of (by simp [World.used])⟩
    rcases List.mem_cons.1 hx with rfl | hx
    · exact .inr ⟨.inr e4, hM⟩
    · exact .inl (hrest x hx)
  · rw [e] at hE st
    obtain ⟨m', ρ', e1, e2, e3, e4⟩ := hE
    refine .inr ⟨m', q', _, ρ', .inl e1, hs.next hw st e2 e3.agree fun x hx => ?_, rfl, e3.takes, goes_of (by simp [World.used, World.unwound])⟩
    rcases List.mem_cons.1 hx with rfl | hx
    · exact .inr ⟨.inr e4, hM⟩
    · exact .inl (hrest x hx)
  · rw [e] at hE st
    obtain ⟨m', ρ', e1, e2, e3, e4⟩ := hE
    refine .inr ⟨m', q', _, ρ', .inr ⟨msg, e1⟩, hs.next hw st e2 e3.agree fun x hx => ?_, rfl, e3.takes, goes_of (by simp [World.used, World.unwound])⟩
    rcases List.mem_cons.1 hx with rfl | hx
    · exact .inr ⟨.inr e4, hM⟩
    · exact .inl (hrest x hx)

/-- Dropping a sequence. -/
theorem C85_drop_seq (hw : 8 ≤ w) (hs : Sound W ρ m) {chk : Bool} {T : VarLen w} {q : SeqS w} {h : List (BitVec w × V)} {t : Bool} {rest : List (Handle w)} (hm : W.objs.Perm (.seq chk T q h t :: rest)) :
    ∃ m' q' W', Seq.drop chk T (m, ρ.seq q) = .ok () (m', ρ.seq q') ∧ Next W ρ W' ρ m' ∧ W'.objs = rest ∧ Goes W W' [] false false := by
  have hmem : Handle.seq chk T q h t ∈ W.objs := (hm.mem_iff).2 (List.mem_cons_self ..)
  have st := Step.dropSeq hm
  obtain ⟨hT, k, hh⟩ := (hs.reach.inv hw).ok _ hmem
  obtain ⟨es, i⟩ := hh.inv hT.lawful hw
  obtain ⟨s', q', e, _⟩ := Seq.drop_spec hT.lawful hw i.inv
  have h1 := (sim_seqDrop chk (T := T) (hs.types _ hmem).reloc).run _ _ _ hs.packed (hs.stored hmem)
  rw [e] at h1 st
  obtain ⟨_, m', f1, f2, _⟩ := h1
  exact ⟨m', q', _, f1, hs.next hw st f2 (agree_self _ _) fun x hx => .inl ((hm.mem_iff).2 (List.mem_cons_of_mem _ hx)), rfl, goes_of (by simp)⟩

/-- `take_elems`. -/
theorem C85_take_elems (hw : 8 ≤ w) (hs : Sound W ρ m) {chk : Bool} {T : VarLen w} {q : SeqS w} {h : List (BitVec w × V)} {t : Bool} {rest : List (Handle w)} (hm : W.objs.Perm (.seq chk T q h t :: rest)) :
    ∃ it m' q' W', Seq.takeElems chk T (m, ρ.seq q) = .ok (ρ.iter it) (m', ρ.seq q') ∧ Next W ρ W' ρ m' ∧ W'.objs = .drain chk T q' [] (some (it, h.map (·.2))) :: rest ∧ Goes W W' [] false false := by
  have hmem : Handle.seq chk T q h t ∈ W.objs := (hm.mem_iff).2 (List.mem_cons_self ..)
  have st := Step.takeElems hm
  have e := Seq.takeElems_spec (T := T) (chk := chk) hw W.st q
  have h1 := (sim_takeElems (ρ := ρ) chk T).run _ _ _ hs.packed (hs.stored hmem)
  rw [e] at h1 st
  obtain ⟨_, m', f1, f2, f3, rfl⟩ := h1
  refine ⟨_, m', _, _, f1, hs.next hw st f2 (agree_self _ _) fun x hx => ?_, rfl, goes_of (by simp)⟩
  rcases List.mem_cons.1 hx with rfl | hx
  · exact .inr ⟨.inr f3, (hs.types _ hmem : Movable T)⟩
  · exact .inl ((hm.mem_iff).2 (List.mem_cons_of_mem _ hx))

/-- `next` on the iterator of `take_elems`. -/
theorem C85_next_item (hw : 8 ≤ w) (hs : Sound W ρ m) {chk : Bool} {T : VarLen w} {q : SeqS w} {items : List (Ptr × V)} {it : IterS w} {vs : List V} {rest : List (Handle w)}
    (hm : W.objs.Perm (.drain chk T q items (some (it, vs)) :: rest)) :
    (vs = [] ∧ Iter.next T (ρ.iter it) m = .ok (none, ρ.iter it) m) ∨
    (∃ v vs' p it' m' W', vs = v :: vs' ∧ Iter.next T (ρ.iter it) m = .ok (some (ρ.ptr p), ρ.iter it') m' ∧ Next W ρ W' ρ m' ∧ W'.objs = .drain chk T q ((p, v) :: items) (some (it', vs')) :: rest ∧
      Goes W W' [] false false) := by
  have hmem : Handle.drain chk T q items (some (it, vs)) ∈ W.objs := (hm.mem_iff).2 (List.mem_cons_self ..)
  have st := Step.nextItem hm
  obtain ⟨hT, xs, ys, hd⟩ := (hs.reach.inv hw).ok _ hmem
  obtain ⟨rfl, cur, fin, hit, hfin⟩ := hd.iter it _ rfl
  have h1 := (sim_next (ρ := ρ) (T := T) (hs.types _ hmem).reloc it).run _ _ hs.packed
  cases ys with
  | nil =>
    left
    have hl := hit.len
    refine ⟨rfl, ?_⟩
    unfold Iter.next
    rw [if_neg (by show ¬ (ρ.iter it).len.toNat > 0; rw [show (ρ.iter it).len.toNat = 0 from hl]; omega)]; rfl
  | cons y ys =>
    obtain ⟨it', e, hit'⟩ := Iter.next_cons hT.lawful hw hit
    rw [e] at h1 st
    obtain ⟨_, m', f1, f2, rfl⟩ := h1
    refine .inr ⟨y.v, ys.map (·.v), y.at T q.ptr, it', m', _, rfl, f1, hs.next hw st f2 (agree_self _ _) fun x hx => ?_, rfl, goes_of (by simp)⟩
    rcases List.mem_cons.1 hx with rfl | hx
    · exact .inr ⟨.inr (hs.storedD hmem), (hs.types _ hmem : Movable T)⟩
    · exact .inl ((hm.mem_iff).2 (List.mem_cons_of_mem _ hx))

/-- Dropping an item. -/
theorem C85_drop_item (hw : 8 ≤ w) (hs : Sound W ρ m) {chk : Bool} {T : VarLen w} {q : SeqS w} {items items' : List (Ptr × V)} {it : Option (IterS w × List V)} {p : Ptr} {v : V} {rest : List (Handle w)}
    (hm : W.objs.Perm (.drain chk T q items it :: rest)) (hp : items.Perm ((p, v) :: items')) :
    ∃ m' W', Owned.drop T (ρ.ptr p) m = .ok () m' ∧ Next W ρ W' ρ m' ∧ W'.objs = .drain chk T q items' it :: rest ∧ Goes W W' [] false false := by
  have hmem : Handle.drain chk T q items it ∈ W.objs := (hm.mem_iff).2 (List.mem_cons_self ..)
  have st := Step.dropItem hm hp
  obtain ⟨hT, xs, ys, hd⟩ := (hs.reach.inv hw).ok _ hmem
  obtain ⟨x, xs', rfl, rfl, _, hperm⟩ := hd.pick hp
  obtain ⟨s', e, _⟩ := Owned.drop_spec hT.lawful (hd.valid x (hperm.mem_iff.2 (by simp)))
  have h1 := (sim_ownedDrop (T := T) (hs.types _ hmem).reloc (x.at T q.ptr)).run _ _ hs.packed
  rw [e] at h1 st
  obtain ⟨_, m', f1, f2, _⟩ := h1
  refine ⟨m', _, f1, hs.next hw st f2 (agree_self _ _) fun x hx => ?_, rfl, goes_of (by simp)⟩
  rcases List.mem_cons.1 hx with rfl | hx
  · exact .inr ⟨.inr (hs.storedD hmem), (hs.types _ hmem : Movable T)⟩
  · exact .inl ((hm.mem_iff).2 (List.mem_cons_of_mem _ hx))

/-- Dropping the iterator. -/
theorem C85_drop_iter (hw : 8 ≤ w) (hs : Sound W ρ m) {chk : Bool} {T : VarLen w} {q : SeqS w} {items : List (Ptr × V)} {it : IterS w} {vs : List V} {rest : List (Handle w)}
    (hm : W.objs.Perm (.drain chk T q items (some (it, vs)) :: rest)) :
    ∃ m' W', OwnedElems.drop T (ρ.iter it) m = .ok () m' ∧ Next W ρ W' ρ m' ∧ W'.objs = .drain chk T q items none :: rest ∧ Goes W W' [] false false := by
  have hmem : Handle.drain chk T q items (some (it, vs)) ∈ W.objs := (hm.mem_iff).2 (List.mem_cons_self ..)
  have st := Step.dropIter hm
  obtain ⟨hT, xs, ys, hd⟩ := (hs.reach.inv hw).ok _ hmem
  obtain ⟨rfl, cur, fin, hit, hfin⟩ := hd.iter it _ rfl
  obtain ⟨s', e, _⟩ := OwnedElems.drop_spec hT.lawful hw hit
  have h1 := (sim_dropIter (T := T) (hs.types _ hmem).reloc it).run _ _ hs.packed
  rw [e] at h1 st
  obtain ⟨_, m', f1, f2, _⟩ := h1
  refine ⟨m', _, f1, hs.next hw st f2 (agree_self _ _) fun x hx => ?_, rfl, goes_of (by simp)⟩
  rcases List.mem_cons.1 hx with rfl | hx
  · exact .inr ⟨.inr (hs.storedD hmem), (hs.types _ hmem : Movable T)⟩
  · exact .inl ((hm.mem_iff).2 (List.mem_cons_of_mem _ hx))

/-- `mem::forget` of an item, or of the iterator. -/
theorem C85_forget_item (hw : 8 ≤ w) (hs : Sound W ρ m) {chk : Bool} {T : VarLen w} {q : SeqS w} {items items' : List (Ptr × V)} {it : Option (IterS w × List V)} {p : Ptr} {v : V} {rest : List (Handle w)}
    (hm : W.objs.Perm (.drain chk T q items it :: rest)) (hp : items.Perm ((p, v) :: items')) :
    ∃ W', Next W ρ W' ρ m ∧ W'.objs = .drain chk T q items' it :: rest ∧ W'.made = W.made ∧ W'.leak = W.leak := by
  have hmem : Handle.drain chk T q items it ∈ W.objs := (hm.mem_iff).2 (List.mem_cons_self ..)
  refine ⟨_, hs.next hw (Step.forgetItem hm hp) hs.packed (agree_self _ _) fun x hx => ?_, rfl, rfl, rfl⟩
  rcases List.mem_cons.1 hx with rfl | hx
  · exact .inr ⟨.inr (hs.storedD hmem), (hs.types _ hmem : Movable T)⟩
  · exact .inl ((hm.mem_iff).2 (List.mem_cons_of_mem _ hx))

theorem C85_forget_iter (hw : 8 ≤ w) (hs : Sound W ρ m) {chk : Bool} {T : VarLen w} {q : SeqS w} {items : List (Ptr × V)} {it : IterS w} {vs : List V} {rest : List (Handle w)}
    (hm : W.objs.Perm (.drain chk T q items (some (it, vs)) :: rest)) :
    ∃ W', Next W ρ W' ρ m ∧ W'.objs = .drain chk T q items none :: rest ∧ W'.made = W.made ∧ W'.leak = W.leak := by
  have hmem : Handle.drain chk T q items (some (it, vs)) ∈ W.objs := (hm.mem_iff).2 (List.mem_cons_self ..)
  refine ⟨_, hs.next hw (Step.forgetIter hm) hs.packed (agree_self _ _) fun x hx => ?_, rfl, rfl, rfl⟩
  rcases List.mem_cons.1 hx with rfl | hx
  · exact .inr ⟨.inr (hs.storedD hmem), (hs.types _ hmem : Movable T)⟩
  · exact .inl ((hm.mem_iff).2 (List.mem_cons_of_mem _ hx))

/-- The borrow of `take_elems` ends. -/
theorem C85_end_drain (hw : 8 ≤ w) (hs : Sound W ρ m) {chk : Bool} {T : VarLen w} {q : SeqS w} {rest : List (Handle w)} (hm : W.objs.Perm (.drain chk T q [] none :: rest)) :
    ∃ W', Next W ρ W' ρ m ∧ W'.objs = .seq chk T q [] true :: rest ∧ Goes W W' [] false false := by
  have hmem : Handle.drain chk T q [] none ∈ W.objs := (hm.mem_iff).2 (List.mem_cons_self ..)
  refine ⟨_, hs.next hw (Step.endDrain hm) hs.packed (agree_self _ _) fun x hx => ?_, rfl, goes_of (by simp)⟩
  rcases List.mem_cons.1 hx with rfl | hx
  · exact .inr ⟨.inr (hs.storedD hmem), (hs.types _ hmem : Movable T)⟩
  · exact .inl ((hm.mem_iff).2 (List.mem_cons_of_mem _ hx))

/-- Modifying an element of a sequence through a mutable reference. -/
theorem C85_edit_elem (hw : 8 ≤ w) (hs : Sound W ρ m) {chk : Bool} {T : VarLen w} {q : SeqS w} {h1 h2 : List (BitVec w × V)} {t : Bool} {o : BitVec w} {p : Ptr} {v v' : V} {m1 m' : St}
    {ev fresh : List Event} {rest : List (Handle w)} (hm : W.objs.Perm (.seq chk T q (h1 ++ (o, v) :: h2) t :: rest)) (ho : Seq.fromOffsetUnchecked T (ρ.seq q) o m = .ok p m1)
    (he : Edit T m m' p v v' ev fresh) : ∃ W', Next W ρ W' ρ m' ∧ W'.objs = .seq chk T q (h1 ++ (o, v') :: h2) t :: rest ∧ Goes W W' fresh false false := by
  have hmem : Handle.seq chk T q (h1 ++ (o, v) :: h2) t ∈ W.objs := (hm.mem_iff).2 (List.mem_cons_self ..)
  obtain ⟨hT, k, hh⟩ := (hs.reach.inv hw).ok _ hmem
  have hM : Movable T := hs.types _ hmem
  obtain ⟨es, i⟩ := hh.inv hT.lawful hw
  have hin : (o, v) ∈ es.map Elem.entry := by rw [i.entries]; simp
  obtain ⟨e, hee, hoe⟩ := List.mem_map.1 hin
  cases hoe
  have e1 := Seq.fromOffsetUnchecked_spec hT.lawful i.inv hee (i.inv.elem_off hT.lawful hee).2.1
  have h3 := (sim_fromOffsetUnchecked (ρ := ρ) T q (BitVec.ofNat w e.off)).run _ _ hs.packed
  rw [e1] at h3
  obtain ⟨_, m2, f1, _, rfl⟩ := h3
  rw [f1] at ho
  injection ho with ho1 ho2
  subst ho1
  obtain ⟨s', g1, g2⟩ := hs.packed.edit hT.lawful hM.reloc (i.inv.valid e hee) he
  refine ⟨_, hs.next hw (Step.editElem hm e1 g1) g2 (agree_self _ _) fun x hx => ?_, rfl, goes_of (by simp)⟩
  rcases List.mem_cons.1 hx with rfl | hx
  · exact .inr ⟨.inr (hs.stored hmem), hM⟩
  · exact .inl ((hm.mem_iff).2 (List.mem_cons_of_mem _ hx))

/-- Modifying an item taken from a sequence. -/
theorem C85_edit_item (hw : 8 ≤ w) (hs : Sound W ρ m) {chk : Bool} {T : VarLen w} {q : SeqS w} {items items' : List (Ptr × V)} {it : Option (IterS w × List V)} {p : Ptr} {v v' : V} {m' : St}
    {ev fresh : List Event} {rest : List (Handle w)} (hm : W.objs.Perm (.drain chk T q items it :: rest)) (hp : items.Perm ((p, v) :: items')) (he : Edit T m m' (ρ.ptr p) v v' ev fresh) :
    ∃ W', Next W ρ W' ρ m' ∧ W'.objs = .drain chk T q ((p, v') :: items') it :: rest ∧ Goes W W' fresh false false := by
  have hmem : Handle.drain chk T q items it ∈ W.objs := (hm.mem_iff).2 (List.mem_cons_self ..)
  have hM : Movable T := hs.types _ hmem
  obtain ⟨hT, xs, ys, hd⟩ := (hs.reach.inv hw).ok _ hmem
  obtain ⟨x, xs', rfl, rfl, _, hperm⟩ := hd.pick hp
  obtain ⟨s', g1, g2⟩ := hs.packed.edit hT.lawful hM.reloc (hd.valid x (hperm.mem_iff.2 (by simp))) he
  refine ⟨_, hs.next hw (Step.editItem hm hp g1) g2 (agree_self _ _) fun x hx => ?_, rfl, goes_of (by simp)⟩
  rcases List.mem_cons.1 hx with rfl | hx
  · exact .inr ⟨.inr (hs.storedD hmem), hM⟩
  · exact .inl ((hm.mem_iff).2 (List.mem_cons_of_mem _ hx))

/-! ## The objects are intact where they really are -/

theorem Packed.owned (h : Packed ρ W.st m) {p : Ptr} {n a : Nat} (hh : ρ.heap p.blk) (ho : ownsAlloc W.st p n a) : ownsAlloc m (ρ.ptr p) n a := by
  obtain ⟨h0, B, h1, h2, h3, h4⟩ := ho
  obtain ⟨g1, ⟨C, g2, g3, g4⟩, _⟩ := h.heap _ B hh h1 h2
  exact ⟨by rw [ptr_off, g1, h0], C, g2, (h.live _ B C h1 h2 g2).1, g3.trans h3, g4.trans h4⟩

theorem Packed.bitAt {s : St} (h : Packed ρ s m) {p : Ptr} {n base i : Nat} (ha : Acc s p n) (hi : base + i / 8 < n) : bitAt m (ρ.ptr p) base i = bitAt s p base i := by
  unfold Varlen.bitAt
  rw [h.view ha hi]

theorem Packed.store (h : Packed ρ W.st m) {T : VarLen w} {chk : Bool} {q : SeqS w} (hq : Stored ρ q) (hs : Store T chk W.st q.ptr q.cap.toNat) : Store T chk m (ρ.ptr q.ptr) q.cap.toNat := by
  have hheap : q.cap.toNat ≠ 0 → ρ.heap q.ptr.blk := fun hc => hq.resolve_left fun e => by
    obtain ⟨_, B, h1, _⟩ := hs.owns hc
    rw [e] at h1; cases h1
  refine ⟨fun hc => h.owned (hheap hc) (hs.owns hc), fun hc => h.aligned.2 (hs.aligned hc), fun hc => by rw [h.addr_ptr]; exact hs.space hc, hs.fits, fun k hk => ?_⟩
  have hc : q.cap.toNat ≠ 0 := fun e => by
    rw [e] at hk
    unfold bitmaskBytes at hk
    split at hk <;> omega
  obtain ⟨h0, B, h1, h2, h3, _⟩ := hs.owns hc
  rw [h.view (n := storageSize chk T.ALIGN.toNat q.cap.toNat) (.inr ⟨B, h1, h2, by omega⟩) (by unfold storageSize; omega)]
  exact hs.bits k hk

theorem Packed.bits (h : Packed ρ W.st m) {T : VarLen w} {chk : Bool} {q : SeqS w} (hs : Store T chk W.st q.ptr q.cap.toNat) {i : Nat} (hi : i / 8 < bitmaskBytes chk q.cap.toNat) :
    Varlen.bitAt m (ρ.ptr q.ptr) (q.cap.toNat * T.ALIGN.toNat) i = Varlen.bitAt W.st q.ptr (q.cap.toNat * T.ALIGN.toNat) i := by
  have hc : q.cap.toNat ≠ 0 := fun e => by
    rw [e] at hi
    unfold bitmaskBytes at hi
    split at hi <;> omega
  obtain ⟨h0, B, h1, h2, h3, _⟩ := hs.owns hc
  exact h.bitAt (n := storageSize chk T.ALIGN.toNat q.cap.toNat) (.inr ⟨B, h1, h2, by omega⟩) (by unfold storageSize; omega)

theorem Packed.seqInv (h : Packed ρ W.st m) {T : VarLen w} (hT : Lawful T) {chk : Bool} {q : SeqS w} (hq : Stored ρ q) {es : List (Elem w)} (hs : SeqInv T chk W.st q es) : SeqInv T chk m (ρ.seq q) es where
  store := h.store hq hs.store
  dang := fun hc => by
    show ρ.ptr q.ptr = _
    rw [hs.dang hc]
    unfold Place.ptr
    rw [show ρ.loc (dangling T).blk = ⟨0, 0⟩ from h.loc0]
    simp [Ptr.add, dangling]
  len := hs.len
  packed := hs.packed
  le := hs.le
  valid := fun e he => by
    have := h.valid hT (hs.valid e he)
    rwa [ptr_add] at this
  marked := fun hc e he => by
    have h1 := hs.elem_off hT he
    have h2 := hs.le
    show Varlen.bitAt m (ρ.ptr q.ptr) (q.cap.toNat * T.ALIGN.toNat) e.off = true
    rw [h.bits hs.store (by subst hc; exact bit_div_lt (by omega))]
    exact hs.marked hc e he

theorem Packed.clean (h : Packed ρ W.st m) {T : VarLen w} {chk : Bool} {q : SeqS w} {es : List (Elem w)} (hs : Store T chk W.st q.ptr q.cap.toNat) (hc : Clean T chk W.st q es) : Clean T chk m (ρ.seq q) es := by
  intro i hi hb
  exact hc i hi (by rw [← h.bits hs hi]; exact hb)

theorem shows_of (hw : 8 ≤ w) {T : VarLen w} (hT : Lawful T) {b : Ptr} {it : IterS w} {cur fin : Nat} {es : List (Elem w)} (h : IterAt T m b it cur es fin) : IterShows T m it (es.map (·.v)) := by
  obtain ⟨it', cur', e1, e2⟩ := Iter.take_spec hT hw es.length h
  rw [List.drop_length] at e2
  refine ⟨_, it', by rw [List.length_map]; exact e1, Iter.next_nil e2, by simp, fun i p v hp hv => ?_⟩
  simp only [List.take_length, List.getElem?_map, Option.map_eq_some_iff] at hp hv
  obtain ⟨x, hx, rfl⟩ := hp
  obtain ⟨y, hy, rfl⟩ := hv
  rw [hx] at hy; cases hy
  exact ⟨_, h.valid x (List.mem_of_getElem? hx)⟩

theorem intact_seq (hw : 8 ≤ w) {T : VarLen w} (hT : Lawful T) {chk : Bool} {q : SeqS w} {t : Bool} {es : List (Elem w)} (hs : SeqInv T chk m q es) (hc : t = false → Clean T chk m q es) :
    (Handle.seq chk T q (es.map Elem.entry) t).Intact m := by
  have pick : ∀ o v, (o, v) ∈ es.map Elem.entry → ∃ e ∈ es, o = BitVec.ofNat w e.off ∧ v = e.v := fun o v hm => by
    obtain ⟨e, he, hoe⟩ := List.mem_map.1 hm
    cases hoe
    exact ⟨e, he, rfl, rfl⟩
  refine ⟨by rw [List.length_map]; exact hs.len, ?_, fun o v hm => ?_, fun hk o v hm => ?_, fun hk ht o hn => ?_⟩
  · have := shows_of hw hT (hs.iterAt hT)
    rwa [entries_snd]
  · obtain ⟨e, he, rfl, rfl⟩ := pick o v hm
    exact ⟨_, Seq.fromOffsetUnchecked_spec hT hs he (hs.elem_off hT he).2.1, _, hs.valid e he⟩
  · subst hk
    obtain ⟨e, he, rfl, rfl⟩ := pick o v hm
    have h1 := (hs.elem_off hT he).2.1
    refine ⟨_, ?_, _, hs.valid e he⟩
    simp only [Seq.fromOffset, bind_apply, Seq.isOffsetValid_elem hT hw hs he h1, Res.bind_ok, if_true]
    exact Seq.fromOffsetUnchecked_spec hT hs he h1
  · subst hk
    rcases Seq.fromOffset_spec hT hw hs (hc ht) o with ⟨e, he, ho, _, _⟩ | ⟨_, _, h1⟩
    · exact absurd (List.mem_map.2 ⟨e, he, by simp only [Elem.entry, ho, bv_ofNat_toNat]⟩) (hn e.v)
    · exact h1

/-- At any time every object (a box, a value in an arena, a sequence, a sequence being drained) is intact where it really is. -/
theorem C85_intact_all (hw : 8 ≤ w) (hs : Sound W ρ m) : ∀ h ∈ W.objs, (ρ.handle h).Intact m := by
  intro h hm
  cases h with
  | box T p v => exact (C85_intact hw hs).2 hm
  | owned T p v => exact (C85_intact hw hs).1 hm
  | seq chk T q h t =>
    obtain ⟨hT, k, hh⟩ := (hs.reach.inv hw).ok _ hm
    obtain ⟨es, i⟩ := hh.inv hT.lawful hw
    have h1 := intact_seq hw hT.lawful (t := t) (hs.packed.seqInv hT.lawful (hs.stored hm) i.inv) fun ht => hs.packed.clean i.inv.store (i.clean ht)
    rw [i.entries] at h1
    exact h1
  | drain chk T q items it =>
    obtain ⟨hT, xs, ys, hd⟩ := (hs.reach.inv hw).ok _ hm
    refine ⟨?_, fun x hx => ?_, fun it0 vs e => ?_⟩
    · obtain ⟨k, hh⟩ := hd.hist
      exact (C19_seq_is_list hT hw hh).1
    · rw [hd.items, List.map_map] at hx
      obtain ⟨e, he, rfl⟩ := List.mem_map.1 hx
      exact ⟨_, hs.packed.valid hT.lawful (hd.valid e (List.mem_append_left _ he))⟩
    · obtain ⟨⟨it1, vs1⟩, e1, e2⟩ := Option.map_eq_some_iff.1 e
      injection e2 with e2 e3
      subst e2 e3
      obtain ⟨rfl, cur, fin, hit, hfin⟩ := hd.iter it1 _ e1
      refine shows_of hw hT.lawful (b := ρ.ptr q.ptr) (cur := cur) (fin := fin) ⟨?_, hit.len, hit.packed, fun e he => ?_, hit.fits⟩
      · show ρ.ptr it1.ptr = _
        rw [hit.ptr, ptr_add]
      · have := hs.packed.valid hT.lawful (hit.valid e he)
        unfold Elem.at at this ⊢
        rwa [ptr_add] at this

/-- References and offsets, as in C20 and C32: `offset_of` inverts `from_offset_unchecked`, and panics for an address outside the occupied storage. -/
theorem C85_offset_of (hw : 8 ≤ w) (hs : Sound W ρ m) {chk : Bool} {T : VarLen w} {q : SeqS w} {h : List (BitVec w × V)} {t : Bool} (hm : Handle.seq chk T q h t ∈ W.objs) :
    (∀ o v, (o, v) ∈ h → ∃ p, Seq.fromOffsetUnchecked T (ρ.seq q) o m = .ok p m ∧ RefTo T m p v ∧ Seq.offsetOf T (ρ.seq q) p m = .ok o m) ∧
    (∀ p, m.addr p < 2 ^ w → m.addr p < m.addr (ρ.seq q).ptr ∨ m.addr (ρ.seq q).ptr + (Seq.offset (ρ.seq q)).toNat * T.ALIGN.toNat ≤ m.addr p →
      Seq.offsetOf T (ρ.seq q) p m = .panic .outOfBounds m) := by
  obtain ⟨hT, k, hh⟩ := (hs.reach.inv hw).ok _ hm
  obtain ⟨es, i⟩ := hh.inv hT.lawful hw
  have h1 := hs.packed.seqInv hT.lawful (hs.stored hm) i.inv
  refine ⟨fun o v hov => ?_, fun p hp hout => Seq.offsetOf_outside hT.lawful h1 hp hout⟩
  rw [← i.entries] at hov
  obtain ⟨e, he, hee⟩ := List.mem_map.1 hov
  cases hee
  exact ⟨_, Seq.fromOffsetUnchecked_spec hT.lawful h1 he (h1.elem_off hT.lawful he).2.1, ⟨_, h1.valid e he⟩, Seq.offsetOf_elem hT.lawful h1 he⟩

/-! ## An example: the object in the chunk is cloned into a sequence; then it is dropped, and then the sequence -/
namespace Demo
open Varlen.Demo

/-- A clone that is not the identity. -/
def plus10 : CloneFn := fun x => some (d4 (decLE x + 10))
theorem plus10_ok : plus10.Ok D4 := fun _ _ _ e => by cases e; exact d4_valid _
abbrev cloneArr : VClone 64 := Array.vcloneI 64 D4 lenU16 plus10

/-- `let x = arr.vclone(); seq.push(x);` -/
def cI : Init 64 := Varlen.Demo.result (arrInit []) (cloneArr.vclone ⟨1, 16⟩ (elem [4, 5])) c4
def d4' : St := Varlen.Demo.after (cloneArr.vclone ⟨1, 16⟩ (elem [4, 5])) c4
def dσ1 : St × SeqS 64 := Varlen.Demo.after (Seq.push alloc true ArrT cI) (d4', Seq.new ArrT)
/-- `drop(arr); drop(seq);` -/
def d2 : St := Varlen.Demo.after (Owned.drop ArrT ⟨1, 16⟩) dσ1.1
def dσ3 : St × SeqS 64 := Varlen.Demo.after (Seq.drop true ArrT) (d2, dσ1.2)

theorem cloned : ∃ (W : World 64) (ρ : Place) (p : Ptr) (q : SeqS 64), Sound W ρ dσ1.1 ∧ W.objs = [.seq true ArrT q [(0, elem [14, 15])] false, .owned ArrT p (elem [4, 5])] ∧ ρ.ptr p = ⟨1, 16⟩ ∧
    ρ.seq q = dσ1.2 ∧ W.made = [1, 2, 3, 4, 5, 14, 15] ∧ W.lost = false ∧ W.leak = false := by
  obtain ⟨W, ρ, p, hs, o, a, _, _, _, _, g1, g2, g3⟩ := two
  obtain ⟨_, _, h0⟩ := hs.exists (by decide) (h := .owned ArrT p (elem [4, 5])) (by rw [o]; exact List.mem_cons_self ..) (.inr rfl)
  obtain ⟨W1, q, e1, hq, n1, o1, l1⟩ := C85_new_seq (by decide) hs true ArrT_lib .array
  rw [o] at o1
  obtain ⟨_, _, h0⟩ := n1.sound.exists (by decide) (h := .owned ArrT p (elem [4, 5])) (by rw [o1]; exact List.mem_cons_of_mem _ (List.mem_cons_self ..)) (.inr rfl)
  obtain ⟨I', I, m', f1, f2, f3, f4, f5, f6, f7⟩ := C85_vclone (by decide) n1.sound (h := .owned ArrT p (elem [4, 5])) (by rw [o1]; exact List.mem_cons_of_mem _ (List.mem_cons_self ..)) (.inr rfl)
    (C := cloneArr) .array (.array D4_ok lenU16_ok plus10_ok) (made := [14, 15]) (fun v' e => by
      have e : some (elem [14, 15]) = some v' := e
      cases e
      have h : Destroys ArrT (.arr ([14, 15].map d4)) ((([14, 15] : List Nat).map d4).map D4.dtor).flatten := .array
      rw [dtors _ (by decide)] at h
      exact h)
  rw [a] at f1 f7
  have eI : cI = I := by unfold cI Varlen.Demo.result; rw [f1]
  have em : d4' = m' := by unfold d4' Varlen.Demo.after; rw [f1]
  rw [← eI] at f2
  rw [← em] at f3
  have hl : (okOf (ArrT.calculateLayout ⟨1, 16⟩ c4)).bind (fun r => arrLay r.1) = some (4, 2, 12) := by decide +kernel
  have hz : ∀ l, I'.lay = some l → 0 < l.size.toNat := by
    intro l h
    obtain ⟨l', _, h1, _⟩ := C85_look (by decide) hs (h := .owned ArrT p (elem [4, 5])) (by rw [o]; exact List.mem_cons_self ..) (.inr rfl)
    rw [a] at h1
    rw [f7 l' h1] at h
    injection h with h
    subst h
    rw [h1] at hl
    have hl : arrLay l' = some (4, 2, 12) := hl
    have := arrLay_eq hl
    subst this
    decide
  rcases C85_push (by decide) f3 alloc (chk := true) (T := ArrT) (q := q) (h := []) (t := false) (moved := []) (rest := [.owned ArrT p (elem [4, 5])]) (by rw [o1]; exact .refl _) f4 f2 (fun hb => by
      have := f6 _ hb
      rw [hq] at this
      exact h0 (by rw [← this]; rfl)) hz with ⟨m2, q2, W2, ρ2, r1, r2, r3, r4, r5⟩ | ⟨e, m2, q2, W2, ρ2, r1, _⟩
  · rw [e1] at r1
    have r1' : Seq.push alloc true ArrT cI (d4', Seq.new ArrT) = .ok () (m2, ρ2.seq q2) := r1
    have e2 : dσ1 = (m2, ρ2.seq q2) := by unfold dσ1 Varlen.Demo.after; rw [r1']
    rw [e2]
    refine ⟨W2, ρ2, p, q2, r2.sound, ?_, ?_, rfl, by rw [r5.made, l1.made, g1]; rfl, by rw [r5.lost, l1.lost, g2]; rfl, by rw [r5.leak, l1.leak, g3]; rfl⟩
    · rw [r3, hq, show I'.value = elem [14, 15] by unfold Init.value; rw [f5]; rfl]
      rfl
    · unfold Place.ptr
      rw [(r2.stays _ h0).1]
      exact a
  · rw [e1] at r1
    have : isOk (Seq.push alloc true ArrT cI (d4', Seq.new ArrT)) = true := by decide +kernel
    rw [show Seq.push alloc true ArrT cI (d4', Seq.new ArrT) = _ from r1] at this
    cases this

/-- The clone is intact in the sequence, the original in the arena; when both have been dropped, all the values have been destroyed exactly once. -/
theorem clone_ends : (Handle.seq true ArrT dσ1.2 [(0, elem [14, 15])] false).Intact dσ1.1 ∧ RefTo ArrT dσ1.1 ⟨1, 16⟩ (elem [4, 5]) ∧ dσ3.1.log = [1, 2, 3, 4, 5, 14, 15] := by
  obtain ⟨W, ρ, p, q, hs, o, a, e, g1, g2, g3⟩ := cloned
  have hi := C85_intact_all (by decide) hs
  rw [o] at hi
  have h1 := hi _ (List.mem_cons_self ..)
  have h2 := hi _ (List.mem_cons_of_mem _ (List.mem_cons_self ..))
  have h1 : (Handle.seq true ArrT (ρ.seq q) [(0, elem [14, 15])] false).Intact dσ1.1 := h1
  have h2 : RefTo ArrT dσ1.1 (ρ.ptr p) (elem [4, 5]) := h2
  rw [e] at h1
  rw [a] at h2
  obtain ⟨m2, W2, e2, n2, o2, l2⟩ := C85_drop_owned (by decide) hs (T := ArrT) (p := p) (v := elem [4, 5]) (rest := [.seq true ArrT q [(0, elem [14, 15])] false]) (by rw [o]; exact .swap ..)
  rw [a] at e2
  have e2' : d2 = m2 := by unfold d2 Varlen.Demo.after; rw [e2]
  obtain ⟨m3, q3, W3, e3, n3, o3, l3⟩ := C85_drop_seq (by decide) n2.sound (chk := true) (T := ArrT) (q := q) (h := [(0, elem [14, 15])]) (t := false) (rest := []) (by rw [o2])
  rw [← e2', e] at e3
  have e3' : dσ3 = (m3, ρ.seq q3) := by unfold dσ3 Varlen.Demo.after; rw [e3]
  refine ⟨h1, h2, ?_⟩
  decide +kernel

-- `C85_disjoint` is about these two, among others; both occupy memory
example : ∃ (W : World 64) (ρ : Place) (a b : Handle 64) (p p' : Ptr) (n n' : Nat), Sound W ρ dσ1.1 ∧ W.objs.map ρ.handle = [a, b] ∧ Covers dσ1.1 a p n ∧ Covers dσ1.1 b p' n' ∧ 0 < n ∧ 0 < n' := by
  obtain ⟨W, ρ, p, q, hs, o, a, e, _⟩ := cloned
  obtain ⟨l, _, _, hv⟩ := C85_look (by decide) hs (h := .owned ArrT p (elem [4, 5])) (by rw [o]; exact List.mem_cons_of_mem _ (List.mem_cons_self ..)) (.inr rfl)
  have hl := ArrT_lib.lawful.calc_ok _ _ _ _ hv
  rw [a] at hl
  have h1 : (okOf (ArrT.calculateLayout ⟨1, 16⟩ dσ1.1)).bind (fun r => arrLay r.1) = some (4, 2, 12) := by decide +kernel
  rw [hl] at h1
  have h1 : arrLay l = some (4, 2, 12) := h1
  have := arrLay_eq h1
  subst this
  have hcap : dσ1.2.cap.toNat ≠ 0 := by decide +kernel
  rw [← e] at hcap
  have hA : 0 < (ArrT).ALIGN.toNat := by decide
  refine ⟨W, ρ, _, _, _, _, _, _, hs, by rw [o]; rfl, .seq (chk := true) (q := ρ.seq q), .owned hv, ?_, by decide⟩
  have := Nat.mul_pos (Nat.pos_of_ne_zero hcap) hA
  omega

end Demo

end Varlen.Arena
