import Verif.Proofs.ArenaSteps
/-!
# Proofs: sequences in packed memory
-/
namespace Varlen.Arena
variable {w : Nat} {ρ : Place} {s m : St}

theorem sim_ptrCopy (src dst : Ptr) (a n : Nat) : Sim ρ (· = ·) (ptrCopy src dst a n) (ptrCopy (ρ.ptr src) (ρ.ptr dst) a n) :=
  (sim_checkAlign src a).bindEq fun _ => (sim_checkAlign dst a).bindEq fun _ => (sim_readBytes src n).bindEq fun _ => sim_writeBytes dst _

theorem sim_fillZero (p : Ptr) (n : Nat) : Sim ρ (· = ·) (fillZero p n) (fillZero (ρ.ptr p) n) := sim_writeBytes p _

theorem sim_exclusiveRef (p : Ptr) (a n b k : Nat) : Sim ρ (· = ·) (exclusiveRef (p.add a) n (p.add b) k) (exclusiveRef ((ρ.ptr p).add a) n ((ρ.ptr p).add b) k) := by
  have h : exclusiveRef ((ρ.ptr p).add a) n ((ρ.ptr p).add b) k = exclusiveRef (p.add a) n (p.add b) k := by
    unfold exclusiveRef
    have : (n ≠ 0 ∧ k ≠ 0 ∧ ((ρ.ptr p).add a).blk = ((ρ.ptr p).add b).blk ∧ ((ρ.ptr p).add a).off < ((ρ.ptr p).add b).off + k ∧ ((ρ.ptr p).add b).off < ((ρ.ptr p).add a).off + n) ↔
        (n ≠ 0 ∧ k ≠ 0 ∧ (p.add a).blk = (p.add b).blk ∧ (p.add a).off < (p.add b).off + k ∧ (p.add b).off < (p.add a).off + n) := by
      have e1 : ∀ x : Nat, ((ρ.ptr p).add x).off = (ρ.loc p.blk).off + (p.add x).off := fun x => by rw [← ptr_add]; rfl
      rw [e1, e1]
      exact and_congr_right fun _ => and_congr_right fun _ => ⟨fun h => ⟨rfl, by omega, by omega⟩, fun h => ⟨rfl, by omega, by omega⟩⟩
    by_cases hc : n ≠ 0 ∧ k ≠ 0 ∧ (p.add a).blk = (p.add b).blk ∧ (p.add a).off < (p.add b).off + k ∧ (p.add b).off < (p.add a).off + n
    · rw [if_pos hc, if_pos (this.2 hc)]
    · rw [if_neg hc, if_neg fun h => hc (this.1 h)]
  rw [h]
  unfold exclusiveRef
  exact .ite (fun _ => .ub _ _) fun _ => .pure rfl

theorem sim_addBitmask (size align : BitVec w) : Sim ρ (· = ·) (addBitmask size align) (addBitmask size align) := by
  unfold addBitmask
  refine .ite (fun _ => .panic _) fun _ => ?_
  cases checkedAdd (size / align) 7 with
  | none => exact .pure rfl
  | some x => exact .ite (fun _ => .pure rfl) fun _ => .pure rfl

theorem sim_extendedSize (chk : Bool) (size align : BitVec w) : Sim ρ (· = ·) (extendedSize chk size align) (extendedSize chk size align) := by
  unfold extendedSize
  refine .ite (fun _ => (sim_addBitmask size align).bindEq fun r => ?_) fun _ => .pure rfl
  cases r with
  | none => exact .panic _
  | some a => exact .pure rfl

theorem sim_markOffsetValid (chk : Bool) (align : BitVec w) (p : Ptr) (cap offset : BitVec w) : Sim ρ (· = ·) (markOffsetValid chk align p cap offset) (markOffsetValid chk align (ρ.ptr p) cap offset) := by
  unfold markOffsetValid
  refine .ite (fun _ => ?_) fun _ => .pure rfl
  dsimp only
  rw [← ptr_add]
  refine (sim_readVal u8Ty _).bindEq fun a => ?_
  match a with
  | [some b] => exact sim_writeBytes _ _
  | [] => exact .ub _ _
  | [none] => exact .ub _ _
  | some _ :: _ :: _ => exact .ub _ _
  | none :: _ :: _ => exact .ub _ _

theorem sim_clearBitmasks (chk : Bool) (align : BitVec w) (p : Ptr) (cap occ : BitVec w) : Sim ρ (· = ·) (clearBitmasks chk align p cap occ) (clearBitmasks chk align (ρ.ptr p) cap occ) := by
  unfold clearBitmasks
  rw [← ptr_add]
  exact .ite (fun _ => sim_fillZero _ _) fun _ => .pure rfl

/-! ## Iterators -/

theorem sim_next {T : VarLen w} (hT : Reloc T) (it : IterS w) :
    Sim ρ (fun a' a => a = (a'.1.map ρ.ptr, ρ.iter a'.2)) (Iter.next T it) (Iter.next T (ρ.iter it)) := by
  unfold Iter.next
  refine .ite (fun _ => (sim_derefBox T it.ptr).bind fun t' t e => ?_) fun _ => .pure rfl
  rw [e.1, e.2]
  exact (hT.calculateLayout ρ it.ptr).bindEq fun l => .pure (by simp [Place.iter])

theorem sim_take {T : VarLen w} (hT : Reloc T) (k : Nat) (it : IterS w) :
    Sim ρ (fun a' a => a = (a'.1.map ρ.ptr, ρ.iter a'.2)) (Iter.take T k it) (Iter.take T k (ρ.iter it)) := by
  induction k generalizing it with
  | zero => exact .pure rfl
  | succ k ih =>
    unfold Iter.take
    refine (sim_next hT it).bind fun a' a e => ?_
    subst e
    obtain ⟨o, it'⟩ := a'
    cases o with
    | none => exact .pure rfl
    | some t => exact (ih it').bind fun a' a e => by subst e; exact .pure rfl

theorem sim_dropLoop {T : VarLen w} (hT : Reloc T) (k : Nat) (it : IterS w) : Sim ρ (· = ·) (OwnedElems.dropLoop T k it) (OwnedElems.dropLoop T k (ρ.iter it)) := by
  induction k generalizing it with
  | zero => exact .ub _ _
  | succ k ih =>
    unfold OwnedElems.dropLoop
    refine (sim_next hT it).bind fun a' a e => ?_
    subst e
    obtain ⟨o, it'⟩ := a'
    cases o with
    | none => exact .pure rfl
    | some t => exact (sim_ownedDrop hT t).bindEq fun _ => ih it'

theorem sim_dropIter {T : VarLen w} (hT : Reloc T) (it : IterS w) : Sim ρ (· = ·) (OwnedElems.drop T it) (OwnedElems.drop T (ρ.iter it)) :=
  .ite (fun _ => sim_dropLoop hT _ it) fun _ => .pure rfl

/-! ## Looking at a sequence -/

theorem sim_offsetOf (T : VarLen w) (q : SeqS w) (p : Ptr) : Sim ρ (· = ·) (Seq.offsetOf T q p) (Seq.offsetOf T (ρ.seq q) (ρ.ptr p)) := by
  refine ⟨fun s m h => ?_⟩
  unfold Seq.offsetOf
  rw [h.addr_ptr, show (ρ.seq q).ptr = ρ.ptr q.ptr from rfl, h.addr_ptr]
  by_cases hc : ((BitVec.ofNat w (s.addr p) - BitVec.ofNat w (s.addr q.ptr)) / T.ALIGN).toNat ≥ q.occ.toNat
  · rw [show ∀ x y : Res St (BitVec w), (if ((BitVec.ofNat w (s.addr p) - BitVec.ofNat w (s.addr q.ptr)) / T.ALIGN).toNat ≥ q.occ.toNat then x else y) = x from fun _ _ => if_pos hc]
    exact ⟨m, if_pos hc, h⟩
  · rw [show ∀ x y : Res St (BitVec w), (if ((BitVec.ofNat w (s.addr p) - BitVec.ofNat w (s.addr q.ptr)) / T.ALIGN).toNat ≥ q.occ.toNat then x else y) = y from fun _ _ => if_neg hc]
    exact ⟨_, m, if_neg hc, h, rfl⟩

theorem sim_fromOffsetUnchecked (T : VarLen w) (q : SeqS w) (o : BitVec w) : Sim ρ (fun a' a => a = ρ.ptr a') (Seq.fromOffsetUnchecked T q o) (Seq.fromOffsetUnchecked T (ρ.seq q) o) := by
  unfold Seq.fromOffsetUnchecked
  rw [show (ρ.seq q).ptr = ρ.ptr q.ptr from rfl, ← ptr_add]
  exact ⟨fun s m h => by
    have h1 := (sim_derefBox (ρ := ρ) T (q.ptr.add (o * T.ALIGN).toNat)).run s m h
    revert h1
    cases derefBox T (q.ptr.add (o * T.ALIGN).toNat) s with
    | ub k => exact fun _ => trivial
    | ok a s1 => rintro ⟨b, m1, e, hp, e1, e2⟩; exact ⟨b, m1, e, hp, by rw [e1, e2]⟩
    | panic e s1 => exact id⟩

theorem sim_isOffsetValid (T : VarLen w) (q : SeqS w) (o : BitVec w) : Sim ρ (· = ·) (Seq.isOffsetValid T q o) (Seq.isOffsetValid T (ρ.seq q) o) := by
  unfold Seq.isOffsetValid
  refine .ite (fun _ => .pure rfl) fun _ => ?_
  rw [show (ρ.seq q).ptr = ρ.ptr q.ptr from rfl, ← ptr_add]
  refine (sim_readVal u8Ty _).bindEq fun a => ?_
  match a with
  | [some b] => exact .pure rfl
  | [] => exact .ub _ _
  | [none] => exact .ub _ _
  | some _ :: _ :: _ => exact .ub _ _
  | none :: _ :: _ => exact .ub _ _

theorem sim_fromOffset (T : VarLen w) (q : SeqS w) (o : BitVec w) : Sim ρ (fun a' a => a = ρ.ptr a') (Seq.fromOffset T q o) (Seq.fromOffset T (ρ.seq q) o) := by
  unfold Seq.fromOffset
  exact (sim_isOffsetValid T q o).bindEq fun _ => .ite (fun _ => sim_fromOffsetUnchecked T q o) fun _ => .panic _

/-! ## Dropping and draining a sequence -/

/-- The storage of the sequence, if it has any, is from the global allocator. -/
def Stored (ρ : Place) (q : SeqS w) : Prop := q.ptr.blk = 0 ∨ ρ.heap q.ptr.blk

/-- As `SimRes`, for operations on a sequence. -/
def SimResQ {α' α : Type} (ρ : Place) (R : α' → α → Prop) (r' : Res (St × SeqS w) α') (r : Res (St × SeqS w) α) : Prop :=
  match r' with
  | .ub _ => True
  | .ok a' (s, q) => ∃ a m, r = .ok a (m, ρ.seq q) ∧ Packed ρ s m ∧ Stored ρ q ∧ R a' a
  | .panic e (s, q) => ∃ m, r = .panic e (m, ρ.seq q) ∧ Packed ρ s m ∧ Stored ρ q

/-- As `Sim`, for operations on a sequence. -/
structure SimQ {α' α : Type} (ρ : Place) (R : α' → α → Prop) (x' : MQ w α') (x : MQ w α) : Prop where
  run : ∀ s m q, Packed ρ s m → Stored ρ q → SimResQ ρ R (x' (s, q)) (x (m, ρ.seq q))

section
variable {α' α β' β : Type} {R : α' → α → Prop} {Q : β' → β → Prop}

theorem SimResQ.bind {r' : Res (St × SeqS w) α'} {r : Res (St × SeqS w) α} {f' : α' → MQ w β'} {f : α → MQ w β} (h : SimResQ ρ R r' r) (hf : ∀ a' a, R a' a → SimQ ρ Q (f' a') (f a)) : SimResQ ρ Q (r'.bind f') (r.bind f) := by
  cases r' with
  | ub k => trivial
  | ok a' σ => obtain ⟨s, q⟩ := σ; obtain ⟨a, m, rfl, h1, h2, h3⟩ := h; exact (hf a' a h3).run s m q h1 h2
  | panic e σ => obtain ⟨s, q⟩ := σ; obtain ⟨m, rfl, h1⟩ := h; exact ⟨m, rfl, h1⟩

theorem SimQ.bind {x' : MQ w α'} {x : MQ w α} {f' : α' → MQ w β'} {f : α → MQ w β} (h : SimQ ρ R x' x) (hf : ∀ a' a, R a' a → SimQ ρ Q (f' a') (f a)) : SimQ ρ Q (x' >>= f') (x >>= f) :=
  ⟨fun s m q hp hq => (h.run s m q hp hq).bind hf⟩

theorem SimQ.pure {a' : α'} {a : α} (h : R a' a) : SimQ (w := w) ρ R (Pure.pure a' : MQ w α') (Pure.pure a : MQ w α) := ⟨fun _ m _ hp hq => ⟨a, m, rfl, hp, hq, h⟩⟩

theorem SimQ.ite {c : Prop} [Decidable c] {x' y' : MQ w α'} {x y : MQ w α} (h1 : c → SimQ ρ R x' x) (h2 : ¬ c → SimQ ρ R y' y) : SimQ ρ R (if c then x' else y') (if c then x else y) := by
  split
  · next h => exact h1 h
  · next h => exact h2 h

theorem Sim.lift {x' : M α'} {x : M α} (h : Sim ρ R x' x) : SimQ (w := w) ρ R (liftQ x') (liftQ x) := by
  refine ⟨fun s m q hp hq => ?_⟩
  have h1 := h.run s m hp
  simp only [liftQ]
  revert h1
  cases hx : x' s with
  | ub k => exact fun _ => trivial
  | ok a s1 => rintro ⟨b, m1, e, h2, h3⟩; simp only [e]; exact ⟨b, m1, rfl, h2, hq, h3⟩
  | panic e s1 => rintro ⟨m1, e1, h2⟩; simp only [e1]; exact ⟨m1, rfl, h2, hq⟩
end

theorem sim_getQ : SimQ (w := w) ρ (fun q' q => Stored ρ q' ∧ q = ρ.seq q') getQ getQ := ⟨fun _ m q h hq => ⟨ρ.seq q, m, rfl, h, hq, hq, rfl⟩⟩
theorem sim_putQ {q : SeqS w} (hq : Stored ρ q) : SimQ (w := w) ρ (· = ·) (putQ q) (putQ (ρ.seq q)) := ⟨fun _ m _ h _ => ⟨_, m, rfl, h, hq, rfl⟩⟩

theorem sim_takeElems (chk : Bool) (T : VarLen w) : SimQ ρ (fun a' a => a = ρ.iter a') (Seq.takeElems chk T) (Seq.takeElems chk T) := by
  unfold Seq.takeElems
  refine sim_getQ.bind fun q' q e => ?_
  rw [e.2]
  refine (sim_putQ (q := { q' with len := 0 }) e.1).bind fun _ _ _ => sim_getQ.bind fun q1' q1 e => ?_
  rw [e.2]
  refine (sim_putQ (q := { q1' with occ := 0 }) e.1).bind fun _ _ _ => sim_getQ.bind fun q2' q2 e => ?_
  rw [e.2]
  exact (sim_clearBitmasks chk T.ALIGN _ _ _).lift.bind fun _ _ _ => .pure rfl

theorem sim_dealloc0 {p : Ptr} (hh : p.blk = 0 ∨ ρ.heap p.blk) (n a : Nat) : Sim ρ (· = ·) (deallocM p n a) (deallocM (ρ.ptr p) n a) := by
  rcases hh with h0 | hh
  · refine ⟨fun s m h => ?_⟩
    unfold deallocM
    rw [if_neg]
    · trivial
    · rintro ⟨_, B, h1, _⟩
      rw [h0] at h1; cases h1
  · exact sim_dealloc hh n a

theorem sim_seqDrop (chk : Bool) {T : VarLen w} (hT : Reloc T) : SimQ ρ (· = ·) (Seq.drop chk T) (Seq.drop chk T) := by
  unfold Seq.drop
  refine sim_getQ.bind fun q' q e => ?_
  rw [e.2]
  refine .ite (fun _ => .pure rfl) fun _ => (sim_takeElems chk T).bind fun it' it e => ?_
  rw [e]
  refine (sim_dropIter hT it').lift.bind fun _ _ _ => sim_getQ.bind fun q' q e => ?_
  rw [e.2]
  refine (sim_layoutUnchecked _ _).lift.bind fun _ _ _ => (sim_extendedSize chk _ _).lift.bind fun _ _ e1 => ?_
  rw [e1]
  exact (sim_dealloc0 e.1 _ _).lift

/-! ## Growing -/

/-- Another place, where everything is as before; there may be new allocations, but not in the chunks. -/
structure Grows (ρ : Place) (s : St) (ρ' : Place) : Prop where
  agree : ρ.Agree ρ' (fun b => s.blk b ≠ none)
  takes : Takes ρ ρ' none

theorem Grows.self (ρ : Place) (s : St) : Grows ρ s ρ := ⟨fun _ _ => ⟨rfl, .rfl⟩, takes_self _ _⟩

/-- How an operation ends that may allocate. `s` is the state at its start. -/
def EndsM {α' α : Type} (ρ : Place) (s : St) (R : Place → α' → α → Prop) (r' : Res St α') (r : Res St α) : Prop :=
  match r' with
  | .ub _ => True
  | .ok a' s' => ∃ a m' ρ', r = .ok a m' ∧ Packed ρ' s' m' ∧ Grows ρ s ρ' ∧ R ρ' a' a
  | .panic e s' => ∃ m' ρ', r = .panic e m' ∧ Packed ρ' s' m' ∧ Grows ρ s ρ'

section
variable {α' α β' β : Type} {R : Place → α' → α → Prop} {Q : Place → β' → β → Prop} {R0 : α' → α → Prop} {s0 : St}

theorem EndsM.bind {r' : Res St α'} {r : Res St α} {f' : α' → M β'} {f : α → M β} (h : EndsM ρ s R r' r) (hf : ∀ ρ' a' a, Grows ρ s ρ' → R ρ' a' a → Sim ρ' (Q ρ') (f' a') (f a)) :
    EndsM ρ s Q (r'.bind f') (r.bind f) := by
  cases r' with
  | ub k => trivial
  | panic e s' => obtain ⟨m', ρ', rfl, h1, h2⟩ := h; exact ⟨m', ρ', rfl, h1, h2⟩
  | ok a' s' =>
    obtain ⟨a, m', ρ', rfl, h1, h2, h3⟩ := h
    have h4 := (hf ρ' a' a h2 h3).run s' m' h1
    rw [Res.bind_ok, Res.bind_ok]
    revert h4
    cases f' a' s' with
    | ub k => exact fun _ => trivial
    | ok b' s'' => rintro ⟨b, m'', e1, e2, e3⟩; exact ⟨b, m'', ρ', e1, e2, h2, e3⟩
    | panic e s'' => rintro ⟨m'', e1, e2⟩; exact ⟨m'', ρ', e1, e2, h2⟩

theorem EndsM.of_sim {x' : M α'} {x : M α} (h : Packed ρ s m) (hx : Sim ρ R0 x' x) (hR : ∀ a' a, R0 a' a → R ρ a' a) : EndsM ρ s0 R (x' s) (x m) := by
  have h1 := hx.run s m h
  revert h1
  cases x' s with
  | ub k => exact fun _ => trivial
  | ok b' s'' => rintro ⟨b, m'', e1, e2, e3⟩; exact ⟨b, m'', ρ, e1, e2, .self _ _, hR _ _ e3⟩
  | panic e s'' => rintro ⟨m'', e1, e2⟩; exact ⟨m'', ρ, e1, e2, .self _ _⟩

theorem EndsM.onUnwind {x' : M α'} {x : M α} {c' c : M Unit} (h : EndsM ρ s R (x' s) (x m)) (hc : ∀ ρ', Grows ρ s ρ' → Sim ρ' (· = ·) c' c) : EndsM ρ s R (onUnwind x' c' s) (onUnwind x c m) := by
  unfold Varlen.onUnwind
  revert h
  cases x' s with
  | ub k => exact fun _ => trivial
  | ok b' s'' => rintro ⟨b, m'', ρ', e1, e2, e3⟩; rw [e1]; exact ⟨b, m'', ρ', rfl, e2, e3⟩
  | panic e s'' =>
    rintro ⟨m'', ρ', e1, e2, e3⟩
    rw [e1]
    have h4 := (hc ρ' e3).run s'' m'' e2
    show EndsM ρ s R ((c' s'').bind _) ((c m'').bind _)
    revert h4
    cases c' s'' with
    | ub k => exact fun _ => trivial
    | ok b' s3 => rintro ⟨b, m3, e1, e2, _⟩; rw [e1]; exact ⟨m3, ρ', rfl, e2, e3⟩
    | panic e s3 => rintro ⟨m3, e1, e2⟩; rw [e1]; exact ⟨m3, ρ', rfl, e2, e3⟩
end

/-- Storage newly allocated. -/
def NewAt (ρ : Place) (a' a : Option Ptr) : Prop := a = a'.map ρ.ptr ∧ ∀ p, a' = some p → ρ.heap p.blk

/-- As `Packed.alloc`, with any contents. -/
theorem Packed.allocWith (h : Packed ρ s m) {base size align : Nat} {d' d : View} (hl : legalBase w m base size align) (hd : ∀ i, i < size → d i = d' i) :
    Packed (ρ.put s.next ⟨m.next, 0⟩ size True) (s.push ⟨base, size, align, true, d'⟩) (m.push ⟨base, size, align, true, d⟩) := by
  have h1 := h.grow (C := ⟨base, size, align, true, d⟩) hl.2.2.2
  have hb : (m.push ⟨base, size, align, true, d⟩).blk m.next = some ⟨base, size, align, true, d⟩ := by rw [St.blk_push, if_pos rfl]
  have ha : (m.push ⟨base, size, align, true, d⟩).addr ⟨m.next, 0⟩ = base := by unfold St.addr; rw [hb]; rfl
  have hne : ∀ b B, s.blk b = some B → B.live = true → (ρ.loc b).blk ≠ m.next := by
    intro b B hb hl he
    obtain ⟨C, k1, _⟩ := h.addr b B hb
    rw [he, St.blk_next] at k1; cases k1
  have h2 := h1.put (q := ⟨m.next, 0⟩) (size := size) (align := align) (d := d') (hp := True) hb rfl (Nat.le_of_eq (Nat.zero_add _)) (fun _ => ⟨rfl, rfl, rfl, fun hc => (h.chunks _ hc).1 (St.blk_next m)⟩)
    (fun b B e1 e2 e3 => absurd e3 (hne b B e1 e2)) (fun b B _ e1 e2 => hne b B e1 e2) (fun _ => hne) (fun i hi => by simp only [viewAt, hb, Nat.zero_add]; exact (hd i hi).symm)
  rw [ha] at h2
  exact h2

theorem Grows.put (h : Packed ρ s m) (n : Nat) : Grows ρ s (ρ.put s.next ⟨m.next, 0⟩ n True) :=
  ⟨ρ.put_agree s _ n True, ρ.put_takes _ _ _ _ (.inr fun hc => (h.chunks _ hc).1 (St.blk_next m))⟩

theorem NewAt.put (ρ : Place) (b : Nat) (q : Ptr) (n : Nat) : NewAt (ρ.put b q n True) (some ⟨b, 0⟩) (some q) :=
  ⟨by rw [Option.map_some, Place.put_ptr], fun p e => by cases e; exact .inl ⟨rfl, trivial⟩⟩

theorem alloc_sim (A : Allocator) (h : Packed ρ s m) (n a : Nat) : ∃ r : Option Nat, EndsM ρ s NewAt (allocM w (fun _ _ _ => r) n a s) (allocM w A n a m) := by
  unfold allocM
  by_cases h0 : n = 0
  · exact ⟨none, by rw [if_pos h0]; trivial⟩
  by_cases hf : fromSizeAlign w n a = false
  · exact ⟨none, by rw [if_neg h0, if_pos hf]; trivial⟩
  cases hp : pick w A m n a with
  | none =>
    refine ⟨none, ?_⟩
    have : pick w (fun _ _ _ => none) s n a = none := rfl
    rw [if_neg h0, if_neg h0, if_neg hf, if_neg hf, this]
    exact ⟨none, m, ρ, rfl, h, .self _ _, rfl, fun _ e => by cases e⟩
  | some base =>
    have hleg := pick_some hp
    refine ⟨some base, ?_⟩
    have hp' : pick w (fun _ _ _ => some base) s n a = some base := by
      unfold pick; simp only [if_pos (h.legal_of hleg)]
    rw [if_neg h0, if_neg h0, if_neg hf, if_neg hf, hp']
    exact ⟨_, _, _, rfl, h.alloc hleg, .put h n, .put ..⟩

theorem free_next (s : St) (b : Nat) : (s.free b).next = s.next := by
  unfold St.free
  split <;> simp [St.next, St.setBlk]

theorem realloc_sim (A : Allocator) (h : Packed ρ s m) {p : Ptr} (hh : p.blk = 0 ∨ ρ.heap p.blk) (o a n : Nat) :
    ∃ r : Option Nat, EndsM ρ s NewAt (reallocM w (fun _ _ _ => r) p o a n s) (reallocM w A (ρ.ptr p) o a n m) := by
  unfold reallocM
  by_cases h0 : n = 0
  · exact ⟨none, by rw [if_pos h0]; trivial⟩
  by_cases hf : fromSizeAlign w n a = false
  · exact ⟨none, by rw [if_neg h0, if_pos hf]; trivial⟩
  by_cases ho : ownsAlloc s p o a
  · obtain ⟨o0, B, h1, h2, h3, h4⟩ := ho
    have hh : ρ.heap p.blk := hh.resolve_left fun e => by rw [e] at h1; cases h1
    obtain ⟨g1, ⟨C, g2, g3, g4⟩, _⟩ := h.heap _ B hh h1 h2
    have ho : ownsAlloc s p o a := ⟨o0, B, h1, h2, h3, h4⟩
    have ho' : ownsAlloc m (ρ.ptr p) o a := ⟨by rw [ptr_off]; omega, C, g2, (h.live _ B C h1 h2 g2).1, by omega, by omega⟩
    have h5 := h.free hh h1 h2
    cases hp : pick w A (m.free (ρ.ptr p).blk) n a with
    | none =>
      refine ⟨none, ?_⟩
      have : pick w (fun _ _ _ => none) (s.free p.blk) n a = none := rfl
      rw [if_neg h0, if_neg h0, if_neg hf, if_neg hf, if_pos ho, if_pos ho']
      simp only [hp, this]
      exact ⟨none, m, ρ, rfl, h, .self _ _, rfl, fun _ e => by cases e⟩
    | some base =>
      have hleg := pick_some hp
      refine ⟨some base, ?_⟩
      have hp' : pick w (fun _ _ _ => some base) (s.free p.blk) n a = some base := by
        unfold pick; simp only [if_pos (h5.legal_of hleg)]
      rw [if_neg h0, if_neg h0, if_neg hf, if_neg hf, if_pos ho, if_pos ho']
      simp only [hp, hp']
      have h6 := h5.allocWith (d' := fun i => if i < min o n then viewAt s p i else none) (d := fun i => if i < min o n then viewAt m (ρ.ptr p) i else none) hleg fun i _ => by
        by_cases hi : i < min o n
        · rw [if_pos hi, if_pos hi, h.view (n := o) (.inr ⟨B, h1, h2, by omega⟩) (by omega)]
        · rw [if_neg hi, if_neg hi]
      rw [free_next s p.blk] at h6 ⊢
      have h7 := Grows.put h n
      rw [show m.next = (m.free (ρ.ptr p).blk).next from (free_next m _).symm] at h7
      exact ⟨_, _, _, rfl, h6.congr (fun _ => rfl) (fun _ => rfl) h6.log, h7, .put ..⟩
  · refine ⟨none, ?_⟩
    rw [if_neg h0, if_neg hf, if_neg ho]; trivial

theorem addBitmask_pure (size align : BitVec w) : (∀ s, addBitmask size align s = .panic .assertFailed s) ∨ ∃ r, ∀ s, addBitmask size align s = .ok r s := by
  unfold addBitmask
  split
  · exact .inl fun _ => rfl
  · cases checkedAdd (size / align) 7 with
    | none => exact .inr ⟨none, fun _ => rfl⟩
    | some x =>
      dsimp only
      split
      · exact .inr ⟨_, fun _ => rfl⟩
      · exact .inr ⟨_, fun _ => rfl⟩

theorem allocStorage_sim (A : Allocator) (h : Packed ρ s m) (chk : Bool) (size align : BitVec w) :
    ∃ r : Option Nat, EndsM ρ s NewAt (allocStorage (fun _ _ _ => r) chk size align s) (allocStorage A chk size align m) := by
  unfold allocStorage
  cases chk with
  | false => exact alloc_sim A h _ _
  | true =>
    simp only [if_true]
    rcases addBitmask_pure size align with e | ⟨o, e⟩
    · refine ⟨none, ?_⟩
      rw [bind_apply, bind_apply, e, e]
      exact ⟨m, ρ, rfl, h, .self _ _⟩
    · simp only [bind_apply (x := addBitmask size align), e, Res.bind_ok]
      cases o with
      | none => exact ⟨none, none, m, ρ, rfl, h, .self _ _, rfl, fun _ e => by cases e⟩
      | some fb =>
        obtain ⟨full, bm⟩ := fb
        obtain ⟨r, hr⟩ := alloc_sim A h full.toNat align.toNat
        refine ⟨r, ?_⟩
        simp only [bind_apply]
        refine hr.bind fun ρ' a' a _ hn => ?_
        obtain ⟨rfl, h2⟩ := hn
        cases a' with
        | none => exact .pure ⟨rfl, h2⟩
        | some p =>
          simp only [Option.map_some, ← ptr_add]
          exact (sim_fillZero _ _).bindEq fun _ => .pure ⟨rfl, h2⟩

theorem growStorage_sim (A : Allocator) (h : Packed ρ s m) {p : Ptr} (hh : p.blk = 0 ∨ ρ.heap p.blk) (chk : Bool) (oldSize align newSize : BitVec w) :
    ∃ r : Option Nat, EndsM ρ s NewAt (growStorage (fun _ _ _ => r) chk p oldSize align newSize s) (growStorage A chk (ρ.ptr p) oldSize align newSize m) := by
  unfold growStorage
  cases chk with
  | false => exact realloc_sim A h hh _ _ _
  | true =>
    simp only [if_true]
    have trivially : ∃ r : Option Nat, EndsM ρ s NewAt (.ok none s) (.ok none m) := ⟨none, none, m, ρ, rfl, h, .self _ _, rfl, fun _ e => by cases e⟩
    rcases addBitmask_pure oldSize align with e | ⟨o, e⟩
    · refine ⟨none, ?_⟩
      rw [bind_apply, bind_apply, e, e]
      exact ⟨m, ρ, rfl, h, .self _ _⟩
    · simp only [bind_apply (x := addBitmask oldSize align), e, Res.bind_ok]
      cases o with
      | none => exact trivially
      | some fb =>
        obtain ⟨oldFull, oldBm⟩ := fb
        by_cases hf : fromSizeAlign w newSize.toNat align.toNat = true
        · simp only [hf, if_true]
          rcases addBitmask_pure newSize align with e | ⟨o, e⟩
          · refine ⟨none, ?_⟩
            rw [bind_apply, bind_apply, e, e]
            exact ⟨m, ρ, rfl, h, .self _ _⟩
          · simp only [bind_apply (x := addBitmask newSize align), e, Res.bind_ok]
            cases o with
            | none => exact trivially
            | some fb =>
              obtain ⟨newFull, newBm⟩ := fb
              obtain ⟨r, hr⟩ := realloc_sim (w := w) A h hh oldFull.toNat align.toNat newFull.toNat
              refine ⟨r, ?_⟩
              dsimp only
              rw [bind_apply, bind_apply]
              refine hr.bind fun ρ' a' a _ hn => ?_
              obtain ⟨rfl, h2⟩ := hn
              cases a' with
              | none => exact .pure ⟨rfl, h2⟩
              | some q =>
                simp only [Option.map_some]
                refine Sim.bindEq (by rw [← ptr_add]; exact sim_checkAcc _ _) fun _ => Sim.bindEq (by rw [← ptr_add]; exact sim_checkAcc _ _) fun _ => (sim_exclusiveRef ..).bindEq fun _ =>
                  Sim.bindEq (by rw [← ptr_add, ← ptr_add]; exact sim_ptrCopy _ _ _ _) fun _ => .ite (fun _ => Sim.bindEq (by rw [← ptr_add]; exact sim_fillZero _ _) fun _ => .pure ⟨rfl, h2⟩) fun _ => .panic _
        · simp only [hf]
          exact trivially

/-- Storage newly allocated, with its capacity. -/
def NewCap (ρ : Place) (a' a : Option (Ptr × BitVec w)) : Prop := a = a'.map (fun x => (ρ.ptr x.1, x.2)) ∧ ∀ p c, a' = some (p, c) → ρ.heap p.blk

theorem tryRealloc_sim (A : Allocator) (h : Packed ρ s m) {p : Ptr} (hh : p.blk = 0 ∨ ρ.heap p.blk) (chk : Bool) (cap minimum align : BitVec w) :
    ∃ r : Option Nat, EndsM ρ s NewCap (tryRealloc (fun _ _ _ => r) chk p cap minimum align s) (tryRealloc A chk (ρ.ptr p) cap minimum align m) := by
  have trivially : ∃ r : Option Nat, EndsM ρ s (NewCap (w := w)) (.ok none s) (.ok none m) := ⟨none, none, m, ρ, rfl, h, .self _ _, rfl, fun _ _ e => by cases e⟩
  unfold tryRealloc
  cases checkedMul cap 2 with
  | none => exact trivially
  | some cap2 =>
    dsimp only
    cases hc : checkedMul (maxW (maxW minimum ((32 + align - 1) / align)) cap2) align with
    | none => exact trivially
    | some sizeBytes =>
      dsimp only
      by_cases h1 : fromSizeAlign w (cap * align).toNat align.toNat = true
      · by_cases h2 : fromSizeAlign w sizeBytes.toNat align.toNat = true
        · simp only [h1, h2, if_true]
          have key : ∃ r : Option Nat, EndsM ρ s NewAt ((if cap = 0 then allocStorage (fun _ _ _ => r) chk sizeBytes align else growStorage (fun _ _ _ => r) chk p (cap * align) align sizeBytes) s)
              ((if cap = 0 then allocStorage A chk sizeBytes align else growStorage A chk (ρ.ptr p) (cap * align) align sizeBytes) m) := by
            by_cases h0 : cap = 0
            · simp only [if_pos h0]; exact allocStorage_sim A h chk sizeBytes align
            · simp only [if_neg h0]; exact growStorage_sim A h hh chk (cap * align) align sizeBytes
          obtain ⟨r, hr⟩ := key
          refine ⟨r, ?_⟩
          rw [bind_apply, bind_apply]
          refine hr.bind fun ρ' a' a _ hn => ?_
          obtain ⟨rfl, h3⟩ := hn
          cases a' with
          | none => exact .pure ⟨rfl, fun _ _ e => by cases e⟩
          | some q => exact .pure ⟨rfl, fun p c e => by cases e; exact h3 _ rfl⟩
        · simp only [h1, h2]
          exact trivially
      · simp only [h1]
        exact trivially

theorem mustRealloc_sim (A : Allocator) (h : Packed ρ s m) {p : Ptr} (hh : p.blk = 0 ∨ ρ.heap p.blk) (chk : Bool) (cap minimum align : BitVec w) :
    ∃ r : Option Nat, EndsM ρ s (fun ρ' a' a => a = (ρ'.ptr a'.1, a'.2) ∧ ρ'.heap a'.1.blk) (mustRealloc (fun _ _ _ => r) chk p cap minimum align s) (mustRealloc A chk (ρ.ptr p) cap minimum align m) := by
  obtain ⟨r, hr⟩ := tryRealloc_sim A h hh chk cap minimum align
  refine ⟨r, ?_⟩
  unfold mustRealloc
  rw [bind_apply, bind_apply]
  refine hr.bind fun ρ' a' a _ hn => ?_
  obtain ⟨rfl, h3⟩ := hn
  cases a' with
  | none => exact .panic _
  | some q => exact .pure ⟨rfl, h3 _ _ rfl⟩

/-! ## Pushing -/

theorem Packed.loc0 (h : Packed ρ s m) : ρ.loc 0 = ⟨0, 0⟩ := h.unused 0 rfl

/-- A sequence that was there before is where it was. -/
theorem Grows.seq {ρ' : Place} {s' m' : St} (hg : Grows ρ s ρ') (h : Packed ρ s m) (h' : Packed ρ' s' m') {q : SeqS w} (hq : q.ptr.blk = 0 ∨ s.blk q.ptr.blk ≠ none) : ρ'.seq q = ρ.seq q := by
  have : ρ'.loc q.ptr.blk = ρ.loc q.ptr.blk := by
    rcases hq with e | e
    · rw [e, h.loc0, h'.loc0]
    · exact (hg.agree _ e).1
  unfold Place.seq Place.ptr
  rw [this]

theorem Grows.stored {ρ' : Place} (hg : Grows ρ s ρ') {q : SeqS w} (hq : q.ptr.blk = 0 ∨ s.blk q.ptr.blk ≠ none) (hs : Stored ρ q) : Stored ρ' q := by
  rcases hq with e | e
  · exact .inl e
  · exact hs.imp_right (hg.agree _ e).2.2

/-- As `EndsM`, for operations on a sequence. -/
def EndsQ {α : Type} (ρ : Place) (s : St) (r' r : Res (St × SeqS w) α) : Prop :=
  match r' with
  | .ub _ => True
  | .ok a (s', q') => ∃ m' ρ', r = .ok a (m', ρ'.seq q') ∧ Packed ρ' s' m' ∧ Grows ρ s ρ' ∧ Stored ρ' q'
  | .panic e (s', q') => ∃ m' ρ', r = .panic e (m', ρ'.seq q') ∧ Packed ρ' s' m' ∧ Grows ρ s ρ' ∧ Stored ρ' q'

theorem EndsQ.of_sim {α : Type} {ρ0 : Place} {s0 : St} (hg : Grows ρ0 s0 ρ) {x' x : MQ w α} {q : SeqS w} (h : Packed ρ s m) (hq : Stored ρ q) (hx : SimQ ρ (· = ·) x' x) : EndsQ ρ0 s0 (x' (s, q)) (x (m, ρ.seq q)) := by
  have h1 := hx.run s m q h hq
  revert h1
  cases x' (s, q) with
  | ub k => exact fun _ => trivial
  | ok b σ => obtain ⟨s1, q1⟩ := σ; rintro ⟨b, m1, e1, e2, e3, rfl⟩; exact ⟨m1, ρ, e1, e2, hg, e3⟩
  | panic e σ => obtain ⟨s1, q1⟩ := σ; rintro ⟨m1, e1, e2, e3⟩; exact ⟨m1, ρ, e1, e2, hg, e3⟩

/-- The end of `try_push`, when there is room. -/
def pushTail (chk : Bool) (T : VarLen w) (I : Init w) (l : Layout w) (occPlus : BitVec w) : MQ w Bool := do
  let q ← getQ
  let elemOffset := q.occ
  liftQ (markOffsetValid chk T.ALIGN q.ptr q.cap elemOffset)
  liftQ (I.initTo (q.ptr.add (elemOffset * T.ALIGN).toNat) l)
  let q ← getQ
  putQ { q with occ := occPlus, len := q.len + 1 }
  pure true

/-- The end of `try_push`, when the sequence has to grow. -/
def pushGrow (A : Allocator) (chk : Bool) (T : VarLen w) (I : Init w) (l : Layout w) (occPlus : BitVec w) (q : SeqS w) : MQ w Bool := do
  let x ← liftQ (onUnwind (mustRealloc A chk q.ptr q.cap occPlus T.ALIGN) I.dropI)
  putQ { q with ptr := x.1, cap := x.2 }
  pushTail chk T I l occPlus

def pushRest (A : Allocator) (chk : Bool) (T : VarLen w) (I : Init w) (l : Layout w) (o : Option (BitVec w)) (q : SeqS w) : MQ w Bool :=
  match o with
  | none => do
    liftQ I.dropI
    pure false
  | some occPlus => if occPlus.toNat > q.cap.toNat then pushGrow A chk T I l occPlus q else pushTail chk T I l occPlus

theorem sim_pushTail (chk : Bool) (T : VarLen w) {I' I : Init w} (hI : Placed ρ I' I) (l : Layout w) (occPlus : BitVec w) : SimQ ρ (· = ·) (pushTail chk T I' l occPlus) (pushTail chk T I l occPlus) := by
  unfold pushTail
  refine sim_getQ.bind fun q' q e => ?_
  rw [e.2]
  refine (sim_markOffsetValid chk T.ALIGN q'.ptr q'.cap q'.occ).lift.bind fun _ _ _ => ?_
  refine SimQ.bind (R := (· = ·)) ?_ fun _ _ _ => sim_getQ.bind fun q1' q1 e1 => ?_
  · have := (hI.sim.initTo (q'.ptr.add (q'.occ * T.ALIGN).toNat) l).lift (w := w)
    rw [ptr_add] at this
    exact this
  · rw [e1.2]
    exact (sim_putQ (q := { q1' with occ := occPlus, len := q1'.len + 1 }) e1.1).bind fun _ _ _ => .pure rfl

theorem tryPush_sim {T : VarLen w} {I' I : Init w} (A : Allocator) (chk : Bool) {q : SeqS w} (h : Packed ρ s m) (law : InitLawful T I') (pre : I'.pre s) (hI : Placed ρ I' I) (hq : Stored ρ q)
    (hq0 : q.ptr.blk = 0 ∨ s.blk q.ptr.blk ≠ none) : ∃ A', EndsQ ρ s (Seq.tryPush A' chk T I' (s, q)) (Seq.tryPush A chk T I (m, ρ.seq q)) := by
  unfold Seq.tryPush
  simp only [bind_apply (x := liftQ (onUnwind _ _)), liftQ_apply]
  rcases cautious_sim h law pre hI with ⟨e1, m1, c1, e2, h1⟩ | ⟨e, s1, m1, e1, e2, h1⟩
  · simp only [e1, e2, Res.bind_ok]
    have refused : ∃ A' : Allocator, EndsQ ρ s ((do liftQ I'.dropI; pure false : MQ w Bool) (s, q)) ((do liftQ I.dropI; pure false : MQ w Bool) (m1, ρ.seq q)) :=
      ⟨A, .of_sim (.self _ _) h1 hq (hI.sim.drop.lift.bind fun _ _ _ => .pure rfl)⟩
    cases hl : I'.lay with
    | none => exact refused
    | some l =>
      dsimp only
      cases checkedAdd l.size (T.ALIGN - 1) with
      | none => exact refused
      | some x =>
        dsimp only
        show ∃ A', EndsQ ρ s (pushRest A' chk T I' l (checkedAdd q.occ (x / T.ALIGN)) q (s, q)) (pushRest A chk T I l (checkedAdd q.occ (x / T.ALIGN)) (ρ.seq q) (m1, ρ.seq q))
        cases checkedAdd q.occ (x / T.ALIGN) with
        | none => exact refused
        | some occPlus =>
          unfold pushRest
          dsimp only
          by_cases hc : occPlus.toNat > q.cap.toNat
          · have hc' : occPlus.toNat > (ρ.seq q).cap.toNat := hc
            obtain ⟨r, hr⟩ := mustRealloc_sim A h1 hq chk q.cap occPlus T.ALIGN
            refine ⟨fun _ _ _ => r, ?_⟩
            have hr := hr.onUnwind (c' := I'.dropI) (c := I.dropI) fun ρ' hg => (hI.mono (hg.agree.mono fun b hb => law.fp_exists s b pre hb)).sim.drop
            rw [if_pos hc, if_pos hc']
            unfold pushGrow
            rw [bind_apply, bind_apply, liftQ_apply, liftQ_apply]
            revert hr
            cases onUnwind (mustRealloc (fun _ _ _ => r) chk q.ptr q.cap occPlus T.ALIGN) I'.dropI s with
            | ub k => exact fun _ => trivial
            | panic e s2 =>
              rintro ⟨m2, ρ2, f1, f2, f3⟩
              rw [show (ρ.seq q).ptr = ρ.ptr q.ptr from rfl, show (ρ.seq q).cap = q.cap from rfl, f1]
              exact ⟨m2, ρ2, by rw [f3.seq h f2 hq0]; rfl, f2, f3, f3.stored hq0 hq⟩
            | ok pc s2 =>
              rintro ⟨pc2, m2, ρ2, f1, f2, f3, rfl, f4⟩
              rw [show (ρ.seq q).ptr = ρ.ptr q.ptr from rfl, show (ρ.seq q).cap = q.cap from rfl, f1]
              simp only [Res.bind_ok]
              exact .of_sim (q := { q with ptr := pc.1, cap := pc.2 }) f3 f2 (.inr f4) (sim_pushTail chk T (hI.mono (f3.agree.mono fun b hb => law.fp_exists s b pre hb)) l occPlus)
          · have hc' : ¬ occPlus.toNat > (ρ.seq q).cap.toNat := hc
            refine ⟨A, ?_⟩
            rw [if_neg hc, if_neg hc']
            exact (.of_sim (.self _ _) h1 hq (sim_pushTail chk T hI l occPlus))
  · simp only [e1, e2]
    exact ⟨A, m1, ρ, rfl, h1, .self _ _, hq⟩

theorem push_sim {T : VarLen w} {I' I : Init w} (A : Allocator) (chk : Bool) {q : SeqS w} (h : Packed ρ s m) (law : InitLawful T I') (pre : I'.pre s) (hI : Placed ρ I' I) (hq : Stored ρ q)
    (hq0 : q.ptr.blk = 0 ∨ s.blk q.ptr.blk ≠ none) : ∃ A', EndsQ ρ s (Seq.push A' chk T I' (s, q)) (Seq.push A chk T I (m, ρ.seq q)) := by
  obtain ⟨A', hE⟩ := tryPush_sim A chk h law pre hI hq hq0
  refine ⟨A', ?_⟩
  unfold Seq.push
  rw [bind_apply, bind_apply]
  revert hE
  cases Seq.tryPush A' chk T I' (s, q) with
  | ub k => exact fun _ => trivial
  | panic e σ => obtain ⟨s1, q1⟩ := σ; rintro ⟨m1, ρ1, e1, e2⟩; rw [e1]; exact ⟨m1, ρ1, rfl, e2⟩
  | ok b σ =>
    obtain ⟨s1, q1⟩ := σ
    rintro ⟨m1, ρ1, e1, e2⟩
    rw [e1]
    cases b with
    | true => exact ⟨m1, ρ1, rfl, e2⟩
    | false => exact ⟨m1, ρ1, rfl, e2⟩

end Varlen.Arena
