import Verif.Proofs.Strict
import Verif.Spec.StdContracts
import Verif.Props.Paths
import Verif.Props.Seq
import Verif.Props.SeqDemo
import Verif.Props.Layout
/-!
# C72: the contracts of the standard library's unsafe functions

`NonNull::new_unchecked`, `slice::from_raw_parts(_mut)`, `Layout::from_size_align_unchecked`. That the `Layout`s are legal is checked by the memory model itself, so every theorem that says a function does not have undefined behaviour says it too.
-/
namespace Varlen
variable {w : Nat}

/-! ## The environment: allocations stay as Rust has them -/

/-- Memory operations keep `AllocsOk`: whatever the allocator answers, and whatever is written or freed. -/
theorem C72_allocations {s : St} (h : AllocsOk w s) :
    (∀ A size align r s', allocM w A size align s = .ok r s' → AllocsOk w s') ∧
    (∀ A p old align new r s', reallocM w A p old align new s = .ok r s' → AllocsOk w s') ∧
    (∀ A size align r s', bumpAlloc w A size align s = .ok r s' → AllocsOk w s') ∧
    (∀ p size align s', deallocM p size align s = .ok () s' → AllocsOk w s') ∧
    (∀ p img s', writeBytes p img s = .ok () s' → AllocsOk w s') ∧
    AllocsOk w (St.mk [] [] 0) := by
  have hpush : ∀ (s : St) base size align v, AllocsOk w s → legalBase w s base size align → size ≤ isizeMax w → AllocsOk w (s.push ⟨base, size, align, true, v⟩) := by
    intro s base size align v hs hl hsz
    have hmem : ∀ b B, s.blk b = some B → B ∈ s.blocks := by
      intro b B hB
      cases b with
      | zero => cases hB
      | succ b => exact List.mem_of_getElem? hB
    refine ⟨fun b B hB hlv => ?_, fun b b' B B' hne hB hB' hlv hlv' => ?_⟩
    · rw [St.blk_push] at hB
      split at hB
      · cases hB; exact ⟨hl.1, hl.2.2.1, hsz⟩
      · exact hs.range b B hB hlv
    · rw [St.blk_push] at hB hB'
      split at hB <;> split at hB'
      · omega
      · cases hB; exact hl.2.2.2 B' (hmem _ _ hB') hlv'
      · cases hB'; exact (hl.2.2.2 B (hmem _ _ hB) hlv).symm
      · exact hs.apart b b' B B' hne hB hB' hlv hlv'
  -- every block stays where it is, or dies
  have hkeep : ∀ (s s' : St), AllocsOk w s → (∀ b B, s'.blk b = some B → B.live = true → ∃ B0, s.blk b = some B0 ∧ B0.live = true ∧ B0.base = B.base ∧ B0.size = B.size) → AllocsOk w s' := by
    intro s s' hs hk
    refine ⟨fun b B hB hlv => ?_, fun b b' B B' hne hB hB' hlv hlv' => ?_⟩
    · obtain ⟨B0, k1, k2, k3, k4⟩ := hk b B hB hlv
      rw [← k3, ← k4]; exact hs.range b B0 k1 k2
    · obtain ⟨B0, k1, k2, k3, k4⟩ := hk b B hB hlv
      obtain ⟨B1, l1, l2, l3, l4⟩ := hk b' B' hB' hlv'
      rw [← k3, ← k4, ← l3, ← l4]; exact hs.apart b b' B0 B1 hne k1 l1 k2 l2
  have hfree : ∀ (s : St) (b : Nat), AllocsOk w s → AllocsOk w (s.free b) := by
    intro s b hs
    refine hkeep s _ hs fun b' B hB hlv => ?_
    cases e : s.blk b with
    | none => unfold St.free at hB; rw [e] at hB; exact ⟨B, hB, hlv, rfl, rfl⟩
    | some B0 =>
      rw [St.blk_free e] at hB
      split at hB
      · cases hB; cases hlv
      · exact ⟨B, hB, hlv, rfl, rfl⟩
  refine ⟨?_, ?_, ?_, ?_, ?_, ?_⟩
  · intro A size align r s' e
    unfold allocM at e
    split at e
    · cases e
    split at e
    · cases e
    rename_i _ h2
    have h2 : fromSizeAlign w size align = true := by simpa using h2
    rw [fromSizeAlign_iff] at h2
    split at e
    · cases e; exact h
    · rename_i base h3
      cases e
      exact hpush _ _ _ _ _ h (pick_some h3) (by omega)
  · intro A p old align new r s' e
    unfold reallocM at e
    split at e
    · cases e
    split at e
    · cases e
    rename_i _ h2
    have h2 : fromSizeAlign w new align = true := by simpa using h2
    rw [fromSizeAlign_iff] at h2
    split at e
    case isFalse => cases e
    simp only at e
    split at e
    · cases e; exact h
    · rename_i base h3
      cases e
      have := hpush _ _ _ _ (fun i => if i < min old new then viewAt s p i else none) (hfree _ p.blk h) (pick_some h3) (by omega)
      exact ⟨this.range, this.apart⟩
  · intro A size align r s' e
    unfold bumpAlloc at e
    split at e
    · cases e
    rename_i h2
    have h2 : fromSizeAlign w size align = true := by simpa using h2
    rw [fromSizeAlign_iff] at h2
    split at e
    · cases e
    · rename_i base h3
      cases e
      exact hpush _ _ _ _ _ h (pick_some h3) (by omega)
  · intro p size align s' e
    unfold deallocM at e
    split at e
    · cases e; exact hfree _ _ h
    · cases e
  · intro p img s' e
    unfold writeBytes at e
    split at e
    case isFalse => cases e
    cases e
    refine hkeep s _ h fun b B hB hlv => ?_
    cases e : s.blk p.blk with
    | none => unfold St.write at hB; rw [e] at hB; exact ⟨B, hB, hlv, rfl, rfl⟩
    | some B0 =>
      rw [St.blk_write e] at hB
      split at hB
      · rename_i hb; cases hB; exact ⟨B0, by rw [hb]; exact e, hlv, rfl, rfl⟩
      · exact ⟨B, hB, hlv, rfl, rfl⟩
  · have : ∀ (b : Nat) (B : Block), (St.mk [] [] 0).blk b ≠ some B := by
      intro b B hB
      cases b with
      | zero => cases hB
      | succ b => simp [St.blk] at hB
    exact ⟨fun b B hB => absurd hB (this b B), fun b b' B B' _ hB => absurd hB (this b B)⟩

/-! ## References and slices -/

theorem NotNull.within {s : St} {p q : Ptr} {n m : Nat} (ha : AllocsOk w s) (h0 : NotNull w s p) (hacc : Acc s p m) (hin : Within q n p m) : NotNull w s q := by
  obtain ⟨hb, h1, h2⟩ := hin
  rcases hacc with hm | ⟨B, hB, hl, hsz⟩
  · have : q = p := by
      cases p; cases q; simp only at *; subst hb; congr 1; omega
    rw [this]; exact h0
  · obtain ⟨a1, a2, _⟩ := ha.range _ B hB hl
    exact Strict.addr_ne (B := B) (by rw [hb]; exact hB) a1 (by omega)

/-- All references that accessors of the library give (`deref`, `mut_slice`, `refs`, `muts`, …, any chain of them) are made at non-null addresses; the slices among them
meet the whole contract of `slice::from_raw_parts`: non-null, aligned, in one allocation, every element a valid value, at most `isize::MAX` bytes. -/
theorem C72_references {T : Ty w} {m : Bool} {π : List Sel} {k : Kind w} {s : St} {p : Ptr} {v v' : V} {l : Layout w} (hT : TyOk T) (hat : (Kind.obj T).at m π = some k)
    (h : Valid T.sem s p v l) (hv : v.sub π = some v') (ha : AllocsOk w s) (h0 : NotNull w s p) :
    ∃ r, follow m (.obj T) π (.field p) s = .ok r s ∧ NotNull w s r.ptr ∧
      ∀ P, k = .slice P → ∃ sl xs, r = .slice sl ∧ v' = .arr xs ∧ sl.len = xs.length ∧ SliceContract w P.ty s sl.ptr sl.len := by
  obtain ⟨r, sh, e1, e2, e3⟩ := C69_reach hT hat h hv
  have hnn := NotNull.within ha h0 h.acc e3
  refine ⟨r, e1, hnn, ?_⟩
  rintro P rfl
  match r, e2, hnn with
  | .slice sl, e2, hnn =>
    obtain ⟨xs, n, rfl, rfl, hn, hacc, hal, hel, hvalid⟩ := e2
    have hlen : sl.len = xs.length := by rw [← hel]; simp [elemsV]
    refine ⟨sl, xs, rfl, rfl, hlen, hnn, hal, hacc, fun i hi => ?_, ?_⟩
    · have := elemsV_getElem? (viewAt s sl.ptr) 0 P.ty.size sl.len i
      rw [if_pos hi, hel, Nat.zero_add] at this
      exact hvalid _ (List.mem_of_getElem? this)
    · rcases hacc with hz | ⟨B, hB, hl, hsz⟩
      · omega
      · have := (ha.range _ B hB hl).2.2
        omega

/-- The addresses of the fields that `initialize` of a struct passes to `NonNull::new_unchecked` (`init_field`) and `from_raw_parts_mut` (`init_array`) are not null. -/
theorem C72_init_fields {headSize headAlign : Nat} {fis : List (FI w)} (h : StructLit headSize headAlign fis) {s : St} {p : Ptr} {size : BitVec w} {ls : List (BitVec w × Layout w)}
    (hs : Suitable (Struct w headSize headAlign (fis.map FI.fld)) (Struct.init headSize headAlign fis) s p (.fields size ls)) (ha : AllocsOk w s) (h0 : NotNull w s p) :
    ∀ f ∈ tailFields (fis.map FI.fld) ls, NotNull w s (p.add f.off) := by
  obtain ⟨c1, c2⟩ := C02_fields_overflow_exact h hs.pre
  cases hr : requested (initLengths fis) fis with
  | none =>
    rcases c1 hr with e | ⟨e, _⟩ <;> rw [hs.layout] at e <;> cases e
  | some r =>
    obtain ⟨fs, fin, d1, d2, d3, d4⟩ := c2 r hr
    by_cases hf : fin < 2 ^ w
    · obtain ⟨size', ls', e1, e2, e3⟩ := d4 hf
      rw [hs.layout] at e1; cases e1
      rw [e3]
      intro f hfm
      have := (d1.props.2.1 f hfm).2.1
      exact NotNull.within (n := 0) ha h0 hs.acc ⟨rfl, by simp, by simp only [Ptr.add_off, Layout.size]; omega⟩
    · have e := d3 (by omega)
      rw [hs.layout] at e; cases e

/-- The same for tuples. -/
theorem C72_init_tuple (hw : 0 < w) {fis : List (VarLen w × Init w)} (h : ∀ f ∈ fis, LibInit f.1 f.2) {s : St} {p : Ptr} {size : BitVec w} {ls : List (BitVec w × Layout w)}
    (hs : Suitable (Tuple w (fis.map (·.1))) (Tuple.init fis) s p (.fields size ls)) (ha : AllocsOk w s) (h0 : NotNull w s p) :
    ∀ f ∈ tailFields (fis.map fun f => .varlen f.1) ls, NotNull w s (p.add f.off) := by
  obtain ⟨c1, c2⟩ := C02_tuple_overflow_exact hw h hs.pre
  cases hr : requested [] (fis.map fun (T, I) => FI.varlen T I) with
  | none =>
    rcases c1 hr with e | ⟨e, _⟩ <;> rw [hs.layout] at e <;> cases e
  | some r =>
    obtain ⟨fs, fin, d1, d2, d3, d4⟩ := c2 r hr
    by_cases hf : fin < 2 ^ w
    · obtain ⟨size', ls', e1, e2, e3⟩ := d4 hf
      rw [hs.layout] at e1; cases e1
      rw [e3]
      intro f hfm
      have := (d1.props.2.1 f hfm).2.1
      exact NotNull.within (n := 0) ha h0 hs.acc ⟨rfl, by simp, by simp only [Ptr.add_off, Layout.size]; omega⟩
    · have e := d3 (by omega)
      rw [hs.layout] at e; cases e

/-! ## Pointers of a sequence -/

variable {T : VarLen w} {chk : Bool} {s : St} {q : SeqS w} {h : List (BitVec w × V)} {m : Nat} {t : Bool}

/-- Any address in the storage of a sequence. -/
theorem SeqInv.notNull (hT : Lawful T) {es} (inv : SeqInv T chk s q es) (ha : AllocsOk w s) {n : Nat} (hn : n ≤ q.cap.toNat) : NotNull w s (q.ptr.add (n * T.ALIGN.toNat)) := by
  have hpos := hT.align_pow2.pos
  by_cases hc : q.cap.toNat = 0
  · have hz : n = 0 := by omega
    subst hz
    have hd := inv.dang hc
    have hha := hT.head_align
    have h1 : T.headAlign ≤ T.ALIGN.toNat := Nat.le_of_dvd hpos hha
    have h2 : 0 < T.headAlign := Nat.pos_of_dvd_of_pos hha hpos
    have h3 := T.ALIGN.isLt
    rw [hd]
    have : s.addr ((dangling T).add (0 * T.ALIGN.toNat)) = T.headAlign := by
      simp [St.addr, dangling, Ptr.add, St.blk]
    unfold NotNull
    rw [this, Nat.mod_eq_of_lt (by omega)]
    omega
  · obtain ⟨h1, B, hB, hl, hsz, _⟩ := inv.store.owns hc
    obtain ⟨a1, a2, _⟩ := ha.range _ B hB hl
    have hge := storageSize_ge chk T.ALIGN.toNat q.cap.toNat
    have hle := Nat.mul_le_mul_right T.ALIGN.toNat hn
    exact Strict.addr_ne (B := B) hB a1 (by simp only [Ptr.add_off]; omega)

/-- The pointers that a sequence and its iterators make with `NonNull::new_unchecked` are not null: the start of the storage, each pointer an iterator steps to (also the last one, at the end of the elements), and
the one of an offset of an element. -/
theorem C72_seq_pointers (hT : LibType T) (hw : 8 ≤ w) (hh : Hist T chk s q h m t) (ha : AllocsOk w s) :
    NotNull w s q.ptr ∧
    (∀ k ps it, Iter.take T k (Seq.iter q) s = .ok (ps, it) s → NotNull w s it.ptr ∧ ∀ p ∈ ps, NotNull w s p) ∧
    (∀ o v p, (o, v) ∈ h → Seq.fromOffsetUnchecked T q o s = .ok p s → NotNull w s p) := by
  obtain ⟨es, hi⟩ := hh.inv hT.lawful hw
  have inv := hi.inv
  have hpos := hT.lawful.align_pow2.pos
  have hin : ∀ n, n ≤ q.occ.toNat → NotNull w s (q.ptr.add (n * T.ALIGN.toNat)) := fun n hn => SeqInv.notNull hT.lawful inv ha (Nat.le_trans hn inv.le)
  have hstart : NotNull w s q.ptr := by simpa using hin 0 (Nat.zero_le _)
  refine ⟨hstart, ?_, ?_⟩
  · intro k ps it e
    obtain ⟨it', cur', e', hat⟩ := Iter.take_spec hT.lawful hw k (inv.iterAt hT.lawful)
    rw [e] at e'
    cases e'
    have hcur : cur' ≤ q.occ.toNat := (by have := hat.packed.length_le hpos; omega)
    refine ⟨by rw [hat.ptr]; exact hin _ hcur, ?_⟩
    intro p hp
    obtain ⟨e0, he0, rfl⟩ := List.mem_map.1 hp
    have := (Packed.mem hpos inv.packed e0 (List.mem_of_mem_take he0)).2
    exact hin _ (by omega)
  · intro o v p ho e
    rw [← hi.entries] at ho
    obtain ⟨e0, he0, hee⟩ := List.mem_map.1 ho
    simp only [Elem.entry, Prod.mk.injEq] at hee
    have hle := (Packed.mem hpos inv.packed e0 he0).2
    have hcb := inv.cap_bytes hT.lawful
    have hmul := Nat.mul_le_mul_right T.ALIGN.toNat (show e0.off ≤ q.cap.toNat by have := inv.le; omega)
    have hlt : e0.off < 2 ^ w := by have := q.cap.isLt; have := inv.le; omega
    have hoff : (o * T.ALIGN).toNat = e0.off * T.ALIGN.toNat := by
      rw [← hee.1, BitVec.toNat_mul, BitVec.toNat_ofNat, Nat.mod_eq_of_lt hlt, Nat.mod_eq_of_lt (by omega)]
    unfold Seq.fromOffsetUnchecked derefBox at e
    rw [hoff] at e
    obtain ⟨_, s1, _, e⟩ := bind_ok_inv e
    cases e
    exact hin _ (by omega)

/-! ## Slices over the bitmask of `CheckedIndexing` -/

/-- Without an index no such slices are made. -/
theorem C72_push_unchecked (A : Allocator) (T : VarLen w) (I : Init w) : Strict.push A false T I = Seq.push A false T I ∧ Strict.takeElems false T = Seq.takeElems false T :=
  ⟨rfl, rfl⟩

/-- With an index, as long as a push does not (re)allocate storage, the slices it makes meet the contract: it does what C19–C26 say. -/
theorem C72_push_partial (hT : LibType T) (hw : 8 ≤ w) (hh : Hist T true s q h m t) (A : Allocator) {I : Init w} (hp : PushArg T I s q) {s' : St} {q' : SeqS w}
    (hr : Seq.push A true T I (s, q) = .ok () (s', q') ∨ ∃ msg, Seq.push A true T I (s, q) = .panic msg (s', q')) (hc : Seq.capacityInOffsets q' = Seq.capacityInOffsets q) :
    Strict.push A true T I (s, q) = Seq.push A true T I (s, q) := by
  obtain ⟨es, hi⟩ := hh.inv hT.lawful hw
  rcases Strict.push_strict hT.lawful hw A hi.inv hp with ⟨h1, _⟩ | ⟨_, h2⟩
  · exact h1
  · have := h2 s' q' hr
    have hc' : q'.cap = q.cap := hc
    rw [hc'] at this
    omega

/-- The property is false of the code: **every** push that (re)allocates the storage of a `CheckedIndexing` sequence makes a `&mut [u8]` over bytes that the allocator has just returned and that nothing has
initialised (varlen/src/seq.rs:238-239 and 257-258), which the contract of `slice::from_raw_parts_mut` forbids. (No such byte is read before it is written: with raw pointers or `MaybeUninit<u8>` instead of the
slices, the code would be as the other theorems say.) -/
theorem C72_push_refuted (hT : LibType T) (hw : 8 ≤ w) (hh : Hist T true s q h m t) (A : Allocator) {I : Init w} (hp : PushArg T I s q) {s' : St} {q' : SeqS w}
    (hr : Seq.push A true T I (s, q) = .ok () (s', q') ∨ ∃ msg, Seq.push A true T I (s, q) = .panic msg (s', q')) (hc : Seq.capacityInOffsets q' ≠ Seq.capacityInOffsets q) :
    Strict.push A true T I (s, q) = .ub .invalidValue := by
  obtain ⟨es, hi⟩ := hh.inv hT.lawful hw
  rcases Strict.push_strict hT.lawful hw A hi.inv hp with ⟨_, h1⟩ | ⟨h2, _⟩
  · exact absurd (h1 s' q' hr) hc
  · exact h2

/-- `take_elems` meets the contract: the slice it makes is empty (see C24 for why that is wrong), at a non-null address. -/
theorem C72_take_elems (hT : LibType T) (hw : 8 ≤ w) (hh : Hist T chk s q h m t) (ha : AllocsOk w s) : Strict.takeElems chk T (s, q) = Seq.takeElems chk T (s, q) := by
  cases chk with
  | false => rfl
  | true =>
    obtain ⟨es, hi⟩ := hh.inv hT.lawful hw
    have inv := hi.inv
    have hp := two_pow_ge hw
    have hz : (((0 : BitVec w) + 7) / 8).toNat = 0 := by
      have h7 : (7 : BitVec w).toNat = 7 := ofNat_toNat_small hw (n := 7) (by omega)
      have h8 : (8 : BitVec w).toNat = 8 := ofNat_toNat_small hw (n := 8) (by omega)
      rw [BitVec.toNat_udiv, BitVec.toNat_add, h7, h8, show (0 : BitVec w).toNat = 0 from BitVec.toNat_zero ..]
      rw [Nat.mod_eq_of_lt (by omega)]
    have hca := (inv.cap_bytes hT.lawful).1
    have hcapa : (q.cap * T.ALIGN).toNat = q.cap.toNat * T.ALIGN.toNat := by rw [BitVec.toNat_mul, Nat.mod_eq_of_lt hca]
    have hnn := SeqInv.notNull hT.lawful inv ha (Nat.le_refl _)
    have hs : Strict.clearBitmasks true T.ALIGN q.ptr q.cap (0 : BitVec w) s = clearBitmasks true T.ALIGN q.ptr q.cap (0 : BitVec w) s := by
      unfold Strict.clearBitmasks clearBitmasks
      simp only [if_true, bind_apply]
      rw [hz, hcapa, Strict.byteSlice_ok hnn (.inl rfl) (Nat.zero_le _) (fun k hk => absurd hk (Nat.not_lt_zero _))]
      rfl
    unfold Strict.takeElems Seq.takeElems
    simp only [bind_apply, getQ_apply, Res.bind_ok, putQ_apply, liftQ_apply, hs]

/-! ## The hypotheses are met -/
namespace Demo

/-- For concrete states. -/
theorem allocsOk_of {w : Nat} {s : St} (h : ∀ B ∈ s.blocks, B.live = true → 0 < B.base ∧ B.base + B.size < 2 ^ w ∧ B.size ≤ isizeMax w)
    (h' : s.blocks.Pairwise fun B B' => B.live = true → B'.live = true → B.base + B.size ≤ B'.base ∨ B'.base + B'.size ≤ B.base) : AllocsOk w s := by
  refine ⟨?_, ?_⟩
  · intro b B hB
    cases b with
    | zero => cases hB
    | succ b => exact h B (List.mem_of_getElem? hB)
  · intro b b' B B' hne hB hB' hl hl'
    cases b with
    | zero => cases hB
    | succ i =>
      cases b' with
      | zero => cases hB'
      | succ j =>
        obtain ⟨hi, rfl⟩ := List.getElem?_eq_some_iff.1 hB
        obtain ⟨hj, rfl⟩ := List.getElem?_eq_some_iff.1 hB'
        have hp := List.pairwise_iff_getElem.1 h'
        rcases Nat.lt_or_gt_of_ne (show i ≠ j by omega) with hlt | hlt
        · exact hp i j hi hj hlt hl hl'
        · exact (hp j i hj hi hlt hl' hl).symm

theorem sSt_allocs : AllocsOk 64 sSt := allocsOk_of (by decide +kernel) (by decide +kernel)

/-- The slice of the third field of the demo struct. -/
example : ∃ r, follow true (.obj sT) [.fld 2, .slice] (.field p1) sSt = .ok r sSt ∧ NotNull 64 sSt r.ptr ∧
    ∀ P, (Kind.slice guardP : Kind 64) = .slice P → ∃ sl xs, r = .slice sl ∧ V.arr [d4 1, d4 2] = .arr xs ∧ sl.len = xs.length ∧ SliceContract 64 P.ty sSt sl.ptr sl.len :=
  C72_references (T := sT) (w := 64) sT_ok rfl sSt_valid rfl sSt_allocs (by unfold NotNull; decide +kernel)

/-- The fields of the demo struct while it is being built. -/
example : ∃ l, Suitable S (sInit 7 3 [1, 2] [10, 11, 12] [5]) st1 p1 l ∧ AllocsOk 64 st1 ∧ NotNull 64 st1 p1 := by
  obtain ⟨l, hl⟩ := struct_suitable
  exact ⟨l, hl, allocsOk_of (by decide +kernel) (by decide +kernel), by unfold NotNull; decide +kernel⟩

/-- A sequence of two elements: the pointers its iterator steps through. -/
example : NotNull 64 σ2.1 σ2.2.ptr ∧
    (∀ k ps it, Iter.take ArrT k (Seq.iter σ2.2) σ2.1 = .ok (ps, it) σ2.1 → NotNull 64 σ2.1 it.ptr ∧ ∀ p ∈ ps, NotNull 64 σ2.1 p) := by
  obtain ⟨m, h⟩ := hist2
  have := C72_seq_pointers ArrT_lib (by decide) h (allocsOk_of (by decide +kernel) (by decide +kernel))
  exact ⟨this.1, this.2.1⟩

/-- The first push to a new sequence allocates, the second one does not. -/
example : Strict.push alloc true ArrT (arrInit [1, 2, 3]) (st0, Seq.new ArrT) = .ub .invalidValue ∧
    Strict.push alloc true ArrT (arrInit [4]) σ1 = Seq.push alloc true ArrT (arrInit [4]) σ1 := by
  obtain ⟨m, h1⟩ := hist1U
  have e0 := run_unit (pushD [1, 2, 3]) (st0, Seq.new ArrT) (by decide +kernel)
  have e1 := run_unit (pushD [4]) σ1 (by decide +kernel)
  exact ⟨C72_push_refuted ArrT_lib (by decide) (Hist.new st0) alloc (arr_pushArg _ _ _ (by decide +kernel)) (.inl e0) (by decide +kernel),
    C72_push_partial ArrT_lib (by decide) ⟨_, h1⟩ alloc (arr_pushArg _ _ _ (by decide +kernel)) (.inl e1) (by decide +kernel)⟩

end Demo
end Varlen
