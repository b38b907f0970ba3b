import Verif.Model.Strict
import Verif.Proofs.SeqHist
/-! # Slices over uninitialised memory: proofs -/
namespace Varlen.Strict
variable {w : Nat}

theorem byteSlice_ok {s : St} {p : Ptr} {n : Nat} (h0 : s.addr p % 2 ^ w ≠ 0) (ha : Acc s p n) (hn : n ≤ isizeMax w) (hi : ∀ k, k < n → ∃ b, viewAt s p k = some b) :
    byteSlice w p n s = .ok () s := by
  unfold byteSlice
  rw [if_neg h0, if_pos ha, if_pos hn, if_pos]
  rw [List.all_eq_true]
  intro x hx
  obtain ⟨k, hk, rfl⟩ := List.mem_map.1 hx
  obtain ⟨b, hb⟩ := hi k (List.mem_range.1 hk)
  simp [hb]

theorem byteSlice_uninit {s : St} {p : Ptr} {n : Nat} (h0 : s.addr p % 2 ^ w ≠ 0) (ha : Acc s p n) (hn : n ≤ isizeMax w) {k : Nat} (hk : k < n) (hi : viewAt s p k = none) :
    byteSlice w p n s = .ub .invalidValue := by
  unfold byteSlice
  rw [if_neg h0, if_pos ha, if_pos hn, if_neg]
  intro h
  rw [List.all_eq_true] at h
  have := h (viewAt s p k) (List.mem_map.2 ⟨k, List.mem_range.2 hk, by simp⟩)
  rw [hi] at this
  cases this

theorem addr_ne {s : St} {p : Ptr} {B : Block} (hB : s.blk p.blk = some B) (h0 : 0 < B.base) (h1 : B.base + p.off < 2 ^ w) : s.addr p % 2 ^ w ≠ 0 := by
  have : s.addr p = B.base + p.off := by unfold St.addr; rw [hB]
  rw [this, Nat.mod_eq_of_lt h1]
  omega

theorem M.ok_inv {α β : Type} {x : M α} {f : α → M β} {s : St} {b : β} {s1 : St} (h : (do let a ← x; f a : M β) s = .ok b s1) : ∃ a s0, x s = .ok a s0 ∧ f a s0 = .ok b s1 := by
  rw [bind_apply] at h
  cases e : x s with
  | ok a s0 => rw [e] at h; exact ⟨a, s0, rfl, h⟩
  | panic m s0 => rw [e] at h; cases h
  | ub k => rw [e] at h; cases h

section
variable {T : VarLen w} (hT : Lawful T) (hw : 8 ≤ w)
include hT hw

theorem allocStorage_strict (A : Allocator) (s : St) {size : BitVec w} {c : Nat} (hc : c ≠ 0)
    (hs : size.toNat = c * T.ALIGN.toNat) (hf : c * T.ALIGN.toNat + (T.ALIGN.toNat - 1) ≤ isizeMax w) :
    (Varlen.allocStorage A true size T.ALIGN s = .ok none s ∧ allocStorage A true size T.ALIGN s = .ok none s) ∨
    ∃ p s', Varlen.allocStorage A true size T.ALIGN s = .ok (some p) s' ∧ allocStorage A true size T.ALIGN s = .ub .invalidValue := by
  rcases allocStorage_spec hT hw A true s ⟨0, 0⟩ hc hs hf with h | ⟨p, s', h, _⟩
  all_goals
    unfold Varlen.allocStorage at h
    simp only [if_true, bind_apply] at h
    have hb := addBitmask_spec hw hT.align_pow2 hs hf s
    split at hb
  · case isTrue hfit =>
    obtain ⟨full, bm, e1, e2, e3⟩ := hb
    left
    refine ⟨by unfold Varlen.allocStorage; simpa only [if_true, bind_apply] using h, ?_⟩
    unfold allocStorage
    simp only [if_true, bind_apply]
    rw [e1] at h ⊢
    simp only [Res.bind_ok, bind_apply] at h ⊢
    unfold allocM at h ⊢
    split at h
    · cases h
    split at h
    · cases h
    split at h
    · rename_i h1 h2 _ h3
      rw [if_neg h1, if_neg h2]
      rfl
    · rename_i h1 h2 base h3
      simp only [Res.bind_ok, bind_apply, fillZero, writeBytes] at h
      split at h <;> cases h
  · case isFalse =>
    left
    refine ⟨by unfold Varlen.allocStorage; simpa only [if_true, bind_apply] using h, ?_⟩
    unfold allocStorage
    simp only [if_true, bind_apply]
    rw [hb]
    rfl
  · case isTrue hfit =>
    obtain ⟨full, bm, e1, e2, e3⟩ := hb
    right
    refine ⟨p, s', by unfold Varlen.allocStorage; simpa only [if_true, bind_apply] using h, ?_⟩
    unfold allocStorage
    simp only [if_true, bind_apply]
    rw [e1] at h ⊢
    simp only [Res.bind_ok, bind_apply] at h ⊢
    unfold allocM at h ⊢
    split at h
    · cases h
    split at h
    · cases h
    split at h
    · cases h
    · rename_i h1 h2 _ base h3
      rw [if_neg h1, if_neg h2]
      simp only [Res.bind_ok, bind_apply]
      have hl := pick_some h3
      have hblk : (s.push ⟨base, full.toNat, T.ALIGN.toNat, true, fun _ => none⟩).blk s.next = some ⟨base, full.toNat, T.ALIGN.toNat, true, fun _ => none⟩ := by
        simp [St.blk_push]
      have hfull : full.toNat = size.toNat + bm.toNat := by rw [e3, e2, hs]; rfl
      have hbm : 0 < bm.toNat := by rw [e2]; simp only [bitmaskBytes, if_true]; omega
      have hsz : storageSize true T.ALIGN.toNat c = size.toNat + bm.toNat := by rw [← e3, hfull]
      rw [byteSlice_uninit (k := 0) ?_ ?_ (by omega) hbm ?_]
      · rfl
      · exact addr_ne (B := ⟨base, full.toNat, T.ALIGN.toNat, true, fun _ => none⟩) hblk hl.1 (by
          have := hl.2.2.1; simp only [Ptr.add_off]; omega)
      · refine .inr ⟨_, hblk, rfl, ?_⟩
        simp only [Ptr.add_off]; omega
      · unfold viewAt
        simp only [Ptr.add_blk]
        rw [hblk]
  · case isFalse =>
    rw [hb] at h
    cases h

theorem growStorage_strict (A : Allocator) {s : St} {p : Ptr} {oldSize newSize : BitVec w} {c c' : Nat} (hc : c ≠ 0) (hcc2 : 2 * c ≤ c')
    (hs : oldSize.toNat = c * T.ALIGN.toNat) (hs' : newSize.toNat = c' * T.ALIGN.toNat) (hst : Store T true s p c)
    (hf : c' * T.ALIGN.toNat + (T.ALIGN.toNat - 1) ≤ isizeMax w) :
    (Varlen.growStorage A true p oldSize T.ALIGN newSize s = .ok none s ∧ growStorage A true p oldSize T.ALIGN newSize s = .ok none s) ∨
    ∃ p' s', Varlen.growStorage A true p oldSize T.ALIGN newSize s = .ok (some p') s' ∧ growStorage A true p oldSize T.ALIGN newSize s = .ub .invalidValue := by
  have hpos := hT.align_pow2.pos
  have hown := hst.owns hc
  have hle : c ≤ c' := by omega
  have hca : c * T.ALIGN.toNat ≤ c' * T.ALIGN.toNat := Nat.mul_le_mul_right _ hle
  have hfold : c * T.ALIGN.toNat + (T.ALIGN.toNat - 1) ≤ isizeMax w := by omega
  have hspec := growStorage_spec hT hw A true hc hcc2 hs hs' hst hf
  have hb := addBitmask_spec hw hT.align_pow2 hs hfold s
  rw [if_pos hst.fits] at hb
  obtain ⟨full, bm, e1, e2, e3⟩ := hb
  have hb' := addBitmask_spec hw hT.align_pow2 hs' hf s
  have hff : fromSizeAlign w newSize.toNat T.ALIGN.toNat = true := by rw [hs', fromSizeAlign_iff]; exact hf
  have hdef : ∀ r, (Varlen.growStorage A true p oldSize T.ALIGN newSize s = r ↔
      Res.bind (addBitmask newSize T.ALIGN s) (fun x => match x with
        | none => pure none
        | some (newFull, newBm) => do
          match ← reallocM w A p full.toNat T.ALIGN.toNat newFull.toNat with
          | none => pure none
          | some q => do
            checkAcc (q.add oldSize.toNat) bm.toNat
            checkAcc (q.add newSize.toNat) newBm.toNat
            exclusiveRef (q.add oldSize.toNat) bm.toNat (q.add newSize.toNat) newBm.toNat
            ptrCopy (q.add oldSize.toNat) (q.add newSize.toNat) 1 bm.toNat
            if bm.toNat ≤ newBm.toNat then do
              fillZero (q.add (newSize.toNat + bm.toNat)) (newBm.toNat - bm.toNat)
              pure (some q)
            else panicM .outOfBounds) = r) := by
    intro r
    unfold Varlen.growStorage
    simp only [if_true, bind_apply, e1, Res.bind_ok, hff]
    exact Iff.rfl
  split at hb'
  case isFalse =>
    left
    refine ⟨by rw [hdef, hb']; rfl, ?_⟩
    unfold growStorage
    simp only [if_true, bind_apply, e1, Res.bind_ok, hff, hb']
    rfl
  case isTrue hfit =>
    obtain ⟨full', bm', e1', e2', e3'⟩ := hb'
    have hz : full'.toNat ≠ 0 := by
      rw [e3']; have := storageSize_ge true T.ALIGN.toNat c'; have : 0 < c' * T.ALIGN.toNat := Nat.mul_pos (by omega) hpos; omega
    have hfl : fromSizeAlign w full'.toNat T.ALIGN.toNat = true := by rw [e3', fromSizeAlign_iff]; exact hfit
    have hown' : ownsAlloc s p full.toNat T.ALIGN.toNat := by rw [e3]; exact hown
    unfold growStorage
    simp only [if_true, bind_apply, e1, Res.bind_ok, hff, e1']
    rcases hspec with h | ⟨p', s', h, _⟩
    · rw [hdef, e1'] at h
      left
      refine ⟨by rw [hdef, e1']; exact h, ?_⟩
      simp only [Res.bind_ok, bind_apply] at h
      unfold reallocM at h ⊢
      rw [if_neg hz, if_neg (by simp [hfl]), if_pos hown'] at h ⊢
      simp only at h ⊢
      split at h
      · rfl
      · simp only [Res.bind_ok] at h
        obtain ⟨_, s1, _, h⟩ := M.ok_inv h
        obtain ⟨_, s2, _, h⟩ := M.ok_inv h
        obtain ⟨_, s3, _, h⟩ := M.ok_inv h
        obtain ⟨_, s4, _, h⟩ := M.ok_inv h
        split at h
        · obtain ⟨_, s5, _, h⟩ := M.ok_inv h
          cases h
        · cases h
    · right
      refine ⟨p', s', h, ?_⟩
      rw [hdef, e1'] at h
      simp only [Res.bind_ok, bind_apply] at h
      unfold reallocM at h ⊢
      rw [if_neg hz, if_neg (by simp [hfl]), if_pos hown'] at h ⊢
      simp only at h ⊢
      split at h
      · cases h
      · rename_i base h3
        have hl := pick_some h3
        simp only [Res.bind_ok, bind_apply]
        have hsp : ({ (s.free p.blk).push ⟨base, full'.toNat, T.ALIGN.toNat, true, fun i => if i < min full.toNat full'.toNat then viewAt s p i else none⟩ with copied := s.copied + full.toNat } : St) = reallocSt s p base full.toNat full'.toNat T.ALIGN.toNat := rfl
        have hn : (s.free p.blk).next = s.next := by simp [St.next]
        rw [hsp, hn]
        generalize hsr : reallocSt s p base full.toNat full'.toNat T.ALIGN.toNat = sr
        have hblk : sr.blk s.next = some ⟨base, full'.toNat, T.ALIGN.toNat, true, fun i => if i < min full.toNat full'.toNat then viewAt s p i else none⟩ := by
          rw [← hsr, reallocSt_blk, if_pos rfl]
        have hfull : full.toNat = oldSize.toNat + bm.toNat := by rw [e3, e2, hs]; rfl
        have hfull' : full'.toNat = newSize.toNat + bm'.toNat := by rw [e3', e2', hs']; rfl
        have hbm' : 0 < bm'.toNat := by rw [e2']; simp only [bitmaskBytes, if_true]; omega
        have hmono := bitmaskBytes_mono (chk := true) hle
        have hbb : bm.toNat ≤ bm'.toNat := by rw [e2, e2']; exact hmono
        have hex : full.toNat ≤ newSize.toNat := by
          rw [hfull, hs, hs', e2]
          have h1 := Nat.mul_le_mul_right T.ALIGN.toNat hcc2
          rw [Nat.mul_assoc, Nat.two_mul] at h1
          have h2 : c ≤ c * T.ALIGN.toNat := Nat.le_mul_of_pos_right c hpos
          have h3 : bitmaskBytes true c ≤ c := by simp only [bitmaskBytes, if_true]; omega
          omega
        have hfi : full'.toNat ≤ isizeMax w := by rw [e3']; omega
        have hlt := hl.2.2.1
        rw [byteSlice_ok (s := sr) (p := Ptr.add ⟨s.next, 0⟩ oldSize.toNat)]
        rotate_left
        · exact addr_ne (B := _) hblk hl.1 (by simp only [Ptr.add_off]; omega)
        · exact .inr ⟨_, hblk, rfl, by simp only [Ptr.add_off]; omega⟩
        · omega
        · intro k hk
          obtain ⟨b, hb⟩ := hst.bits k (by rw [← e2]; exact hk)
          refine ⟨b, ?_⟩
          rw [← hb, ← hs]
          conv => lhs; unfold viewAt
          simp only [Ptr.add_blk, Ptr.add_off]
          rw [hblk]
          simp only
          rw [if_pos (by omega)]
          congr 1
          omega
        simp only [Res.bind_ok, bind_apply]
        rw [byteSlice_uninit (s := sr) (p := Ptr.add ⟨s.next, 0⟩ newSize.toNat) (k := 0)]
        · rfl
        · exact addr_ne (B := _) hblk hl.1 (by simp only [Ptr.add_off]; omega)
        · exact .inr ⟨_, hblk, rfl, by simp only [Ptr.add_off]; omega⟩
        · omega
        · exact hbm'
        · conv => lhs; unfold viewAt
          simp only [Ptr.add_blk, Ptr.add_off]
          rw [hblk]
          simp only
          rw [if_neg (by omega)]

theorem mustRealloc_strict (A : Allocator) {s : St} {p : Ptr} {cap minimum : BitVec w} (hst : Store T true s p cap.toNat) (hmin : 0 < minimum.toNat) :
    (Varlen.mustRealloc A true p cap minimum T.ALIGN s = .panic .layoutOverflow s ∧ mustRealloc A true p cap minimum T.ALIGN s = .panic .layoutOverflow s) ∨
    ∃ r s', Varlen.mustRealloc A true p cap minimum T.ALIGN s = .ok r s' ∧ mustRealloc A true p cap minimum T.ALIGN s = .ub .invalidValue := by
  have hpos := hT.align_pow2.pos
  have hp := two_pow_ge hw
  have h2p := isizeMax_lt (w := w) (by omega)
  have h2 : (2 : BitVec w).toNat = 2 := ofNat_toNat_small hw (n := 2) (by omega)
  have hge := storageSize_ge true T.ALIGN.toNat cap.toNat
  have hfits := hst.fits
  have hcapa : (cap * T.ALIGN).toNat = cap.toNat * T.ALIGN.toNat := by
    rw [BitVec.toNat_mul, Nat.mod_eq_of_lt]; omega
  unfold Varlen.mustRealloc mustRealloc
  simp only [bind_apply]
  unfold Varlen.tryRealloc tryRealloc
  cases hm : checkedMul cap 2 with
  | none => exact .inl ⟨rfl, rfl⟩
  | some cap2 =>
    have hcap2 : cap2.toNat = 2 * cap.toNat := by rw [checkedMul_eq_some.1 hm, h2, Nat.mul_comm]
    simp only
    generalize hso : maxW (maxW minimum ((32 + T.ALIGN - 1) / T.ALIGN)) cap2 = so
    have hsoN : 2 * cap.toNat ≤ so.toNat ∧ so.toNat ≠ 0 := by
      rw [← hso, maxW_toNat, maxW_toNat, hcap2]; omega
    cases hm2 : checkedMul so T.ALIGN with
    | none => exact .inl ⟨rfl, rfl⟩
    | some sb =>
      have hsb : sb.toNat = so.toNat * T.ALIGN.toNat := checkedMul_eq_some.1 hm2
      simp only
      have hfc : fromSizeAlign w (cap * T.ALIGN).toNat T.ALIGN.toNat = true := by rw [fromSizeAlign_iff, hcapa]; omega
      simp only [hfc, if_true]
      cases hf : fromSizeAlign w sb.toNat T.ALIGN.toNat with
      | false => exact .inl ⟨rfl, rfl⟩
      | true =>
        simp only [if_true]
        rw [fromSizeAlign_iff, hsb] at hf
        simp only [bind_apply]
        by_cases hc0 : cap = 0
        · rw [if_pos hc0, if_pos hc0]
          rcases allocStorage_strict hT hw A s hsoN.2 hsb hf with ⟨e1, e2⟩ | ⟨p', s', e1, e2⟩
          · rw [e1, e2]; exact .inl ⟨rfl, rfl⟩
          · rw [e1, e2]; exact .inr ⟨_, _, rfl, rfl⟩
        · have hne : cap.toNat ≠ 0 := by
            intro h; exact hc0 (BitVec.eq_of_toNat_eq (by simpa using h))
          rw [if_neg hc0, if_neg hc0]
          rcases growStorage_strict hT hw A hne hsoN.1 hcapa hsb hst hf with ⟨e1, e2⟩ | ⟨p', s', e1, e2⟩
          · rw [e1, e2]; exact .inl ⟨rfl, rfl⟩
          · rw [e1, e2]; exact .inr ⟨_, _, rfl, rfl⟩

/-- The strict `push` differs from the other one exactly when the storage grows, and then it is undefined behaviour. -/
theorem push_strict (A : Allocator) {s : St} {q : SeqS w} {es} (h : SeqInv T true s q es) {I : Init w} (ha : PushArg T I s q) :
    (push A true T I (s, q) = Seq.push A true T I (s, q) ∧
      ∀ s' q', (Seq.push A true T I (s, q) = .ok () (s', q') ∨ ∃ m, Seq.push A true T I (s, q) = .panic m (s', q')) → q'.cap = q.cap) ∨
    (push A true T I (s, q) = .ub .invalidValue ∧
      ∀ s' q', (Seq.push A true T I (s, q) = .ok () (s', q') ∨ ∃ m, Seq.push A true T I (s, q) = .panic m (s', q')) → q.cap.toNat < q'.cap.toNat) := by
  have hI := ha.lawful
  have hap := hT.align_pow2.pos
  have hsub : (T.ALIGN - 1).toNat = T.ALIGN.toNat - 1 := hT.align_pow2.sub_one
  -- the end of `try_push` keeps the capacity
  have hend : ∀ (s0 : St) (q0 : SeqS w) (l : Layout w) (op : BitVec w) s' q',
      (let r := ((do
          let q ← getQ
          let elemOffset := q.occ
          liftQ (markOffsetValid true T.ALIGN q.ptr q.cap elemOffset)
          liftQ (I.initTo (q.ptr.add (elemOffset * T.ALIGN).toNat) l)
          let q ← getQ
          putQ { q with occ := op, len := q.len + 1 }
          pure true : MQ w Bool) (s0, q0)).bind (fun b => if b = true then pure () else panicM .layoutOverflow)
      (r = .ok () (s', q') ∨ ∃ m, r = .panic m (s', q'))) → q'.cap = q0.cap := by
    intro s0 q0 l op s' q' hr
    simp only [bind_apply, getQ_apply, Res.bind_ok, liftQ_apply] at hr
    cases e1 : markOffsetValid true T.ALIGN q0.ptr q0.cap q0.occ s0 with
    | ub k => rw [e1] at hr; rcases hr with hr | ⟨m, hr⟩ <;> cases hr
    | panic m1 s1 => rw [e1] at hr; rcases hr with hr | ⟨m, hr⟩ <;> cases hr; rfl
    | ok u s1 =>
      rw [e1] at hr
      simp only [bind_apply, Res.bind_ok, liftQ_apply] at hr
      cases e2 : I.initTo (q0.ptr.add (q0.occ * T.ALIGN).toNat) l s1 with
      | ub k => rw [e2] at hr; rcases hr with hr | ⟨m, hr⟩ <;> cases hr
      | panic m1 s2 => rw [e2] at hr; rcases hr with hr | ⟨m, hr⟩ <;> cases hr; rfl
      | ok u s2 => rw [e2] at hr; rcases hr with hr | ⟨m, hr⟩ <;> cases hr; rfl
  unfold push Seq.push tryPush Seq.tryPush
  have hkeep : ∀ (c : M Unit) (s0 : St) s' q', (let r : Res (St × SeqS w) Unit := ((do liftQ c; pure false : MQ w Bool) (s0, q)).bind (fun b => if b = true then pure () else panicM .layoutOverflow)
      (r = .ok () (s', q') ∨ ∃ m, r = .panic m (s', q'))) → q'.cap = q.cap := by
    intro c s0 s' q' hr
    simp only [bind_apply, liftQ_apply] at hr
    cases e : c s0 with
    | ub k => rw [e] at hr; rcases hr with hr | ⟨m, hr⟩ <;> cases hr
    | panic m1 s2 => rw [e] at hr; rcases hr with hr | ⟨m, hr⟩ <;> cases hr; rfl
    | ok u s2 => rw [e] at hr; rcases hr with hr | ⟨m, hr⟩ <;> cases hr; rfl
  simp only [bind_apply, liftQ_apply]
  cases e0 : onUnwind I.cautious I.dropI s with
  | ub k => exact .inl ⟨rfl, fun s' q' hr => by rcases hr with hr | ⟨m, hr⟩ <;> cases hr⟩
  | panic m0 s0 => exact .inl ⟨rfl, fun s' q' hr => by rcases hr with hr | ⟨m, hr⟩ <;> cases hr; rfl⟩
  | ok o s0 =>
    have hs0 : s0 = s ∧ o = I.lay := by
      cases hb : I.bad with
      | true =>
        obtain ⟨sd, hd1, _⟩ := hI.dropped ha.pre
        rw [onUnwind_panic (hI.calc_panic s ha.pre hb) hd1] at e0; cases e0
      | false => rw [onUnwind_ok (hI.calc_ok s ha.pre hb)] at e0; cases e0; exact ⟨rfl, rfl⟩
    obtain ⟨rfl, rfl⟩ := hs0
    simp only [Res.bind_ok]
    cases hl : I.lay with
    | none => exact .inl ⟨rfl, fun s' q' hr => hkeep _ _ s' q' hr⟩
    | some l =>
      have hszl := ha.nonzero l hl
      simp only
      cases hadd : checkedAdd l.size (T.ALIGN - 1) with
      | none => exact .inl ⟨rfl, fun s' q' hr => hkeep _ _ s' q' hr⟩
      | some x =>
        have hx := checkedAdd_eq_some.1 hadd
        rw [hsub] at hx
        have hu : (x / T.ALIGN).toNat = units T.ALIGN.toNat l.size.toNat := by rw [BitVec.toNat_udiv]; unfold units; rw [← hx]
        simp only [bind_apply, getQ_apply, Res.bind_ok]
        cases hadd2 : checkedAdd q.occ (x / T.ALIGN) with
        | none => exact .inl ⟨rfl, fun s' q' hr => hkeep _ _ s' q' hr⟩
        | some op =>
          have hop := checkedAdd_eq_some.1 hadd2
          rw [hu] at hop
          have hup := units_pos hap hszl
          simp only [bind_apply]
          by_cases hgrow : op.toNat > q.cap.toNat
          case neg =>
            rw [if_neg hgrow, if_neg hgrow]
            exact .inl ⟨rfl, fun s' q' hr => hend _ _ _ _ s' q' hr⟩
          case pos =>
            rw [if_pos hgrow, if_pos hgrow]
            simp only [bind_apply, liftQ_apply]
            rcases mustRealloc_strict hT hw A h.store (minimum := op) (by omega) with ⟨e1, e2⟩ | ⟨⟨p', cap'⟩, s', e1, e2⟩
            · left
              have hh : onUnwind (mustRealloc A true q.ptr q.cap op T.ALIGN) I.dropI s0 = onUnwind (Varlen.mustRealloc A true q.ptr q.cap op T.ALIGN) I.dropI s0 := by
                unfold onUnwind; rw [e1, e2]
              rw [hh]
              obtain ⟨sd, hd1, _⟩ := hI.dropped ha.pre
              rw [onUnwind_panic e1 hd1]
              exact ⟨rfl, fun s' q' hr => by rcases hr with hr | ⟨m, hr⟩ <;> cases hr; rfl⟩
            · right
              rw [onUnwind_ok e1, onUnwind_ub e2]
              refine ⟨rfl, fun s1 q1 hr => ?_⟩
              have hc := hend s' { q with ptr := p', cap := cap' } l op s1 q1 hr
              rcases reserve_spec hT hw A h (occPlus := op) (by omega) with ⟨_, r⟩ | r | ⟨_, p1, c1, s1, r1, r2, _⟩
              · rw [r] at e1; cases e1
              · omega
              · rw [r1] at e1; cases e1
                rw [hc]
                simp only
                rw [r2]; unfold growCap; omega
end
end Varlen.Strict
