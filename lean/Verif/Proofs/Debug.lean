import Verif.Model.Debug
import Verif.Proofs.SeqExtend
/-! # Debug builds behave like release builds -/
namespace Varlen
variable {w : Nat}

theorem MS.pure_bind {σ α β : Type} (a : α) (f : α → MS σ β) : (pure a >>= f) = f a := rfl

theorem onUnwind_pure {σ α : Type} (a : α) (c : MS σ Unit) : onUnwind (pure a) c = pure a := rfl

theorem liftQ_pure {α : Type} (a : α) : (liftQ (pure a) : MQ w α) = pure a := rfl

namespace Dbg

theorem addP_ok {a b : BitVec w} (h : a.toNat + b.toNat < 2 ^ w) : addP a b = pure (a + b) := if_pos h
theorem mulP_ok {a b : BitVec w} (h : a.toNat * b.toNat < 2 ^ w) : mulP a b = pure (a * b) := if_pos h
theorem subP_ok {a b : BitVec w} (h : b.toNat ≤ a.toNat) : subP a b = pure (a - b) := if_pos h
theorem debugAssert_ok {c : Prop} [Decidable c] (h : c) : debugAssert c = pure () := if_pos h

theorem one_le_align (hw : 8 ≤ w) {a : BitVec w} (ha : IsPow2 a) : (1 : BitVec w).toNat ≤ a.toNat := by
  rw [show (1 : BitVec w).toNat = 1 from ofNat_toNat_small hw (n := 1) (by omega)]; exact ha.pos

theorem addBitmask_eq (hw : 8 ≤ w) {size align : BitVec w} (hs : size.toNat ≤ isizeMax w) : addBitmask size align = Varlen.addBitmask size align := by
  unfold addBitmask Varlen.addBitmask
  split
  · rfl
  · cases hx : checkedAdd (size / align) 7 with
    | none => rfl
    | some x =>
      have h8 : (8 : BitVec w).toNat = 8 := ofNat_toNat_small hw (n := 8) (by omega)
      have hb : (x / 8).toNat ≤ 2 ^ w / 8 := by
        rw [BitVec.toNat_udiv, h8]
        exact Nat.div_le_div_right (Nat.le_of_lt x.isLt)
      have := isizeMax_lt (w := w) (by omega)
      have := two_pow_ge hw
      simp only
      rw [addP_ok (by omega), MS.pure_bind]

theorem addBitmask_bm (hw : 8 ≤ w) {size align full bm : BitVec w} {s s' : St} (h : Varlen.addBitmask size align s = .ok (some (full, bm)) s') :
    s' = s ∧ bm.toNat = (size.toNat / align.toNat + 7) / 8 := by
  unfold Varlen.addBitmask at h
  split at h
  · cases h
  · have h8 : (8 : BitVec w).toNat = 8 := ofNat_toNat_small hw (n := 8) (by omega)
    have h7 : (7 : BitVec w).toNat = 7 := ofNat_toNat_small hw (n := 7) (by omega)
    cases hx : checkedAdd (size / align) 7 with
    | none => rw [hx] at h; cases h
    | some x =>
      have hxx := checkedAdd_eq_some.1 hx
      rw [hx] at h
      simp only at h
      split at h
      · cases h
        rw [BitVec.toNat_udiv, h8, hxx, BitVec.toNat_udiv, h7]
        exact ⟨rfl, rfl⟩
      · cases h

theorem addBitmask_state {size align : BitVec w} {s s' : St} {r} (h : Varlen.addBitmask size align s = .ok r s') : s' = s := by
  unfold Varlen.addBitmask at h
  split at h
  · cases h
  · cases hx : checkedAdd (size / align) 7 with
    | none => rw [hx] at h; cases h; rfl
    | some x =>
      rw [hx] at h
      simp only at h
      split at h <;> cases h <;> rfl

theorem allocStorage_eq (hw : 8 ≤ w) (A : Allocator) (chk : Bool) {size align : BitVec w} (hs : size.toNat ≤ isizeMax w) :
    allocStorage A chk size align = Varlen.allocStorage A chk size align := by
  unfold allocStorage Varlen.allocStorage
  rw [addBitmask_eq hw hs]
  rfl

theorem growStorage_eq (hw : 8 ≤ w) (A : Allocator) (chk : Bool) (p : Ptr) {oldSize align newSize : BitVec w} (ho : oldSize.toNat ≤ newSize.toNat)
    (hs : newSize.toNat ≤ isizeMax w) (s : St) : growStorage A chk p oldSize align newSize s = Varlen.growStorage A chk p oldSize align newSize s := by
  unfold growStorage Varlen.growStorage
  cases chk with
  | false => rfl
  | true =>
    simp only [if_true]
    rw [addBitmask_eq hw (Nat.le_trans ho hs), addBitmask_eq hw hs, debugAssert_ok ho, MS.pure_bind]
    simp only [bind_apply]
    cases h1 : Varlen.addBitmask oldSize align s with
    | panic => rfl
    | ub => rfl
    | ok r1 s1 =>
      have := addBitmask_state h1; subst this
      simp only [Res.bind_ok]
      match r1, h1 with
      | none, h1 => rfl
      | some (oldFull, oldBm), h1 =>
        simp only
        split
        · simp only [bind_apply]
          cases h2 : Varlen.addBitmask newSize align s1 with
          | panic => rfl
          | ub => rfl
          | ok r2 s2 =>
            have := addBitmask_state h2; subst this
            simp only [Res.bind_ok]
            match r2, h2 with
            | none, h2 => rfl
            | some (newFull, newBm), h2 =>
              have e1 := (addBitmask_bm hw h1).2
              have e2 := (addBitmask_bm hw h2).2
              have hle : newBm.toNat ≥ oldBm.toNat := by
                rw [e1, e2]
                have := Nat.div_le_div_right (c := align.toNat) ho
                omega
              simp only
              rw [debugAssert_ok hle]
              rfl
        · rfl

section
variable {T : VarLen w} (hT : Lawful T) (hw : 8 ≤ w) {chk : Bool}
include hT hw

theorem align_bound : (32 : BitVec w).toNat + T.ALIGN.toNat < 2 ^ w := by
  rw [show (32 : BitVec w).toNat = 32 from ofNat_toNat_small hw (n := 32) (by omega)]
  obtain ⟨k, hk, he⟩ := hT.align_pow2
  rw [he]
  have := two_pow_ge hw
  have : 2 ^ k ≤ 2 ^ (w - 1) := Nat.pow_le_pow_right (by omega) (by omega)
  have e : 2 ^ w = 2 ^ (w - 1) * 2 := by rw [← Nat.pow_succ]; congr 1; omega
  omega

theorem mustRealloc_eq (A : Allocator) {s : St} {q : SeqS w} {es} (h : SeqInv T chk s q es) (minimum : BitVec w) :
    mustRealloc A chk q.ptr q.cap minimum T.ALIGN s = Varlen.mustRealloc A chk q.ptr q.cap minimum T.ALIGN s := by
  have hb := align_bound hT hw
  have hc := (h.cap_bytes hT).1
  have hx : (32 + T.ALIGN).toNat = (32 : BitVec w).toNat + T.ALIGN.toNat := by rw [BitVec.toNat_add, Nat.mod_eq_of_lt hb]
  unfold mustRealloc Varlen.mustRealloc
  simp only [bind_apply]
  congr 1
  unfold tryRealloc Varlen.tryRealloc
  rw [addP_ok hb, MS.pure_bind, subP_ok (by rw [hx]; have := one_le_align hw hT.align_pow2; omega), MS.pure_bind]
  cases hm : checkedMul q.cap 2 with
  | none => rfl
  | some cap2 =>
    have h2 : (2 : BitVec w).toNat = 2 := ofNat_toNat_small hw (n := 2) (by omega)
    have hcap2 := checkedMul_eq_some.1 hm
    rw [h2] at hcap2
    simp only
    generalize hso : maxW (maxW minimum ((32 + T.ALIGN - 1) / T.ALIGN)) cap2 = so
    have hge : q.cap.toNat ≤ so.toNat := by rw [← hso, maxW_toNat]; omega
    cases hm2 : checkedMul so T.ALIGN with
    | none => rfl
    | some sb =>
      have hsb := checkedMul_eq_some.1 hm2
      simp only
      rw [mulP_ok hc, MS.pure_bind]
      have hcapa : (q.cap * T.ALIGN).toNat = q.cap.toNat * T.ALIGN.toNat := by rw [BitVec.toNat_mul, Nat.mod_eq_of_lt hc]
      split
      · split
        · rename_i hf
          rw [fromSizeAlign_iff] at hf
          simp only [bind_apply]
          congr 1
          split
          · rw [allocStorage_eq hw A chk (by omega)]
          · rw [growStorage_eq hw A chk q.ptr (by rw [hcapa, hsb]; exact Nat.mul_le_mul_right _ hge) (by omega)]
        · rfl
      · rfl

theorem markOffsetValid_eq {s : St} {q : SeqS w} {es} (h : SeqInv T chk s q es) {off : BitVec w} (ho : off.toNat < q.cap.toNat) :
    markOffsetValid chk T.ALIGN q.ptr q.cap off = Varlen.markOffsetValid chk T.ALIGN q.ptr q.cap off := by
  unfold markOffsetValid Varlen.markOffsetValid
  cases chk with
  | false => rfl
  | true =>
    obtain ⟨hc1, hc2⟩ := h.cap_bytes hT
    have hcapa : (q.cap * T.ALIGN).toNat = q.cap.toNat * T.ALIGN.toNat := by rw [BitVec.toNat_mul, Nat.mod_eq_of_lt hc1]
    have h8 : (8 : BitVec w).toNat = 8 := ofNat_toNat_small hw (n := 8) (by omega)
    have hb := bit_div_lt ho
    have hs : storageSize true T.ALIGN.toNat q.cap.toNat = q.cap.toNat * T.ALIGN.toNat + bitmaskBytes true q.cap.toNat := rfl
    simp only [if_true]
    rw [mulP_ok hc1, MS.pure_bind, addP_ok (by rw [hcapa, BitVec.toNat_udiv, h8]; omega), MS.pure_bind]
    rfl

theorem mustRealloc_state (A : Allocator) {s : St} {q : SeqS w} {es} (h : SeqInv T chk s q es) {op : BitVec w} (hop : 0 < op.toNat)
    {p' cap' s'} (e : Varlen.mustRealloc A chk q.ptr q.cap op T.ALIGN s = .ok (p', cap') s') (hn : ¬ op.toNat ≤ q.cap.toNat) :
    SeqInv T chk s' { q with ptr := p', cap := cap' } es ∧ op.toNat ≤ cap'.toNat := by
  rcases reserve_spec hT hw A h hop with ⟨_, r⟩ | r | ⟨_, p1, c1, s1, r1, r2, r3, r4, _⟩
  · rw [r] at e; cases e
  · exact absurd r hn
  · rw [r1] at e; cases e
    exact ⟨r4, by rw [r2]; unfold growCap; omega⟩

/-- The end of `try_push`, after the storage is large enough. -/
theorem finish_eq {s : St} {q : SeqS w} {es} (h : SeqInv T chk s q es) {I : Init w} {l : Layout w} {op : BitVec w} (ho : q.occ.toNat < op.toNat) (hop : op.toNat ≤ q.cap.toNat) :
    (do
        let q ← getQ
        let elemOffset := q.occ
        liftQ (onUnwind (markOffsetValid chk T.ALIGN q.ptr q.cap elemOffset) I.dropI)
        let bytes ← liftQ (onUnwind (mulP elemOffset T.ALIGN) I.dropI)
        liftQ (I.initTo (q.ptr.add bytes.toNat) l)
        let q ← getQ
        putQ { q with occ := op }
        let q ← getQ
        let len ← liftQ (addP q.len 1)
        putQ { q with len := len }
        pure true : MQ w Bool) (s, q) =
    (do
        let q ← getQ
        let elemOffset := q.occ
        liftQ (Varlen.markOffsetValid chk T.ALIGN q.ptr q.cap elemOffset)
        liftQ (I.initTo (q.ptr.add (elemOffset * T.ALIGN).toNat) l)
        let q ← getQ
        putQ { q with occ := op, len := q.len + 1 }
        pure true : MQ w Bool) (s, q) := by
  obtain ⟨s1, m1, _⟩ := h.mark hT hw (off := q.occ) (by omega)
  obtain ⟨hc1, hc2⟩ := h.cap_bytes hT
  have hoc := Nat.mul_le_mul_right T.ALIGN.toNat (show q.occ.toNat ≤ q.cap.toNat by omega)
  have hlen := h.packed.length_le hT.align_pow2.pos
  have h1' : (1 : BitVec w).toNat = 1 := ofNat_toNat_small hw (n := 1) (by omega)
  have hl : q.len.toNat + (1 : BitVec w).toNat < 2 ^ w := by
    have := op.isLt; rw [h.len, h1']; omega
  simp only [bind_apply, getQ_apply, Res.bind_ok, liftQ_apply]
  rw [markOffsetValid_eq hT hw h (by omega), onUnwind_ok m1, m1, mulP_ok (by omega), onUnwind_pure]
  simp only [bind_apply, Res.bind_ok, liftQ_apply, pure_apply]
  cases I.initTo (q.ptr.add (q.occ * T.ALIGN).toNat) l s1 with
  | panic => rfl
  | ub => rfl
  | ok _ s2 =>
    simp only [Res.bind_ok, bind_apply, getQ_apply, putQ_apply, liftQ_apply]
    rw [addP_ok hl]; rfl

theorem tryPush_eq (A : Allocator) {s : St} {q : SeqS w} {es} (h : SeqInv T chk s q es) {I : Init w} (hI : InitLawful T I) (hpre : I.pre s)
    (hsz : ∀ l, I.lay = some l → 0 < l.size.toNat) : tryPush A chk T I (s, q) = Seq.tryPush A chk T I (s, q) := by
  have hap := hT.align_pow2.pos
  unfold tryPush Seq.tryPush
  simp only [bind_apply, liftQ_apply]
  cases hl : I.lay with
  | none =>
    rcases hI.cautious_cases hpre with ⟨hc, _⟩ | ⟨hc, _, _⟩
    · rw [hl] at hc
      simp only [onUnwind_ok hc, Res.bind_ok]
    · unfold onUnwind
      simp only [hc]
      cases I.dropI s <;> rfl
  | some l =>
    simp only [onUnwind_ok (hI.calc_some hpre hl), Res.bind_ok]
    have hszl := hsz l hl
    have hsub : (T.ALIGN - 1).toNat = T.ALIGN.toNat - 1 := hT.align_pow2.sub_one
    rw [subP_ok (one_le_align hw hT.align_pow2), onUnwind_pure, liftQ_pure, MS.pure_bind]
    cases hadd : checkedAdd l.size (T.ALIGN - 1) with
    | none => rfl
    | some x =>
      have hx := checkedAdd_eq_some.1 hadd
      rw [hsub] at hx
      have hu : 0 < (x / T.ALIGN).toNat := by rw [BitVec.toNat_udiv, hx, Nat.div_pos_iff]; omega
      simp only [bind_apply, getQ_apply, Res.bind_ok]
      cases hadd2 : checkedAdd q.occ (x / T.ALIGN) with
      | none => rfl
      | some op =>
        have hop := checkedAdd_eq_some.1 hadd2
        simp only [bind_apply]
        by_cases hn : op.toNat ≤ q.cap.toNat
        · rw [if_neg (by omega), if_neg (by omega)]
          exact finish_eq hT hw h (by omega) hn
        · rw [if_pos (by omega), if_pos (by omega)]
          simp only [bind_apply, liftQ_apply]
          have he : onUnwind (mustRealloc A chk q.ptr q.cap op T.ALIGN) I.dropI s = onUnwind (Varlen.mustRealloc A chk q.ptr q.cap op T.ALIGN) I.dropI s := by
            unfold onUnwind; rw [mustRealloc_eq hT hw A h]
          rw [he]
          cases hr : Varlen.mustRealloc A chk q.ptr q.cap op T.ALIGN s with
          | panic m s1 =>
            unfold onUnwind; rw [hr]
            simp only
            cases I.dropI s1 <;> rfl
          | ub => unfold onUnwind; rw [hr]; rfl
          | ok r s1 =>
            obtain ⟨p', cap'⟩ := r
            obtain ⟨k1, k2⟩ := mustRealloc_state hT hw A h (by omega) hr hn
            rw [onUnwind_ok hr]
            simp only [Res.bind_ok, putQ_apply]
            exact finish_eq hT hw k1 (by simp only; omega) k2

theorem push_eq (A : Allocator) {s : St} {q : SeqS w} {es} (h : SeqInv T chk s q es) {I : Init w} (hI : InitLawful T I) (hpre : I.pre s)
    (hsz : ∀ l, I.lay = some l → 0 < l.size.toNat) : push A chk T I (s, q) = Seq.push A chk T I (s, q) := by
  unfold push Seq.push
  simp only [bind_apply]
  rw [tryPush_eq hT hw A h hI hpre hsz]

theorem takeElems_eq {s : St} {q : SeqS w} {es} (h : SeqInv T chk s q es) : takeElems chk T (s, q) = Seq.takeElems chk T (s, q) := by
  have hc1 := (h.cap_bytes hT).1
  have h7 : (7 : BitVec w).toNat = 7 := ofNat_toNat_small hw (n := 7) (by omega)
  have := two_pow_ge hw
  unfold takeElems Seq.takeElems
  simp only [bind_apply, getQ_apply, Res.bind_ok, putQ_apply, liftQ_apply]
  have : clearBitmasks chk T.ALIGN q.ptr q.cap 0 = Varlen.clearBitmasks chk T.ALIGN q.ptr q.cap 0 := by
    unfold clearBitmasks Varlen.clearBitmasks
    rw [addP_ok (by rw [h7]; simp; omega), mulP_ok hc1]; rfl
  rw [this]

/-- `next` needs no knowledge of the sequence. -/
theorem next_eq (it : IterS w) : next T it = Iter.next T it := by
  unfold next Iter.next
  split
  · rename_i hl
    have h1' : (1 : BitVec w).toNat = 1 := ofNat_toNat_small hw (n := 1) (by omega)
    rw [subP_ok (by omega)]
    unfold roundUpFast Varlen.roundUpFast
    rw [subP_ok (one_le_align hw hT.align_pow2)]
    rfl
  · rfl

theorem take_eq : ∀ (k : Nat) (it : IterS w), take T k it = Iter.take T k it
  | 0, _ => rfl
  | k + 1, it => by
    unfold take Iter.take
    rw [next_eq hT hw]
    simp only [take_eq k]
    rfl

theorem dropLoop_eq : ∀ (fuel : Nat) (it : IterS w), dropLoop T fuel it = OwnedElems.dropLoop T fuel it
  | 0, _ => rfl
  | fuel + 1, it => by
    unfold dropLoop OwnedElems.dropLoop
    rw [next_eq hT hw]
    simp only [dropLoop_eq fuel]
    rfl

theorem dropElems_eq (it : IterS w) : dropElems T it = OwnedElems.drop T it := by
  unfold dropElems OwnedElems.drop
  rw [dropLoop_eq hT hw]

theorem drop_eq {s : St} {q : SeqS w} {es} (h : SeqInv T chk s q es) : drop chk T (s, q) = Seq.drop chk T (s, q) := by
  have hc1 := (h.cap_bytes hT).1
  have hcapa : (q.cap * T.ALIGN).toNat = q.cap.toNat * T.ALIGN.toNat := by rw [BitVec.toNat_mul, Nat.mod_eq_of_lt hc1]
  have hf := h.store.fits
  have hge := storageSize_ge chk T.ALIGN.toNat q.cap.toNat
  unfold drop Seq.drop
  simp only [bind_apply, getQ_apply, Res.bind_ok]
  split
  · rfl
  · simp only [bind_apply]
    rw [takeElems_eq hT hw h, Seq.takeElems_spec hw]
    simp only [Res.bind_ok, liftQ_apply, bind_apply]
    rw [dropElems_eq hT hw]
    cases OwnedElems.drop T (Seq.iter q) s with
    | panic => rfl
    | ub => rfl
    | ok _ s1 =>
      simp only [Res.bind_ok, bind_apply, getQ_apply, liftQ_apply]
      rw [mulP_ok hc1]
      simp only [pure_apply, Res.bind_ok, bind_apply, liftQ_apply]
      have : extendedSize chk (q.cap * T.ALIGN) T.ALIGN = Varlen.extendedSize chk (q.cap * T.ALIGN) T.ALIGN := by
        unfold extendedSize Varlen.extendedSize
        rw [addBitmask_eq hw (by rw [hcapa]; omega)]
        rfl
      rw [this]

theorem isOffsetValid_eq {s : St} {q : SeqS w} {es} (h : SeqInv T true s q es) (o : BitVec w) : isOffsetValid T q o = Seq.isOffsetValid T q o := by
  unfold isOffsetValid Seq.isOffsetValid
  split
  · rfl
  · rename_i ho
    obtain ⟨hc1, hc2⟩ := h.cap_bytes hT
    have hcapa : (q.cap * T.ALIGN).toNat = q.cap.toNat * T.ALIGN.toNat := by rw [BitVec.toNat_mul, Nat.mod_eq_of_lt hc1]
    have h8 : (8 : BitVec w).toNat = 8 := ofNat_toNat_small hw (n := 8) (by omega)
    have hb := bit_div_lt (show o.toNat < q.cap.toNat by have := h.le; omega)
    have hs : storageSize true T.ALIGN.toNat q.cap.toNat = q.cap.toNat * T.ALIGN.toNat + bitmaskBytes true q.cap.toNat := rfl
    rw [mulP_ok hc1, MS.pure_bind, addP_ok (by rw [hcapa, BitVec.toNat_udiv, h8]; omega), MS.pure_bind]
    rfl

omit hw in
theorem fromOffsetUnchecked_eq {s : St} {q : SeqS w} {es} (h : SeqInv T chk s q es) {o : BitVec w} (ho : o.toNat < q.occ.toNat) :
    fromOffsetUnchecked T q o = Seq.fromOffsetUnchecked T q o := by
  have hc1 := (h.cap_bytes hT).1
  have hm := Nat.mul_le_mul_right T.ALIGN.toNat (show o.toNat ≤ q.cap.toNat by have := h.le; omega)
  unfold fromOffsetUnchecked Seq.fromOffsetUnchecked
  rw [debugAssert_ok ho, MS.pure_bind, mulP_ok (by omega), MS.pure_bind]

theorem fromOffset_eq {s : St} {q : SeqS w} {es} (h : SeqInv T true s q es) (o : BitVec w) : fromOffset T q o = Seq.fromOffset T q o := by
  unfold fromOffset Seq.fromOffset
  rw [isOffsetValid_eq hT hw h]
  by_cases ho : o.toNat < q.occ.toNat
  · rw [fromOffsetUnchecked_eq hT h ho]
  · unfold Seq.isOffsetValid
    rw [if_pos (by omega), MS.pure_bind, MS.pure_bind]
    rfl

end
end Dbg
end Varlen

namespace Varlen
variable {w : Nat} {T : VarLen w} (hT : Lawful T) (hw : 8 ≤ w) {chk : Bool}

theorem BitVec.sub_mod_zero {a : BitVec w} (ha : IsPow2 a) {x y : Nat} (hx : x % a.toNat = 0) (hy : y % a.toNat = 0) :
    (BitVec.ofNat w x - BitVec.ofNat w y) % a = 0 := by
  have hd := ha.dvd
  have hx' : a.toNat ∣ x % 2 ^ w := (Nat.dvd_mod_iff hd).2 (Nat.dvd_of_mod_eq_zero hx)
  have hy' : a.toNat ∣ y % 2 ^ w := (Nat.dvd_mod_iff hd).2 (Nat.dvd_of_mod_eq_zero hy)
  apply BitVec.eq_of_toNat_eq
  rw [BitVec.toNat_umod, BitVec.toNat_sub, BitVec.toNat_ofNat, BitVec.toNat_ofNat]
  have : a.toNat ∣ (2 ^ w - y % 2 ^ w + x % 2 ^ w) % 2 ^ w :=
    (Nat.dvd_mod_iff hd).2 (Nat.dvd_add (Nat.dvd_sub hd hy') hx')
  simpa using Nat.mod_eq_zero_of_dvd this

include hT hw in
theorem Dbg.offsetOf_eq {s : St} {q : SeqS w} {es} (h : SeqInv T chk s q es) {p : Ptr} (hp : Aligned s p T.ALIGN.toNat) (hc : q.cap.toNat ≠ 0) :
    Dbg.offsetOf T q p s = Seq.offsetOf T q p s := by
  unfold Dbg.offsetOf Seq.offsetOf
  simp only
  rw [if_pos (BitVec.sub_mod_zero hT.align_pow2 hp (h.store.aligned hc))]

include hT hw in
theorem Dbg.extend_eq (A : Allocator) (own : Bool) : ∀ (is : List (Init w)) {s q h m t}, Hist T chk s q h m t → ExtendArg T is s q →
    Dbg.extend A chk T own is (s, q) = Seq.extend A chk T own is (s, q)
  | [], _, _, _, _, _, _, _ => rfl
  | I :: is, s, q, h, m, t, hh, ha => by
    have hap := List.pairwise_cons.1 ha.apart
    have hI := (ha.each I (by simp))
    obtain ⟨es, hi⟩ := hh.inv hT hw
    have e0 := Dbg.push_eq hT hw A hi.inv hI.lawful hI.pre hI.nonzero
    have e1 : onUnwind (Dbg.push A chk T I) (if own then liftQ (dropInits is) else pure ()) (s, q) =
        onUnwind (Seq.push A chk T I) (if own then liftQ (dropInits is) else pure ()) (s, q) := by unfold onUnwind; rw [e0]
    unfold Dbg.extend Seq.extend
    simp only [bind_apply]
    rw [e1]
    rcases hh.push_cases hT hw A hI with ⟨v, s', q', need, e, hv, hh', hp, _⟩ | ⟨msg, s', q', e, _⟩
    · have ha' : ExtendArg T is s' q' :=
        ⟨fun J hJ => (ha.each J (by simp [hJ])).after (fun b h => hI.lawful.owns_mods b h) hp (hap.1 J hJ), hap.2⟩
      rw [onUnwind_ok e]
      simp only [Res.bind_ok]
      exact Dbg.extend_eq A own is hh' ha'
    · unfold onUnwind
      rw [e]
      simp only
      cases (if own = true then liftQ (dropInits is) else pure () : MQ w Unit) (s', q') <;> rfl

/-- The `debug_assert_eq!` in `VBox::new` never fails, and evaluating it has no effect. -/
theorem VBox.new_release (A : Allocator) {T : VarLen w} (hT : Lawful T) {I : Init w} (hI : InitLawful T I) {s : St} (hp : I.pre s) :
    VBox.new A T I s = VBox.newRelease A T I s := by
  unfold VBox.new VBox.newRelease
  simp only [bind_apply]
  cases hl : I.lay with
  | none =>
    rcases hI.cautious_cases hp with ⟨hc, _⟩ | ⟨hc, _, _⟩
    · rw [hl] at hc
      simp only [onUnwind_ok hc, Res.bind_ok]
    · unfold onUnwind
      simp only [hc]
      cases I.dropI s <;> rfl
  | some l =>
    simp only [onUnwind_ok (hI.calc_some hp hl), Res.bind_ok]
    by_cases hf : fromSizeAlign w l.size.toNat T.ALIGN.toNat = true
    · simp only [hf, if_true]
      by_cases h0 : l.size.toNat = 0
      · simp [h0, allocM, Res.bind]
      · simp only [bind_apply, allocM, h0, hf, if_false, reduceCtorEq]
        cases hpk : pick w A s l.size.toNat T.ALIGN.toNat with
        | none => rfl
        | some base =>
          obtain ⟨k1, k2⟩ := init_fresh hT hI hp hl (pick_some hpk).2.1 hf
          simp only [Res.bind_ok, bind_apply]
          cases hv : I.val with
          | some v =>
            obtain ⟨s', e1, e2⟩ := k1 v hv
            rw [e1]
            simp [derefBox_ok hT e2.1.valid, hT.calc_ok _ _ _ _ e2.1.valid]
          | none =>
            obtain ⟨m, s', e1, e2⟩ := k2 hv
            rw [e1]; rfl
    · simp only [hf]; rfl

end Varlen
