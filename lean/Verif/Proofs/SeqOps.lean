import Verif.Proofs.SeqPush
import Verif.Spec.SeqHist
/-! # Iteration, draining, dropping, indexing and in-place modification of a sequence -/
namespace Varlen
variable {w : Nat}

/-- The address of an element in the storage at `b`. -/
def Elem.at (T : VarLen w) (b : Ptr) (e : Elem w) : Ptr := b.add (e.off * T.ALIGN.toNat)

/-- The iterator `it` is about to yield the elements `es`, in storage at `b`. -/
structure IterAt (T : VarLen w) (s : St) (b : Ptr) (it : IterS w) (cur : Nat) (es : List (Elem w)) (fin : Nat) : Prop where
  ptr : it.ptr = b.add (cur * T.ALIGN.toNat)
  len : it.len.toNat = es.length
  packed : Packed T.ALIGN.toNat cur es fin
  valid : ∀ e ∈ es, Valid T s (e.at T b) e.v e.l
  fits : fin * T.ALIGN.toNat + (T.ALIGN.toNat - 1) < 2 ^ w

/-- Two elements do not share units. -/
def EDisj (a : Nat) (e e' : Elem w) : Prop := e.off + units a e.l.size.toNat ≤ e'.off ∨ e'.off + units a e'.l.size.toNat ≤ e.off

theorem EDisj.symm {a : Nat} {e e' : Elem w} (h : EDisj a e e') : EDisj a e' e := Or.symm h

theorem Packed.pairwise {a : Nat} (ha : 0 < a) : ∀ {es : List (Elem w)} {cur fin}, Packed a cur es fin → es.Pairwise (EDisj a)
  | [], _, _, _ => .nil
  | e :: es, cur, fin, h => by
    refine .cons ?_ (Packed.pairwise ha h.2.2)
    intro e' he'
    have := (Packed.mem ha h.2.2 e' he').1
    have h1 := h.1
    exact .inl (by omega)

theorem EDisj.bytes {a : Nat} (ha : 0 < a) {e e' : Elem w} (h : EDisj a e e') :
    e.off * a + e.l.size.toNat ≤ e'.off * a ∨ e'.off * a + e'.l.size.toNat ≤ e.off * a := by
  rcases h with h | h
  · left
    have := units_mul_ge ha e.l.size.toNat
    have := Nat.mul_le_mul_right a h
    rw [Nat.add_mul] at this; omega
  · right
    have := units_mul_ge ha e'.l.size.toNat
    have := Nat.mul_le_mul_right a h
    rw [Nat.add_mul] at this; omega

section
variable {T : VarLen w} (hT : Lawful T)
include hT

omit hT in
theorem Iter.next_nil {s : St} {b : Ptr} {it : IterS w} {cur fin} (h : IterAt T s b it cur [] fin) : Iter.next T it s = .ok (none, it) s := by
  have := h.len
  unfold Iter.next
  rw [if_neg (by simp at this; simp [this])]; rfl

theorem Iter.next_cons (hw : 8 ≤ w) {s : St} {b : Ptr} {it : IterS w} {cur fin} {e es} (h : IterAt T s b it cur (e :: es) fin) :
    ∃ it', Iter.next T it s = .ok (some (e.at T b), it') s ∧ IterAt T s b it' (cur + units T.ALIGN.toNat e.l.size.toNat) es fin := by
  have hlen := h.len
  rw [List.length_cons] at hlen
  have hv := h.valid e (by simp)
  have hp : it.ptr = e.at T b := by rw [h.ptr, Elem.at, h.packed.1]
  have hpos := hT.align_pow2.pos
  have hm := Nat.mul_le_mul_right T.ALIGN.toNat (h.packed.mem hpos e (by simp)).2.1
  rw [Nat.add_mul] at hm
  have hr : (roundUpFast e.l.size T.ALIGN).toNat = units T.ALIGN.toNat e.l.size.toNat * T.ALIGN.toNat := by
    have hf := h.fits
    unfold roundUpFast
    rw [maskDown_add_toNat hT.align_pow2]
    · rfl
    · show units T.ALIGN.toNat e.l.size.toNat * T.ALIGN.toNat < _; omega
  refine ⟨⟨it.ptr.add (roundUpFast e.l.size T.ALIGN).toNat, it.len - 1⟩, ?_, ?_⟩
  · unfold Iter.next
    rw [if_pos (by omega), hp]
    simp only [bind_apply, derefBox_ok hT hv, Res.bind_ok, hT.calc_ok _ _ _ _ hv, pure_apply]
  · refine ⟨?_, ?_, h.packed.2.2, fun x hx => h.valid x (List.mem_cons_of_mem _ hx), h.fits⟩
    · simp only
      rw [hr, h.ptr, Ptr.add_add, Nat.add_mul]
    · have h1 : (1 : BitVec w).toNat = 1 := ofNat_toNat_small hw (n := 1) (by omega)
      have : (1 : BitVec w) ≤ it.len := by rw [BitVec.le_def, h1]; omega
      simp only
      rw [BitVec.toNat_sub_of_le this, h1]; omega

/-- `k` calls to `next`. -/
theorem Iter.take_spec (hw : 8 ≤ w) {s : St} {b : Ptr} {fin} : ∀ (k : Nat) {it : IterS w} {cur} {es : List (Elem w)}, IterAt T s b it cur es fin →
    ∃ it' cur', Iter.take T k it s = .ok ((es.take k).map (Elem.at T b), it') s ∧ IterAt T s b it' cur' (es.drop k) fin
  | 0, it, cur, es, h => ⟨it, cur, rfl, h⟩
  | k + 1, it, cur, [], h => ⟨it, cur, by simp [Iter.take, Iter.next_nil h], by simpa using h⟩
  | k + 1, it, cur, e :: es, h => by
    obtain ⟨it1, e1, h1⟩ := Iter.next_cons hT hw h
    obtain ⟨it2, cur2, e2, h2⟩ := Iter.take_spec hw k h1
    exact ⟨it2, cur2, by simp [Iter.take, e1, e2], h2⟩

/-- Dropping disjoint elements one by one, in any order. -/
theorem dropEach_spec {b : Ptr} : ∀ {xs : List (Elem w)} {s : St} {fin : Nat}, xs.Pairwise (EDisj T.ALIGN.toNat) →
    (∀ e ∈ xs, Valid T s (e.at T b) e.v e.l) → (∀ e ∈ xs, e.off * T.ALIGN.toNat + e.l.size.toNat ≤ fin) →
    ∃ s', dropEach T (xs.map (Elem.at T b)) s = .ok () s' ∧ Touch s s' b fin (fun _ => False) ∧
      s'.log = s.log ++ xs.flatMap (fun e => T.drops e.v) ∧ s'.copied = s.copied ∧
      (∀ e, (∀ x ∈ xs, EDisj T.ALIGN.toNat e x) → Valid T s (e.at T b) e.v e.l → Valid T s' (e.at T b) e.v e.l)
  | [], s, fin, _, _, _ => ⟨s, rfl, Touch.refl .., by simp, rfl, fun _ _ h => h⟩
  | x :: xs, s, fin, hd, hv, hf => by
    have hpos := hT.align_pow2.pos
    obtain ⟨s1, e1, t1, l1, c1⟩ := Owned.drop_spec hT (hv x (by simp))
    have keep : ∀ e, EDisj T.ALIGN.toNat e x → Valid T s (e.at T b) e.v e.l → Valid T s1 (e.at T b) e.v e.l := by
      intro e he h
      refine h.of_touch hT t1 (fun h => h) (.inr ?_)
      simp only [Elem.at, Ptr.add_off]
      rcases he.bytes hpos with h | h <;> omega
    rw [List.pairwise_cons] at hd
    obtain ⟨s2, e2, t2, l2, c2, k2⟩ := dropEach_spec (fin := fin) hd.2 (fun e he => keep e (hd.1 e he).symm (hv e (List.mem_cons_of_mem _ he)))
      (fun e he => hf e (List.mem_cons_of_mem _ he))
    refine ⟨s2, by simp [dropEach, e1, e2], (Touch.sub (m := fin) t1 (hf x (by simp))).trans t2, by simp [l2, l1], by rw [c2, c1], ?_⟩
    intro e he h
    exact k2 e (fun y hy => he y (List.mem_cons_of_mem _ hy)) (keep e (he x (by simp)) h)

omit hT in
theorem IterAt.of_valid {s s' : St} {b : Ptr} {it : IterS w} {cur fin} {es} (h : IterAt T s b it cur es fin)
    (hv : ∀ e ∈ es, Valid T s' (e.at T b) e.v e.l) : IterAt T s' b it cur es fin := ⟨h.ptr, h.len, h.packed, hv, h.fits⟩

/-- The loop in `Drop for OwnedElems` drops the remaining elements in order. -/
theorem OwnedElems.dropLoop_spec (hw : 8 ≤ w) {b : Ptr} {fin} : ∀ {es : List (Elem w)} {fuel : Nat} {s : St} {it : IterS w} {cur},
    IterAt T s b it cur es fin → es.length < fuel → OwnedElems.dropLoop T fuel it s = dropEach T (es.map (Elem.at T b)) s
  | _, 0, _, _, _, _, hf => by simp at hf
  | [], fuel + 1, s, it, cur, h, _ => by simp [OwnedElems.dropLoop, Iter.next_nil h, dropEach]
  | e :: es, fuel + 1, s, it, cur, h, hf => by
    obtain ⟨it1, e1, h1⟩ := Iter.next_cons hT hw h
    have hpos := hT.align_pow2.pos
    obtain ⟨s1, e2, t1, l1, c1⟩ := Owned.drop_spec hT (h.valid e (by simp))
    have hd := (Packed.pairwise hpos h.packed)
    rw [List.pairwise_cons] at hd
    have h2 : IterAt T s1 b it1 (cur + units T.ALIGN.toNat e.l.size.toNat) es fin := by
      refine h1.of_valid fun x hx => ?_
      refine (h1.valid x hx).of_touch hT t1 (fun h => h) (.inr ?_)
      simp only [Elem.at, Ptr.add_off]
      rcases (hd.1 x hx).bytes hpos with h | h <;> omega
    have := OwnedElems.dropLoop_spec hw h2 (fuel := fuel) (by simp at hf; omega)
    have e2' : Owned.drop T (e.at T b) s = .ok () s1 := e2
    simp [OwnedElems.dropLoop, e1, dropEach, e2', this]

theorem OwnedElems.drop_spec (hw : 8 ≤ w) {b : Ptr} {cur fin} {es : List (Elem w)} {s : St} {it : IterS w} (h : IterAt T s b it cur es fin) :
    ∃ s', OwnedElems.drop T it s = .ok () s' ∧ Touch s s' b (fin * T.ALIGN.toNat) (fun _ => False) ∧
      s'.log = s.log ++ es.flatMap (fun e => T.drops e.v) ∧ s'.copied = s.copied ∧
      (∀ e, (∀ x ∈ es, EDisj T.ALIGN.toNat e x) → Valid T s (e.at T b) e.v e.l → Valid T s' (e.at T b) e.v e.l) := by
  have hpos := hT.align_pow2.pos
  unfold OwnedElems.drop
  by_cases hn : (T.headNeedsDrop || T.NEEDS_VDROP) = true
  · rw [if_pos hn, OwnedElems.dropLoop_spec hT hw h (by rw [h.len]; omega)]
    refine dropEach_spec hT (Packed.pairwise hpos h.packed) h.valid ?_
    intro e he
    have h2 := (Packed.mem hpos h.packed e he).2.1
    have := units_mul_ge hpos e.l.size.toNat
    have h3 := Nat.mul_le_mul_right T.ALIGN.toNat h2
    rw [Nat.add_mul] at h3; omega
  · rw [if_neg hn]
    refine ⟨s, rfl, Touch.refl .., ?_, rfl, fun _ _ h => h⟩
    have hv : T.NEEDS_VDROP = false := by simp at hn; exact hn.2
    have : es.flatMap (fun e => T.drops e.v) = [] := by
      rw [List.flatMap_eq_nil_iff]
      intro e he
      exact hT.no_vdrop hv _ _ _ (h.valid e he).rep
    rw [this]; simp

variable {chk : Bool}

theorem SeqInv.fits_word {s q es} (h : SeqInv T chk s q es) : q.occ.toNat * T.ALIGN.toNat + (T.ALIGN.toNat - 1) < 2 ^ w := by
  have := h.store.fits
  have := storageSize_ge chk T.ALIGN.toNat q.cap.toNat
  have := Nat.mul_le_mul_right T.ALIGN.toNat h.le
  have := isizeMax_lt hT.align_pow2.wpos
  omega

/-- `iter()` is about to yield all elements. -/
theorem SeqInv.iterAt {s q es} (h : SeqInv T chk s q es) : IterAt T s q.ptr (Seq.iter q) 0 es q.occ.toNat :=
  ⟨by simp [Seq.iter], h.len, h.packed, h.valid, h.fits_word hT⟩

omit hT in
theorem St.write_nil (s : St) (p : Ptr) : s.write p [] = s := by
  unfold St.write
  split
  · rename_i B hB
    have : overwrite B.data p.off [] = B.data := by
      funext i; unfold overwrite; rw [if_neg (by simp)]
    rw [this]
    unfold St.setBlk
    obtain ⟨h1, h2⟩ := St.blk_pos hB
    have hg : s.blocks[p.blk - 1]? = some B := by
      obtain ⟨k, hk⟩ : ∃ k, p.blk = k + 1 := ⟨p.blk - 1, by omega⟩
      rw [hk] at hB ⊢; exact hB
    have : s.blocks.set (p.blk - 1) B = s.blocks := by
      apply List.ext_getElem?
      intro i
      rw [List.getElem?_set]
      split
      · rename_i hi; subst hi
        rw [hg, if_pos (by omega)]
      · rfl
    rw [this]
  · rfl

omit hT in
/-- `take_elems` -/
theorem Seq.takeElems_spec (hw : 8 ≤ w) (s : St) (q : SeqS w) :
    Seq.takeElems chk T (s, q) = .ok (Seq.iter q) (s, { q with len := 0, occ := 0 }) := by
  have hz : (((0 : BitVec w) + 7) / 8).toNat = 0 := by
    have : (0 : BitVec w) + 7 = 7 := BitVec.zero_add _
    rw [this, BitVec.toNat_udiv]
    have h7 : (7 : BitVec w).toNat = 7 := ofNat_toNat_small hw (n := 7) (by omega)
    have h8 : (8 : BitVec w).toNat = 8 := ofNat_toNat_small hw (n := 8) (by omega)
    rw [h7, h8]
  unfold Seq.takeElems clearBitmasks fillZero
  cases chk with
  | false => simp [Seq.iter]
  | true =>
    simp only [bind_apply, getQ_apply, putQ_apply, Res.bind_ok, liftQ_apply, if_true, hz, List.replicate_zero]
    rw [writeBytes_ok (by simp [Acc]), St.write_nil]
    rfl

omit hT in
theorem SeqInv.take {s q es} (h : SeqInv T chk s q es) : SeqInv T chk s { q with len := 0, occ := 0 } [] :=
  ⟨h.store, h.dang, by simp, by simp [Packed], by simp, by simp, by simp⟩

/-- Draining: after `take_elems`, `next` is called `k` times, the items `xs` (in any order) are dropped, then the iterator is dropped,
then the items `ys` are dropped; the items `zs` are leaked. -/
theorem Seq.drain_spec (hw : 8 ≤ w) {s q es} (h : SeqInv T chk s q es) (k : Nat) {xs ys zs : List (Elem w)} (hp0 : (xs ++ ys ++ zs).Perm (es.take k)) :
    Seq.takeElems chk T (s, q) = .ok (Seq.iter q) (s, { q with len := 0, occ := 0 }) ∧
    ∃ it, Iter.take T k (Seq.iter q) s = .ok ((es.take k).map (Elem.at T q.ptr), it) s ∧
    ∃ s1 s2 s3, dropEach T (xs.map (Elem.at T q.ptr)) s = .ok () s1 ∧ OwnedElems.drop T it s1 = .ok () s2 ∧
      dropEach T (ys.map (Elem.at T q.ptr)) s2 = .ok () s3 ∧
      s3.log = s.log ++ (xs ++ es.drop k ++ ys).flatMap (fun e => T.drops e.v) ∧ s3.copied = s.copied ∧
      Touch s s3 q.ptr (q.occ.toNat * T.ALIGN.toNat) (fun _ => False) ∧
      SeqInv T chk s3 { q with len := 0, occ := 0 } [] := by
  have hpos := hT.align_pow2.pos
  obtain ⟨it, cur, e1, h1⟩ := Iter.take_spec hT hw k (h.iterAt hT)
  refine ⟨Seq.takeElems_spec hw s q, it, e1, ?_⟩
  have hpw := Packed.pairwise hpos h.packed
  rw [← List.take_append_drop k es, List.pairwise_append] at hpw
  obtain ⟨p1, p2, p3⟩ := hpw
  have p1' : (xs ++ ys ++ zs).Pairwise (EDisj T.ALIGN.toNat) := (hp0.pairwise_iff (fun h => EDisj.symm h)).2 p1
  rw [List.pairwise_append] at p1'
  have p1' := p1'.1
  rw [List.pairwise_append] at p1'
  obtain ⟨q1, q2, q3⟩ := p1'
  have mem : ∀ e ∈ xs ++ ys, e ∈ es.take k := fun e he => hp0.mem_iff.1 (List.mem_append_left _ he)
  have hin : ∀ e ∈ xs ++ ys, e.off * T.ALIGN.toNat + e.l.size.toNat ≤ q.occ.toNat * T.ALIGN.toNat := fun e he =>
    h.packed.bytes hpos (List.mem_of_mem_take (mem e he))
  have hval : ∀ e ∈ xs ++ ys, Valid T s (e.at T q.ptr) e.v e.l := fun e he => h.valid e (List.mem_of_mem_take (mem e he))
  obtain ⟨s1, f1, t1, l1, c1, k1⟩ := dropEach_spec hT (b := q.ptr) (fin := q.occ.toNat * T.ALIGN.toNat) q1 (fun e he => hval e (by simp [he]))
    (fun e he => hin e (by simp [he]))
  have h2 : IterAt T s1 q.ptr it cur (es.drop k) q.occ.toNat := h1.of_valid fun e he =>
    k1 e (fun x hx => (p3 x (mem x (by simp [hx])) e he).symm) (h1.valid e he)
  obtain ⟨s2, f2, t2, l2, c2, k2⟩ := OwnedElems.drop_spec hT hw h2
  obtain ⟨s3, f3, t3, l3, c3, k3⟩ := dropEach_spec hT (b := q.ptr) (s := s2) (fin := q.occ.toNat * T.ALIGN.toNat) q2
    (fun e he => k2 e (fun x hx => p3 e (mem e (by simp [he])) x hx) (k1 e (fun x hx => (q3 x hx e he).symm) (hval e (by simp [he]))))
    (fun e he => hin e (by simp [he]))
  have ht := (t1.trans t2).trans t3
  refine ⟨s1, s2, s3, f1, f2, f3, by simp [l1, l2, l3], by rw [c3, c2, c1], ht, ?_⟩
  refine (h.take.frame hT ht (fun h => h) (.inr ⟨by simp, ?_⟩)).1
  have := Nat.mul_le_mul_right T.ALIGN.toNat h.le
  simp; omega

/-- Dropping a sequence. -/
theorem Seq.drop_spec (hw : 8 ≤ w) {s q es} (h : SeqInv T chk s q es) :
    ∃ s' q', Seq.drop chk T (s, q) = .ok () (s', q') ∧ s'.log = s.log ++ es.flatMap (fun e => T.drops e.v) ∧ s'.copied = s.copied ∧
      (∀ b, b ≠ q.ptr.blk → s'.blk b = s.blk b) ∧ (q.cap.toNat ≠ 0 → ∃ B, s'.blk q.ptr.blk = some B ∧ B.live = false) := by
  unfold Seq.drop
  simp only [bind_apply, getQ_apply, Res.bind_ok]
  by_cases hc : q.cap = 0
  · have hc' : q.cap.toNat = 0 := by rw [hc]; simp
    have := h.empty_of_cap hT hc'
    subst this
    rw [if_pos hc]
    exact ⟨s, q, rfl, by simp, rfl, fun _ _ => rfl, fun h => absurd hc' h⟩
  · have hc' : q.cap.toNat ≠ 0 := by
      intro h0; exact hc (BitVec.eq_of_toNat_eq (by simpa using h0))
    rw [if_neg hc]
    obtain ⟨s1, f1, t1, l1, c1, _⟩ := OwnedElems.drop_spec hT hw (h.iterAt hT)
    have hown := (h.store.owns hc').of_touch t1 (fun h => h)
    obtain ⟨g1, g2⟩ := free_frame (h.store.owns hc') t1
    refine ⟨s1.free q.ptr.blk, { q with len := 0, occ := 0 }, ?_, by simpa using l1, by simpa using c1, g1, fun _ => g2⟩
    simp only [bind_apply, Seq.takeElems_spec hw, Res.bind_ok, liftQ_apply, f1, getQ_apply]
    have hfit := h.store.fits
    obtain ⟨hcb, _⟩ := h.cap_bytes hT
    have hm : (q.cap * T.ALIGN).toNat = q.cap.toNat * T.ALIGN.toNat := by rw [BitVec.toNat_mul, Nat.mod_eq_of_lt hcb]
    have hext : ∃ sz : BitVec w, extendedSize chk (q.cap * T.ALIGN) T.ALIGN s1 = .ok sz s1 ∧ sz.toNat = storageSize chk T.ALIGN.toNat q.cap.toNat := by
      unfold extendedSize
      cases chk with
      | false => exact ⟨_, rfl, by simp [storageSize, bitmaskBytes, Nat.mod_eq_of_lt hcb]⟩
      | true =>
        have := addBitmask_spec hw hT.align_pow2 hm (by have := storageSize_ge true T.ALIGN.toNat q.cap.toNat; omega) s1
        rw [if_pos hfit] at this
        obtain ⟨full, bm, e1, e2, e3⟩ := this
        exact ⟨full, by simp [e1], e3⟩
    obtain ⟨sz, e1, e2⟩ := hext
    rw [layoutUnchecked_ok (by rw [hm]; have := storageSize_ge chk T.ALIGN.toNat q.cap.toNat; omega)]
    simp only [Res.bind_ok, bind_apply, liftQ_apply]
    rw [e1]
    simp only [Res.bind_ok, e2, liftQ_apply, deallocM_ok hown]

/-! ## Indexing -/

/-- Complete behaviour of `is_offset_valid`. -/
theorem Seq.isOffsetValid_spec (hw : 8 ≤ w) {s q es} (h : SeqInv T true s q es) (o : BitVec w) :
    Seq.isOffsetValid T q o s = .ok (decide (o.toNat < q.occ.toNat) && bitAt s q.ptr (q.cap.toNat * T.ALIGN.toNat) o.toNat) s := by
  unfold Seq.isOffsetValid
  by_cases ho : o.toNat ≥ q.occ.toNat
  · rw [if_pos ho]; simp [Nat.not_lt.2 ho]
  · rw [if_neg ho]
    have hlt : o.toNat < q.cap.toNat := by have := h.le; omega
    obtain ⟨e1, hacc⟩ := h.bit_index hT hw rfl hlt
    obtain ⟨b, hb⟩ := h.store.bits _ (bit_div_lt hlt)
    simp only [e1, bind_apply]
    rw [readVal_u8 hacc (b := b) (by rw [viewAt_add]; simpa [shift] using hb)]
    simp only [Res.bind_ok, pure_apply]
    have : decide (o.toNat < q.occ.toNat) = true := by simpa using ho
    rw [this, Bool.true_and]
    unfold bitAt
    rw [hb]
    simp only
    congr 1
    have h8 : o.toNat % 8 < 8 := Nat.mod_lt _ (by omega)
    generalize o.toNat % 8 = k at h8
    by_cases hk : b.getLsbD k = true
    · rw [hk]
      simp only [bne_iff_ne, ne_eq]
      intro h0
      have := congrArg (fun x => BitVec.getLsbD x k) h0
      simp only [BitVec.getLsbD_and, BitVec.getLsbD_shiftLeft, hk, h8, decide_true, Bool.true_and, Nat.lt_irrefl, Nat.sub_self] at this
      simp at this
    · have hk' : b.getLsbD k = false := by simpa using hk
      rw [hk']
      simp only [bne_eq_false_iff_eq]
      apply BitVec.eq_of_getLsbD_eq
      intro i hi
      simp only [BitVec.getLsbD_and, BitVec.getLsbD_shiftLeft]
      by_cases hik : i = k
      · subst hik; simp [hk']
      · by_cases hlt : i < k
        · simp [hlt]
        · have : i - k ≠ 0 := by omega
          simp [this]

/-- Offsets of elements. -/
theorem SeqInv.elem_off {s q es} (h : SeqInv T chk s q es) {e} (he : e ∈ es) : e.off < q.occ.toNat ∧
    (BitVec.ofNat w e.off).toNat = e.off ∧ (BitVec.ofNat w e.off * T.ALIGN).toNat = e.off * T.ALIGN.toNat := by
  have hpos := hT.align_pow2.pos
  obtain ⟨h1, h2, h3⟩ := h.packed.mem hpos e he
  have := units_pos hpos h3
  have := q.occ.isLt
  have h4 : (BitVec.ofNat w e.off).toNat = e.off := by rw [BitVec.toNat_ofNat, Nat.mod_eq_of_lt]; omega
  refine ⟨by omega, h4, ?_⟩
  rw [BitVec.toNat_mul, h4, Nat.mod_eq_of_lt]
  have := h.fits_word hT
  have := Nat.mul_le_mul_right T.ALIGN.toNat (show e.off ≤ q.occ.toNat by omega)
  omega

theorem Seq.fromOffsetUnchecked_spec {s q es} (h : SeqInv T chk s q es) {e} (he : e ∈ es) {o : BitVec w} (ho : o.toNat = e.off) :
    Seq.fromOffsetUnchecked T q o s = .ok (e.at T q.ptr) s := by
  obtain ⟨h1, h2, h3⟩ := h.elem_off hT he
  have : o = BitVec.ofNat w e.off := BitVec.eq_of_toNat_eq (by rw [h2, ho])
  subst this
  unfold Seq.fromOffsetUnchecked
  rw [h3]
  exact derefBox_ok hT (h.valid e he)

/-- Every element is accepted. -/
theorem Seq.isOffsetValid_elem (hw : 8 ≤ w) {s q es} (h : SeqInv T true s q es) {e} (he : e ∈ es) {o : BitVec w} (ho : o.toNat = e.off) :
    Seq.isOffsetValid T q o s = .ok true s := by
  obtain ⟨h1, h2, h3⟩ := h.elem_off hT he
  rw [Seq.isOffsetValid_spec hT hw h, ho, h.marked rfl e he]
  simp [h1]

/-- Complete behaviour of `from_offset` when the bitmask is exact. -/
theorem Seq.fromOffset_spec (hw : 8 ≤ w) {s q es} (h : SeqInv T true s q es) (hc : Clean T true s q es) (o : BitVec w) :
    (∃ e ∈ es, e.off = o.toNat ∧ Seq.isOffsetValid T q o s = .ok true s ∧ Seq.fromOffset T q o s = .ok (e.at T q.ptr) s) ∨
    ((∀ e ∈ es, e.off ≠ o.toNat) ∧ Seq.isOffsetValid T q o s = .ok false s ∧ Seq.fromOffset T q o s = .panic .invalidOffset s) := by
  by_cases hex : ∃ e ∈ es, e.off = o.toNat
  · obtain ⟨e, he, heo⟩ := hex
    have h1 := Seq.isOffsetValid_elem hT hw h he heo.symm
    refine .inl ⟨e, he, heo, h1, ?_⟩
    unfold Seq.fromOffset
    simp [h1, Seq.fromOffsetUnchecked_spec hT h he heo.symm]
  · have h1 : Seq.isOffsetValid T q o s = .ok false s := by
      rw [Seq.isOffsetValid_spec hT hw h]
      congr 1
      rw [Bool.and_eq_false_iff]
      by_cases ho : o.toNat < q.occ.toNat
      · right
        cases hb : bitAt s q.ptr (q.cap.toNat * T.ALIGN.toNat) o.toNat with
        | false => rfl
        | true =>
          rcases hc _ (bit_div_lt (by have := h.le; omega)) hb with h2 | h2
          · omega
          · exact absurd h2 hex
      · left; simpa using ho
    refine .inr ⟨fun e he heo => hex ⟨e, he, heo⟩, h1, ?_⟩
    unfold Seq.fromOffset
    simp [h1]

/-- `offset_of` on a pointer into the storage. -/
theorem Seq.offsetOf_elem {s q es} (h : SeqInv T chk s q es) {e} (he : e ∈ es) :
    Seq.offsetOf T q (e.at T q.ptr) s = .ok (BitVec.ofNat w e.off) s := by
  obtain ⟨h1, h2, h3⟩ := h.elem_off hT he
  unfold Seq.offsetOf
  have hd : (BitVec.ofNat w (s.addr (e.at T q.ptr)) - BitVec.ofNat w (s.addr q.ptr)) / T.ALIGN = BitVec.ofNat w e.off := by
    have : BitVec.ofNat w (s.addr (e.at T q.ptr)) - BitVec.ofNat w (s.addr q.ptr) = BitVec.ofNat w (e.off * T.ALIGN.toNat) := by
      unfold Elem.at
      rw [addr_add, BitVec.ofNat_add]
      rw [BitVec.add_comm, BitVec.add_sub_cancel]
    rw [this]
    apply BitVec.eq_of_toNat_eq
    rw [BitVec.toNat_udiv, BitVec.toNat_ofNat, Nat.mod_eq_of_lt, Nat.mul_div_cancel _ hT.align_pow2.pos, h2]
    have := h.fits_word hT
    have := Nat.mul_le_mul_right T.ALIGN.toNat (show e.off ≤ q.occ.toNat by omega)
    omega
  simp only [hd]
  rw [if_neg (by omega)]

/-- `offset_of` on an address outside the occupied storage. -/
theorem Seq.offsetOf_outside {s q es} (h : SeqInv T chk s q es) {p : Ptr} (hp : s.addr p < 2 ^ w)
    (hout : s.addr p < s.addr q.ptr ∨ s.addr q.ptr + q.occ.toNat * T.ALIGN.toNat ≤ s.addr p) :
    Seq.offsetOf T q p s = .panic .outOfBounds s := by
  have hpos := hT.align_pow2.pos
  unfold Seq.offsetOf
  simp only
  rw [if_pos]
  rw [BitVec.toNat_udiv]
  by_cases hc : q.cap.toNat = 0
  · have := h.le
    have h0 : q.occ.toNat = 0 := by omega
    rw [h0]; exact Nat.zero_le _
  · have hsp := h.store.space hc
    have hge := storageSize_ge chk T.ALIGN.toNat q.cap.toNat
    have hm := Nat.mul_le_mul_right T.ALIGN.toNat h.le
    show _ ≤ _
    rw [Nat.le_div_iff_mul_le hpos]
    have hq : s.addr q.ptr < 2 ^ w := by
      have : 0 < q.cap.toNat * T.ALIGN.toNat := Nat.mul_pos (by omega) hpos
      omega
    rcases hout with ho | ho
    · rw [BitVec.toNat_sub, BitVec.toNat_ofNat, BitVec.toNat_ofNat, Nat.mod_eq_of_lt hp, Nat.mod_eq_of_lt hq, Nat.mod_eq_of_lt] <;> omega
    · rw [BitVec.toNat_sub_of_le, BitVec.toNat_ofNat, BitVec.toNat_ofNat, Nat.mod_eq_of_lt hp, Nat.mod_eq_of_lt hq]
      · omega
      · rw [BitVec.le_def, BitVec.toNat_ofNat, BitVec.toNat_ofNat, Nat.mod_eq_of_lt hp, Nat.mod_eq_of_lt hq]; omega

/-- Modifying one element in place, within its bytes and without changing its layout. -/
theorem SeqInv.modify {s s' q es es'} {e : Elem w} (h : SeqInv T chk s q (es ++ e :: es')) {v' : V}
    (ht : Touch s s' (e.at T q.ptr) e.l.size.toNat (fun _ => False)) (hr : T.Rep v' e.l (viewAt s' (e.at T q.ptr))) :
    SeqInv T chk s' q (es ++ ⟨e.off, v', e.l⟩ :: es') ∧
    (∀ k, viewAt s' q.ptr (q.cap.toNat * T.ALIGN.toNat + k) = viewAt s q.ptr (q.cap.toNat * T.ALIGN.toNat + k)) := by
  have hpos := hT.align_pow2.pos
  have hb := h.packed.bytes hpos (e := e) (by simp)
  have hm := Nat.mul_le_mul_right T.ALIGN.toNat h.le
  have hv : ∀ k, viewAt s' q.ptr (q.cap.toNat * T.ALIGN.toNat + k) = viewAt s q.ptr (q.cap.toNat * T.ALIGN.toNat + k) := by
    intro k
    exact ht.view (fun h => h) _ (.inr (.inr (by simp only [Elem.at, Ptr.add_off]; omega)))
  have hpw := Packed.pairwise hpos h.packed
  rw [List.pairwise_append] at hpw
  obtain ⟨p1, p2, p3⟩ := hpw
  rw [List.pairwise_cons] at p2
  have keep : ∀ x, EDisj T.ALIGN.toNat x e → Valid T s (x.at T q.ptr) x.v x.l → Valid T s' (x.at T q.ptr) x.v x.l := by
    intro x hx hvx
    refine hvx.of_touch hT ht (fun h => h) (.inr ?_)
    simp only [Elem.at, Ptr.add_off]
    rcases hx.bytes hpos with h | h <;> omega
  have hve := h.valid e (by simp)
  refine ⟨⟨⟨fun hc => (h.store.owns hc).of_touch ht (fun h => h), fun hc => ht.aligned (fun h => h) (h.store.aligned hc),
    fun hc => by rw [ht.addr (fun h => h)]; exact h.store.space hc, h.store.fits, ?_⟩, h.dang, by simpa using h.len, ?_, h.le, ?_, ?_⟩, hv⟩
  · intro k hk; rw [hv]; exact h.store.bits k hk
  · obtain ⟨mid, k1, k2⟩ := Packed.split h.packed
    exact k1.append ⟨k2.1, k2.2.1, k2.2.2⟩
  · intro x hx
    simp only [List.mem_append, List.mem_cons] at hx
    rcases hx with hx | rfl | hx
    · exact keep x (p3 x hx e (by simp)) (h.valid x (by simp [hx]))
    · exact ⟨ht.acc (fun h => h) hve.acc, ht.aligned (fun h => h) hve.aligned, hr⟩
    · exact keep x (p2.1 x hx).symm (h.valid x (by simp [hx]))
  · intro hc x hx
    rw [bitAt_congr (hv _)]
    simp only [List.mem_append, List.mem_cons] at hx
    rcases hx with hx | rfl | hx
    · exact h.marked hc x (by simp [hx])
    · exact h.marked hc e (by simp)
    · exact h.marked hc x (by simp [hx])

end
end Varlen
