import Verif.Proofs.SeqStorage
/-! # The sequence invariant and `push` -/
namespace Varlen
variable {w : Nat}

/-- An element of a sequence: its offset (in units of `ALIGN`), value and layout. -/
structure Elem (w : Nat) where
  off : Nat
  v : V
  l : Layout w

/-- Number of `a`-sized units needed for `n` bytes (`⌈n/a⌉`). -/
def units (a n : Nat) : Nat := (n + (a - 1)) / a

/-- The elements lie one after the other from offset `cur` to offset `fin`, each of non-zero size and rounded up to whole units. -/
def Packed (a : Nat) : Nat → List (Elem w) → Nat → Prop
  | cur, [], fin => cur = fin
  | cur, e :: es, fin => e.off = cur ∧ 0 < e.l.size.toNat ∧ Packed a (cur + units a e.l.size.toNat) es fin

/-- Bit `i` of the bitmask that starts at byte `base`. -/
def bitAt (s : St) (p : Ptr) (base i : Nat) : Bool :=
  match viewAt s p (base + i / 8) with
  | some b => b.getLsbD (i % 8)
  | none => false

/-- The sequence holds the elements `es`. -/
structure SeqInv (T : VarLen w) (chk : Bool) (s : St) (q : SeqS w) (es : List (Elem w)) : Prop where
  store : Store T chk s q.ptr q.cap.toNat
  dang : q.cap.toNat = 0 → q.ptr = dangling T
  len : q.len.toNat = es.length
  packed : Packed T.ALIGN.toNat 0 es q.occ.toNat
  le : q.occ.toNat ≤ q.cap.toNat
  valid : ∀ e ∈ es, Valid T s (q.ptr.add (e.off * T.ALIGN.toNat)) e.v e.l
  marked : chk = true → ∀ e ∈ es, bitAt s q.ptr (q.cap.toNat * T.ALIGN.toNat) e.off = true

/-- The bitmask has no bits other than element starts (and possibly the next free offset, left behind by a panicking push). -/
def Clean (T : VarLen w) (chk : Bool) (s : St) (q : SeqS w) (es : List (Elem w)) : Prop :=
  ∀ i, i / 8 < bitmaskBytes chk q.cap.toNat → bitAt s q.ptr (q.cap.toNat * T.ALIGN.toNat) i = true → i = q.occ.toNat ∨ ∃ e ∈ es, e.off = i

theorem units_pos {a n : Nat} (ha : 0 < a) (hn : 0 < n) : 0 < units a n := by
  unfold units; rw [Nat.div_pos_iff]; omega

theorem units_mul_ge {a : Nat} (ha : 0 < a) (n : Nat) : n ≤ units a n * a := roundUpN_ge n a ha

theorem Packed.append {a cur mid fin : Nat} : ∀ {es es' : List (Elem w)}, Packed a cur es mid → Packed a mid es' fin → Packed a cur (es ++ es') fin
  | [], _, h, h' => by simp only [Packed] at h; subst h; exact h'
  | _ :: _, _, h, h' => ⟨h.1, h.2.1, Packed.append h.2.2 h'⟩

theorem Packed.split {a fin : Nat} : ∀ {es es' : List (Elem w)} {cur}, Packed a cur (es ++ es') fin → ∃ mid, Packed a cur es mid ∧ Packed a mid es' fin
  | [], _, cur, h => ⟨cur, rfl, h⟩
  | e :: es, es', cur, h => by
    obtain ⟨mid, h1, h2⟩ := Packed.split (es := es) (es' := es') h.2.2
    exact ⟨mid, ⟨h.1, h.2.1, h1⟩, h2⟩

theorem Packed.length_le {a : Nat} (ha : 0 < a) : ∀ {es : List (Elem w)} {cur fin}, Packed a cur es fin → cur + es.length ≤ fin
  | [], cur, fin, h => by simp only [Packed] at h; simp [h]
  | e :: es, cur, fin, h => by
    have := Packed.length_le ha h.2.2
    have := units_pos ha h.2.1
    simp only [List.length_cons]; omega

/-- Every element lies between the ends. -/
theorem Packed.mem {a : Nat} (ha : 0 < a) : ∀ {es : List (Elem w)} {cur fin}, Packed a cur es fin → ∀ e ∈ es,
    cur ≤ e.off ∧ e.off + units a e.l.size.toNat ≤ fin ∧ 0 < e.l.size.toNat
  | [], _, _, _, _, he => by simp at he
  | e :: es, cur, fin, h, x, hx => by
    have h1 := Packed.length_le ha h.2.2
    rcases List.mem_cons.1 hx with rfl | hx
    · have := h.1
      exact ⟨by omega, by omega, h.2.1⟩
    · obtain ⟨h2, h3, h4⟩ := Packed.mem ha h.2.2 x hx
      exact ⟨by omega, h3, h4⟩

theorem Packed.bytes {a : Nat} (ha : 0 < a) {es : List (Elem w)} {fin} (h : Packed a 0 es fin) {e} (he : e ∈ es) :
    e.off * a + e.l.size.toNat ≤ fin * a := by
  obtain ⟨_, h2, _⟩ := h.mem ha e he
  have := units_mul_ge ha e.l.size.toNat
  have h3 := Nat.mul_le_mul_right a h2
  rw [Nat.add_mul] at h3; omega

section
variable {T : VarLen w} (hT : Lawful T) (hw : 8 ≤ w) {chk : Bool}
include hT

theorem SeqInv.cap_bytes {s q es} (h : SeqInv T chk s q es) : q.cap.toNat * T.ALIGN.toNat < 2 ^ w ∧ storageSize chk T.ALIGN.toNat q.cap.toNat < 2 ^ w := by
  have := h.store.fits
  have := storageSize_ge chk T.ALIGN.toNat q.cap.toNat
  have := isizeMax_lt (hT.align_pow2.wpos)
  omega

theorem SeqInv.empty_of_cap {s q es} (h : SeqInv T chk s q es) (hc : q.cap.toNat = 0) : es = [] := by
  have := h.packed.length_le hT.align_pow2.pos
  have := h.le
  cases es with
  | nil => rfl
  | cons => simp at this; omega

/-- Changes outside the occupied part of the element storage. -/
theorem SeqInv.frame {s s' q es} (h : SeqInv T chk s q es) {p : Ptr} {n : Nat} {own : Nat → Prop} (ht : Touch s s' p n own) (ho : ¬ own q.ptr.blk)
    (hr : p.blk ≠ q.ptr.blk ∨ (q.ptr.off + q.occ.toNat * T.ALIGN.toNat ≤ p.off ∧ p.off + n ≤ q.ptr.off + q.cap.toNat * T.ALIGN.toNat)) :
    SeqInv T chk s' q es ∧ ∀ k, viewAt s' q.ptr (q.cap.toNat * T.ALIGN.toNat + k) = viewAt s q.ptr (q.cap.toNat * T.ALIGN.toNat + k) := by
  have hv : ∀ k, viewAt s' q.ptr (q.cap.toNat * T.ALIGN.toNat + k) = viewAt s q.ptr (q.cap.toNat * T.ALIGN.toNat + k) := by
    intro k
    refine ht.view ho _ ?_
    rcases hr with hr | hr
    · exact .inl (fun e => hr e.symm)
    · exact .inr (.inr (by omega))
  refine ⟨⟨⟨fun hc => (h.store.owns hc).of_touch ht ho, fun hc => ht.aligned ho (h.store.aligned hc), fun hc => by rw [ht.addr ho]; exact h.store.space hc, h.store.fits, ?_⟩, h.dang, h.len, h.packed, h.le, ?_, ?_⟩, hv⟩
  · intro k hk; rw [hv]; exact h.store.bits k hk
  · intro e he
    have hb := h.packed.bytes hT.align_pow2.pos he
    refine (h.valid e he).of_touch hT ht (by simpa using ho) ?_
    simp only [Ptr.add_blk, Ptr.add_off]
    rcases hr with hr | hr
    · exact .inl (fun e => hr e.symm)
    · exact .inr (.inl (by omega))
  · intro hc e he
    unfold bitAt; rw [hv]; exact h.marked hc e he

omit hT in
theorem bitAt_congr {s s' : St} {p p' : Ptr} {base base' i : Nat} (h : viewAt s' p' (base' + i / 8) = viewAt s p (base + i / 8)) :
    bitAt s' p' base' i = bitAt s p base i := by unfold bitAt; rw [h]

omit hT in
/-- Nothing happened to the block of the sequence. -/
theorem SeqInv.of_same {s s' q es} (h : SeqInv T chk s q es) (hs : q.cap.toNat ≠ 0 → s'.blk q.ptr.blk = s.blk q.ptr.blk) (hT : Lawful T) :
    SeqInv T chk s' q es ∧ (q.cap.toNat ≠ 0 → viewAt s' q.ptr = viewAt s q.ptr) := by
  by_cases hc : q.cap.toNat = 0
  · have he := h.empty_of_cap hT hc
    subst he
    refine ⟨⟨⟨fun h => absurd hc h, fun h => absurd hc h, fun h => absurd hc h, h.store.fits, ?_⟩, h.dang, h.len, h.packed, h.le, by simp, by simp⟩, fun h => absurd hc h⟩
    intro k hk; rw [hc] at hk; unfold bitmaskBytes at hk; split at hk <;> omega
  · have hsame : Same s s' (fun b => b = q.ptr.blk) := by rintro b rfl; exact hs hc
    have hv : viewAt s' q.ptr = viewAt s q.ptr := hsame.viewAt rfl
    refine ⟨⟨⟨fun hc => (h.store.owns hc).of_blk (hs hc), fun hc => (hsame.aligned rfl).2 (h.store.aligned hc), fun hc => by rw [hsame.addr rfl]; exact h.store.space hc, h.store.fits, ?_⟩, h.dang, h.len, h.packed, h.le, ?_, ?_⟩, fun _ => hv⟩
    · rw [hv]; exact h.store.bits
    · intro e he; exact (h.valid e he).of_same hsame rfl
    · intro hc e he; rw [bitAt_congr (s := s) (p := q.ptr) (base := q.cap.toNat * T.ALIGN.toNat) (by rw [hv])]; exact h.marked hc e he

omit hT in
theorem bit_div_lt {i c : Nat} (h : i < c) : i / 8 < bitmaskBytes true c := by simp only [bitmaskBytes, if_true]; omega

/-- After growing the storage. -/
theorem SeqInv.grow {s s' q es} (h : SeqInv T chk s q es) {p' : Ptr} {cap' : BitVec w} (hg : Grown T chk s s' q.ptr p' q.cap.toNat cap'.toNat)
    (hfit : storageSize chk T.ALIGN.toNat cap'.toNat + (T.ALIGN.toNat - 1) ≤ isizeMax w) (hle : q.cap.toNat ≤ cap'.toNat) (h0 : cap'.toNat ≠ 0) :
    SeqInv T chk s' { q with ptr := p', cap := cap' } es ∧
    (∀ i, i / 8 < bitmaskBytes chk q.cap.toNat →
      bitAt s' p' (cap'.toNat * T.ALIGN.toNat) i = bitAt s q.ptr (q.cap.toNat * T.ALIGN.toNat) i) ∧
    (∀ i, bitmaskBytes chk q.cap.toNat ≤ i / 8 → i / 8 < bitmaskBytes chk cap'.toNat → bitAt s' p' (cap'.toNat * T.ALIGN.toNat) i = false) := by
  have hpos := hT.align_pow2.pos
  have hb1 : ∀ i, i / 8 < bitmaskBytes chk q.cap.toNat →
      bitAt s' p' (cap'.toNat * T.ALIGN.toNat) i = bitAt s q.ptr (q.cap.toNat * T.ALIGN.toNat) i :=
    fun i hi => bitAt_congr (hg.oldBits _ hi)
  refine ⟨⟨⟨fun _ => hg.owns, fun _ => hg.aligned, fun _ => hg.space, hfit, ?_⟩, fun h => absurd h h0, h.len, h.packed, Nat.le_trans h.le hle, ?_, ?_⟩, hb1, ?_⟩
  · intro k hk
    by_cases hk' : k < bitmaskBytes chk q.cap.toNat
    · rw [hg.oldBits k hk']; exact h.store.bits k hk'
    · rw [hg.newBits k (by omega) hk]; exact ⟨0, rfl⟩
  · intro e he
    have hv := h.valid e he
    have hb := h.packed.bytes hpos he
    have hm := Nat.mul_le_mul_right T.ALIGN.toNat h.le
    have hm2 := Nat.mul_le_mul_right T.ALIGN.toNat hle
    refine ⟨hg.owns.acc.sub ?_, hg.aligned.add (by simp), ?_⟩
    · have := storageSize_ge chk T.ALIGN.toNat cap'.toNat; omega
    · refine hT.rep_ext _ _ _ _ hv.rep fun i hi => ?_
      rw [viewAt_add, viewAt_add]
      exact (hg.data _ (by omega)).symm
  · intro hc e he
    subst hc
    obtain ⟨_, h2, h3⟩ := h.packed.mem hpos e he
    have := units_pos hpos h3
    rw [show bitAt s' p' (cap'.toNat * T.ALIGN.toNat) e.off = _ from hb1 _ (bit_div_lt (by have := h.le; omega))]
    exact h.marked rfl e he
  · intro i hi hi'
    unfold bitAt
    rw [hg.newBits _ hi hi']
    simp

omit hT in
theorem readVal_u8 {s : St} {p : Ptr} {b : BitVec 8} (ha : Acc s p 1) (hv : viewAt s p 0 = some b) : readVal u8Ty p s = .ok [some b] s := by
  have ht : takeV (viewAt s p) 0 1 = [some b] := by simp [takeV, hv]
  have := readVal_ok (R := u8Ty) (s := s) (p := p) ha (Aligned.one _ _) (by simp only [u8Ty]; rw [ht]; rfl)
  rw [this]; simp only [u8Ty]; rw [ht]

include hw

theorem SeqInv.bit_index {s q es} (h : SeqInv T chk s q es) (hchk : chk = true) {off : BitVec w} (ho : off.toNat < q.cap.toNat) :
    (q.cap * T.ALIGN + off / 8).toNat = q.cap.toNat * T.ALIGN.toNat + off.toNat / 8 ∧
    Acc s (q.ptr.add (q.cap.toNat * T.ALIGN.toNat + off.toNat / 8)) 1 := by
  subst hchk
  have h8 : (8 : BitVec w).toNat = 8 := ofNat_toNat_small hw (n := 8) (by omega)
  obtain ⟨hc1, hc2⟩ := h.cap_bytes hT
  have hb := bit_div_lt ho
  have hs : storageSize true T.ALIGN.toNat q.cap.toNat = q.cap.toNat * T.ALIGN.toNat + bitmaskBytes true q.cap.toNat := rfl
  constructor
  · rw [BitVec.toNat_add, BitVec.toNat_mul, BitVec.toNat_udiv, h8, Nat.mod_eq_of_lt hc1, Nat.mod_eq_of_lt]
    omega
  · exact (h.store.owns (by omega)).acc.sub (by omega)

/-- `mark_offset_valid` sets the bit and changes nothing else. -/
theorem SeqInv.mark {s q es} (h : SeqInv T chk s q es) {off : BitVec w} (ho : off.toNat < q.cap.toNat) :
    ∃ s', markOffsetValid chk T.ALIGN q.ptr q.cap off s = .ok () s' ∧ SeqInv T chk s' q es ∧ s'.log = s.log ∧ s'.copied = s.copied ∧
      (∀ b, b ≠ q.ptr.blk → s'.blk b = s.blk b) ∧
      (chk = true → ∀ i, i / 8 < bitmaskBytes chk q.cap.toNat → bitAt s' q.ptr (q.cap.toNat * T.ALIGN.toNat) i =
        (bitAt s q.ptr (q.cap.toNat * T.ALIGN.toNat) i || decide (i = off.toNat))) := by
  unfold markOffsetValid
  cases hc : chk with
  | false =>
    rw [hc] at h
    exact ⟨s, rfl, h, rfl, rfl, fun _ _ => rfl, by simp⟩
  | true =>
    rw [hc] at h
    obtain ⟨e1, hacc⟩ := h.bit_index hT hw rfl ho
    have hb := bit_div_lt ho
    obtain ⟨b, hb'⟩ := h.store.bits _ hb
    simp only [if_true, e1, bind_apply]
    rw [readVal_u8 hacc (b := b) (by rw [viewAt_add]; simpa [shift] using hb')]
    simp only [Res.bind_ok]
    generalize hnb : b ||| (1#8 <<< (off.toNat % 8)) = nb
    have hacc' : Acc s (q.ptr.add (q.cap.toNat * T.ALIGN.toNat + off.toNat / 8)) [some nb].length := hacc
    rw [writeBytes_ok hacc']
    have ht : Touch s (s.write (q.ptr.add (q.cap.toNat * T.ALIGN.toNat + off.toNat / 8)) [some nb])
      (q.ptr.add (q.cap.toNat * T.ALIGN.toNat + off.toNat / 8)) 1 (fun _ => False) := Touch.write
    have hv := viewAt_write hacc'
    have hlog : (s.write (q.ptr.add (q.cap.toNat * T.ALIGN.toNat + off.toNat / 8)) [some nb]).log = s.log := by simp
    have hcop : (s.write (q.ptr.add (q.cap.toNat * T.ALIGN.toNat + off.toNat / 8)) [some nb]).copied = s.copied := by simp
    generalize s.write (q.ptr.add (q.cap.toNat * T.ALIGN.toNat + off.toNat / 8)) [some nb] = s' at ht hv hlog hcop
    rw [viewAt_add] at hv
    have hv0 : viewAt s' q.ptr (q.cap.toNat * T.ALIGN.toNat + off.toNat / 8) = some nb := by
      have := congrFun hv 0
      rw [overwrite_in _ 0 0 _ (by simp)] at this
      simpa [shift] using this
    have hv1 : ∀ j, j ≠ q.cap.toNat * T.ALIGN.toNat + off.toNat / 8 → viewAt s' q.ptr j = viewAt s q.ptr j := by
      intro j hj
      exact ht.view (fun h => h) _ (by simp only [Ptr.add_blk, Ptr.add_off]; omega)
    have hbits : ∀ i, i / 8 < bitmaskBytes true q.cap.toNat → bitAt s' q.ptr (q.cap.toNat * T.ALIGN.toNat) i =
        (bitAt s q.ptr (q.cap.toNat * T.ALIGN.toNat) i || decide (i = off.toNat)) := by
      intro i hi
      by_cases hd : i / 8 = off.toNat / 8
      · unfold bitAt
        rw [hd, hv0, hb', ← hnb]
        have hlt : i % 8 < 8 := Nat.mod_lt _ (by omega)
        simp only [BitVec.getLsbD_or, BitVec.getLsbD_shiftLeft, hlt, decide_true, Bool.true_and]
        congr 1
        by_cases hi' : i = off.toNat
        · subst hi'; simp
        · have hne : i % 8 ≠ off.toNat % 8 := by omega
          simp only [hi', decide_false]
          by_cases hl : i % 8 < off.toNat % 8
          · simp [hl]
          · have : i % 8 - off.toNat % 8 ≠ 0 := by omega
            simp [this]
      · have hi' : i ≠ off.toNat := by rintro rfl; exact hd rfl
        rw [bitAt_congr (hv1 _ (by omega))]; simp [hi']
    refine ⟨s', rfl, ⟨⟨fun hc => (h.store.owns hc).of_touch ht (fun h => h), fun hc => ht.aligned (fun h => h) (h.store.aligned hc), fun hc => by rw [ht.addr (fun h => h)]; exact h.store.space hc, h.store.fits, ?_⟩,
      h.dang, h.len, h.packed, h.le, ?_, ?_⟩, hlog, hcop, fun b hb => ht.blk_eq (fun h => h) hb, fun _ => hbits⟩
    · intro k hk
      by_cases hk' : k = off.toNat / 8
      · subst hk'; exact ⟨_, hv0⟩
      · rw [hv1 _ (by omega)]; exact h.store.bits k hk
    · intro e he
      have hb := h.packed.bytes hT.align_pow2.pos he
      have hm := Nat.mul_le_mul_right T.ALIGN.toNat h.le
      refine (h.valid e he).of_touch hT ht (fun h => h) ?_
      simp only [Ptr.add_blk, Ptr.add_off]; omega
    · intro _ e he
      obtain ⟨_, h2, h3⟩ := h.packed.mem hT.align_pow2.pos e he
      have := units_pos hT.align_pow2.pos h3
      rw [hbits _ (bit_div_lt (by have := h.le; omega)), h.marked rfl e he]; rfl

end
end Varlen
