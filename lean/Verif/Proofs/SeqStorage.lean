import Verif.Model.Seq
import Verif.Proofs.VBox
/-! # Storage of a sequence: allocation, growth, bitmask -/
namespace Varlen
variable {w : Nat}

/-- Number of bitmask bytes for a capacity. -/
def bitmaskBytes (chk : Bool) (cap : Nat) : Nat := if chk then (cap + 7) / 8 else 0

/-- Total storage size for a capacity, in bytes. -/
def storageSize (chk : Bool) (a cap : Nat) : Nat := cap * a + bitmaskBytes chk cap

/-- The growth policy: the capacity after a reallocation. -/
def growCap (a cap need : Nat) : Nat := max (max need ((32 + a - 1) / a)) (2 * cap)

theorem isizeMax_lt {w : Nat} (hw : 0 < w) : isizeMax w + isizeMax w + 2 = 2 ^ w := by
  unfold isizeMax
  obtain ⟨k, rfl⟩ : ∃ k, w = k + 1 := ⟨w - 1, by omega⟩
  have := Nat.two_pow_pos k
  rw [Nat.pow_succ, Nat.add_sub_cancel]; omega

theorem two_pow_ge (hw : 8 ≤ w) : 256 ≤ 2 ^ w := by
  have := Nat.pow_le_pow_right (n := 2) (by omega) hw
  simpa using this

theorem ofNat_toNat_small (hw : 8 ≤ w) {n : Nat} (hn : n < 256) : (BitVec.ofNat w n).toNat = n := by
  have := two_pow_ge hw
  simp [Nat.mod_eq_of_lt (show n < 2 ^ w by omega)]

theorem fromSizeAlign_iff {size align : Nat} : fromSizeAlign w size align = true ↔ size + (align - 1) ≤ isizeMax w := by
  simp [fromSizeAlign]

/-- `add_bitmask_to_layout` is exact for valid layouts whose size is a multiple of the alignment. -/
theorem addBitmask_spec (hw : 8 ≤ w) {align : BitVec w} (ha : IsPow2 align) {size : BitVec w} {c : Nat} (hs : size.toNat = c * align.toNat)
    (hf : c * align.toNat + (align.toNat - 1) ≤ isizeMax w) (s : St) :
    if storageSize true align.toNat c + (align.toNat - 1) ≤ isizeMax w then
      ∃ full bm : BitVec w, addBitmask size align s = .ok (some (full, bm)) s ∧ bm.toNat = bitmaskBytes true c ∧
        full.toNat = storageSize true align.toNat c
    else addBitmask size align s = .ok none s := by
  have hpos := ha.pos
  have h2 := isizeMax_lt (w := w) (by omega)
  have hp := two_pow_ge hw
  have h7 : (7 : BitVec w).toNat = 7 := ofNat_toNat_small hw (n := 7) (by omega)
  have h8 : (8 : BitVec w).toNat = 8 := ofNat_toNat_small hw (n := 8) (by omega)
  have hmod : ¬ (size % align ≠ 0) := by
    simp only [ne_eq, Decidable.not_not]
    apply BitVec.eq_of_toNat_eq
    rw [BitVec.toNat_umod, hs]; simp
  have hdiv : (size / align).toNat = c := by
    rw [BitVec.toNat_udiv, hs, Nat.mul_div_cancel _ hpos]
  have hc : c ≤ c * align.toNat := Nat.le_mul_of_pos_right c hpos
  have hca : c + 7 < 2 ^ w := by omega
  have hadd : checkedAdd (size / align) 7 = some (size / align + 7) := by
    unfold checkedAdd; rw [if_pos]; rw [hdiv, h7]; exact hca
  have hbm : ((size / align + 7) / 8).toNat = (c + 7) / 8 := by
    rw [BitVec.toNat_udiv, BitVec.toNat_add, hdiv, h7, h8, Nat.mod_eq_of_lt hca]
  have hfull : (size + (size / align + 7) / 8).toNat = c * align.toNat + (c + 7) / 8 := by
    rw [BitVec.toNat_add, hbm, hs, Nat.mod_eq_of_lt]; omega
  unfold addBitmask
  rw [if_neg hmod, hadd]
  simp only [storageSize, bitmaskBytes, if_true, fromSizeAlign, hfull, decide_eq_true_eq]
  split
  · exact ⟨_, _, rfl, hbm, hfull⟩
  · rfl

/-- What storage the sequence owns. -/
structure Store (T : VarLen w) (chk : Bool) (s : St) (p : Ptr) (cap : Nat) : Prop where
  owns : cap ≠ 0 → ownsAlloc s p (storageSize chk T.ALIGN.toNat cap) T.ALIGN.toNat
  aligned : cap ≠ 0 → Aligned s p T.ALIGN.toNat
  space : cap ≠ 0 → s.addr p + storageSize chk T.ALIGN.toNat cap ≤ 2 ^ w
  fits : storageSize chk T.ALIGN.toNat cap + (T.ALIGN.toNat - 1) ≤ isizeMax w
  bits : ∀ k, k < bitmaskBytes chk cap → ∃ b, viewAt s p (cap * T.ALIGN.toNat + k) = some b

theorem storageSize_zero (chk : Bool) (a : Nat) : storageSize chk a 0 = 0 := by
  cases chk <;> simp [storageSize, bitmaskBytes]

theorem storageSize_ge (chk : Bool) (a cap : Nat) : cap * a ≤ storageSize chk a cap := by unfold storageSize; omega

theorem bitmaskBytes_mono {chk : Bool} {a b : Nat} (h : a ≤ b) : bitmaskBytes chk a ≤ bitmaskBytes chk b := by
  unfold bitmaskBytes; split <;> omega

/-- The outcome of a successful (re)allocation from capacity `c` to `c'`. -/
structure Grown (T : VarLen w) (chk : Bool) (s s' : St) (p p' : Ptr) (c c' : Nat) : Prop where
  fresh : s.blk p'.blk = none
  owns : ownsAlloc s' p' (storageSize chk T.ALIGN.toNat c') T.ALIGN.toNat
  aligned : Aligned s' p' T.ALIGN.toNat
  space : s'.addr p' + storageSize chk T.ALIGN.toNat c' ≤ 2 ^ w
  data : ∀ i, i < c * T.ALIGN.toNat → viewAt s' p' i = viewAt s p i
  oldBits : ∀ k, k < bitmaskBytes chk c → viewAt s' p' (c' * T.ALIGN.toNat + k) = viewAt s p (c * T.ALIGN.toNat + k)
  newBits : ∀ k, bitmaskBytes chk c ≤ k → k < bitmaskBytes chk c' → viewAt s' p' (c' * T.ALIGN.toNat + k) = some 0
  log : s'.log = s.log
  copied : s'.copied = s.copied + storageSize chk T.ALIGN.toNat c
  freed : c ≠ 0 → ∃ B, s'.blk p.blk = some B ∧ B.live = false
  frame : ∀ b B, s.blk b = some B → (c ≠ 0 → b ≠ p.blk) → s'.blk b = some B
  size : s'.blocks.length = s.blocks.length + 1

section
variable {T : VarLen w} (hT : Lawful T) (hw : 8 ≤ w)
include hT hw

omit hT hw in
theorem allocM_cases (A : Allocator) (s : St) {size align : Nat} (h0 : size ≠ 0) (hf : size + (align - 1) ≤ isizeMax w) :
    allocM w A size align s = .ok none s ∨ ∃ base, (base % align = 0 ∧ base + size ≤ 2 ^ w) ∧
      allocM w A size align s = .ok (some ⟨s.next, 0⟩) (s.push ⟨base, size, align, true, fun _ => none⟩) := by
  unfold allocM
  rw [if_neg h0, if_neg (by simpa [fromSizeAlign] using hf)]
  cases h : pick w A s size align with
  | none => exact .inl rfl
  | some base => exact .inr ⟨base, ⟨(pick_some h).2.1, Nat.le_of_lt (pick_some h).2.2.1⟩, rfl⟩

theorem allocStorage_spec (A : Allocator) (chk : Bool) (s : St) (p : Ptr) {size : BitVec w} {c : Nat} (hc : c ≠ 0)
    (hs : size.toNat = c * T.ALIGN.toNat) (hf : c * T.ALIGN.toNat + (T.ALIGN.toNat - 1) ≤ isizeMax w) :
    allocStorage A chk size T.ALIGN s = .ok none s ∨
    ∃ p' s', allocStorage A chk size T.ALIGN s = .ok (some p') s' ∧ Grown T chk s s' p p' 0 c ∧
      storageSize chk T.ALIGN.toNat c + (T.ALIGN.toNat - 1) ≤ isizeMax w := by
  have hpos := hT.align_pow2.pos
  have hcp : 0 < c * T.ALIGN.toNat := Nat.mul_pos (by omega) hpos
  unfold allocStorage
  cases chk with
  | false =>
    simp only [Bool.false_eq_true, if_false]
    rcases allocM_cases (w := w) A s (size := size.toNat) (align := T.ALIGN.toNat) (by omega) (by omega) with h | ⟨base, ⟨h1, hsp⟩, h2⟩
    · exact .inl h
    · refine .inr ⟨_, _, h2, ?_, by simpa [storageSize, bitmaskBytes] using hf⟩
      refine ⟨s.blk_next, ⟨rfl, ⟨base, size.toNat, T.ALIGN.toNat, true, fun _ => none⟩, by simp [St.blk_push], rfl, by simp [storageSize, bitmaskBytes, hs], rfl⟩, ?_, ?_, ?_, ?_, ?_, rfl, ?_, ?_, ?_, by simp [St.push]⟩
      · unfold Aligned St.addr; simp [St.blk_push, h1]
      · unfold St.addr; simpa [St.blk_push, storageSize, bitmaskBytes, ← hs] using hsp
      · intro i hi; omega
      · intro k hk; simp [bitmaskBytes] at hk
      · intro k _ hk; simp [bitmaskBytes] at hk
      · simp [storageSize_zero]
      · intro h; exact absurd rfl h
      · intro b B hB _
        rw [St.blk_push, if_neg]; exact hB
        rintro rfl; rw [St.blk_next] at hB; cases hB
  | true =>
    simp only [if_true, bind_apply]
    have hb := addBitmask_spec hw hT.align_pow2 hs hf s
    split at hb
    case isFalse => rw [hb]; exact .inl rfl
    case isTrue hfit =>
      obtain ⟨full, bm, e1, e2, e3⟩ := hb
      rw [e1]
      simp only [Res.bind_ok, bind_apply]
      have hfp : full.toNat ≠ 0 := by have := storageSize_ge true T.ALIGN.toNat c; omega
      rcases allocM_cases (w := w) A s (size := full.toNat) (align := T.ALIGN.toNat) hfp (by rw [e3]; exact hfit) with h | ⟨base, ⟨h1, hsp⟩, h2⟩
      · rw [h]; exact .inl rfl
      · rw [h2]
        simp only [Res.bind_ok, bind_apply]
        generalize hB0 : (⟨base, full.toNat, T.ALIGN.toNat, true, fun _ => none⟩ : Block) = B0
        have hblk : (s.push B0).blk s.next = some B0 := by simp [St.blk_push]
        have hacc : Acc (s.push B0) (Ptr.add ⟨s.next, 0⟩ size.toNat) (List.replicate bm.toNat (some (0 : BitVec 8))).length := by
          refine .inr ⟨B0, hblk, by rw [← hB0], ?_⟩
          rw [← hB0]; simp [e2, e3, hs, storageSize]
        refine .inr ⟨⟨s.next, 0⟩, (s.push B0).write (Ptr.add ⟨s.next, 0⟩ size.toNat) (List.replicate bm.toNat (some 0)), ?_, ?_, hfit⟩
        · unfold fillZero; rw [writeBytes_ok hacc]; rfl
        · have hv : viewAt ((s.push B0).write (Ptr.add ⟨s.next, 0⟩ size.toNat) (List.replicate bm.toNat (some 0))) ⟨s.next, 0⟩ =
              overwrite (fun _ => none) size.toNat (List.replicate bm.toNat (some 0)) := by
            funext i
            unfold viewAt
            rw [St.blk_write (by simpa using hblk)]
            simp [← hB0]
          have ht : Touch (s.push B0) ((s.push B0).write (Ptr.add ⟨s.next, 0⟩ size.toNat) (List.replicate bm.toNat (some 0)))
            (Ptr.add ⟨s.next, 0⟩ size.toNat) _ (fun _ => False) := Touch.write
          have hal : Aligned (s.push B0) ⟨s.next, 0⟩ T.ALIGN.toNat := by
            unfold Aligned St.addr; rw [hblk, ← hB0]; simpa using h1
          refine ⟨s.blk_next, ?_, ht.aligned (fun h => h) hal, by rw [ht.addr (fun h => h), ← e3]; unfold St.addr; rw [hblk, ← hB0]; simpa using hsp, ?_, ?_, ?_, by simp, ?_, ?_, ?_, by rw [ht.len]; simp [St.push]⟩
          · have : ownsAlloc (s.push B0) ⟨s.next, 0⟩ (storageSize true T.ALIGN.toNat c) T.ALIGN.toNat :=
              ⟨rfl, B0, hblk, by rw [← hB0], by rw [← hB0, ← e3], by rw [← hB0]⟩
            exact this.of_touch ht (fun h => h)
          · intro i hi; omega
          · intro k hk; simp [bitmaskBytes] at hk
          · intro k _ hk
            rw [hv, ← hs]
            have := overwrite_in (fun _ => none) size.toNat k (List.replicate bm.toNat (some (0 : BitVec 8))) (by simpa [e2] using hk)
            rw [this]
            have hk' : k < bm.toNat := by omega
            simp [List.getD_eq_getElem?_getD, hk']
          · simp [storageSize_zero]
          · intro h; exact absurd rfl h
          · intro b B hB _
            have hne : b ≠ s.next := by rintro rfl; rw [St.blk_next] at hB; cases hB
            rw [ht.blk_eq (fun h => h) hne, St.blk_push, if_neg hne]; exact hB

omit hT hw in
theorem reallocM_cases (A : Allocator) {s : St} {p : Ptr} {old align new : Nat} (h0 : new ≠ 0) (hf : new + (align - 1) ≤ isizeMax w) (ho : ownsAlloc s p old align) :
    reallocM w A p old align new s = .ok none s ∨ ∃ base, (base % align = 0 ∧ base + new ≤ 2 ^ w) ∧
      reallocM w A p old align new s = .ok (some ⟨s.next, 0⟩)
        { (s.free p.blk).push ⟨base, new, align, true, fun i => if i < min old new then viewAt s p i else none⟩
          with copied := s.copied + old } := by
  unfold reallocM
  rw [if_neg h0, if_neg (by simpa [fromSizeAlign] using hf), if_pos ho]
  have hn : (s.free p.blk).next = s.next := by simp [St.next]
  simp only
  cases h : pick w A (s.free p.blk) new align with
  | none => exact .inl rfl
  | some base => exact .inr ⟨base, ⟨(pick_some h).2.1, Nat.le_of_lt (pick_some h).2.2.1⟩, by simp only [hn]⟩

/-- The state right after a successful `realloc`. -/
def reallocSt (s : St) (p : Ptr) (base old new align : Nat) : St :=
  { (s.free p.blk).push ⟨base, new, align, true, fun i => if i < min old new then viewAt s p i else none⟩ with copied := s.copied + old }

omit hT hw in
theorem reallocSt_blk (s : St) (p : Ptr) (base old new align b : Nat) : (reallocSt s p base old new align).blk b =
    if b = s.next then some ⟨base, new, align, true, fun i => if i < min old new then viewAt s p i else none⟩ else (s.free p.blk).blk b := by
  have hn : (s.free p.blk).next = s.next := by simp [St.next]
  rw [← hn, ← St.blk_push]
  exact St.blk_congr rfl b

omit hT hw in
theorem reallocSt_size (s : St) (p : Ptr) (base old new align : Nat) : (reallocSt s p base old new align).blocks.length = s.blocks.length + 1 := by
  have : (s.free p.blk).blocks.length = s.blocks.length := by
    unfold St.free
    split <;> simp [St.setBlk]
  simp [reallocSt, St.push, this]

theorem growStorage_spec (A : Allocator) (chk : Bool) {s : St} {p : Ptr} {oldSize newSize : BitVec w} {c c' : Nat} (hc : c ≠ 0) (hcc2 : 2 * c ≤ c')
    (hs : oldSize.toNat = c * T.ALIGN.toNat) (hs' : newSize.toNat = c' * T.ALIGN.toNat) (hst : Store T chk s p c)
    (hf : c' * T.ALIGN.toNat + (T.ALIGN.toNat - 1) ≤ isizeMax w) :
    growStorage A chk p oldSize T.ALIGN newSize s = .ok none s ∨
    ∃ p' s', growStorage A chk p oldSize T.ALIGN newSize s = .ok (some p') s' ∧ Grown T chk s s' p p' c c' ∧
      storageSize chk T.ALIGN.toNat c' + (T.ALIGN.toNat - 1) ≤ isizeMax w := by
  have hpos := hT.align_pow2.pos
  have hown := hst.owns hc
  have hcp : 0 < c' * T.ALIGN.toNat := Nat.mul_pos (by omega) hpos
  have hcc : c ≤ c' := by omega
  have hca : c * T.ALIGN.toNat ≤ c' * T.ALIGN.toNat := Nat.mul_le_mul_right _ hcc
  have hbmm := bitmaskBytes_mono (chk := chk) hcc
  obtain ⟨hoff, B, hB, hlive, hsz, hal⟩ := hown
  have hpn : p.blk ≠ s.next := by intro h; rw [h, St.blk_next] at hB; cases hB
  -- facts about the state after realloc
  have key : ∀ base, base % T.ALIGN.toNat = 0 → base + storageSize chk T.ALIGN.toNat c' ≤ 2 ^ w →
      let sr := reallocSt s p base (storageSize chk T.ALIGN.toNat c) (storageSize chk T.ALIGN.toNat c') T.ALIGN.toNat
      ownsAlloc sr ⟨s.next, 0⟩ (storageSize chk T.ALIGN.toNat c') T.ALIGN.toNat ∧ Aligned sr ⟨s.next, 0⟩ T.ALIGN.toNat ∧
      sr.addr ⟨s.next, 0⟩ + storageSize chk T.ALIGN.toNat c' ≤ 2 ^ w ∧
      (∀ i, i < storageSize chk T.ALIGN.toNat c → viewAt sr ⟨s.next, 0⟩ i = viewAt s p i) ∧
      (∃ B, sr.blk p.blk = some B ∧ B.live = false) ∧ (∀ b B, s.blk b = some B → b ≠ p.blk → sr.blk b = some B) := by
    intro base hbase hsp
    have hle : storageSize chk T.ALIGN.toNat c ≤ storageSize chk T.ALIGN.toNat c' := by unfold storageSize; omega
    refine ⟨⟨rfl, _, by rw [reallocSt_blk, if_pos rfl], rfl, rfl, rfl⟩, ?_, ?_, ?_, ?_, ?_⟩
    · unfold Aligned St.addr; simp [reallocSt_blk, hbase]
    · unfold St.addr; simpa [reallocSt_blk] using hsp
    · intro i hi
      have : i < min (storageSize chk T.ALIGN.toNat c) (storageSize chk T.ALIGN.toNat c') := by omega
      conv => lhs; unfold viewAt
      simp [reallocSt_blk, this]
    · exact ⟨_, by rw [reallocSt_blk, if_neg hpn, St.blk_free hB, if_pos rfl], rfl⟩
    · intro b B' hB' hb
      have hne : b ≠ s.next := by rintro rfl; rw [St.blk_next] at hB'; cases hB'
      rw [reallocSt_blk, if_neg hne, St.blk_free hB, if_neg hb]; exact hB'
  have hown : ownsAlloc s p (storageSize chk T.ALIGN.toNat c) T.ALIGN.toNat := ⟨hoff, B, hB, hlive, hsz, hal⟩
  unfold growStorage
  cases chk with
  | false =>
    simp only [Bool.false_eq_true, if_false]
    have e1 : storageSize false T.ALIGN.toNat c = oldSize.toNat := by simp [storageSize, bitmaskBytes, hs]
    have e2 : storageSize false T.ALIGN.toNat c' = newSize.toNat := by simp [storageSize, bitmaskBytes, hs']
    rw [← e1, ← e2]
    rcases reallocM_cases (w := w) A (by omega) (by rw [e2, hs']; exact hf) hown (new := storageSize false T.ALIGN.toNat c') with h | ⟨base, ⟨h1, hsp⟩, h2⟩
    · exact .inl h
    · obtain ⟨k1, k2, ksp, k3, k4, k5⟩ := key base h1 hsp
      refine .inr ⟨_, _, h2, ?_, by rw [e2, hs']; exact hf⟩
      refine ⟨s.blk_next, k1, k2, ksp, ?_, ?_, ?_, ?_, rfl, fun _ => k4, fun b B h h' => k5 b B h (h' hc), reallocSt_size ..⟩
      · intro i hi; exact k3 i (by omega)
      · intro k hk; simp [bitmaskBytes] at hk
      · intro k _ hk; simp [bitmaskBytes] at hk
      · simp
  | true =>
    simp only [if_true, bind_apply]
    have hfold : c * T.ALIGN.toNat + (T.ALIGN.toNat - 1) ≤ isizeMax w := by omega
    have hb := addBitmask_spec hw hT.align_pow2 hs hfold s
    rw [if_pos hst.fits] at hb
    obtain ⟨full, bm, e1, e2, e3⟩ := hb
    rw [e1]
    simp only [Res.bind_ok]
    rw [if_pos (by rw [hs', fromSizeAlign_iff]; exact hf)]
    simp only [bind_apply]
    have hb' := addBitmask_spec hw hT.align_pow2 hs' hf s
    split at hb'
    case isFalse => rw [hb']; exact .inl rfl
    case isTrue hfit =>
      obtain ⟨full', bm', e1', e2', e3'⟩ := hb'
      rw [e1']
      simp only [Res.bind_ok, bind_apply]
      rw [e3, e3']
      rcases reallocM_cases (w := w) A (by have := storageSize_ge true T.ALIGN.toNat c'; omega) hfit hown
        (new := storageSize true T.ALIGN.toNat c') with h | ⟨base, ⟨h1, hsp⟩, h2⟩
      · rw [h]; exact .inl rfl
      · rw [h2]
        simp only [Res.bind_ok, bind_apply]
        obtain ⟨k1, k2, ksp, k3, k4, k5⟩ := key base h1 hsp
        change _ ∨ ∃ p' s', Res.bind (checkAcc (Ptr.add ⟨s.next, 0⟩ oldSize.toNat) bm.toNat
          (reallocSt s p base (storageSize true T.ALIGN.toNat c) (storageSize true T.ALIGN.toNat c') T.ALIGN.toNat)) _ = _ ∧ _
        generalize hsr : reallocSt s p base (storageSize true T.ALIGN.toNat c) (storageSize true T.ALIGN.toNat c') T.ALIGN.toNat = sr at k1 k2 ksp k3 k4 k5 ⊢
        have hlog : sr.log = s.log := by rw [← hsr]; simp [reallocSt]
        have hsize : sr.blocks.length = s.blocks.length + 1 := by rw [← hsr]; exact reallocSt_size ..
        have hcop : sr.copied = s.copied + storageSize true T.ALIGN.toNat c := by rw [← hsr]; rfl
        obtain ⟨_, B2, hB2, hl2, hs2, ha2⟩ := id k1
        simp only at hB2
        have hbb : bm.toNat ≤ bm'.toNat := by rw [e2, e2']; exact hbmm
        have hsz2 : storageSize true T.ALIGN.toNat c' = newSize.toNat + bm'.toNat := by rw [e2', hs']; rfl
        have hsz1 : storageSize true T.ALIGN.toNat c = oldSize.toNat + bm.toNat := by rw [e2, hs]; rfl
        have hacc0 : Acc sr ⟨s.next, 0⟩ (storageSize true T.ALIGN.toNat c') := k1.acc
        have ha1 : Acc sr (Ptr.add ⟨s.next, 0⟩ oldSize.toNat) bm.toNat := hacc0.sub (by omega)
        have ha2' : Acc sr (Ptr.add ⟨s.next, 0⟩ newSize.toNat) bm'.toNat := hacc0.sub (by omega)
        have ha3 : Acc sr (Ptr.add ⟨s.next, 0⟩ newSize.toNat) bm.toNat := hacc0.sub (by omega)
        rw [show checkAcc (Ptr.add ⟨s.next, 0⟩ oldSize.toNat) bm.toNat sr = .ok () sr by simp [checkAcc, ha1]]
        simp only [Res.bind_ok, bind_apply]
        rw [show checkAcc (Ptr.add ⟨s.next, 0⟩ newSize.toNat) bm'.toNat sr = .ok () sr by simp [checkAcc, ha2']]
        simp only [Res.bind_ok, bind_apply]
        have hex : oldSize.toNat + bm.toNat ≤ newSize.toNat := by
          rw [hs, hs', e2]
          have h1 := Nat.mul_le_mul_right T.ALIGN.toNat hcc2
          rw [Nat.mul_assoc, Nat.two_mul] at h1
          have h2 : c ≤ c * T.ALIGN.toNat := Nat.le_mul_of_pos_right c hpos
          have h3 : bitmaskBytes true c ≤ c := by simp only [bitmaskBytes, if_true]; omega
          omega
        rw [show exclusiveRef (Ptr.add ⟨s.next, 0⟩ oldSize.toNat) bm.toNat (Ptr.add ⟨s.next, 0⟩ newSize.toNat) bm'.toNat sr = .ok () sr by
          unfold exclusiveRef; rw [if_neg (by simp only [Ptr.add_off]; omega)]; rfl]
        simp only [Res.bind_ok, bind_apply]
        rw [ptrCopy_ok (Aligned.one _ _) (Aligned.one _ _) ha1 ha3]
        simp only [Res.bind_ok, hbb, if_true, bind_apply]
        generalize himg : takeV (viewAt sr (Ptr.add ⟨s.next, 0⟩ oldSize.toNat)) 0 bm.toNat = img
        have hil : img.length = bm.toNat := by rw [← himg]; simp
        have ht1 : Touch sr (sr.write (Ptr.add ⟨s.next, 0⟩ newSize.toNat) img) (Ptr.add ⟨s.next, 0⟩ newSize.toNat) img.length (fun _ => False) := Touch.write
        generalize hs1 : sr.write (Ptr.add ⟨s.next, 0⟩ newSize.toNat) img = s1 at ht1
        have ha4 : Acc s1 (Ptr.add ⟨s.next, 0⟩ (newSize.toNat + bm.toNat)) (List.replicate (bm'.toNat - bm.toNat) (some (0 : BitVec 8))).length :=
          ht1.acc (fun h => h) (hacc0.sub (by simp; omega))
        unfold fillZero
        rw [writeBytes_ok ha4]
        have ht2 : Touch s1 (s1.write (Ptr.add ⟨s.next, 0⟩ (newSize.toNat + bm.toNat)) (List.replicate (bm'.toNat - bm.toNat) (some (0 : BitVec 8))))
          (Ptr.add ⟨s.next, 0⟩ (newSize.toNat + bm.toNat)) _ (fun _ => False) := Touch.write
        have hv2 := viewAt_write ha4
        generalize hs2' : s1.write (Ptr.add ⟨s.next, 0⟩ (newSize.toNat + bm.toNat)) (List.replicate (bm'.toNat - bm.toNat) (some (0 : BitVec 8))) = s2 at ht2 hv2
        have hv1 : viewAt s1 (Ptr.add ⟨s.next, 0⟩ newSize.toNat) = overwrite (viewAt sr (Ptr.add ⟨s.next, 0⟩ newSize.toNat)) 0 img := by
          rw [← hs1]; exact viewAt_write (by rw [hil]; exact ha3)
        refine .inr ⟨⟨s.next, 0⟩, s2, rfl, ?_, hfit⟩
        refine ⟨s.blk_next, (k1.of_touch ht1 (fun h => h)).of_touch ht2 (fun h => h), ht2.aligned (fun h => h) (ht1.aligned (fun h => h) k2), by rw [ht2.addr (fun h => h), ht1.addr (fun h => h)]; exact ksp, ?_, ?_, ?_, ?_, ?_, ?_, ?_, by rw [ht2.len, ht1.len, hsize]⟩
        · intro i hi
          rw [ht2.view (fun h => h) i (by simp; omega), ht1.view (fun h => h) i (by simp; omega)]
          exact k3 i (by omega)
        · intro k hk
          rw [← e2] at hk
          rw [← hs']
          rw [ht2.view (fun h => h) _ (by simp; omega)]
          have := congrFun hv1 k
          have hin := overwrite_in (viewAt sr (Ptr.add ⟨s.next, 0⟩ newSize.toNat)) 0 k img (by omega)
          rw [Nat.zero_add] at hin
          rw [hin, ← himg, List.getD_eq_getElem?_getD, takeV_getElem?, if_pos hk, viewAt_add, viewAt_add] at this
          simp only [shift, Option.getD_some, Nat.zero_add] at this
          rw [this, k3 _ (by omega), ← hs]
        · intro k hk hk'
          rw [← e2] at hk; rw [← e2'] at hk'
          rw [← hs']
          have := congrFun hv2 (k - bm.toNat)
          have hin := overwrite_in (viewAt s1 (Ptr.add ⟨s.next, 0⟩ (newSize.toNat + bm.toNat))) 0 (k - bm.toNat)
            (List.replicate (bm'.toNat - bm.toNat) (some (0 : BitVec 8))) (by simp; omega)
          rw [Nat.zero_add] at hin
          rw [hin, viewAt_add] at this
          simp only [shift] at this
          rw [show newSize.toNat + bm.toNat + (k - bm.toNat) = newSize.toNat + k by omega] at this
          rw [this, List.getD_eq_getElem?_getD, List.getElem?_replicate, if_pos (by omega)]; rfl
        · rw [← hs2', ← hs1]; simp [hlog]
        · rw [← hs2', ← hs1]; simp [hcop]
        · intro _
          obtain ⟨B', h3, h4⟩ := k4
          refine ⟨B', ?_, h4⟩
          rw [ht2.blk_eq (fun h => h) hpn, ht1.blk_eq (fun h => h) hpn]; exact h3
        · intro b B' h h'
          have hne : b ≠ s.next := by rintro rfl; rw [St.blk_next] at h; cases h
          rw [ht2.blk_eq (fun h => h) hne, ht1.blk_eq (fun h => h) hne]
          exact k5 b B' h (h' hc)

omit hT hw in
theorem maxW_toNat (a b : BitVec w) : (maxW a b).toNat = max a.toNat b.toNat := by
  unfold maxW; split <;> omega

/-- Complete behaviour of a reallocation request: refuse and change nothing, or succeed with the capacity of the growth policy. -/
theorem tryRealloc_spec (A : Allocator) (chk : Bool) {s : St} {p : Ptr} {cap minimum : BitVec w} (hst : Store T chk s p cap.toNat)
    (hmin : 0 < minimum.toNat) :
    tryRealloc A chk p cap minimum T.ALIGN s = .ok none s ∨
    ∃ p' cap' s', tryRealloc A chk p cap minimum T.ALIGN s = .ok (some (p', cap')) s' ∧
      cap'.toNat = growCap T.ALIGN.toNat cap.toNat minimum.toNat ∧ Grown T chk s s' p p' cap.toNat cap'.toNat ∧
      storageSize chk T.ALIGN.toNat cap'.toNat + (T.ALIGN.toNat - 1) ≤ isizeMax w := by
  have hpos := hT.align_pow2.pos
  have hp := two_pow_ge hw
  have h2p := isizeMax_lt (w := w) (by omega)
  have h2 : (2 : BitVec w).toNat = 2 := ofNat_toNat_small hw (n := 2) (by omega)
  have h32 : (32 : BitVec w).toNat = 32 := ofNat_toNat_small hw (n := 32) (by omega)
  have h1 : (1 : BitVec w).toNat = 1 := ofNat_toNat_small hw (n := 1) (by omega)
  have hge := storageSize_ge chk T.ALIGN.toNat cap.toNat
  have hfits := hst.fits
  have hcapa : (cap * T.ALIGN).toNat = cap.toNat * T.ALIGN.toNat := by
    rw [BitVec.toNat_mul, Nat.mod_eq_of_lt]; omega
  have halign : T.ALIGN.toNat + 32 < 2 ^ w := by
    obtain ⟨k, hk, he⟩ := hT.align_pow2
    rw [he]
    have : 2 ^ k ≤ 2 ^ (w - 1) := Nat.pow_le_pow_right (by omega) (by omega)
    have e : 2 ^ w = 2 ^ (w - 1) * 2 := by rw [← Nat.pow_succ]; congr 1; omega
    omega
  have hdiv : ((32 + T.ALIGN - 1) / T.ALIGN).toNat = (32 + T.ALIGN.toNat - 1) / T.ALIGN.toNat := by
    rw [BitVec.toNat_udiv, BitVec.toNat_sub, BitVec.toNat_add, h32, h1]
    congr 1
    rw [Nat.mod_eq_of_lt (show 32 + T.ALIGN.toNat < 2 ^ w by omega)]
    rw [show 2 ^ w - 1 + (32 + T.ALIGN.toNat) = 2 ^ w + (32 + T.ALIGN.toNat - 1) by omega, Nat.add_mod_left, Nat.mod_eq_of_lt (by omega)]
  unfold tryRealloc
  cases hm : checkedMul cap 2 with
  | none => exact .inl rfl
  | some cap2 =>
    have hcap2 : cap2.toNat = 2 * cap.toNat := by rw [checkedMul_eq_some.1 hm, h2, Nat.mul_comm]
    simp only
    generalize hso : maxW (maxW minimum ((32 + T.ALIGN - 1) / T.ALIGN)) cap2 = so
    have hsoN : so.toNat = growCap T.ALIGN.toNat cap.toNat minimum.toNat := by
      rw [← hso, maxW_toNat, maxW_toNat, hdiv, hcap2]; rfl
    cases hm2 : checkedMul so T.ALIGN with
    | none => exact .inl rfl
    | some sb =>
      have hsb : sb.toNat = so.toNat * T.ALIGN.toNat := checkedMul_eq_some.1 hm2
      simp only
      rw [if_pos (by rw [fromSizeAlign_iff, hcapa]; omega)]
      split
      case isFalse => exact .inl rfl
      case isTrue hf =>
        rw [fromSizeAlign_iff, hsb] at hf
        simp only [bind_apply]
        have hgc : cap.toNat ≤ so.toNat ∧ so.toNat ≠ 0 := by rw [hsoN]; unfold growCap; omega
        have fin : ∀ (x : M (Option Ptr)), (x s = .ok none s ∨ ∃ p' s', x s = .ok (some p') s' ∧ Grown T chk s s' p p' cap.toNat so.toNat ∧
            storageSize chk T.ALIGN.toNat so.toNat + (T.ALIGN.toNat - 1) ≤ isizeMax w) →
            ((x s).bind fun r => match r with | none => pure none | some p' => pure (some (p', so))) = .ok none s ∨
            ∃ p' cap' s', ((x s).bind fun r => match r with | none => pure none | some p' => pure (some (p', so))) = .ok (some (p', cap')) s' ∧
              cap'.toNat = growCap T.ALIGN.toNat cap.toNat minimum.toNat ∧ Grown T chk s s' p p' cap.toNat cap'.toNat ∧
              storageSize chk T.ALIGN.toNat cap'.toNat + (T.ALIGN.toNat - 1) ≤ isizeMax w := by
          rintro x (h | ⟨p', s', h3, h4, h5⟩)
          · rw [h]; exact .inl rfl
          · rw [h3]; exact .inr ⟨p', so, s', rfl, hsoN, h4, h5⟩
        by_cases hc0 : cap = 0
        · have : cap.toNat = 0 := by rw [hc0]; simp
          rw [if_pos hc0]
          refine fin _ ?_
          rw [this]
          exact allocStorage_spec hT hw A chk s p hgc.2 hsb hf
        · have hne : cap.toNat ≠ 0 := by
            intro h; exact hc0 (BitVec.eq_of_toNat_eq (by simpa using h))
          rw [if_neg hc0]
          exact fin _ (growStorage_spec hT hw A chk hne (by rw [hsoN]; unfold growCap; omega) hcapa hsb hst hf)

end
end Varlen
