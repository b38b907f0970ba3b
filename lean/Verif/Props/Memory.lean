import Verif.Proofs.Traits
/-!
# What the memory model forbids

The theorems "… is never undefined behaviour" say something only if the memory model calls undefined what Rust does. Here each primitive operation of the model is shown to be defined exactly under the conditions that Rust's documentation
lists, with its result; everything else is undefined. (These are theorems about the model of the language and of `std`, not about the library.)
-/
namespace Varlen
variable {w : Nat}

/-- Reading bytes: in bounds of a live allocation, or zero bytes. -/
theorem mem_readBytes (p : Ptr) (n : Nat) (s : St) (r : Img) (s' : St) : readBytes p n s = .ok r s' ↔ Acc s p n ∧ r = takeV (viewAt s p) 0 n ∧ s' = s := by
  unfold readBytes
  split
  · rename_i h
    exact ⟨fun e => by cases e; exact ⟨h, rfl, rfl⟩, fun ⟨_, e1, e2⟩ => by rw [e1, e2]⟩
  · rename_i h
    exact ⟨fun e => (by cases e), fun e => absurd e.1 h⟩

/-- Writing bytes. -/
theorem mem_writeBytes (p : Ptr) (img : Img) (s s' : St) : writeBytes p img s = .ok () s' ↔ Acc s p img.length ∧ s' = s.write p img := by
  unfold writeBytes
  split
  · rename_i h
    exact ⟨fun e => by cases e; exact ⟨h, rfl⟩, fun ⟨_, e1⟩ => by rw [e1]⟩
  · rename_i h
    exact ⟨fun e => (by cases e), fun e => absurd e.1 h⟩

theorem mem_checkAlign {α : Type} (p : Ptr) (a : Nat) (s : St) (f : M α) (r : α) (s' : St) : (checkAlign p a >>= fun _ => f) s = .ok r s' ↔ Aligned s p a ∧ f s = .ok r s' := by
  rw [bind_apply]
  unfold checkAlign
  split
  · rename_i h; simp [Res.bind, h]
  · rename_i h; simp [Res.bind, h]

/-- Making a reference: aligned, and in bounds of a live allocation. -/
theorem mem_mkRef (p : Ptr) (size align : Nat) (s s' : St) : mkRef p size align s = .ok () s' ↔ Aligned s p align ∧ Acc s p size ∧ s' = s := by
  rw [mkRef, mem_checkAlign]
  unfold checkAcc
  split
  · rename_i h; exact ⟨fun ⟨h1, e⟩ => by cases e; exact ⟨h1, h, rfl⟩, fun ⟨h1, _, e⟩ => ⟨h1, by rw [e]⟩⟩
  · rename_i h; exact ⟨fun ⟨h1, e⟩ => (by cases e), fun ⟨h1, h2, e⟩ => absurd h2 h⟩

/-- Reading a value: aligned, in bounds, and a valid value of the type. -/
theorem mem_readVal (R : RTy) (p : Ptr) (s : St) (r : Img) (s' : St) :
    readVal R p s = .ok r s' ↔ Aligned s p R.align ∧ Acc s p R.size ∧ R.valid (takeV (viewAt s p) 0 R.size) = true ∧ r = takeV (viewAt s p) 0 R.size ∧ s' = s := by
  rw [readVal, mem_checkAlign, bind_apply]
  unfold readBytes
  split
  · rename_i h
    show _ ∧ (if R.valid _ = true then pure _ else ubM _ : M Img) s = _ ↔ _
    split
    · rename_i h'
      exact ⟨fun ⟨h1, e⟩ => by cases e; exact ⟨h1, h, h', rfl, rfl⟩, fun ⟨h1, _, _, e1, e2⟩ => ⟨h1, by rw [e1, e2]; rfl⟩⟩
    · rename_i h'
      exact ⟨fun ⟨_, e⟩ => (by cases e), fun ⟨_, _, h2, _⟩ => absurd h2 h'⟩
  · rename_i h
    exact ⟨fun ⟨_, e⟩ => (by cases e), fun ⟨_, h1, _⟩ => absurd h1 h⟩

/-- Writing a value. -/
theorem mem_writeVal (R : RTy) (p : Ptr) (img : Img) (s s' : St) : writeVal R p img s = .ok () s' ↔ Aligned s p R.align ∧ Acc s p img.length ∧ s' = s.write p img := by
  rw [writeVal, mem_checkAlign, mem_writeBytes]

/-- `ptr::copy_nonoverlapping`: both pointers aligned, both ranges in bounds, and the ranges disjoint. -/
theorem mem_copyNonoverlapping (src dst : Ptr) (align n : Nat) (s s' : St) :
    copyNonoverlapping src dst align n s = .ok () s' ↔
      Aligned s src align ∧ Aligned s dst align ∧ Acc s src n ∧ Acc s dst n ∧ (n = 0 ∨ src.blk ≠ dst.blk ∨ dst.off + n ≤ src.off ∨ src.off + n ≤ dst.off) ∧ s' = s.write dst (takeV (viewAt s src) 0 n) := by
  rw [copyNonoverlapping, mem_checkAlign, mem_checkAlign, bind_apply]
  unfold readBytes
  split
  · rename_i h
    show _ ∧ _ ∧ (if _ then ubM _ else writeBytes dst (takeV (viewAt s src) 0 n) : M Unit) s = _ ↔ _
    split
    · rename_i h'
      refine ⟨fun ⟨_, _, e⟩ => (by cases e), fun ⟨_, _, _, _, h2, _⟩ => ?_⟩
      rcases h2 with h2 | h2 | h2 | h2
      · exact absurd h2 h'.1
      · exact absurd h'.2.1 h2
      · omega
      · omega
    · rename_i h'
      rw [mem_writeBytes, show (takeV (viewAt s src) 0 n).length = n by simp [takeV]]
      refine ⟨fun ⟨h1, h2, h3, e⟩ => ⟨h1, h2, h, h3, ?_, e⟩, fun ⟨h1, h2, _, h3, _, e⟩ => ⟨h1, h2, h3, e⟩⟩
      by_cases h4 : n = 0
      · exact .inl h4
      · by_cases h5 : src.blk = dst.blk
        · have : ¬ (src.off < dst.off + n ∧ dst.off < src.off + n) := fun h6 => h' ⟨h4, h5, h6⟩
          omega
        · exact .inr (.inl h5)
  · rename_i h
    exact ⟨fun ⟨_, _, e⟩ => (by cases e), fun ⟨_, _, h1, _⟩ => absurd h1 h⟩

/-- `ptr::copy`: the same, and the ranges may overlap. -/
theorem mem_ptrCopy (src dst : Ptr) (align n : Nat) (s s' : St) :
    ptrCopy src dst align n s = .ok () s' ↔ Aligned s src align ∧ Aligned s dst align ∧ Acc s src n ∧ Acc s dst n ∧ s' = s.write dst (takeV (viewAt s src) 0 n) := by
  rw [ptrCopy, mem_checkAlign, mem_checkAlign, bind_apply]
  unfold readBytes
  split
  · rename_i h
    show _ ∧ _ ∧ writeBytes dst (takeV (viewAt s src) 0 n) s = _ ↔ _
    rw [mem_writeBytes, show (takeV (viewAt s src) 0 n).length = n by simp [takeV]]
    exact ⟨fun ⟨h1, h2, h3, e⟩ => ⟨h1, h2, h, h3, e⟩, fun ⟨h1, h2, _, h3, e⟩ => ⟨h1, h2, h3, e⟩⟩
  · rename_i h
    exact ⟨fun ⟨_, _, e⟩ => (by cases e), fun ⟨_, _, h1, _⟩ => absurd h1 h⟩

/-- `ptr::drop_in_place` of a value with a destructor: aligned, in bounds, valid; its destructor runs once, and its bytes are no value any more. -/
theorem mem_dropInPlace (R : RTy) (p : Ptr) (s s' : St) (hd : R.needsDrop = true) :
    dropInPlace R p s = .ok () s' ↔ Aligned s p R.align ∧ Acc s p R.size ∧ R.valid (takeV (viewAt s p) 0 R.size) = true ∧
      s' = ({ s with log := s.log ++ R.dropEv (takeV (viewAt s p) 0 R.size) } : St).write p (List.replicate R.size none) := by
  rw [dropInPlace, mem_checkAlign, if_pos hd, bind_apply]
  cases e : readVal R p s with
  | ub k =>
    refine ⟨fun ⟨_, h⟩ => (by cases h), fun ⟨h1, h2, h3, _⟩ => ?_⟩
    rw [(mem_readVal R p s _ s).2 ⟨h1, h2, h3, rfl, rfl⟩] at e
    cases e
  | panic m t =>
    refine ⟨fun ⟨_, h⟩ => (by cases h), fun ⟨h1, h2, h3, _⟩ => ?_⟩
    rw [(mem_readVal R p s _ s).2 ⟨h1, h2, h3, rfl, rfl⟩] at e
    cases e
  | ok r t =>
    obtain ⟨h1, h2, h3, rfl, rfl⟩ := (mem_readVal R p s r t).1 e
    show _ ∧ writeBytes p (List.replicate R.size none) ({ t with log := _ } : St) = _ ↔ _
    rw [mem_writeBytes, List.length_replicate]
    exact ⟨fun ⟨_, _, h5⟩ => ⟨h1, h2, h3, h5⟩, fun ⟨_, _, _, h5⟩ => ⟨h1, h2, h5⟩⟩

/-- `alloc::alloc`: a non-zero size that a `Layout` may have. The answer is null, or a fresh, uninitialised, live allocation of this size and alignment, aligned and apart from the live ones. -/
theorem mem_alloc (A : Allocator) (size align : Nat) (s : St) (r : Option Ptr) (s' : St) (h : allocM w A size align s = .ok r s') :
    0 < size ∧ size + (align - 1) < 2 ^ (w - 1) ∧ ((r = none ∧ s' = s) ∨ ∃ base, r = some ⟨s.next, 0⟩ ∧ s.blk s.next = none ∧ s'.blk s.next = some ⟨base, size, align, true, fun _ => none⟩ ∧
      0 < base ∧ base % align = 0 ∧ base + size < 2 ^ w ∧ (∀ B ∈ s.blocks, B.live = true → base + size ≤ B.base ∨ B.base + B.size ≤ base) ∧ (∀ b, b ≠ s.next → s'.blk b = s.blk b) ∧ s'.log = s.log) := by
  unfold allocM at h
  split at h
  · cases h
  split at h
  · cases h
  · rename_i h0 h1
    refine ⟨by omega, ?_, ?_⟩
    · simp only [fromSizeAlign, decide_eq_false_iff_not, Decidable.not_not] at h1
      have : isizeMax w < 2 ^ (w - 1) := by unfold isizeMax; have := Nat.two_pow_pos (w - 1); omega
      omega
    · split at h
      · cases h; exact .inl ⟨rfl, rfl⟩
      · rename_i base hp
        cases h
        refine .inr ⟨base, rfl, ?_, ?_, ?_⟩
        · simp [St.next, St.blk]
        · simp [St.next, St.blk, St.push]
        · unfold pick at hp
          split at hp
          · cases hp
          · split at hp
            · rename_i hl
              cases hp
              refine ⟨hl.1, hl.2.1, hl.2.2.1, hl.2.2.2, fun b hb => ?_, rfl⟩
              cases b with
              | zero => rfl
              | succ b =>
                have : b ≠ s.blocks.length := fun e => hb (by rw [e]; rfl)
                simp only [St.blk, St.push]
                by_cases hlt : b < s.blocks.length
                · rw [List.getElem?_append_left hlt]
                · rw [List.getElem?_eq_none (by simp; omega), List.getElem?_eq_none (by omega)]
            · cases hp

/-- … and it is undefined in no other case. -/
theorem mem_alloc_defined (A : Allocator) (size align : Nat) (s : St) (h0 : 0 < size) (h1 : size + (align - 1) < 2 ^ (w - 1)) : ∃ r s', allocM w A size align s = .ok r s' := by
  unfold allocM
  have : fromSizeAlign w size align = true := by simp only [fromSizeAlign, decide_eq_true_eq]; unfold isizeMax; omega
  rw [if_neg (by omega), if_neg (by simp [this])]
  split
  · exact ⟨_, _, rfl⟩
  · exact ⟨_, _, rfl⟩

/-- `alloc::dealloc`: the pointer is the start of a live allocation, with the layout it was allocated with. The allocation is dead afterwards; nothing else changes. -/
theorem mem_dealloc (p : Ptr) (size align : Nat) (s s' : St) :
    deallocM p size align s = .ok () s' ↔ (p.off = 0 ∧ ∃ B, s.blk p.blk = some B ∧ B.live = true ∧ B.size = size ∧ B.align = align) ∧ s' = s.free p.blk := by
  unfold deallocM
  split
  · rename_i h; exact ⟨fun e => by cases e; exact ⟨h, rfl⟩, fun e => by rw [e.2]⟩
  · rename_i h; exact ⟨fun e => (by cases e), fun e => absurd e.1 h⟩

/-- `alloc::realloc`: likewise, with a new size that is legal. If the answer is null, nothing changes; else the old allocation is dead, and the new one has the old contents as far as both reach. -/
theorem mem_realloc (A : Allocator) (p : Ptr) (old align new : Nat) (s : St) (r : Option Ptr) (s' : St) (h : reallocM w A p old align new s = .ok r s') :
    (p.off = 0 ∧ ∃ B, s.blk p.blk = some B ∧ B.live = true ∧ B.size = old ∧ B.align = align) ∧ 0 < new ∧ new + (align - 1) < 2 ^ (w - 1) ∧
    ((r = none ∧ s' = s) ∨ ∃ q base data, r = some q ∧ q.off = 0 ∧ s.blk q.blk = none ∧ s'.blk q.blk = some ⟨base, new, align, true, data⟩ ∧ (∀ i, i < old → i < new → data i = viewAt s p i) ∧
      (∀ i, ¬ (i < old ∧ i < new) → data i = none) ∧ 0 < base ∧ base % align = 0 ∧ base + new < 2 ^ w ∧ (∃ B, s'.blk p.blk = some B ∧ B.live = false)) := by
  unfold reallocM at h
  split at h
  · cases h
  split at h
  · cases h
  split at h
  · rename_i h0 h1 ho
    refine ⟨ho, by omega, ?_, ?_⟩
    · simp only [fromSizeAlign, decide_eq_false_iff_not, Decidable.not_not] at h1
      have : isizeMax w < 2 ^ (w - 1) := by unfold isizeMax; have := Nat.two_pow_pos (w - 1); omega
      omega
    · simp only at h
      split at h
      · cases h; exact .inl ⟨rfl, rfl⟩
      · rename_i base hp
        cases h
        obtain ⟨_, B, hB, _⟩ := ho
        have hfree : s.free p.blk = s.setBlk p.blk { B with live := false } := by rw [St.free, hB]
        have hlen : (s.free p.blk).blocks.length = s.blocks.length := by rw [hfree]; simp [St.setBlk]
        refine .inr ⟨_, base, (fun i => if i < min old new then viewAt s p i else none), rfl, rfl, ?_, ?_, ?_, ?_, ?_⟩
        · simp [St.next, St.blk, hlen]
        · simp [St.next, St.blk, St.push]
        · intro i h1 h2; exact if_pos (by omega)
        · intro i h1; exact if_neg (by omega)
        · unfold pick at hp
          split at hp
          · cases hp
          · split at hp
            · rename_i hl
              cases hp
              refine ⟨hl.1, hl.2.1, hl.2.2.1, { B with live := false }, ?_, rfl⟩
              cases hb : p.blk with
              | zero => rw [hb] at hB; cases hB
              | succ b =>
                rw [hb] at hB
                have hlt : b < s.blocks.length := (List.getElem?_eq_some_iff.1 hB).1
                simp only [St.blk, St.push]
                rw [List.getElem?_append_left (by rw [← hb, hlen]; exact hlt), ← hb, hfree, hb]
                simp [St.setBlk, hlt]
            · cases hp
  · cases h

namespace MemDemo
/-- One live block of 16 bytes at address 4096, and one that has been freed. -/
def s : St := ⟨[⟨4096, 16, 8, true, fun i => if i < 8 then some (BitVec.ofNat 8 i) else none⟩, ⟨8192, 16, 8, false, fun _ => none⟩], [], 0⟩
example : Acc s ⟨1, 8⟩ 8 ∧ ¬ Acc s ⟨1, 9⟩ 8 ∧ ¬ Acc s ⟨2, 0⟩ 1 ∧ Aligned s ⟨1, 4⟩ 4 ∧ ¬ Aligned s ⟨1, 2⟩ 4 := by decide
/-- The conditions of `mem_copyNonoverlapping` hold for some arguments, … -/
example : Aligned s ⟨1, 0⟩ 4 ∧ Aligned s ⟨1, 8⟩ 4 ∧ Acc s ⟨1, 0⟩ 8 ∧ Acc s ⟨1, 8⟩ 8 ∧ ((8 : Nat) = 0 ∨ (1 : Nat) ≠ 1 ∨ 8 + 8 ≤ 0 ∨ 0 + 8 ≤ 8) := by decide
/-- … and those of `mem_dealloc`. -/
example : ∃ B, s.blk 1 = some B ∧ B.live = true ∧ B.size = 16 ∧ B.align = 8 := ⟨_, rfl, rfl, rfl, rfl⟩
end MemDemo

end Varlen
