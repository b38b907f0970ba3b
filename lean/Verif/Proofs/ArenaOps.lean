import Verif.Proofs.ArenaInit
import Verif.Proofs.ClientSteps
/-!
# Proofs: allocation in packed memory
-/
namespace Varlen.Arena
variable {w : Nat} {ρ : Place} {s m : St}

/-- The ideal allocation `b` is placed at `q`. -/
def Place.put (ρ : Place) (b : Nat) (q : Ptr) (n : Nat) (hp : Prop) : Place := ⟨fun x => if x = b then q else ρ.loc x, fun x => if x = b then some n else ρ.len x, ρ.chunk, fun x => (x = b ∧ hp) ∨ (x ≠ b ∧ ρ.heap x)⟩

theorem Place.put_loc {ρ : Place} {b : Nat} {q : Ptr} {n : Nat} {hp : Prop} : (ρ.put b q n hp).loc b = q := if_pos rfl
theorem Place.put_ne {ρ : Place} {b x : Nat} {q : Ptr} {n : Nat} {hp : Prop} (h : x ≠ b) : (ρ.put b q n hp).loc x = ρ.loc x := if_neg h
theorem Place.put_len {ρ : Place} {b : Nat} {q : Ptr} {n : Nat} {hp : Prop} : (ρ.put b q n hp).len b = some n := if_pos rfl
theorem Place.put_len_ne {ρ : Place} {b x : Nat} {q : Ptr} {n : Nat} {hp : Prop} (h : x ≠ b) : (ρ.put b q n hp).len x = ρ.len x := if_neg h

theorem Place.put_agree (ρ : Place) (s : St) (q : Ptr) (n : Nat) (hp : Prop) : ρ.Agree (ρ.put s.next q n hp) (fun b => s.blk b ≠ none) := by
  intro b hb
  have hne : b ≠ s.next := by rintro rfl; exact hb (St.blk_next s)
  refine ⟨put_ne hne, ?_⟩
  simp [put, hne]

theorem Place.put_ptr (ρ : Place) (b : Nat) (q : Ptr) (n : Nat) (hp : Prop) : (ρ.put b q n hp).ptr ⟨b, 0⟩ = q := by
  unfold Place.ptr
  rw [put_loc]; rfl

/-- What is free stays free, except where the new allocation is. -/
theorem Place.put_takes (ρ : Place) (b : Nat) (q : Ptr) (n : Nat) (hp : Prop) {t : Option (Ptr × Nat)} (ht : t = some (q, n) ∨ ¬ ρ.chunk q.blk) : Takes ρ (ρ.put b q n hp) t := by
  refine fun c hc => ⟨hc, fun lo hi hr hq b' n' he hn => ?_⟩
  by_cases hb : b' = b
  · subst hb
    rw [put_loc] at he ⊢
    rw [put_len] at hn
    cases hn
    rcases ht with rfl | ht
    · exact hq q n rfl he.symm
    · subst he; exact absurd hc ht
  · rw [put_ne hb] at he ⊢
    rw [put_len_ne hb] at hn
    exact hr b' n' he hn

theorem takes_self (ρ : Place) (t : Option (Ptr × Nat)) : Takes ρ ρ t := fun _ hc => ⟨hc, fun _ _ hr _ => hr⟩

/-- In free memory there is no live allocation. -/
theorem Packed.room (h : Packed ρ s m) {c lo hi : Nat} (hr : Room ρ c lo hi) {b : Nat} {B : Block} (hb : s.blk b = some B) (hl : B.live = true) (he : (ρ.loc b).blk = c) :
    hi ≤ (ρ.loc b).off ∨ (ρ.loc b).off + B.size ≤ lo := by
  obtain ⟨n, h1, h2⟩ := h.len b B hb hl
  rcases hr b n he h1 with d | d <;> omega

theorem Packed.put (h : Packed ρ s m) {q : Ptr} {size align : Nat} {d : View} {hp : Prop} {C : Block} (hC : m.blk q.blk = some C) (hCl : C.live = true) (hCs : q.off + size ≤ C.size)
    (hH : hp → q.off = 0 ∧ C.size = size ∧ C.align = align ∧ ¬ ρ.chunk q.blk)
    (free : ∀ b B, s.blk b = some B → B.live = true → (ρ.loc b).blk = q.blk → q.off + size ≤ (ρ.loc b).off ∨ (ρ.loc b).off + B.size ≤ q.off)
    (chunks : ∀ b B, ρ.heap b → s.blk b = some B → B.live = true → (ρ.loc b).blk ≠ q.blk)
    (excl : hp → ∀ b B, s.blk b = some B → B.live = true → (ρ.loc b).blk ≠ q.blk) (hd : ∀ i, i < size → d i = viewAt m q i) :
    Packed (ρ.put s.next q size hp) (s.push ⟨m.addr q, size, align, true, d⟩) m := by
  have hs : ∀ b B, (s.push ⟨m.addr q, size, align, true, d⟩).blk b = some B → (b = s.next ∧ B = ⟨m.addr q, size, align, true, d⟩) ∨ (b ≠ s.next ∧ s.blk b = some B) := by
    intro b B hb
    rw [St.blk_push] at hb
    split at hb
    · next e => cases hb; exact .inl ⟨e, rfl⟩
    · next e => exact .inr ⟨e, hb⟩
  have haddr : m.addr q = C.base + q.off := by unfold St.addr; rw [hC]
  refine ⟨h.log, fun b hb => ?_, fun b B hb => ?_, fun b B C1 hb hl hc => ?_, fun b b' B B' hne hb hb' hl hl' he => ?_, fun b B hh hb hl => ?_, h.apart, fun b B hb hl => ?_, fun c hc => ⟨(h.chunks c hc).1, fun b hb => ?_⟩⟩
  · rw [St.blk_push] at hb
    split at hb
    · cases hb
    · next e => rw [Place.put_ne e]; exact h.unused b hb
  · rcases hs b B hb with ⟨rfl, rfl⟩ | ⟨e, e1⟩
    · rw [Place.put_loc]; exact ⟨C, hC, haddr.symm⟩
    · rw [Place.put_ne e]; exact h.addr b B e1
  · rcases hs b B hb with ⟨rfl, rfl⟩ | ⟨e, e1⟩
    · rw [Place.put_loc] at hc ⊢
      rw [hC] at hc; cases hc
      refine ⟨hCl, hCs, fun i hi => ?_⟩
      show C.data (q.off + i) = d i
      rw [hd i hi]
      simp only [viewAt, hC]
    · rw [Place.put_ne e] at hc ⊢; exact h.live b B C1 e1 hl hc
  · rcases hs b B hb with ⟨rfl, rfl⟩ | ⟨e, e1⟩
    · rcases hs b' B' hb' with ⟨rfl, rfl⟩ | ⟨f, f1⟩
      · exact absurd rfl hne
      · rw [Place.put_loc, Place.put_ne f] at he ⊢
        exact free b' B' f1 hl' he.symm
    · rcases hs b' B' hb' with ⟨rfl, rfl⟩ | ⟨f, f1⟩
      · rw [Place.put_loc, Place.put_ne e] at he ⊢
        exact (free b B e1 hl he).symm
      · rw [Place.put_ne e, Place.put_ne f] at he ⊢
        exact h.disj b b' B B' hne e1 f1 hl hl' he
  · rcases hs b B hb with ⟨rfl, rfl⟩ | ⟨e, e1⟩
    · have hhp : hp := hh.elim (·.2) fun g => absurd rfl g.1
      obtain ⟨h1, h2, h3, _⟩ := hH hhp
      rw [Place.put_loc]
      refine ⟨h1, ⟨C, hC, h2, h3⟩, fun b' B' hne hb' hl' => ?_⟩
      rcases hs b' B' hb' with ⟨rfl, _⟩ | ⟨f, f1⟩
      · exact absurd rfl hne
      · rw [Place.put_ne f]; exact excl hhp b' B' f1 hl'
    · have hhp : ρ.heap b := hh.elim (fun g => absurd g.1 e) (·.2)
      obtain ⟨h1, h2, h3⟩ := h.heap b B hhp e1 hl
      rw [Place.put_ne e]
      refine ⟨h1, h2, fun b' B' hne hb' hl' => ?_⟩
      rcases hs b' B' hb' with ⟨rfl, _⟩ | ⟨f, f1⟩
      · rw [Place.put_loc]; exact (chunks b B hhp e1 hl).symm
      · rw [Place.put_ne f]; exact h3 b' B' hne f1 hl'
  · rcases hs b B hb with ⟨rfl, rfl⟩ | ⟨e, e1⟩
    · exact ⟨size, Place.put_len, Nat.le_refl _⟩
    · rw [Place.put_len_ne e]; exact h.len b B e1 hl
  · rcases hb with ⟨rfl, hhp⟩ | ⟨e, hhp⟩
    · rw [Place.put_loc]
      rintro rfl
      exact (hH hhp).2.2.2 hc
    · rw [Place.put_ne e]; exact (h.chunks c hc).2 b hhp

theorem blk_of_mem {s : St} {B : Block} (h : B ∈ s.blocks) : ∃ b, s.blk b = some B := by
  obtain ⟨i, hi⟩ := List.mem_iff_getElem?.1 h
  exact ⟨i + 1, hi⟩

theorem Packed.legal (h : Packed ρ s m) {q : Ptr} {size align : Nat} (v : Vacant w ρ m q size align) : legalBase w s (m.addr q) size align := by
  obtain ⟨C, hC, hCl, hCs⟩ := v.live
  have haddr : m.addr q = C.base + q.off := by unfold St.addr; rw [hC]
  refine ⟨v.nonnull, v.aligned, v.fits, fun B hB hl => ?_⟩
  obtain ⟨b, hb⟩ := blk_of_mem hB
  obtain ⟨D, k1, k2⟩ := h.addr b B hb
  obtain ⟨j1, j2, _⟩ := h.live b B D hb hl k1
  by_cases he : (ρ.loc b).blk = q.blk
  · rw [he, hC] at k1; cases k1
    rcases h.room v.room hb hl he with d | d <;> omega
  · rcases h.apart _ _ D C he k1 hC j1 hCl with d | d <;> omega

/-- Writing where nobody is. -/
theorem Packed.scratch (h : Packed ρ s m) {q : Ptr} {img : Img} {C : Block} (hC : m.blk q.blk = some C)
    (free : ∀ b B, s.blk b = some B → B.live = true → (ρ.loc b).blk = q.blk → q.off + img.length ≤ (ρ.loc b).off ∨ (ρ.loc b).off + B.size ≤ q.off) : Packed ρ s (m.write q img) := by
  have hm : ∀ c C1, (m.write q img).blk c = some C1 → ∃ C0, m.blk c = some C0 ∧ C1 = { C0 with data := if c = q.blk then overwrite C0.data q.off img else C0.data } := by
    intro c C1 hc
    rw [St.blk_write hC] at hc
    split at hc
    · next e => subst e; cases hc; exact ⟨C, hC, by rw [if_pos rfl]⟩
    · next e => exact ⟨C1, hc, by rw [if_neg e]⟩
  have hm' : ∀ c C0, m.blk c = some C0 → (m.write q img).blk c = some { C0 with data := if c = q.blk then overwrite C0.data q.off img else C0.data } := by
    intro c C0 hc
    rw [St.blk_write hC]
    split
    · next e => subst e; rw [hC] at hc; cases hc; rfl
    · next e => exact hc
  refine ⟨by simp [h.log], h.unused, fun b B hb => ?_, fun b B C1 hb hl hc => ?_, h.disj, fun b B hh hb hl => ?_, fun c c' C1 C1' hne hc hc' hl hl' => ?_, h.len, fun c hc => ⟨?_, (h.chunks c hc).2⟩⟩
  · obtain ⟨C0, k2, k3⟩ := h.addr b B hb
    exact ⟨_, hm' _ _ k2, k3⟩
  · obtain ⟨C0, k2, rfl⟩ := hm _ C1 hc
    obtain ⟨j1, j2, j3⟩ := h.live b B C0 hb hl k2
    refine ⟨j1, j2, fun i hi => ?_⟩
    simp only
    split
    · next e =>
      rcases free b B hb hl e with d | d
      · rw [overwrite_out _ _ _ _ (by omega)]; exact j3 i hi
      · rw [overwrite_out _ _ _ _ (by omega)]; exact j3 i hi
    · exact j3 i hi
  · obtain ⟨k2, ⟨C0, k3, k4⟩, k5⟩ := h.heap b B hh hb hl
    exact ⟨k2, ⟨_, hm' _ _ k3, k4⟩, k5⟩
  · obtain ⟨C0, k1, rfl⟩ := hm c C1 hc
    obtain ⟨C0', k1', rfl⟩ := hm c' C1' hc'
    exact h.apart c c' C0 C0' hne k1 k1' hl hl'
  · obtain ⟨C0, k1⟩ := Option.ne_none_iff_exists'.1 (h.chunks c hc).1
    rw [hm' c C0 k1]; simp

/-- The arena's answer, as an allocation of its own. -/
theorem Packed.bump (h : Packed ρ s m) {q : Ptr} {size align : Nat} (v : Vacant w ρ m q size align) :
    Packed (ρ.put s.next q size False) (s.push ⟨m.addr q, size, align, true, fun _ => none⟩) (m.write q (List.replicate size none)) := by
  obtain ⟨C, hC, hCl, hCs⟩ := v.live
  have h1 := h.scratch (img := List.replicate size none) hC (by rw [List.length_replicate]; exact fun b B hb hl he => h.room v.room hb hl he)
  have ha : (m.write q (List.replicate size none)).addr q = m.addr q := by
    unfold St.addr; rw [St.blk_write hC, if_pos rfl, hC]
  rw [← ha]
  refine h1.put (C := { C with data := overwrite C.data q.off (List.replicate size none) }) (by rw [St.blk_write hC, if_pos rfl]) hCl hCs False.elim (fun b B hb hl he => h.room v.room hb hl he) (fun b _ hh _ _ => (h.chunks _ v.chunk).2 b hh) False.elim fun i hi => ?_
  rw [viewAt_write (by rw [List.length_replicate]; exact .inr ⟨C, hC, hCl, hCs⟩)]
  have hi0 : i = 0 + i := by omega
  rw [hi0, overwrite_in _ _ _ _ (by rw [List.length_replicate]; exact hi)]
  simp [hi]

/-- The real memory grows. -/
theorem Packed.grow (h : Packed ρ s m) {C : Block} (ha : ∀ D ∈ m.blocks, D.live = true → C.base + C.size ≤ D.base ∨ D.base + D.size ≤ C.base) : Packed ρ s (m.push C) := by
  have hm' : ∀ c C0, m.blk c = some C0 → (m.push C).blk c = some C0 := by
    intro c C0 hc
    rw [St.blk_push, if_neg]
    · exact hc
    · rintro rfl; rw [St.blk_next] at hc; cases hc
  have hm : ∀ c C1, (m.push C).blk c = some C1 → (c = m.next ∧ C1 = C) ∨ (c ≠ m.next ∧ m.blk c = some C1) := by
    intro c C1 hc
    rw [St.blk_push] at hc
    split at hc
    · next e => cases hc; exact .inl ⟨e, rfl⟩
    · next e => exact .inr ⟨e, hc⟩
  have hmem : ∀ c D, m.blk c = some D → D ∈ m.blocks := by
    intro c D hc
    cases c with
    | zero => cases hc
    | succ c => exact List.mem_of_getElem? hc
  refine ⟨h.log, h.unused, fun b B hb => ?_, fun b B C1 hb hl hc => ?_, h.disj, fun b B hh hb hl => ?_, fun c c' C1 C1' hne hc hc' hl hl' => ?_, h.len, fun c hc => ⟨?_, (h.chunks c hc).2⟩⟩
  · obtain ⟨C0, k2, k3⟩ := h.addr b B hb
    exact ⟨_, hm' _ _ k2, k3⟩
  · obtain ⟨C0, k2, k3⟩ := h.addr b B hb
    rw [hm' _ _ k2] at hc; cases hc
    exact h.live b B _ hb hl k2
  · obtain ⟨k2, ⟨C0, k3, k4⟩, k5⟩ := h.heap b B hh hb hl
    exact ⟨k2, ⟨_, hm' _ _ k3, k4⟩, k5⟩
  · rcases hm c C1 hc with ⟨rfl, rfl⟩ | ⟨e, e1⟩
    · rcases hm c' C1' hc' with ⟨rfl, rfl⟩ | ⟨f, f1⟩
      · exact absurd rfl hne
      · exact ha _ (hmem _ _ f1) hl'
    · rcases hm c' C1' hc' with ⟨rfl, rfl⟩ | ⟨f, f1⟩
      · exact (ha _ (hmem _ _ e1) hl).symm
      · exact h.apart c c' C1 C1' hne e1 f1 hl hl'
  · obtain ⟨C0, k1⟩ := Option.ne_none_iff_exists'.1 (h.chunks c hc).1
    rw [hm' c C0 k1]; simp

/-- An allocation by the global allocator. -/
theorem Packed.alloc (h : Packed ρ s m) {base size align : Nat} (hl : legalBase w m base size align) :
    Packed (ρ.put s.next ⟨m.next, 0⟩ size True) (s.push ⟨base, size, align, true, fun _ => none⟩) (m.push ⟨base, size, align, true, fun _ => none⟩) := by
  have h1 := h.grow (C := ⟨base, size, align, true, fun _ => none⟩) hl.2.2.2
  have hb : (m.push ⟨base, size, align, true, fun _ => none⟩).blk m.next = some ⟨base, size, align, true, fun _ => none⟩ := by rw [St.blk_push, if_pos rfl]
  have ha : (m.push ⟨base, size, align, true, fun _ => none⟩).addr ⟨m.next, 0⟩ = base := by unfold St.addr; rw [hb]; rfl
  have hne : ∀ b B, s.blk b = some B → B.live = true → (ρ.loc b).blk ≠ m.next := by
    intro b B hb hl he
    obtain ⟨C, k1, _⟩ := h.addr b B hb
    rw [he, St.blk_next] at k1; cases k1
  have h2 := h1.put (q := ⟨m.next, 0⟩) (size := size) (align := align) (d := fun _ => none) (hp := True) hb rfl (Nat.le_of_eq (Nat.zero_add _)) (fun _ => ⟨rfl, rfl, rfl, fun hc => (h.chunks _ hc).1 (St.blk_next m)⟩)
    (fun b B e1 e2 e3 => absurd e3 (hne b B e1 e2)) (fun b B _ e1 e2 => hne b B e1 e2) (fun _ => hne) (fun i _ => by simp only [viewAt, hb])
  rw [ha] at h2
  exact h2

/-- An address that is legal in the real memory is so in the ideal one. -/
theorem Packed.legal_of (h : Packed ρ s m) {base size align : Nat} (hl : legalBase w m base size align) : legalBase w s base size align := by
  refine ⟨hl.1, hl.2.1, hl.2.2.1, fun B hB hBl => ?_⟩
  obtain ⟨b, hb⟩ := blk_of_mem hB
  obtain ⟨D, k1, k2⟩ := h.addr b B hb
  obtain ⟨j1, j2, _⟩ := h.live b B D hb hBl k1
  have hD : D ∈ m.blocks := by
    revert k1
    cases (ρ.loc b).blk with
    | zero => intro k1; cases k1
    | succ c => intro k1; exact List.mem_of_getElem? k1
  rcases hl.2.2.2 D hD j1 with d | d <;> omega

end Varlen.Arena
