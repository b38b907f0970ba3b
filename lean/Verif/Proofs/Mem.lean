import Verif.Model.Traits
import Verif.Proofs.Word
namespace Varlen

/-! ## Monad lemmas -/
section monad
variable {σ α β : Type}
@[simp] theorem bind_apply (x : MS σ α) (f : α → MS σ β) (s : σ) : (x >>= f) s = (x s).bind f := rfl
@[simp] theorem pure_apply (a : α) (s : σ) : (pure a : MS σ α) s = .ok a s := rfl
@[simp] theorem Res.bind_ok (a : α) (s : σ) (f : α → MS σ β) : (Res.ok a s).bind f = f a s := rfl
@[simp] theorem Res.bind_panic (m) (s : σ) (f : α → MS σ β) : (Res.panic m s).bind f = .panic m s := rfl
@[simp] theorem Res.bind_ub (k) (f : α → MS σ β) : (Res.ub k).bind f = .ub k := rfl
@[simp] theorem getS_apply (s : σ) : getS s = .ok s s := rfl
@[simp] theorem setS_apply (s s' : σ) : setS s' s = .ok () s' := rfl
@[simp] theorem panicM_apply (m) (s : σ) : (panicM m : MS σ α) s = .panic m s := rfl
@[simp] theorem ubM_apply (k) (s : σ) : (ubM k : MS σ α) s = .ub k := rfl

theorem onUnwind_ok {x : MS σ α} {c : MS σ Unit} {s s' : σ} {a : α} (h : x s = .ok a s') : onUnwind x c s = .ok a s' := by
  simp [onUnwind, h]
theorem onUnwind_ub {x : MS σ α} {c : MS σ Unit} {s : σ} {k} (h : x s = .ub k) : onUnwind x c s = .ub k := by
  simp [onUnwind, h]
theorem onUnwind_panic {x : MS σ α} {c : MS σ Unit} {s s' s'' : σ} {m} (h : x s = .panic m s') (hc : c s' = .ok () s'') :
    onUnwind x c s = .panic m s'' := by
  simp only [onUnwind, h, hc]; rfl

theorem ite_apply_MS {c : Prop} [Decidable c] (x y : MS σ α) (s : σ) :
    (if c then x else y) s = if c then x s else y s := by split <;> rfl
end monad

/-! ## Pointers -/
@[simp] theorem Ptr.add_blk (p : Ptr) (n) : (p.add n).blk = p.blk := rfl
@[simp] theorem Ptr.add_off (p : Ptr) (n) : (p.add n).off = p.off + n := rfl
@[simp] theorem Ptr.add_zero (p : Ptr) : p.add 0 = p := rfl
theorem Ptr.add_add (p : Ptr) (m n) : (p.add m).add n = p.add (m + n) := by
  simp [Ptr.add, Nat.add_assoc]

/-! ## Images and views -/
@[simp] theorem takeV_length (o : View) (off n) : (takeV o off n).length = n := by simp [takeV]

theorem takeV_getElem? (o : View) (off n i) : (takeV o off n)[i]? = if i < n then some (o (off + i)) else none := by
  unfold takeV
  by_cases h : i < n <;> simp [h]

theorem takeV_congr {o o' : View} {off off' n : Nat} (h : ∀ i, i < n → o (off + i) = o' (off' + i)) :
    takeV o off n = takeV o' off' n := by
  unfold takeV
  apply List.map_congr_left
  intro i hi
  exact h i (List.mem_range.1 hi)

theorem takeV_shift (o : View) (d off n) : takeV (shift d o) off n = takeV o (d + off) n :=
  takeV_congr fun i _ => by simp [shift, Nat.add_assoc]

@[simp] theorem shift_zero (o : View) : shift 0 o = o := by funext i; simp [shift]
theorem shift_shift (a b) (o : View) : shift a (shift b o) = shift (b + a) o := by
  funext i; simp [shift, Nat.add_assoc]

theorem overwrite_in (o : View) (off i) (img : Img) (h : i < img.length) :
    overwrite o off img (off + i) = img.getD i none := by
  simp [overwrite, h]

theorem overwrite_out (o : View) (off i) (img : Img) (h : ¬ (off ≤ i ∧ i < off + img.length)) :
    overwrite o off img i = o i := by
  simp only [overwrite, h, if_false]

theorem takeV_overwrite (o : View) (off) (img : Img) : takeV (overwrite o off img) off img.length = img := by
  apply List.ext_getElem?
  intro i
  rw [takeV_getElem?]
  split
  · rename_i h
    rw [overwrite_in _ _ _ _ h, List.getElem?_eq_getElem h]; simp [h]
  · rename_i h; simp at h; simp [h]

theorem takeV_overwrite_disj (o : View) (off off' n) (img : Img) (h : off' + n ≤ off ∨ off + img.length ≤ off') :
    takeV (overwrite o off img) off' n = takeV o off' n :=
  takeV_congr fun i hi => overwrite_out _ _ _ _ (by omega)

theorem takeV_append (o : View) (off m n) : takeV o off (m + n) = takeV o off m ++ takeV o (off + m) n := by
  apply List.ext_getElem?
  intro i
  rw [List.getElem?_append, takeV_getElem?, takeV_getElem?, takeV_getElem?, takeV_length]
  by_cases h : i < m
  · simp [h, show i < m + n by omega]
  · simp only [h, if_false]
    by_cases h' : i < m + n
    · simp [h', show i - m < n by omega, show off + m + (i - m) = off + i by omega]
    · simp [h', show ¬ i - m < n by omega]

/-! ## Blocks -/
theorem St.blk_pos {s : St} {b B} (h : s.blk b = some B) : 0 < b ∧ b ≤ s.blocks.length := by
  cases b with
  | zero => simp [St.blk] at h
  | succ b => simp only [St.blk] at h; have := (List.getElem?_eq_some_iff.1 h).1; omega

theorem St.blk_eq_none {s : St} {b} : s.blk b = none ↔ b = 0 ∨ s.blocks.length < b := by
  cases b with
  | zero => simp [St.blk]
  | succ b => simp [St.blk]; omega

theorem St.blk_isSome {s : St} {b} : (∃ B, s.blk b = some B) ↔ 0 < b ∧ b ≤ s.blocks.length := by
  constructor
  · rintro ⟨B, h⟩; exact St.blk_pos h
  · intro h
    cases hb : s.blk b with
    | some B => exact ⟨B, rfl⟩
    | none => rw [St.blk_eq_none] at hb; omega

theorem St.blk_setBlk {s : St} {b c B} (h : 0 < b ∧ b ≤ s.blocks.length) :
    (s.setBlk b B).blk c = if c = b then some B else s.blk c := by
  obtain ⟨b, rfl⟩ : ∃ b', b = b' + 1 := ⟨b - 1, by omega⟩
  cases c with
  | zero => simp [St.blk]
  | succ c =>
    simp only [St.blk, St.setBlk, Nat.add_sub_cancel, List.getElem?_set, Nat.add_right_cancel_iff]
    by_cases hc : b = c
    · subst hc; simp; omega
    · simp [hc, Ne.symm hc]

@[simp] theorem St.setBlk_length {s : St} {b B} : (s.setBlk b B).blocks.length = s.blocks.length := by
  simp [St.setBlk]
@[simp] theorem St.setBlk_log {s : St} {b B} : (s.setBlk b B).log = s.log := rfl
@[simp] theorem St.setBlk_copied {s : St} {b B} : (s.setBlk b B).copied = s.copied := rfl

@[simp] theorem St.write_length {s : St} {p img} : (s.write p img).blocks.length = s.blocks.length := by
  unfold St.write; split <;> simp
@[simp] theorem St.write_log {s : St} {p img} : (s.write p img).log = s.log := by
  unfold St.write; split <;> simp
@[simp] theorem St.write_copied {s : St} {p img} : (s.write p img).copied = s.copied := by
  unfold St.write; split <;> simp

theorem St.blk_write {s : St} {p img B} (h : s.blk p.blk = some B) (c) :
    (s.write p img).blk c = if c = p.blk then some { B with data := overwrite B.data p.off img } else s.blk c := by
  unfold St.write; rw [h]; exact St.blk_setBlk (St.blk_pos h)

@[simp] theorem St.free_length {s : St} {b} : (s.free b).blocks.length = s.blocks.length := by
  unfold St.free; split <;> simp
@[simp] theorem St.free_log {s : St} {b} : (s.free b).log = s.log := by
  unfold St.free; split <;> simp
@[simp] theorem St.free_copied {s : St} {b} : (s.free b).copied = s.copied := by
  unfold St.free; split <;> simp

theorem St.blk_free {s : St} {b B} (h : s.blk b = some B) (c) :
    (s.free b).blk c = if c = b then some { B with live := false } else s.blk c := by
  unfold St.free; rw [h]; exact St.blk_setBlk (St.blk_pos h)

theorem St.blk_push {s : St} {B} (c) : (s.push B).blk c = if c = s.next then some B else s.blk c := by
  cases c with
  | zero => simp [St.blk, St.next]
  | succ c =>
    simp only [St.blk, St.push, St.next, Nat.add_right_cancel_iff]
    by_cases h : c = s.blocks.length
    · subst h; simp
    · simp only [h, if_false]
      by_cases h' : c < s.blocks.length
      · rw [List.getElem?_append_left h']
      · rw [List.getElem?_eq_none (by simp; omega), List.getElem?_eq_none (by omega)]

@[simp] theorem St.push_log {s : St} {B} : (s.push B).log = s.log := rfl
@[simp] theorem St.push_copied {s : St} {B} : (s.push B).copied = s.copied := rfl
@[simp] theorem St.push_length {s : St} {B} : (s.push B).blocks.length = s.blocks.length + 1 := by simp [St.push]

theorem St.blk_next (s : St) : s.blk s.next = none := by rw [St.blk_eq_none]; right; simp [St.next]

theorem St.blk_congr {s s' : St} (h : s.blocks = s'.blocks) (b) : s.blk b = s'.blk b := by
  cases b <;> simp [St.blk, h]

/-! ## Frames -/

theorem Touch.refl (s : St) (p n own) : Touch s s p n own :=
  ⟨rfl, fun _ _ B h => ⟨B.data, h, fun _ _ => rfl⟩⟩

theorem Touch.trans {s s' s'' : St} {p n own} (h : Touch s s' p n own) (h' : Touch s' s'' p n own) :
    Touch s s'' p n own := by
  refine ⟨h'.len.trans h.len, fun b hb B hB => ?_⟩
  obtain ⟨d, h1, h2⟩ := h.blk b hb B hB
  obtain ⟨d', h1', h2'⟩ := h'.blk b hb _ h1
  exact ⟨d', h1', fun i hi => (h2' i hi).trans (h2 i hi)⟩

theorem Touch.mono {s s' : St} {p q : Ptr} {n m own own'} (h : Touch s s' p n own)
    (hr : n = 0 ∨ (p.blk = q.blk ∧ q.off ≤ p.off ∧ p.off + n ≤ q.off + m)) (ho : ∀ b, own b → own' b) :
    Touch s s' q m own' := by
  refine ⟨h.len, fun b hb B hB => ?_⟩
  obtain ⟨d, h1, h2⟩ := h.blk b (fun h => hb (ho b h)) B hB
  refine ⟨d, h1, fun i hi => h2 i fun hc => hi ?_⟩
  rcases hr with rfl | ⟨h1, h2, h3⟩
  · omega
  · exact ⟨hc.1.trans h1, by omega, by omega⟩

/-- A change inside a sub-range is a change inside the range. -/
theorem Touch.sub {s s' : St} {p : Ptr} {o n m own} (h : Touch s s' (p.add o) n own) (hr : o + n ≤ m) :
    Touch s s' p m own :=
  h.mono (.inr ⟨rfl, by simp, by simp; omega⟩) (fun _ h => h)

theorem Touch.prefix {s s' : St} {p : Ptr} {n m own} (h : Touch s s' p n own) (hr : n ≤ m) :
    Touch s s' p m own :=
  h.mono (.inr ⟨rfl, Nat.le_refl _, by omega⟩) (fun _ h => h)

theorem Touch.none {s s' : St} {p n own b} (h : Touch s s' p n own) : s'.blk b = none ↔ s.blk b = none := by
  rw [St.blk_eq_none, St.blk_eq_none, h.len]

theorem Touch.acc {s s' : St} {p n own q m} (h : Touch s s' p n own) (hq : ¬ own q.blk) (ha : Acc s q m) :
    Acc s' q m := by
  rcases ha with ha | ⟨B, h1, h2, h3⟩
  · exact .inl ha
  · obtain ⟨d, h4, _⟩ := h.blk _ hq B h1
    exact .inr ⟨_, h4, h2, h3⟩

theorem Touch.addr {s s' : St} {p n own q} (h : Touch s s' p n own) (hq : ¬ own q.blk) :
    s'.addr q = s.addr q := by
  unfold St.addr
  cases hb : s.blk q.blk with
  | none => rw [h.none.2 hb]
  | some B => obtain ⟨d, h1, _⟩ := h.blk _ hq B hb; rw [h1]

theorem Touch.aligned {s s' : St} {p n own q a} (h : Touch s s' p n own) (hq : ¬ own q.blk)
    (ha : Aligned s q a) : Aligned s' q a := by
  unfold Aligned at *; rw [h.addr hq]; exact ha

theorem Touch.view {s s' : St} {p n own q} (h : Touch s s' p n own) (hq : ¬ own q.blk) (i)
    (hd : q.blk ≠ p.blk ∨ q.off + i < p.off ∨ p.off + n ≤ q.off + i) :
    viewAt s' q i = viewAt s q i := by
  unfold viewAt
  cases hb : s.blk q.blk with
  | none => rw [h.none.2 hb]
  | some B =>
    obtain ⟨d, h1, h2⟩ := h.blk _ hq B hb; rw [h1]
    simp only
    exact h2 _ fun hc => by rcases hd with hd | hd | hd; exact hd hc.1; omega; omega

theorem Touch.same {s s' : St} {p n own} (h : Touch s s' p n own) {on : Nat → Prop}
    (ho : ∀ b, on b → ¬ own b) (hp : ¬ on p.blk) : Same s s' on := by
  intro b hb
  cases hB : s.blk b with
  | none => exact h.none.2 hB
  | some B =>
    obtain ⟨d, h1, h2⟩ := h.blk b (ho b hb) B hB
    rw [h1]
    have : d = B.data := by
      funext i; apply h2; intro hc; exact hp (hc.1 ▸ hb)
    rw [this]

theorem Same.refl (s : St) (on) : Same s s on := fun _ _ => rfl
theorem Same.trans {s s' s'' : St} {on} (h : Same s s' on) (h' : Same s' s'' on) : Same s s'' on :=
  fun b hb => (h' b hb).trans (h b hb)
theorem Same.mono {s s' : St} {on on' : Nat → Prop} (h : Same s s' on) (ho : ∀ b, on' b → on b) : Same s s' on' :=
  fun b hb => h b (ho b hb)

theorem Same.acc {s s' : St} {on q m} (h : Same s s' on) (hq : on q.blk) : Acc s' q m ↔ Acc s q m := by
  unfold Acc; rw [h _ hq]
theorem Same.addr {s s' : St} {on q} (h : Same s s' on) (hq : on q.blk) : s'.addr q = s.addr q := by
  unfold St.addr; rw [h _ hq]
theorem Same.aligned {s s' : St} {on q a} (h : Same s s' on) (hq : on q.blk) : Aligned s' q a ↔ Aligned s q a := by
  unfold Aligned; rw [h.addr hq]
theorem Same.viewAt {s s' : St} {on q} (h : Same s s' on) (hq : on q.blk) : viewAt s' q = viewAt s q := by
  unfold Varlen.viewAt; rw [h _ hq]

theorem Touch.write {s : St} {p : Ptr} {img : Img} {own} : Touch s (s.write p img) p img.length own := by
  refine ⟨by simp, fun b _ B hB => ?_⟩
  cases hp : s.blk p.blk with
  | none =>
    unfold St.write; rw [hp]; exact ⟨B.data, hB, fun _ _ => rfl⟩
  | some C =>
    rw [St.blk_write hp]
    by_cases hb : b = p.blk
    · subst hb
      rw [hp] at hB; cases hB
      exact ⟨_, by simp, fun i hi => overwrite_out _ _ _ _ (fun hc => hi ⟨rfl, hc⟩)⟩
    · simp only [hb, if_false]; exact ⟨_, hB, fun _ _ => rfl⟩

/-- Memory after a checked write. -/
theorem viewAt_write {s : St} {p : Ptr} {img : Img} (h : Acc s p img.length) :
    viewAt (s.write p img) p = overwrite (viewAt s p) 0 img := by
  rcases h with h | ⟨B, h1, h2, h3⟩
  · have : img = [] := List.length_eq_zero_iff.1 h
    subst this
    funext i
    rw [overwrite_out _ _ _ _ (by simp)]
    exact (Touch.write (own := fun _ => False)).view (fun h => h) i (by simp; try omega)
  · funext i
    unfold viewAt
    rw [St.blk_write h1, h1]
    simp [overwrite]

theorem takeV_viewAt_write {s : St} {p : Ptr} {img : Img} (h : Acc s p img.length) :
    takeV (viewAt (s.write p img) p) 0 img.length = img := by
  rw [viewAt_write h, takeV_overwrite]

theorem viewAt_add (s : St) (p : Ptr) (n : Nat) : viewAt s (p.add n) = shift n (viewAt s p) := by
  funext i; simp [viewAt, shift, Nat.add_assoc]

theorem addr_add (s : St) (p : Ptr) (n : Nat) : s.addr (p.add n) = s.addr p + n := by
  unfold St.addr; simp only [Ptr.add_blk, Ptr.add_off]; split <;> omega

theorem Aligned.add {s : St} {p : Ptr} {a n : Nat} (h : Aligned s p a) (hn : n % a = 0) : Aligned s (p.add n) a := by
  unfold Aligned at *; rw [addr_add, Nat.add_mod, h, hn]; simp

theorem Aligned.of_dvd {s : St} {p : Ptr} {a b : Nat} (h : Aligned s p a) (hd : b ∣ a) : Aligned s p b :=
  Nat.mod_eq_zero_of_dvd (Nat.dvd_trans hd (Nat.dvd_of_mod_eq_zero h))

theorem Acc.sub {s : St} {p : Ptr} {n o m : Nat} (h : Acc s p n) (hm : o + m ≤ n) : Acc s (p.add o) m := by
  rcases h with h | ⟨B, h1, h2, h3⟩
  · exact .inl (by omega)
  · exact .inr ⟨B, h1, h2, by simp; omega⟩

theorem Acc.mono {s : St} {p : Ptr} {n m : Nat} (h : Acc s p n) (hm : m ≤ n) : Acc s p m := by
  have := h.sub (o := 0) (m := m) (by omega); simpa using this

theorem readBytes_ok {s : St} {p : Ptr} {n : Nat} (h : Acc s p n) :
    readBytes p n s = .ok (takeV (viewAt s p) 0 n) s := by simp [readBytes, h]
theorem writeBytes_ok {s : St} {p : Ptr} {img : Img} (h : Acc s p img.length) :
    writeBytes p img s = .ok () (s.write p img) := by simp [writeBytes, h]
theorem checkAlign_ok {s : St} {p : Ptr} {a : Nat} (h : Aligned s p a) :
    checkAlign p a s = .ok () s := by simp [checkAlign, h]
theorem mkRef_ok {s : St} {p : Ptr} {n a : Nat} (h : Acc s p n) (ha : Aligned s p a) :
    mkRef p n a s = .ok () s := by simp [mkRef, checkAlign_ok ha, checkAcc, h]

theorem ownsAlloc.acc {s : St} {p : Ptr} {n a : Nat} (h : ownsAlloc s p n a) : Acc s p n := by
  obtain ⟨h0, B, h1, h2, h3, h4⟩ := h
  exact .inr ⟨B, h1, h2, by omega⟩

theorem copyNonoverlapping_ok {s : St} {src dst : Ptr} {a n : Nat} (hs : Aligned s src a) (hd : Aligned s dst a)
    (as : Acc s src n) (ad : Acc s dst n)
    (hdisj : n = 0 ∨ src.blk ≠ dst.blk ∨ dst.off + n ≤ src.off ∨ src.off + n ≤ dst.off) :
    copyNonoverlapping src dst a n s = .ok () (s.write dst (takeV (viewAt s src) 0 n)) := by
  unfold copyNonoverlapping
  simp only [bind_apply, checkAlign_ok hs, checkAlign_ok hd, Res.bind_ok, readBytes_ok as]
  rw [if_neg (by
    rintro ⟨h1, h2, h3, h4⟩
    rcases hdisj with h | h | h | h
    · exact h1 h
    · exact h h2
    · omega
    · omega)]
  exact writeBytes_ok (by simpa using ad)

theorem ptrCopy_ok {s : St} {src dst : Ptr} {a n : Nat} (hs : Aligned s src a) (hd : Aligned s dst a)
    (as : Acc s src n) (ad : Acc s dst n) :
    ptrCopy src dst a n s = .ok () (s.write dst (takeV (viewAt s src) 0 n)) := by
  unfold ptrCopy
  simp only [bind_apply, checkAlign_ok hs, checkAlign_ok hd, Res.bind_ok, readBytes_ok as]
  exact writeBytes_ok (by simpa using ad)

end Varlen
