import Verif.Model.Word
namespace Varlen
variable {w : Nat}

theorem checkedAdd_eq_some {a b c : BitVec w} :
    checkedAdd a b = some c ↔ c.toNat = a.toNat + b.toNat := by
  unfold checkedAdd
  split
  · rename_i h
    constructor
    · intro h'; cases h'; rw [BitVec.toNat_add, Nat.mod_eq_of_lt h]
    · intro h'; congr 1; apply BitVec.eq_of_toNat_eq
      rw [BitVec.toNat_add, Nat.mod_eq_of_lt h, h']
  · rename_i h
    constructor
    · intro h'; cases h'
    · intro h'; have := c.isLt; omega

theorem checkedAdd_eq_none {a b : BitVec w} :
    checkedAdd a b = none ↔ 2 ^ w ≤ a.toNat + b.toNat := by
  unfold checkedAdd; split <;> simp <;> omega

theorem checkedMul_eq_some {a b c : BitVec w} :
    checkedMul a b = some c ↔ c.toNat = a.toNat * b.toNat := by
  unfold checkedMul
  split
  · rename_i h
    constructor
    · intro h'; cases h'; rw [BitVec.toNat_mul, Nat.mod_eq_of_lt h]
    · intro h'; congr 1; apply BitVec.eq_of_toNat_eq
      rw [BitVec.toNat_mul, Nat.mod_eq_of_lt h, h']
  · rename_i h
    constructor
    · intro h'; cases h'
    · intro h'; have := c.isLt; omega

theorem checkedMul_eq_none {a b : BitVec w} :
    checkedMul a b = none ↔ 2 ^ w ≤ a.toNat * b.toNat := by
  unfold checkedMul; split <;> simp <;> omega

theorem IsPow2.pos {a : BitVec w} (h : IsPow2 a) : 0 < a.toNat := by
  obtain ⟨k, _, h⟩ := h; rw [h]; exact Nat.two_pow_pos k

theorem IsPow2.dvd {a : BitVec w} (h : IsPow2 a) : a.toNat ∣ 2 ^ w := by
  obtain ⟨k, hk, h⟩ := h; rw [h]; exact Nat.pow_dvd_pow 2 (by omega)

theorem IsPow2.wpos {a : BitVec w} (h : IsPow2 a) : 0 < w := by
  obtain ⟨k, hk, _⟩ := h; omega

theorem IsPow2.sub_one {a : BitVec w} (h : IsPow2 a) : (a - 1).toNat = a.toNat - 1 := by
  have h0 := h.pos; have hw := h.wpos
  have h1 : (1 : BitVec w).toNat = 1 := by
    simp [Nat.one_mod_two_pow_eq_one.2 hw]
  rw [BitVec.toNat_sub, h1]
  have := a.isLt
  rw [show 2 ^ w - 1 + a.toNat = 2 ^ w + (a.toNat - 1) by omega, Nat.add_mod_left,
    Nat.mod_eq_of_lt (by omega)]

theorem maskDown_toNat {x a : BitVec w} (h : IsPow2 a) :
    (maskDown x a).toNat = x.toNat / a.toNat * a.toNat := by
  obtain ⟨k, hk, ha⟩ := h
  have hneg : (0 - a).toNat = 2 ^ w - 2 ^ k := by
    rw [BitVec.toNat_sub]
    simp only [BitVec.toNat_zero, ha, Nat.add_zero, BitVec.ofNat_eq_ofNat]
    apply Nat.mod_eq_of_lt
    have := Nat.two_pow_pos k; have := Nat.two_pow_pos w; omega
  unfold maskDown
  rw [BitVec.toNat_and, hneg, ha]
  apply Nat.eq_of_testBit_eq
  intro i
  have hpow : 2 ^ k ≤ 2 ^ w := Nat.pow_le_pow_right (by omega) (by omega)
  rw [Nat.testBit_and, Nat.testBit_mul_two_pow, Nat.testBit_div_two_pow]
  have hs : 2 ^ w - 2 ^ k = 2 ^ w - ((2 ^ k - 1) + 1) := by
    have := Nat.two_pow_pos k; omega
  rw [hs, Nat.testBit_two_pow_sub_succ (by have := Nat.two_pow_pos k; omega),
    Nat.testBit_two_pow_sub_one]
  by_cases hik : k ≤ i
  · by_cases hiw : i < w
    · simp [hik, hiw, show ¬ i < k by omega]
    · have : x.toNat.testBit i = false := Nat.testBit_lt_two_pow
        (Nat.lt_of_lt_of_le x.isLt (Nat.pow_le_pow_right (by omega) (by omega)))
      simp [hik, this]
  · simp [hik, show i < k by omega]

theorem roundUpN_ge (n a : Nat) (ha : 0 < a) : n ≤ roundUpN n a := by
  unfold roundUpN
  have h1 := Nat.div_add_mod' (n + (a - 1)) a
  have h2 := Nat.mod_lt (n + (a - 1)) ha
  generalize (n + (a - 1)) / a * a = q at *
  omega

theorem roundUpN_lt (n a : Nat) (ha : 0 < a) : roundUpN n a < n + a := by
  unfold roundUpN
  have := Nat.div_mul_le_self (n + (a - 1)) a
  omega

theorem roundUpN_dvd (n a : Nat) : a ∣ roundUpN n a := ⟨_, Nat.mul_comm _ _⟩

theorem roundUpN_mod (n a : Nat) : roundUpN n a % a = 0 :=
  Nat.mod_eq_zero_of_dvd (roundUpN_dvd n a)

/-- `roundUpN n a` is the least multiple of `a` that is at least `n`. -/
theorem roundUpN_least {n a m : Nat} (ha : 0 < a) (hm : a ∣ m) (hn : n ≤ m) :
    roundUpN n a ≤ m := by
  obtain ⟨c, rfl⟩ := hm
  unfold roundUpN
  rw [Nat.mul_comm]
  apply Nat.mul_le_mul_left
  rw [Nat.div_le_iff_le_mul_add_pred ha]
  omega

theorem roundUpN_of_dvd {n a : Nat} (ha : 0 < a) (h : a ∣ n) : roundUpN n a = n :=
  Nat.le_antisymm (roundUpN_least ha h (Nat.le_refl _)) (roundUpN_ge n a ha)

theorem roundUpN_mono {m n a : Nat} (ha : 0 < a) (h : m ≤ n) : roundUpN m a ≤ roundUpN n a :=
  roundUpN_least ha (roundUpN_dvd _ _) (Nat.le_trans h (roundUpN_ge n a ha))

theorem roundUpN_add_mul {n a k : Nat} (ha : 0 < a) :
    roundUpN (k * a + n) a = k * a + roundUpN n a := by
  unfold roundUpN
  rw [Nat.add_assoc, Nat.mul_comm k a, Nat.mul_add_div ha, Nat.add_mul, Nat.mul_comm]

/-- Rounding up overflows the word exactly when the intermediate `n + (a-1)` does. -/
theorem roundUpN_lt_two_pow {n : Nat} {a : BitVec w} (h : IsPow2 a) :
    roundUpN n a.toNat < 2 ^ w ↔ n + (a.toNat - 1) < 2 ^ w := by
  obtain ⟨c, hc⟩ := h.dvd
  have hp := h.pos
  unfold roundUpN
  constructor
  · intro hlt
    rw [hc, Nat.mul_comm a.toNat c] at hlt
    have := Nat.lt_of_mul_lt_mul_right hlt
    rw [Nat.div_lt_iff_lt_mul hp] at this
    rw [hc, Nat.mul_comm]; exact this
  · intro hlt
    exact Nat.lt_of_le_of_lt (Nat.div_mul_le_self _ _) hlt

/-- The wrapping round-up `x.wrapping_add(a-1) & 0.wrapping_sub(a)` is exact when it does not
overflow. -/
theorem maskDown_add_toNat {x a : BitVec w} (h : IsPow2 a)
    (hlt : roundUpN x.toNat a.toNat < 2 ^ w) :
    (maskDown (x + (a - 1)) a).toNat = roundUpN x.toNat a.toNat := by
  rw [maskDown_toNat h, BitVec.toNat_add, h.sub_one,
    Nat.mod_eq_of_lt ((roundUpN_lt_two_pow h).1 hlt)]
  rfl

end Varlen
