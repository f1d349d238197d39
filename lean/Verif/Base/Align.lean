import Verif.Base.Common

/-
Alignment arithmetic of include/ffi_common.h.
-/
namespace Verif

/-- `FFI_ALIGN(v, a)`, include/ffi_common.h:
`(((((size_t) (v))-1) | ((a)-1))+1)` on 64-bit `size_t`, bit for bit. -/
def ffiAlignW (v a : BitVec 64) : BitVec 64 := ((v - 1) ||| (a - 1)) + 1

/-- `FFI_ALIGN_DOWN(v, a)`, include/ffi_common.h: `(((size_t) (v)) & -a)`. -/
def ffiAlignDownW (v a : BitVec 64) : BitVec 64 := v &&& (-a)

/-- `FFI_ALIGN` on naturals that are meant to be `size_t` values: convert to
64-bit words, apply the macro, read the result back. -/
def ffiAlign (v a : Nat) : Nat := (ffiAlignW (BitVec.ofNat 64 v) (BitVec.ofNat 64 a)).toNat

/-- `FFI_ALIGN_DOWN` on naturals that are meant to be `size_t` values. -/
def ffiAlignDown (v a : Nat) : Nat :=
  (ffiAlignDownW (BitVec.ofNat 64 v) (BitVec.ofNat 64 a)).toNat

/-- Mathematical rounding up, used only as a closed form in proofs. -/
def roundUp (v a : Nat) : Nat := (v + (a - 1)) / a * a

theorem or_low_mask (n k : Nat) : n ||| (2 ^ k - 1) = n / 2 ^ k * 2 ^ k + (2 ^ k - 1) := by
  have hpos : 0 < 2 ^ k := Nat.two_pow_pos k
  have h1 : 2 ^ k * (n / 2 ^ k) + (2 ^ k - 1) = 2 ^ k * (n / 2 ^ k) ||| (2 ^ k - 1) :=
    Nat.two_pow_add_eq_or_of_lt (by omega) _
  rw [Nat.mul_comm (n / 2 ^ k), h1]
  have h2 : n = 2 ^ k * (n / 2 ^ k) ||| (n % 2 ^ k) := by
    rw [← Nat.two_pow_add_eq_or_of_lt (Nat.mod_lt _ hpos)]
    exact (Nat.div_add_mod n (2 ^ k)).symm
  conv => lhs; rw [h2]
  rw [Nat.or_assoc]
  congr 1
  apply Nat.eq_of_testBit_eq
  intro i
  simp [Nat.testBit_or, Nat.testBit_two_pow_sub_one, Nat.testBit_mod_two_pow]
  intro h _; exact h

theorem ffiAlign_eq_roundUp {v k : Nat} (h : v + 2 ^ k < 2 ^ 64) :
    ffiAlign v (2 ^ k) = roundUp v (2 ^ k) := by
  have hpos : 0 < 2 ^ k := Nat.two_pow_pos k
  have hk : 2 ^ k < 2 ^ 64 := by omega
  have hv : v < 2 ^ 64 := by omega
  unfold ffiAlign ffiAlignW roundUp
  rcases Nat.eq_zero_or_pos v with h0 | h0
  · subst h0
    have : (0 + (2 ^ k - 1)) / 2 ^ k = 0 := Nat.div_eq_of_lt (by omega)
    rw [this]
    have e : (BitVec.ofNat 64 0 - 1 : BitVec 64) = BitVec.allOnes 64 := by decide
    rw [e, BitVec.allOnes_or]
    simp
  · have e1 : (BitVec.ofNat 64 v - 1 : BitVec 64).toNat = v - 1 := by
      rw [BitVec.toNat_sub]
      simp
      omega
    have e2 : (BitVec.ofNat 64 (2 ^ k) - 1 : BitVec 64).toNat = 2 ^ k - 1 := by
      rw [BitVec.toNat_sub]
      simp only [BitVec.toNat_ofNat]
      rw [Nat.mod_eq_of_lt hk]
      have : (1 : BitVec 64).toNat = 1 := by decide
      rw [this]
      omega
    rw [BitVec.toNat_add, BitVec.toNat_or, e1, e2, or_low_mask]
    have e3 : (v + (2 ^ k - 1)) / 2 ^ k = (v - 1) / 2 ^ k + 1 := by
      rw [show v + (2 ^ k - 1) = (v - 1) + 2 ^ k by omega, Nat.add_div_right _ hpos]
    rw [e3, Nat.add_mul]
    have := Nat.div_mul_le_self (v - 1) (2 ^ k)
    have o : (1 : BitVec 64).toNat = 1 := by decide
    rw [o, Nat.mod_eq_of_lt (by omega)]
    omega

theorem roundUp_ge {v a : Nat} (ha : 0 < a) : v ≤ roundUp v a := by
  unfold roundUp
  have := Nat.div_add_mod (v + (a - 1)) a
  have := Nat.mod_lt (v + (a - 1)) ha
  rw [Nat.mul_comm]
  omega

theorem roundUp_lt {v a : Nat} (ha : 0 < a) : roundUp v a < v + a := by
  unfold roundUp
  have := Nat.div_mul_le_self (v + (a - 1)) a
  omega

theorem dvd_roundUp (v a : Nat) : a ∣ roundUp v a := Nat.dvd_mul_left _ _

theorem roundUp_least {v a m : Nat} (ha : 0 < a) (hd : a ∣ m) (hm : v ≤ m) :
    roundUp v a ≤ m := by
  obtain ⟨c, rfl⟩ := hd
  have h := roundUp_lt (v := v) ha
  obtain ⟨d, hd⟩ := dvd_roundUp v a
  rw [hd] at h ⊢
  apply Nat.mul_le_mul_left
  have : a * d < a * (c + 1) := by rw [Nat.mul_add]; omega
  have := Nat.lt_of_mul_lt_mul_left this
  omega

theorem roundUp_of_dvd {v a : Nat} (ha : 0 < a) (hd : a ∣ v) : roundUp v a = v :=
  Nat.le_antisymm (roundUp_least ha hd (Nat.le_refl _)) (roundUp_ge ha)

theorem roundUp_mono {v w a : Nat} (h : v ≤ w) : roundUp v a ≤ roundUp w a := by
  unfold roundUp
  exact Nat.mul_le_mul_right _ (Nat.div_le_div_right (by omega))

theorem ffiAlignDown_eq {v k : Nat} (hk : k < 64) (hv : v < 2 ^ 64) :
    ffiAlignDown v (2 ^ k) = v / 2 ^ k * 2 ^ k := by
  have hpos : 0 < 2 ^ k := Nat.two_pow_pos k
  have hk' : 2 ^ k < 2 ^ 64 := Nat.pow_lt_pow_right (by decide) hk
  unfold ffiAlignDown ffiAlignDownW
  apply Nat.eq_of_testBit_eq
  intro i
  rw [Nat.mul_comm, Nat.testBit_two_pow_mul, Nat.testBit_div_two_pow]
  rw [BitVec.toNat_and, Nat.testBit_and]
  have e : (-(BitVec.ofNat 64 (2 ^ k))).toNat = 2 ^ k * (2 ^ (64 - k) - 1) := by
    rw [BitVec.toNat_neg, BitVec.toNat_ofNat, Nat.mod_eq_of_lt hk',
      Nat.mod_eq_of_lt (by omega), Nat.mul_sub, ← Nat.pow_add]
    simp [Nat.add_sub_cancel' (Nat.le_of_lt hk)]
  rw [e, Nat.testBit_two_pow_mul, Nat.testBit_two_pow_sub_one, BitVec.toNat_ofNat,
    Nat.mod_eq_of_lt hv]
  by_cases hi : i ≥ k
  · have e2 : i - k + k = i := by omega
    by_cases hb : v.testBit i
    · have : i < 64 := by
        by_contra hc
        have : v < 2 ^ i := Nat.lt_of_lt_of_le hv (Nat.pow_le_pow_right (by decide) (by omega))
        rw [Nat.testBit_lt_two_pow this] at hb
        exact absurd hb (by decide)
      have : i - k < 64 - k := by omega
      simp [hi, e2, hb, this]
    · simp [e2, hb]
  · simp [hi]

end Verif
