import Verif.Dl.Model
import Mathlib.Tactic.NormNum

/-
The tricks with bits: lowest set bit, bits to the left, the index of a tree bin.
-/
namespace Verif.Dl
open Verif

theorem ffs_spec : ∀ (n x : Nat), x ≠ 0 → x < 2 ^ n → x.testBit (ffs n x) = true ∧ ffs n x < n ∧
    ∀ j, j < ffs n x → x.testBit j = false
  | 0, x, h, hl => by simp at hl; omega
  | n + 1, x, h, hl => by
    unfold ffs
    split
    · rename_i ho
      refine ⟨by rw [Nat.testBit_zero, ho]; rfl, by omega, fun j hj => by omega⟩
    · rename_i ho
      obtain ⟨h1, h2, h3⟩ := ffs_spec n (x / 2) (by omega) (by rw [Nat.pow_succ] at hl; omega)
      refine ⟨by rw [Nat.testBit_succ]; exact h1, by omega, ?_⟩
      intro j hj
      cases j with
      | zero => rw [Nat.testBit_zero]; simp; omega
      | succ j => rw [Nat.testBit_succ]; exact h3 j (by omega)

theorem and_div_two (a b : Nat) : (a &&& b) / 2 = a / 2 &&& b / 2 := by
  apply Nat.eq_of_testBit_eq
  intro i
  rw [← Nat.testBit_succ, Nat.testBit_and, Nat.testBit_and, Nat.testBit_succ, Nat.testBit_succ]

theorem and_mod_two (a b : Nat) : (a &&& b) % 2 = 1 ↔ a % 2 = 1 ∧ b % 2 = 1 := by
  have := Nat.testBit_and a b 0
  rw [Nat.testBit_zero, Nat.testBit_zero, Nat.testBit_zero] at this
  rcases Nat.mod_two_eq_zero_or_one a with e | e <;> rcases Nat.mod_two_eq_zero_or_one b with f | f <;>
    simp [e, f] at this ⊢ <;> exact this

theorem ffs_least : ∀ (n x : Nat), x < 2 ^ n → ffs n (x &&& (2 ^ n - x) % 2 ^ n) = ffs n x
  | 0, _, _ => rfl
  | n + 1, x, h => by
    rw [Nat.pow_succ] at h ⊢
    unfold ffs
    by_cases ho : x % 2 = 1
    · have hp : (2 ^ n * 2 - x) % (2 ^ n * 2) % 2 = 1 := by
        have e : (2 ^ n * 2 - x) % (2 ^ n * 2) = 2 ^ n * 2 - x := Nat.mod_eq_of_lt (by omega)
        rw [e]; omega
      rw [if_pos ((and_mod_two _ _).2 ⟨ho, hp⟩), if_pos ho]
    · have he : ¬ (x &&& (2 ^ n * 2 - x) % (2 ^ n * 2)) % 2 = 1 := by rw [and_mod_two]; exact fun h => ho h.1
      rw [if_neg ho, if_neg he, and_div_two]
      have e : (2 ^ n * 2 - x) % (2 ^ n * 2) / 2 = (2 ^ n - x / 2) % 2 ^ n := by
        by_cases hx : x = 0
        · subst hx; simp
        · rw [Nat.mod_eq_of_lt (by omega), Nat.mod_eq_of_lt (by omega)]; omega
      rw [e, ffs_least n (x / 2) (by omega)]

/-- `bit2idx (leastBit x)` is the lowest set bit. -/
theorem lowest {x : Nat} (h : x ≠ 0) (hl : x < 2 ^ 32) : x.testBit (bit2idx (leastBit x)) = true ∧
    bit2idx (leastBit x) < 32 ∧ ∀ j, j < bit2idx (leastBit x) → x.testBit j = false := by
  unfold bit2idx leastBit
  rw [ffs_least 32 x hl]
  exact ffs_spec 32 x h hl

theorem leftBits_spec : ∀ idx, idx < 32 → ∀ j, j < 32 →
    ((leftBits (1 <<< idx)).testBit j = true ↔ idx < j) := by decide +kernel

theorem leftBits_lt (x : Nat) : leftBits x < 2 ^ 32 := by
  unfold leftBits
  apply Nat.or_lt_two_pow
  · exact Nat.mod_lt _ (by decide)
  · exact Nat.mod_lt _ (by decide)

theorem lt_of_bits {x n : Nat} (h : ∀ i, x.testBit i = true → i < n) : x < 2 ^ n := by
  apply Nat.lt_pow_two_of_testBit
  intro i hi
  cases e : x.testBit i with
  | false => rfl
  | true => have := h i e; omega

theorem exists_bit {x : Nat} (h : x ≠ 0) : ∃ i, x.testBit i = true := Nat.exists_testBit_of_ne_zero h

/-! ## Index of a tree bin -/

/-- The number computed for `X`. -/
def logX (X : Nat) : Nat :=
  let N := (X + 2 ^ 32 - 0x100) % 2 ^ 32 / 2 ^ 16 &&& 8
  let Y := X <<< N % 2 ^ 32
  let K := (Y + 2 ^ 32 - 0x1000) % 2 ^ 32 / 2 ^ 16 &&& 4
  let N := N + K
  let Y := Y <<< K % 2 ^ 32
  let K := (Y + 2 ^ 32 - 0x4000) % 2 ^ 32 / 2 ^ 16 &&& 2
  let N := N + K
  let Y := Y <<< K % 2 ^ 32
  14 - N + Y / 2 ^ 15

theorem bit_step (X c k : Nat) (hk : k = 2 ∨ k = 4 ∨ k = 8) (hX : X < 2 ^ 16) (hc : c ≤ 2 ^ 16) :
    (X + 2 ^ 32 - c) % 2 ^ 32 / 2 ^ 16 &&& k = if X < c then k else 0 := by
  split
  · have : (X + 2 ^ 32 - c) % 2 ^ 32 / 2 ^ 16 = 65535 := by omega
    rw [this]
    rcases hk with rfl | rfl | rfl <;> rfl
  · have : (X + 2 ^ 32 - c) % 2 ^ 32 / 2 ^ 16 = 0 := by omega
    rw [this, Nat.zero_and]

set_option maxRecDepth 4000 in
/-- The steps of bits give the logarithm. -/
theorem logX_spec {X : Nat} (h0 : X ≠ 0) (h : X ≤ 0xffff) : 2 ^ logX X ≤ X ∧ X < 2 ^ (logX X + 1) ∧ logX X < 16 := by
  have fin : ∀ N Y, N ≤ 14 → 2 ^ 14 ≤ Y → Y < 2 ^ 16 → Y = X * 2 ^ N → 
      2 ^ (14 - N + Y / 2 ^ 15) ≤ X ∧ X < 2 ^ (14 - N + Y / 2 ^ 15 + 1) ∧ 14 - N + Y / 2 ^ 15 < 16 := by
    intro N Y hN h1 h2 e
    have key : ∀ m, m ≤ 1 → 2 ^ (14 + m) ≤ Y → Y < 2 ^ (15 + m) → 2 ^ (14 - N + m) ≤ X ∧ X < 2 ^ (14 - N + m + 1) := by
      intro m _ a b
      rw [e] at a b
      have pN : 0 < 2 ^ N := Nat.two_pow_pos N
      have e1 : 2 ^ (14 + m) = 2 ^ (14 - N + m) * 2 ^ N := by rw [← Nat.pow_add]; congr 1; omega
      have e2 : 2 ^ (15 + m) = 2 ^ (14 - N + m + 1) * 2 ^ N := by rw [← Nat.pow_add]; congr 1; omega
      rw [e1] at a; rw [e2] at b
      exact ⟨Nat.le_of_mul_le_mul_right a pN, Nat.lt_of_mul_lt_mul_right b⟩
    by_cases c : Y < 2 ^ 15
    · have d : Y / 2 ^ 15 = 0 := by omega
      rw [d]
      have := key 0 (by omega) h1 c
      exact ⟨this.1, this.2, by omega⟩
    · have d : Y / 2 ^ 15 = 1 := by omega
      rw [d]
      have := key 1 (by omega) (by omega) (by omega)
      exact ⟨this.1, this.2, by omega⟩
  have s1 := bit_step X 0x100 8 (by omega) (by omega) (by omega)
  unfold logX
  simp only [s1]
  split
  · have e1 : X <<< 8 % 2 ^ 32 = X * 2 ^ 8 := by rw [Nat.shiftLeft_eq]; omega
    simp only [e1, bit_step (X * 2 ^ 8) 0x1000 4 (by omega) (by omega) (by omega)]
    split
    · have e2 : (X * 2 ^ 8) <<< 4 % 2 ^ 32 = X * 2 ^ 12 := by rw [Nat.shiftLeft_eq]; omega
      simp only [e2, bit_step (X * 2 ^ 12) 0x4000 2 (by omega) (by omega) (by omega)]
      split
      · have e3 : (X * 2 ^ 12) <<< 2 % 2 ^ 32 = X * 2 ^ 14 := by rw [Nat.shiftLeft_eq]; omega
        simp only [e3]; have hx : X < 4 := by omega
        exact fin (8 + 4 + 2) (X * 2 ^ 14) (by omega) (by clear * - h0; omega) (by clear * - hx; omega) (by norm_num)
      · have e3 : (X * 2 ^ 12) <<< 0 % 2 ^ 32 = X * 2 ^ 12 := by rw [Nat.shiftLeft_eq]; omega
        simp only [e3]; exact fin (8 + 4 + 0) (X * 2 ^ 12) (by omega) (by omega) (by omega) (by norm_num)
    · have e2 : (X * 2 ^ 8) <<< 0 % 2 ^ 32 = X * 2 ^ 8 := by rw [Nat.shiftLeft_eq]; omega
      simp only [e2, bit_step (X * 2 ^ 8) 0x4000 2 (by omega) (by omega) (by omega)]
      split
      · have e3 : (X * 2 ^ 8) <<< 2 % 2 ^ 32 = X * 2 ^ 10 := by rw [Nat.shiftLeft_eq]; omega
        simp only [e3]; exact fin (8 + 0 + 2) (X * 2 ^ 10) (by omega) (by omega) (by omega) (by norm_num)
      · have e3 : (X * 2 ^ 8) <<< 0 % 2 ^ 32 = X * 2 ^ 8 := by rw [Nat.shiftLeft_eq]; omega
        simp only [e3]; exact fin (8 + 0 + 0) (X * 2 ^ 8) (by omega) (by omega) (by omega) (by norm_num)
  · have e1 : X <<< 0 % 2 ^ 32 = X := by rw [Nat.shiftLeft_eq]; omega
    simp only [e1, bit_step X 0x1000 4 (by omega) (by omega) (by omega)]
    split
    · have e2 : X <<< 4 % 2 ^ 32 = X * 2 ^ 4 := by rw [Nat.shiftLeft_eq]; omega
      simp only [e2, bit_step (X * 2 ^ 4) 0x4000 2 (by omega) (by omega) (by omega)]
      split
      · have e3 : (X * 2 ^ 4) <<< 2 % 2 ^ 32 = X * 2 ^ 6 := by rw [Nat.shiftLeft_eq]; omega
        simp only [e3]; exact fin (0 + 4 + 2) (X * 2 ^ 6) (by omega) (by omega) (by omega) (by norm_num)
      · have e3 : (X * 2 ^ 4) <<< 0 % 2 ^ 32 = X * 2 ^ 4 := by rw [Nat.shiftLeft_eq]; omega
        simp only [e3]; exact fin (0 + 4 + 0) (X * 2 ^ 4) (by omega) (by omega) (by omega) (by norm_num)
    · simp only [e1, bit_step X 0x4000 2 (by omega) (by omega) (by omega)]
      split
      · have e3 : X <<< 2 % 2 ^ 32 = X * 2 ^ 2 := by rw [Nat.shiftLeft_eq]; omega
        simp only [e3]; exact fin (0 + 0 + 2) (X * 2 ^ 2) (by omega) (by omega) (by omega) (by norm_num)
      · simp only [e1]; exact fin (0 + 0 + 0) X (by omega) (by omega) (by omega) (by omega)

theorem treeIndex_eq (S : Nat) : treeIndex S = if S / 2 ^ 8 = 0 then 0 else if 0xffff < S / 2 ^ 8 then 31 else
    2 * logX (S / 2 ^ 8) + (S >>> (logX (S / 2 ^ 8) + 7) &&& 1) := rfl

theorem treeIndex_lt (S : Nat) : treeIndex S < 32 := by
  rw [treeIndex_eq]
  split
  · omega
  · split
    · omega
    · rename_i h0 h1
      have := (logX_spec h0 (by omega)).2.2
      have : S >>> (logX (S / 2 ^ 8) + 7) &&& 1 < 2 := by rw [Nat.and_one_is_mod]; omega
      omega

end Verif.Dl
