import Verif.Base.Common
import Mathlib.Tactic.IntervalCases

/-
Conversions between the single and the double format of floating-point numbers, as the load and
store instructions of the Power ISA do them (book I, 4.6.2 DOUBLE and 4.6.3 SINGLE): exact for every
number, and bit patterns of NaNs are kept.  Encodings are numbers below 2^32 and 2^64.
-/
namespace Verif

/-- `lfs`: the double with the value of the single. -/
def dblOf (w : Nat) : Nat :=
  let s := w / 2 ^ 31
  let e := w / 2 ^ 23 % 256
  let f := w % 2 ^ 23
  if e = 0 then
    if f = 0 then s * 2 ^ 63 else s * 2 ^ 63 + (874 + Nat.log2 f) * 2 ^ 52 + f * 2 ^ (52 - Nat.log2 f) % 2 ^ 52
  else if e = 255 then s * 2 ^ 63 + 2047 * 2 ^ 52 + f * 2 ^ 29
  else s * 2 ^ 63 + (e + 896) * 2 ^ 52 + f * 2 ^ 29

/-- `stfs`: the single, for doubles that have one. -/
def sglOf (d : Nat) : Nat :=
  let e := d / 2 ^ 52 % 2048
  if 896 < e ∨ d % 2 ^ 63 = 0 then d / 2 ^ 62 * 2 ^ 30 + d / 2 ^ 29 % 2 ^ 30
  else if 874 ≤ e then d / 2 ^ 63 * 2 ^ 31 + (2 ^ 52 + d % 2 ^ 52) / 2 ^ (897 - e) / 2 ^ 29
  else 0

theorem dblOf_lt {w : Nat} (h : w < 2 ^ 32) : dblOf w < 2 ^ 64 := by
  unfold dblOf
  dsimp only
  have h3 := Nat.mod_lt (w % 2 ^ 23 * 2 ^ (52 - Nat.log2 (w % 2 ^ 23))) (show 2 ^ 52 > 0 by decide)
  split
  · split
    · omega
    · rename_i hf
      have h1 : Nat.log2 (w % 2 ^ 23) < 23 := (Nat.log2_lt hf).2 (Nat.mod_lt _ (by decide))
      omega
  · split <;> omega

/-- A single is kept by the way through a register. -/
theorem sglOf_dblOf {w : Nat} (h : w < 2 ^ 32) : sglOf (dblOf w) = w := by
  unfold dblOf
  dsimp only
  split
  · rename_i he
    split
    · rename_i hf
      unfold sglOf
      dsimp only
      rw [if_pos (by omega)]
      omega
    · rename_i hf
      generalize hx : w % 2 ^ 23 = f at *
      have h1 : Nat.log2 f < 23 := (Nat.log2_lt hf).2 (by omega)
      have h2 : 2 ^ Nat.log2 f ≤ f := Nat.log2_self_le hf
      have h3 : f < 2 ^ (Nat.log2 f + 1) := Nat.lt_log2_self
      generalize Nat.log2 f = l at *
      generalize hr : f * 2 ^ (52 - l) % 2 ^ 52 = r at *
      have hrl : r < 2 ^ 52 := by rw [← hr]; exact Nat.mod_lt _ (by decide)
      have hexp : (w / 2 ^ 31 * 2 ^ 63 + (874 + l) * 2 ^ 52 + r) / 2 ^ 52 % 2048 = 874 + l := by omega
      have hman : (w / 2 ^ 31 * 2 ^ 63 + (874 + l) * 2 ^ 52 + r) % 2 ^ 52 = r := by omega
      have hsig : (w / 2 ^ 31 * 2 ^ 63 + (874 + l) * 2 ^ 52 + r) / 2 ^ 63 = w / 2 ^ 31 := by omega
      unfold sglOf
      dsimp only
      rw [hexp, hman, hsig, if_neg (by omega), if_pos (by omega)]
      clear hexp hman hsig
      interval_cases l <;> simp only [Nat.reduceAdd, Nat.reduceSub, Nat.reducePow, Nat.reduceMul] at * <;> omega
  · split
    · unfold sglOf
      dsimp only
      rw [if_pos (by omega)]
      omega
    · unfold sglOf
      dsimp only
      rw [if_pos (by omega)]
      omega

end Verif
