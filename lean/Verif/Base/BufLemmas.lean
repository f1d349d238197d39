import Verif.Base.Bytes

namespace Verif

theorem Buf.write_spec {b : Buf} {off : Nat} {bs : List Byte} (h : off + bs.length ≤ b.size) :
    ∃ b', b.write off bs = some b' ∧ b'.size = b.size ∧
      ∀ k, b'.at_ k = if off ≤ k ∧ k < off + bs.length then bs.getD (k - off) 0 else b.at_ k :=
  ⟨{ b with at_ := fun i =>
      if off ≤ i ∧ i < off + bs.length then bs.getD (i - off) 0 else b.at_ i },
    by rw [Buf.write, if_pos h], rfl, fun _ => rfl⟩

theorem Buf.read_spec {b : Buf} {off n : Nat} (h : off + n ≤ b.size) :
    ∃ bs, b.read off n = some bs ∧ bs.length = n ∧ ∀ k, k < n → bs.getD k 0 = b.at_ (off + k) := by
  refine ⟨_, by rw [Buf.read, if_pos h], by simp, ?_⟩
  intro k hk
  simp [List.getD_eq_getElem?_getD, hk]

theorem getD_eq_getElem' {α} {l : List α} {i : Nat} {d : α} (h : i < l.length) : l.getD i d = l[i] := by
  simp [List.getD_eq_getElem?_getD, h]

theorem leBytes_getD (n v i : Nat) (h : i < n) :
    (leBytes n v).getD i 0 = BitVec.ofNat 8 (v / 256 ^ i) := by
  induction n generalizing v i with
  | zero => omega
  | succ n ih =>
    cases i with
    | zero => simp [leBytes]
    | succ i =>
      have : (leBytes (n + 1) v).getD (i + 1) 0 = (leBytes n (v / 256)).getD i 0 := by
        simp [leBytes]
      rw [this, ih _ _ (by omega), Nat.div_div_eq_div_mul, Nat.pow_succ, Nat.mul_comm]

/-- Byte lists with the same length and the same bytes. -/
theorem bytes_ext {a b : List Byte} (hl : a.length = b.length)
    (h : ∀ i, i < a.length → a.getD i 0 = b.getD i 0) : a = b := by
  apply List.ext_getElem hl
  intro i h1 h2
  have := h i h1
  rwa [getD_eq_getElem' h1, getD_eq_getElem' h2] at this

theorem leNat_inj {a b : List Byte} (hl : a.length = b.length) (h : leNat a = leNat b) : a = b := by
  rw [← leBytes_leNat a, ← leBytes_leNat b, hl, h]

theorem leNat_append (a b : List Byte) : leNat (a ++ b) = leNat a + 256 ^ a.length * leNat b := by
  induction a with
  | nil => simp [leNat]
  | cons x xs ih => simp only [List.cons_append, leNat, ih, List.length_cons]; ring

theorem leNat_replicate_zero (n : Nat) : leNat (List.replicate n 0) = 0 := by
  induction n with
  | zero => rfl
  | succ n ih => rw [List.replicate_succ, leNat, ih]; rfl

end Verif
