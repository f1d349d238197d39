import Verif.Base.Common

/-
Bytes, integer encodings and bounded memory buffers.
-/
namespace Verif

abbrev Byte := BitVec 8

/-- Little-endian encoding of (the low `8*n` bits of) `v` in `n` bytes. -/
def leBytes : Nat → Nat → List Byte
  | 0, _ => []
  | n + 1, v => BitVec.ofNat 8 v :: leBytes n (v / 256)

/-- Value of a little-endian byte string. -/
def leNat : List Byte → Nat
  | [] => 0
  | b :: bs => b.toNat + 256 * leNat bs

@[simp] theorem leBytes_length (n v : Nat) : (leBytes n v).length = n := by
  induction n generalizing v with
  | zero => rfl
  | succ n ih => simp [leBytes, ih]

theorem leNat_lt (bs : List Byte) : leNat bs < 256 ^ bs.length := by
  induction bs with
  | nil => simp [leNat]
  | cons b bs ih =>
    have := b.isLt
    simp only [leNat, List.length_cons, Nat.pow_succ]
    omega

theorem leNat_leBytes (n v : Nat) : leNat (leBytes n v) = v % 256 ^ n := by
  induction n generalizing v with
  | zero => simp [leBytes, leNat, Nat.mod_one]
  | succ n ih =>
    simp only [leBytes, leNat, ih, BitVec.toNat_ofNat]
    rw [show 256 ^ (n + 1) = 256 * 256 ^ n by ring, Nat.mod_mul]

theorem leBytes_leNat (bs : List Byte) : leBytes bs.length (leNat bs) = bs := by
  induction bs with
  | nil => rfl
  | cons b bs ih =>
    have hb := b.isLt
    simp only [List.length_cons, leBytes, leNat]
    have h1 : (b.toNat + 256 * leNat bs) / 256 = leNat bs := by omega
    have h2 : BitVec.ofNat 8 (b.toNat + 256 * leNat bs) = b := by
      apply BitVec.eq_of_toNat_eq
      rw [BitVec.toNat_ofNat]
      omega
    rw [h1, h2, ih]

theorem leBytes_append (m n v : Nat) :
    leBytes (m + n) v = leBytes m v ++ leBytes n (v / 256 ^ m) := by
  induction m generalizing v with
  | zero => simp [leBytes]
  | succ m ih =>
    rw [show m + 1 + n = (m + n) + 1 by omega]
    simp only [leBytes, List.cons_append, ih]
    rw [Nat.div_div_eq_div_mul, Nat.pow_succ, Nat.mul_comm 256]

theorem leBytes_take {m n : Nat} (v : Nat) (h : m ≤ n) : (leBytes n v).take m = leBytes m v := by
  obtain ⟨k, rfl⟩ := Nat.exists_eq_add_of_le h
  rw [leBytes_append, List.take_left' (by simp)]

theorem leBytes_mod (n v : Nat) : leBytes n (v % 256 ^ n) = leBytes n v := by
  have := leBytes_leNat (leBytes n v)
  rw [leNat_leBytes, leBytes_length] at this
  exact this

/-- A block of memory: its size and contents.  Contents outside the size are
meaningless and unreachable through `read`/`write`. -/
structure Buf where
  size : Nat
  at_ : Nat → Byte

namespace Buf

/-- `memcpy(buf + off, bs, |bs|)`; `none` if it would leave the block. -/
def write (b : Buf) (off : Nat) (bs : List Byte) : Option Buf :=
  if off + bs.length ≤ b.size then
    some { b with at_ := fun i =>
      if off ≤ i ∧ i < off + bs.length then bs.getD (i - off) 0 else b.at_ i }
  else none

/-- Read `n` bytes at `off`; `none` if that would leave the block. -/
def read (b : Buf) (off n : Nat) : Option (List Byte) :=
  if off + n ≤ b.size then some ((List.range n).map fun i => b.at_ (off + i)) else none

theorem write_size {b b' : Buf} {off : Nat} {bs : List Byte} (h : b.write off bs = some b') :
    b'.size = b.size := by
  unfold write at h
  split at h
  · cases h; rfl
  · cases h

theorem write_isSome {b : Buf} {off : Nat} {bs : List Byte} (h : off + bs.length ≤ b.size) :
    ∃ b', b.write off bs = some b' := by
  simp [write, h]

theorem read_length {b : Buf} {off n : Nat} {bs : List Byte} (h : b.read off n = some bs) :
    bs.length = n := by
  unfold read at h
  split at h
  · cases h; simp
  · cases h

/-- Reading back what was written. -/
theorem read_write_same {b b' : Buf} {off : Nat} {bs : List Byte}
    (h : b.write off bs = some b') : b'.read off bs.length = some bs := by
  have hs := write_size h
  unfold write at h
  split at h
  · rename_i hle
    cases h
    unfold read
    simp only [hle, if_true, Option.some.injEq]
    apply List.ext_getElem
    · simp
    · intro i h1 h2
      simp [List.getD_eq_getElem?_getD, h2]
  · cases h

/-- Writes do not disturb disjoint ranges. -/
theorem read_write_disjoint {b b' : Buf} {off off' n : Nat} {bs : List Byte}
    (h : b.write off bs = some b') (hd : off' + n ≤ off ∨ off + bs.length ≤ off') :
    b'.read off' n = b.read off' n := by
  have hs := write_size h
  unfold write at h
  split at h
  · cases h
    unfold read
    simp only
    split
    · congr 1
      apply List.map_congr_left
      intro i hi
      rw [List.mem_range] at hi
      rw [if_neg]
      omega
    · rfl
  · cases h

/-- A read of a prefix of a readable range. -/
theorem read_take {b : Buf} {off n m : Nat} {bs : List Byte}
    (h : b.read off n = some bs) (hm : m ≤ n) : b.read off m = some (bs.take m) := by
  unfold read at h ⊢
  split at h
  · rename_i hle
    cases h
    rw [if_pos (by omega)]
    congr 1
    rw [← List.map_take, List.take_range, Nat.min_eq_left hm]
  · cases h

end Buf
end Verif
