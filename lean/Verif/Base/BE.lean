import Verif.Base.Mem

/-! Big-endian encodings. -/
namespace Verif

/-- Big-endian encoding of (the low `8*n` bits of) `v` in `n` bytes. -/
def beBytes (n v : Nat) : List Byte := (leBytes n v).reverse

/-- Value of a big-endian byte string. -/
def beNat (bs : List Byte) : Nat := leNat bs.reverse

@[simp] theorem beBytes_length (n v : Nat) : (beBytes n v).length = n := by simp [beBytes]

theorem beNat_lt (bs : List Byte) : beNat bs < 256 ^ bs.length := by
  have := leNat_lt bs.reverse
  rwa [List.length_reverse] at this

theorem beNat_beBytes (n v : Nat) : beNat (beBytes n v) = v % 256 ^ n := by
  unfold beNat beBytes
  rw [List.reverse_reverse, leNat_leBytes]

theorem beBytes_beNat (bs : List Byte) : beBytes bs.length (beNat bs) = bs := by
  unfold beNat beBytes
  have := leBytes_leNat bs.reverse
  rw [List.length_reverse] at this
  rw [this, List.reverse_reverse]

theorem beBytes_beNat' {bs : List Byte} {n : Nat} (h : bs.length = n) : beBytes n (beNat bs) = bs := by
  rw [← h, beBytes_beNat]

theorem beBytes_append (m n v : Nat) : beBytes (m + n) v = beBytes m (v / 256 ^ n) ++ beBytes n v := by
  unfold beBytes
  rw [Nat.add_comm, leBytes_append, List.reverse_append]

theorem beBytes_drop (m n v : Nat) : (beBytes (m + n) v).drop m = beBytes n v := by
  rw [beBytes_append, List.drop_left' (beBytes_length _ _)]

theorem beBytes_take (m n v : Nat) : (beBytes (m + n) v).take m = beBytes m (v / 256 ^ n) := by
  rw [beBytes_append, List.take_left' (beBytes_length _ _)]

theorem beBytes_mod (n v : Nat) : beBytes n (v % 256 ^ n) = beBytes n v := by
  unfold beBytes
  rw [leBytes_mod]

theorem beNat_append (a b : List Byte) : beNat (a ++ b) = beNat a * 256 ^ b.length + beNat b := by
  have h := beBytes_append a.length b.length (beNat (a ++ b))
  have e := beBytes_beNat (a ++ b)
  rw [List.length_append, h] at e
  have hl := List.append_inj_left e (beBytes_length _ _)
  have hr := List.append_inj_right e (beBytes_length _ _)
  have h1 := congrArg beNat hl
  have h2 := congrArg beNat hr
  rw [beNat_beBytes] at h1 h2
  have hlt := beNat_lt (a ++ b)
  rw [List.length_append, Nat.pow_add, Nat.mul_comm] at hlt
  rw [Nat.mod_eq_of_lt (Nat.div_lt_of_lt_mul hlt)] at h1
  have := Nat.div_add_mod (beNat (a ++ b)) (256 ^ b.length)
  rw [h1, h2, Nat.mul_comm] at this
  exact this.symm

end Verif
