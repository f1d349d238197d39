import Verif.Base.BufLemmas

/-
Flat byte-addressed memory, used where aliasing between objects matters.
Accesses are total; which bytes a function may touch is stated and proved as a
frame property instead.
-/
namespace Verif

abbrev Mem := Nat → Byte

namespace Mem

/-- `memcpy (a, bs, |bs|)`. -/
def wr (m : Mem) (a : Nat) (bs : List Byte) : Mem :=
  fun x => if a ≤ x ∧ x < a + bs.length then bs.getD (x - a) 0 else m x

/-- The `n` bytes at `a`. -/
def rd (m : Mem) (a n : Nat) : List Byte := (List.range n).map fun i => m (a + i)

@[simp] theorem rd_length (m : Mem) (a n : Nat) : (m.rd a n).length = n := by simp [rd]

theorem rd_getD (m : Mem) (a n i : Nat) (h : i < n) : (m.rd a n).getD i 0 = m (a + i) := by
  simp [rd, List.getD_eq_getElem?_getD, h]

theorem wr_out (m : Mem) (a : Nat) (bs : List Byte) (x : Nat) (h : x < a ∨ a + bs.length ≤ x) :
    m.wr a bs x = m x := by
  unfold wr; rw [if_neg (by omega)]

theorem wr_in (m : Mem) (a : Nat) (bs : List Byte) (i : Nat) (h : i < bs.length) :
    m.wr a bs (a + i) = bs.getD i 0 := by
  unfold wr; rw [if_pos (by omega), Nat.add_sub_cancel_left]

theorem rd_congr {m m' : Mem} {a n : Nat} (h : ∀ i, i < n → m' (a + i) = m (a + i)) :
    m'.rd a n = m.rd a n := by
  unfold rd
  apply List.map_congr_left
  intro i hi
  exact h i (List.mem_range.1 hi)

theorem rd_wr_disj (m : Mem) (a : Nat) (bs : List Byte) (b n : Nat)
    (h : b + n ≤ a ∨ a + bs.length ≤ b) : (m.wr a bs).rd b n = m.rd b n :=
  rd_congr fun i hi => wr_out m a bs (b + i) (by omega)

theorem rd_wr_same (m : Mem) (a : Nat) (bs : List Byte) : (m.wr a bs).rd a bs.length = bs := by
  apply bytes_ext (by simp)
  intro i hi
  rw [rd_length] at hi
  rw [rd_getD _ _ _ _ hi, wr_in _ _ _ _ hi]

theorem rd_take (m : Mem) (a : Nat) {n k : Nat} (h : k ≤ n) : (m.rd a n).take k = m.rd a k := by
  unfold rd
  rw [← List.map_take, List.take_range, Nat.min_eq_left h]

theorem rd_wr_prefix (m : Mem) (a : Nat) (bs : List Byte) {k : Nat} (h : k ≤ bs.length) :
    (m.wr a bs).rd a k = bs.take k := by
  rw [← rd_take _ _ h, rd_wr_same]

theorem rd_append (m : Mem) (a n k : Nat) : m.rd a (n + k) = m.rd a n ++ m.rd (a + n) k := by
  apply bytes_ext (by simp)
  intro i hi
  rw [rd_length] at hi
  rw [rd_getD _ _ _ _ hi]
  by_cases h : i < n
  · rw [List.getD_eq_getElem?_getD, List.getElem?_append_left (by simpa using h),
      ← List.getD_eq_getElem?_getD, rd_getD _ _ _ _ h]
  · rw [List.getD_eq_getElem?_getD, List.getElem?_append_right (by simpa using h),
      ← List.getD_eq_getElem?_getD, rd_length, rd_getD _ _ _ _ (by omega)]
    congr 1; omega

/-- The bytes of a range that agrees with another memory. -/
def Same (m m' : Mem) (P : Nat → Prop) : Prop := ∀ x, P x → m' x = m x

end Mem
end Verif
