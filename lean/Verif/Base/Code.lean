import Verif.Base.Mem

/-! Byte sequences in memory: code and parameter blocks. -/
namespace Verif

/-- The bytes `bs` are at address `a`. -/
def Code (m : Mem) (a : Nat) (bs : List Byte) : Prop := m.rd a bs.length = bs

namespace Code

theorem get {m : Mem} {a : Nat} {bs : List Byte} (h : Code m a bs) {i : Nat} (hi : i < bs.length) :
    m (a + i) = bs.getD i 0 := by
  rw [← Mem.rd_getD m a bs.length i hi, h]

theorem of_get {m : Mem} {a : Nat} {bs : List Byte} (h : ∀ i, i < bs.length → m (a + i) = bs.getD i 0) :
    Code m a bs := by
  apply bytes_ext (by simp)
  intro i hi
  rw [Mem.rd_length] at hi
  rw [Mem.rd_getD _ _ _ _ hi, h i hi]

theorem wr {m : Mem} {a b : Nat} {bs cs : List Byte} (h : Code m a bs)
    (hd : a + bs.length ≤ b ∨ b + cs.length ≤ a) : Code (m.wr b cs) a bs := by
  unfold Code
  rw [Mem.rd_wr_disj _ _ _ _ _ hd, h]

theorem same {m : Mem} {a : Nat} {bs : List Byte} : Code (m.wr a bs) a bs := Mem.rd_wr_same m a bs

theorem congr {m m' : Mem} {a b : Nat} {bs : List Byte} (h : Code m a bs)
    (he : ∀ i, i < bs.length → m' (b + i) = m (a + i)) : Code m' b bs :=
  of_get fun i hi => by rw [he i hi, h.get hi]

/-- A part of the bytes. -/
theorem part {m : Mem} {a : Nat} {bs : List Byte} (h : Code m a bs) {o n : Nat} (hn : o + n ≤ bs.length) :
    m.rd (a + o) n = (bs.drop o).take n := by
  apply bytes_ext
  · simp; omega
  · intro i hi
    rw [Mem.rd_length] at hi
    rw [Mem.rd_getD _ _ _ _ hi, Nat.add_assoc, h.get (by omega)]
    simp [List.getD_eq_getElem?_getD, hi]

theorem slice {m : Mem} {a : Nat} {bs : List Byte} (h : Code m a bs) (o n : Nat) (hn : o + n ≤ bs.length) :
    Code m (a + o) ((bs.drop o).take n) := by
  have hl : ((bs.drop o).take n).length = n := by simp; omega
  unfold Code
  rw [hl, h.part hn]

theorem append {m : Mem} {a : Nat} {xs ys : List Byte} (h : Code m a (xs ++ ys)) :
    Code m a xs ∧ Code m (a + xs.length) ys := by
  constructor
  · have := h.part (o := 0) (n := xs.length) (by simp)
    simpa [Code] using this
  · have := h.part (o := xs.length) (n := ys.length) (by simp)
    simpa [Code] using this

theorem join {m : Mem} {a : Nat} {xs ys : List Byte} (h1 : Code m a xs) (h2 : Code m (a + xs.length) ys) :
    Code m a (xs ++ ys) := by
  unfold Code
  rw [List.length_append, Mem.rd_append, h1, h2]

end Code
end Verif
