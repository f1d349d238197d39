import Verif.Win64.Model
import Verif.Spec.Win64

namespace Verif.Win64
open Verif

/-- `[a, a+n)` does not meet `[lo, hi)`. -/
def Disj (a n lo hi : Nat) : Prop := a + n ≤ lo ∨ hi ≤ a

/-- Stack needed for the copies. -/
def need : List FType → Nat
  | [] => 0
  | t :: ts => t.size + 15 + need ts

theorem alloca_spec {sp n : Nat} (h : n ≤ sp) :
    alloca sp n + n ≤ sp ∧ sp ≤ alloca sp n + n + 15 ∧ alloca sp n % 16 = 0 := by
  unfold alloca
  omega

theorem copyArgs_spec (lo : Nat) : ∀ (ts : List FType) (as : List Nat) (sp : Nat) (m : Mem),
    as.length = ts.length → lo + need ts ≤ sp →
    (∀ (i : Nat) t a, ts[i]? = some t → as[i]? = some a → Disj a t.size lo sp) →
    (copyArgs ts as sp m).1.length = ts.length ∧
    sp ≤ (copyArgs ts as sp m).2.1 + need ts ∧ (copyArgs ts as sp m).2.1 ≤ sp ∧
    (∀ x, x < (copyArgs ts as sp m).2.1 ∨ sp ≤ x → (copyArgs ts as sp m).2.2 x = m x) ∧
    ∀ (i : Nat) t a b, ts[i]? = some t → as[i]? = some a → (copyArgs ts as sp m).1[i]? = some b →
      (copyArgs ts as sp m).2.2.rd b t.size = m.rd a t.size ∧
      ((t.tc = .struct ∧ intGt8 t.size) → (copyArgs ts as sp m).2.1 ≤ b ∧ b + t.size ≤ sp) ∧
      (¬(t.tc = .struct ∧ intGt8 t.size) → b = a)
  | [], as, sp, m, hl, _, _ => by
    have : as = [] := List.eq_nil_of_length_eq_zero (by simpa using hl)
    subst this
    simp [copyArgs, need]
  | t :: ts, [], sp, m, hl, _, _ => by simp at hl
  | t :: ts, a :: as, sp, m, hl, hn, hd => by
    simp only [need] at hn ⊢
    have h0 := hd 0 t a rfl rfl
    by_cases hc : t.tc = .struct ∧ intGt8 t.size
    · have hal := alloca_spec (sp := sp) (n := t.size) (by omega)
      set c := alloca sp t.size with hcdef
      have ih := copyArgs_spec lo ts as c (m.wr c (m.rd a t.size)) (by simpa using hl) (by omega)
        (fun i t' a' h1 h2 => by
          rcases hd (i + 1) t' a' h1 h2 with h | h
          · exact .inl h
          · exact .inr (by omega))
      have e : copyArgs (t :: ts) (a :: as) sp m =
          (c :: (copyArgs ts as c (m.wr c (m.rd a t.size))).1,
            (copyArgs ts as c (m.wr c (m.rd a t.size))).2) := by
        rw [copyArgs, if_pos hc]
      rw [e]
      generalize copyArgs ts as c (m.wr c (m.rd a t.size)) = r at ih
      obtain ⟨i1, i2, i3, i4, i5⟩ := ih
      refine ⟨by simp [i1], by simp only; omega, by simp only; omega, ?_, ?_⟩
      · intro x hx
        simp only at hx ⊢
        rw [i4 x (by omega), Mem.wr_out _ _ _ _ (by simp only [Mem.rd_length]; omega)]
      · intro i t' a' b h1 h2 h3
        cases i with
        | zero =>
          simp only [List.getElem?_cons_zero, Option.some.injEq] at h1 h2 h3
          subst h1; subst h2; subst h3
          refine ⟨?_, fun _ => ⟨i3, hal.1⟩, fun h => absurd hc h⟩
          have : (m.wr c (m.rd a t.size)).rd c t.size = m.rd a t.size := by
            have := Mem.rd_wr_same m c (m.rd a t.size)
            rwa [Mem.rd_length] at this
          rw [← this]
          exact Mem.rd_congr fun k hk => i4 _ (by omega)
        | succ i =>
          simp only [List.getElem?_cons_succ] at h1 h2 h3
          have := i5 i t' a' b h1 h2 h3
          refine ⟨?_, fun h => ⟨(this.2.1 h).1, by have := (this.2.1 h).2; omega⟩, this.2.2⟩
          rw [this.1]
          apply Mem.rd_wr_disj
          simp only [Mem.rd_length]
          rcases hd (i + 1) t' a' h1 h2 with h | h
          · left; omega
          · right; omega
    · have ih := copyArgs_spec lo ts as sp m (by simpa using hl) (by omega)
        (fun i t' a' h1 h2 => hd (i + 1) t' a' h1 h2)
      have e : copyArgs (t :: ts) (a :: as) sp m =
          (a :: (copyArgs ts as sp m).1, (copyArgs ts as sp m).2) := by
        rw [copyArgs, if_neg hc]
      rw [e]
      generalize copyArgs ts as sp m = r at ih
      obtain ⟨i1, i2, i3, i4, i5⟩ := ih
      refine ⟨by simp [i1], by simp only; omega, i3, i4, ?_⟩
      intro i t' a' b h1 h2 h3
      cases i with
      | zero =>
        simp only [List.getElem?_cons_zero, Option.some.injEq] at h1 h2 h3
        subst h1; subst h2; subst h3
        refine ⟨?_, fun h => absurd h hc, fun _ => rfl⟩
        exact Mem.rd_congr fun k hk => i4 _ (by
          rcases h0 with h | h
          · left; omega
          · right; omega)
      | succ i =>
        simp only [List.getElem?_cons_succ] at h1 h2 h3
        exact i5 i t' a' b h1 h2 h3

theorem slotVal_length (m : Mem) (t : FType) (a : Nat) : (slotVal m t a).length = 8 := by
  unfold slotVal
  split_ifs <;> simp

theorem slotVal_congr {m m' : Mem} {t : FType} {a : Nat} (h : m'.rd a t.size = m.rd a t.size) :
    slotVal m' t a = slotVal m t a := by
  unfold slotVal
  split_ifs with h1 h2 h3 h4
  · rw [h1] at h; exact h
  · rw [h2] at h; rw [h]
  · rw [h3] at h; rw [h]
  · rw [h4] at h; rw [h]
  · rfl

/-- The slot loop fills consecutive slots from objects that do not overlap them. -/
theorem fillSlots_spec (S : Nat) : ∀ (ts : List FType) (as : List Nat) (j : Nat) (m : Mem),
    as.length = ts.length →
    (∀ (i : Nat) t a, ts[i]? = some t → as[i]? = some a →
      Disj a t.size (S + 8 * j) (S + 8 * (j + ts.length))) →
    (∀ x, x < S + 8 * j ∨ S + 8 * (j + ts.length) ≤ x → fillSlots S ts as j m x = m x) ∧
    ∀ (i : Nat) t a, ts[i]? = some t → as[i]? = some a →
      (fillSlots S ts as j m).rd (S + 8 * (j + i)) 8 = slotVal m t a
  | [], as, j, m, hl, _ => by simp [fillSlots]
  | t :: ts, [], j, m, hl, _ => by simp at hl
  | t :: ts, a :: as, j, m, hl, hd => by
    have hsl := slotVal_length m t a
    have hlen : (t :: ts).length = ts.length + 1 := rfl
    rw [hlen] at hd ⊢
    have ih := fillSlots_spec S ts as (j + 1) (m.wr (S + 8 * j) (slotVal m t a)) (by simpa using hl)
      (fun i t' a' h1 h2 => by
        rcases hd (i + 1) t' a' h1 h2 with h | h
        · left; omega
        · right; omega)
    rw [fillSlots]
    generalize fillSlots S ts as (j + 1) (m.wr (S + 8 * j) (slotVal m t a)) = r at ih
    obtain ⟨i1, i2⟩ := ih
    refine ⟨?_, ?_⟩
    · intro x hx
      rw [i1 x (by omega), Mem.wr_out _ _ _ _ (by omega)]
    · intro i t' a' h1 h2
      cases i with
      | zero =>
        simp only [List.getElem?_cons_zero, Option.some.injEq] at h1 h2
        subst h1; subst h2
        have e : (m.wr (S + 8 * j) (slotVal m t a)).rd (S + 8 * j) 8 = slotVal m t a := by
          have := Mem.rd_wr_same m (S + 8 * j) (slotVal m t a)
          rwa [hsl] at this
        rw [← e, Nat.add_zero]
        exact Mem.rd_congr fun k hk => i1 _ (by omega)
      | succ i =>
        simp only [List.getElem?_cons_succ] at h1 h2
        have := i2 i t' a' h1 h2
        rw [show j + (i + 1) = j + 1 + i by omega, this]
        apply slotVal_congr
        apply Mem.rd_wr_disj
        rw [hsl]
        rcases hd (i + 1) t' a' h1 h2 with h | h
        · left; omega
        · right; omega

end Verif.Win64
