import Verif.Base.FType
import Verif.Core.Lemmas

/-! Facts about well-formed type trees and their scalar components. -/
namespace Verif
open Spec

theorem pow2_dvd_of_le {a b : Nat} (ha : a = 1 ∨ a = 2 ∨ a = 4 ∨ a = 8 ∨ a = 16)
    (hb : b = 1 ∨ b = 2 ∨ b = 4 ∨ b = 8 ∨ b = 16) (h : a ≤ b) : a ∣ b := by
  rcases ha with rfl | rfl | rfl | rfl | rfl <;> rcases hb with rfl | rfl | rfl | rfl | rfl <;>
    first | decide | omega

/-- Data models whose scalars have power-of-two alignments up to 16 dividing a
positive size. -/
def TabOk (tab : ScalarTab) : Prop :=
  ∀ tc s a, tab tc = some (s, a) →
    (a = 1 ∨ a = 2 ∨ a = 4 ∨ a = 8 ∨ a = 16) ∧ 0 < s ∧ a ∣ s ∧ s ≤ 16 ∧ tc ≠ .struct ∧ tc ≠ .complex

theorem lp64_ok : TabOk lp64 := by
  intro tc s a h
  cases tc <;> simp [lp64] at h <;> obtain ⟨rfl, rfl⟩ := h <;> decide

theorem Spec.WF.align_cases {tab} (ht : TabOk tab) {t : FType} (h : WF tab t) :
    t.align = 1 ∨ t.align = 2 ∨ t.align = 4 ∨ t.align = 8 ∨ t.align = 16 := by
  induction h with
  | scalar h => exact (ht _ _ _ h).1
  | complex _ h => exact (ht _ _ _ h).1
  | struct _ hl ih =>
    obtain ⟨e, _, ⟨⟨m, hm, rfl⟩, _⟩, _⟩ := hl
    rw [List.mem_map] at hm
    obtain ⟨x, hx, rfl⟩ := hm
    exact ih x hx

theorem Spec.WF.align_pos {tab} (ht : TabOk tab) {t : FType} (h : WF tab t) : 0 < t.align := by
  rcases h.align_cases ht with h | h | h | h | h <;> omega

theorem Spec.WF.align_dvd_size {tab} (ht : TabOk tab) {t : FType} (h : WF tab t) :
    t.align ∣ t.size := by
  cases h with
  | scalar h => exact (ht _ _ _ h).2.2.1
  | complex _ h => exact Dvd.dvd.mul_left (ht _ _ _ h).2.2.1 2
  | struct _ hl => obtain ⟨e, _, _, hl⟩ := hl; exact hl.1

theorem Spec.WF.size_pos {tab} (ht : TabOk tab) {t : FType} (h : WF tab t) : 0 < t.size := by
  induction h with
  | scalar h => exact (ht _ _ _ h).2.1
  | complex _ h => have := (ht _ _ _ h).2.1; simp; omega
  | @struct es s a offs _ hl ih =>
    obtain ⟨e, hp, ⟨⟨m, hm, _⟩, _⟩, hle⟩ := hl
    rw [List.mem_map] at hm
    obtain ⟨x, hx, _⟩ := hm
    have : 0 < e := by
      cases es with
      | nil => cases hx
      | cons y ys =>
        simp only [List.map_cons] at hp
        cases hp with
        | cons _ hp => have := hp.le; have := ih y (by simp); omega
    have := hle.2.1
    simp only [FType.size_mk]; omega

mutual
theorem leaves_shift : ∀ (t : FType) (o k : Nat),
    leaves t (o + k) = (leaves t o).map (fun l => { l with off := l.off + k })
  | .mk s a tc es, o, k => by
    cases tc with
    | struct => simp only [leaves]; exact leavesL_shift es o 0 k
    | complex =>
      simp only [leaves]
      split
      · simp; omega
      · rfl
    | _ => simp [leaves]
theorem leavesL_shift : ∀ (es : List FType) (o cur k : Nat),
    leavesL es (o + k) cur = (leavesL es o cur).map (fun l => { l with off := l.off + k })
  | [], _, _, _ => by simp [leavesL]
  | e :: es, o, cur, k => by
    simp only [leavesL, List.map_append]
    rw [leavesL_shift es, show o + k + roundUp cur e.align = o + roundUp cur e.align + k by omega,
      leaves_shift e]
end

theorem Spec.IsLeastMult.eq_roundUp {a v m : Nat} (ha : 0 < a) (h : IsLeastMult a v m) :
    m = roundUp v a := h.unique (isLeastMult_roundUp ha)

/-- Components of struct members lie between the current position and the end of
the last member. -/
theorem leavesL_bounds {es : List FType} (hpos : ∀ e ∈ es, 0 < e.align)
    (ih : ∀ e ∈ es, ∀ o, ∀ l ∈ leaves e o, o ≤ l.off ∧ l.off + l.size ≤ o + e.size)
    {cur offs e'} (hp : Placed cur (es.map fun e => (e.size, e.align)) offs e') (o : Nat) :
    ∀ l ∈ leavesL es o cur, o + cur ≤ l.off ∧ l.off + l.size ≤ o + e' := by
  induction es generalizing cur offs with
  | nil => simp [leavesL]
  | cons e es ihl =>
    simp only [List.map_cons] at hp
    cases hp with
    | cons hlm hp =>
      have := hlm.eq_roundUp (hpos e (by simp))
      subst this
      have hge := roundUp_ge (v := cur) (hpos e (by simp))
      have hle := hp.le
      intro l hl
      simp only [leavesL, List.mem_append] at hl
      rcases hl with hl | hl
      · have := ih e (by simp) _ l hl
        omega
      · have := ihl (fun x hx => hpos x (by simp [hx])) (fun x hx => ih x (by simp [hx])) hp l hl
        omega

theorem Spec.WF.leaves_bounds {tab} (ht : TabOk tab) {t : FType} (h : WF tab t) (o : Nat) :
    ∀ l ∈ leaves t o, o ≤ l.off ∧ l.off + l.size ≤ o + t.size := by
  induction h generalizing o with
  | @scalar tc s a h =>
    have := ht _ _ _ h
    cases tc <;> simp_all [leaves]
  | @complex tc s a _ h => simp [leaves]; omega
  | @struct es s a offs hwf hl ih =>
    obtain ⟨e, hp, _, hle⟩ := hl
    intro l hmem
    simp only [leaves] at hmem
    have := leavesL_bounds (fun e he => (hwf e he).align_pos ht) (fun e he o => ih e he o) hp o l hmem
    have := hle.2.1
    simp only [FType.size_mk]
    omega

/-- Every component is a scalar of the data model. -/
theorem Spec.WF.leaves_tab {tab} (ht : TabOk tab) {t : FType} (h : WF tab t) (o : Nat) :
    ∀ l ∈ leaves t o, ∃ a, tab l.tc = some (l.size, a) ∧ a ≤ t.align := by
  induction h generalizing o with
  | @scalar tc s a h =>
    have := ht _ _ _ h
    cases tc <;> simp_all [leaves]
  | @complex tc s a _ h =>
    intro l hl
    simp only [leaves, List.mem_cons, List.not_mem_nil, or_false] at hl
    rcases hl with rfl | rfl <;> exact ⟨a, h, Nat.le_refl _⟩
  | @struct es s a offs hwf hl ih =>
    obtain ⟨e, hp, hmx, hle⟩ := hl
    have hmax : ∀ e ∈ es, e.align ≤ a := fun e he =>
      hmx.2 (e.size, e.align) (List.mem_map.2 ⟨e, he, rfl⟩)
    clear hp hle hmx
    simp only [leaves]
    suffices ∀ cur, ∀ l ∈ leavesL es o cur, ∃ b, tab l.tc = some (l.size, b) ∧ b ≤ a from this 0
    intro cur
    induction es generalizing cur with
    | nil => simp [leavesL]
    | cons e es ihl =>
      intro l hmem
      simp only [leavesL, List.mem_append] at hmem
      rcases hmem with hmem | hmem
      · obtain ⟨b, h1, h2⟩ := ih e (by simp) _ l hmem
        exact ⟨b, h1, Nat.le_trans h2 (hmax e (by simp))⟩
      · exact ihl (fun x hx => hwf x (by simp [hx])) (fun x hx => ih x (by simp [hx]))
          (fun x hx => hmax x (by simp [hx])) _ l hmem

/-- The alignment of a type is the alignment of one of its components. -/
theorem Spec.WF.align_leaf {tab} (ht : TabOk tab) {t : FType} (h : WF tab t) (o : Nat) :
    ∃ l ∈ leaves t o, tab l.tc = some (l.size, t.align) := by
  induction h generalizing o with
  | @scalar tc s a h =>
    have := ht _ _ _ h
    refine ⟨⟨o, s, tc⟩, ?_, h⟩
    cases tc <;> simp_all [leaves]
  | @complex tc s a _ h => exact ⟨⟨o, s, tc⟩, by simp [leaves], h⟩
  | @struct es s a offs hwf hl ih =>
    obtain ⟨e, hp, ⟨⟨m, hm, rfl⟩, hmx⟩, hle⟩ := hl
    clear hp hle hmx
    rw [List.mem_map] at hm
    obtain ⟨x, hx, rfl⟩ := hm
    simp only [leaves, FType.align_mk]
    suffices ∀ cur, ∃ l ∈ leavesL es o cur, tab l.tc = some (l.size, x.align) from this 0
    intro cur
    induction es generalizing cur with
    | nil => cases hx
    | cons e es ihl =>
      simp only [leavesL, List.mem_append]
      rcases List.mem_cons.1 hx with rfl | hx
      · obtain ⟨l, h1, h2⟩ := ih x (by simp) (o + roundUp cur x.align)
        exact ⟨l, .inl h1, h2⟩
      · obtain ⟨l, h1, h2⟩ := ihl (fun y hy => hwf y (by simp [hy])) (fun y hy => ih y (by simp [hy]))
          hx (roundUp cur e.align + e.size)
        exact ⟨l, .inr h1, h2⟩

end Verif
