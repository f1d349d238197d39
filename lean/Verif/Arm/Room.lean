import Verif.Arm.Loops
import Verif.RiscV.CallLoop
import Mathlib.Data.List.Perm.Subperm

/-! The block that `ffi_call` reserves has room for the arguments. -/
namespace Verif.Arm
open Verif Spec
open Verif.Spec.A32 (cprc Place Pos run Fits lowest placeArg placeFrom endFrom stackAt words)

/-- Registers in use come in pairs without gaps. -/
def Pairs (u : List Nat) : Prop := ∀ k ∈ u, ∀ j < k / 2, 2 * j ∈ u ∨ 2 * j + 1 ∈ u

theorem Pairs.place {u : List Nat} (h : Pairs u) {n w k : Nat} (hw : w = 1 ∨ w = 2) (hl : lowest u n w = some k) :
    Pairs (u ++ run k n) := by
  obtain ⟨-, ⟨f1, f2, f3⟩, hmin⟩ := lowest_some.1 hl
  intro x hx j hj
  rw [List.mem_append, mem_run] at hx
  rw [List.mem_append, List.mem_append, mem_run, mem_run]
  rcases hx with hx | hx
  · rcases h x hx j hj with h | h
    · exact Or.inl (Or.inl h)
    · exact Or.inr (Or.inl h)
  · by_cases hjk : k / 2 ≤ j
    · exact Or.inr (Or.inr (by omega))
    · by_contra hc
      push Not at hc
      obtain ⟨⟨c1, -⟩, c2, -⟩ := hc
      -- all registers in use are below the gap
      have hall : ∀ y ∈ u, y < 2 * j := by
        intro y hy
        by_contra hge
        by_cases hjy : j < y / 2
        · rcases h y hy j hjy with h | h
          · exact c1 h
          · exact c2 h
        · have : y = 2 * j ∨ y = 2 * j + 1 := by omega
          rcases this with rfl | rfl
          · exact c1 hy
          · exact c2 hy
      refine hmin (2 * j) (by omega) ⟨by rcases hw with rfl | rfl <;> omega, by omega, fun i hi hm => ?_⟩
      have := hall _ hm
      omega

theorem Pairs.length {u : List Nat} (h : Pairs u) {k : Nat} (hk : k ∈ u) : k / 2 < u.length := by
  have hsub : List.range (k / 2 + 1) ⊆ u.map (· / 2) := by
    intro j hj
    rw [List.mem_range] at hj
    rw [List.mem_map]
    by_cases e : j = k / 2
    · exact ⟨k, hk, e.symm⟩
    · rcases h k hk j (by omega) with h | h
      · exact ⟨_, h, by omega⟩
      · exact ⟨_, h, by omega⟩
  have := (List.subperm_of_subset List.nodup_range hsub).length_le
  simp at this
  omega

/-- A candidate finds no registers only if at least five are in use. -/
theorem Pairs.none {u : List Nat} (h : Pairs u) {n w : Nat} (hn : n ≤ 8) (hw : w = 1 ∨ w = 2) (hl : lowest u n w = none) :
    4 < u.length := by
  rw [lowest_none] at hl
  by_contra hc
  refine hl 8 ⟨by rcases hw with rfl | rfl <;> omega, by omega, fun i hi hm => ?_⟩
  have := h.length hm
  omega

/-- `b` bytes are enough for the arguments so far. -/
def Enough (p : Pos) (b : Nat) : Prop :=
  if p.nsaa = 0 then 4 * p.ncrn ≤ b ∧ 4 * p.used.length ≤ b ∧ Pairs p.used else 16 + p.nsaa ≤ b

theorem stackAt_mono {t : FType} {a b : Nat} (h : a ≤ b) : stackAt t a ≤ stackAt t b := by
  unfold stackAt
  split
  · exact roundUp_mono h
  · exact h

theorem stackAt_16 (t : FType) (a : Nat) : stackAt t (16 + a) = 16 + stackAt t a := by
  unfold stackAt
  split
  · rw [up8, up8]; omega
  · rfl

theorem enough_step (o hard : Bool) {t : FType} {p : Pos} {b : Nat} (hi : Inv p) (hw : 0 < words t) (hb : 4 ∣ b)
    (he : Enough p b) : Enough (placeArg o hard t p).2 (stackAt t b + 4 * words t) := by
  have hge := (stackAt_spec t hb).1
  obtain ⟨i1, i2, i3⟩ := hi
  unfold Enough at he
  unfold placeArg
  cases hcp : (if hard = true then cprc t else none) with
  | some x =>
    obtain ⟨n, w⟩ := x
    have hh : hard = true := by
      cases hard
      · simp at hcp
      · rfl
    rw [if_pos hh] at hcp
    have hsz := cprc_size hcp
    have hnw := cprc_nw hcp
    have hw12 := (cprc_bounds hcp).2.2
    have hws : words t = n * w := by unfold words; omega
    dsimp only
    obtain ⟨r, hl⟩ : ∃ r, lowest p.used (n * w) w = r := ⟨_, rfl⟩
    rw [hl]
    rcases r with _ | k
    rotate_left
    · dsimp only [Enough]
      by_cases h0 : p.nsaa = 0
      · rw [if_pos h0] at he ⊢
        obtain ⟨e1, e2, e3⟩ := he
        refine ⟨by omega, ?_, e3.place hw12 hl⟩
        rw [List.length_append]
        unfold run
        rw [List.length_map, List.length_range]
        omega
      · rw [if_neg h0] at he ⊢
        omega
    · dsimp only [Enough]
      rw [if_neg (by omega)]
      by_cases h0 : p.nsaa = 0
      · rw [if_pos h0] at he
        have := he.2.2.none hnw.2 hw12 hl
        rw [h0]
        have : stackAt t 0 = 0 := by unfold stackAt; split <;> rfl
        omega
      · rw [if_neg h0] at he
        have := stackAt_mono (t := t) he
        rw [stackAt_16] at this
        omega
  | none =>
    dsimp only
    by_cases h0 : p.nsaa = 0
    · rw [if_pos h0] at he
      obtain ⟨e1, e2, e3⟩ := he
      obtain ⟨g, hg, hg1, hg2, hg3⟩ : ∃ g, (if 8 ≤ t.align then roundUp p.ncrn 2 else p.ncrn) = g ∧ p.ncrn ≤ g ∧ g ≤ 4 ∧
          4 * g ≤ stackAt t b := by
        refine ⟨_, rfl, ?_⟩
        unfold stackAt
        split
        · refine ⟨roundUp_ge (by decide), roundUp_least (by decide) (by decide) i1, ?_⟩
          rw [up8, up2]
          omega
        · exact ⟨Nat.le_refl _, i1, e1⟩
      rw [hg]
      by_cases h1 : g + words t ≤ 4
      · rw [if_pos h1]
        dsimp only [Enough]
        rw [if_pos h0]
        exact ⟨by omega, by omega, e3⟩
      · rw [if_neg h1]
        by_cases h2 : g < 4
        · rw [if_pos ⟨h2, h0⟩]
          dsimp only [Enough]
          rw [if_neg (by omega)]
          omega
        · rw [if_neg (by omega)]
          dsimp only [Enough]
          have : stackAt t 0 = 0 := by unfold stackAt; split <;> rfl
          rw [if_neg (by omega), h0]
          omega
    · rw [if_neg h0] at he
      have hm := stackAt_mono (t := t) he
      rw [stackAt_16] at hm
      have hs := (stackAt_spec t i2).1
      generalize (if 8 ≤ t.align then roundUp p.ncrn 2 else p.ncrn) = g
      by_cases h1 : g + words t ≤ 4
      · rw [if_pos h1]
        dsimp only [Enough]
        rw [if_neg h0]
        omega
      · rw [if_neg h1, if_neg (by omega)]
        dsimp only [Enough]
        rw [if_neg (by omega)]
        omega

/-- Space for the arguments as `ffi_prep_cif_core` computes it. -/
theorem reserve_step {t : FType} (h : WF A32.tab t) (ts : List FType) {b : Nat} (hb : 4 ∣ b) :
    RV.reserve 4 b (t :: ts) = RV.reserve 4 (stackAt t b + 4 * words t) ts := by
  have e : RV.reserve 4 b (t :: ts) = RV.reserve 4 (roundUp b t.align + roundUp t.size 4) ts := rfl
  rw [e, size_words]
  congr 2
  unfold stackAt
  split
  · have := align_le h
    rw [show t.align = 8 by omega]
  · exact roundUp_of_dvd (h.align_pos tab_ok) (by rcases align_cases h with h | h | h | h <;> rw [h] <;> omega)

theorem enough_all (o hard : Bool) {e : Nat} (h4 : 4 ∣ e) : ∀ {ts : List FType} {p : Pos} {b : Nat}, (∀ t ∈ ts, WF A32.tab t) →
    (e = 0 ∨ ∀ t ∈ ts, t.align < 8) → Inv p → 4 ∣ b → Enough p (b + e) → Enough (endFrom o hard ts p) (RV.reserve 4 b ts + e)
  | [], p, b, _, _, _, _, he => he
  | t :: ts, p, b, hw, ha, hi, hb, he => by
    have hwt := hw t (by simp)
    have hwp : 0 < words t := by have := hwt.size_pos tab_ok; unfold words; omega
    obtain ⟨hi', -⟩ := step_spec (stack := 64) (vs := 0) (c := 0) o (hard := hard) (t := t) (fun _ => by omega) hi (by omega) (Nat.le_refl _)
    have hs := enough_step o hard hi hwp (Nat.dvd_add hb h4) he
    have hse : stackAt t (b + e) = stackAt t b + e := by
      rcases ha with rfl | ha
      · rfl
      · have := ha t (by simp)
        unfold stackAt
        rw [if_neg (by omega), if_neg (by omega)]
    rw [reserve_step hwt ts hb, endFrom]
    refine enough_all o hard h4 (fun x hx => hw x (by simp [hx])) (ha.imp id fun ha x hx => ha x (by simp [hx])) hi'
      (Nat.dvd_add (stackAt_spec t hb).2.1 (Nat.dvd_mul_right _ _)) ?_
    rw [show stackAt t b + 4 * words t + e = stackAt t (b + e) + 4 * words t by omega]
    exact hs

end Verif.Arm
