import Verif.Dl.Choose

/-
Allocation from bins, from the designated victim and from the top.
-/
namespace Verif.Dl
open Verif

section
variable {P : Nat} {s : Hp} {A : Chunks}

theorem unlinkSmall_eq {s : Hp} {p z : Nat} (h : z < 256) : unlinkSmall s p (z / 8) = unlinkChunk s p z := by
  unfold unlinkChunk; rw [if_pos (isSmall_iff.2 h)]
theorem unlinkLarge_eq {s : Hp} {p z : Nat} (h : 256 ≤ z) : unlinkLarge s p (treeIndex z) = unlinkChunk s p z := by
  unfold unlinkChunk; rw [if_neg (by rw [isSmall_not.2 h]; simp)]

/-- The outcome of a successful allocation. -/
def Gets (P : Nat) (s : Hp) (A : Chunks) (nb : Nat) (r : R (Nat × Hp)) : Prop :=
  ∃ p s' A', r = .ok (p + 16, s') ∧ Got P s A nb p s' A'

/-- A chunk of a small bin. -/
theorem Inv.of_small (i : Inv P s A) {j p : Nat} (h : p ∈ s.small j) : A p = some (8 * j, .free) ∧ 8 * j < 256 := by
  obtain ⟨z, h1, h2, h3⟩ := i.bins.smem.1 h
  have hA := binF_some.1 h1
  have := (i.tags.ok hA).alz
  rw [isSmall_iff] at h2
  have e : z = 8 * j := by omega
  subst e
  exact ⟨hA, h2⟩

theorem Inv.exactSmall (i : Inv P s A) {j nb : Nat} (h : s.small j ≠ []) (hn : nb ≤ 8 * j ∧ 8 * j < nb + 32) :
    Gets P s A nb (Dl.exactSmall s j) := by
  unfold Dl.exactSmall
  cases e : s.small j with
  | nil => exact absurd e h
  | cons p l =>
    obtain ⟨hA, hs⟩ := i.of_small (show p ∈ s.small j by rw [e]; simp)
    obtain ⟨s', h1, h2⟩ := i.binWhole hA hn
    have hj : 8 * j / 8 = j := by omega
    rw [← unlinkSmall_eq hs, hj] at h1
    simp only [h1, bind, Except.bind, pure, Except.pure]
    exact ⟨p, s', _, rfl, h2⟩

theorem Inv.nextSmall (i : Inv P s A) {j nb : Nat} (h : s.small j ≠ []) (hn : nb ≤ 8 * j) (h8 : 8 ∣ nb) (h32 : 32 ≤ nb)
    (hd : s.dvsize < 256) : Gets P s A nb (Dl.nextSmall s nb j) := by
  unfold Dl.nextSmall
  cases e : s.small j with
  | nil => exact absurd e h
  | cons p l =>
    obtain ⟨hA, hs⟩ := i.of_small (show p ∈ s.small j by rw [e]; simp)
    have hj : 8 * j / 8 = j := by omega
    simp only []
    by_cases c : 8 * j - nb < 32
    · obtain ⟨s', h1, h2⟩ := i.binWhole hA (show nb ≤ 8 * j ∧ 8 * j < nb + 32 by omega)
      rw [← unlinkSmall_eq hs, hj] at h1
      rw [if_pos c]
      simp only [h1, bind, Except.bind, pure, Except.pure]
      exact ⟨p, s', _, rfl, h2⟩
    · obtain ⟨s1, s2, h1, h2, A', h3⟩ := i.binSplitDv hA (show nb + (8 * j - nb) = 8 * j by omega) h8 h32 (by omega) hd
      rw [← unlinkSmall_eq hs, hj] at h1
      rw [if_neg c]
      simp only [h1, h2, bind, Except.bind, pure, Except.pure]
      exact ⟨p, _, A', rfl, h3⟩

theorem Inv.tmallocSmall (i : Inv P s A) {nb : Nat} (h : s.treemap ≠ 0) (hn : nb ≤ 248) (h8 : 8 ∣ nb) (h32 : 32 ≤ nb)
    (hd : s.dvsize < 256) : Gets P s A nb (Dl.tmallocSmall s nb) := by
  obtain ⟨v, z, h1, hA, hz⟩ := i.chooseSmall h hn
  have o := i.tags.ok hA
  have hl := i.segs.least _ _ _ hA
  unfold Dl.tmallocSmall
  rw [h1]
  simp only []
  rw [if_pos ⟨hl, by omega⟩, Hp.get_ok (i.mapped hA (by omega) (by omega))]
  simp only [bind, Except.bind, o.size]
  by_cases c : z - nb < 32
  · obtain ⟨s', h1, h2⟩ := i.binWhole hA (show nb ≤ z ∧ z < nb + 32 by omega)
    rw [← unlinkLarge_eq hz] at h1
    have hz' : z - nb + nb = z := by omega
    rw [if_pos c, hz']
    simp only [h1, pure, Except.pure]
    exact ⟨v, s', _, rfl, h2⟩
  · obtain ⟨s1, s2, h1, h2, A', h3⟩ := i.binSplitDv hA (show nb + (z - nb) = z by omega) h8 h32 (by omega) hd
    rw [← unlinkLarge_eq hz] at h1
    rw [if_neg c]
    simp only [h1, h2, pure, Except.pure]
    exact ⟨v, _, A', rfl, h3⟩

theorem Inv.tmallocLarge (i : Inv P s A) {nb : Nat} (hn : nb < 2 ^ 64) (h8 : 8 ∣ nb) (h32 : 32 ≤ nb) :
    Dl.tmallocLarge s nb = .ok (none, s) ∨
      ∃ p s' A', Dl.tmallocLarge s nb = .ok (some (p + 16), s') ∧ Got P s A nb p s' A' := by
  unfold Dl.tmallocLarge
  rcases i.chooseLarge hn (by omega) with ⟨rs, h⟩ | ⟨v, z, h1, hA, hz, hnz⟩
  · rw [h]; exact .inl rfl
  · rw [h1]
    simp only []
    by_cases c0 : z - nb < sub64 s.dvsize nb
    · have o := i.tags.ok hA
      have hl := i.segs.least _ _ _ hA
      rw [if_pos c0, if_pos ⟨hl, by omega⟩, Hp.get_ok (i.mapped hA (by omega) (by omega))]
      simp only [bind, Except.bind, o.size]
      right
      by_cases c : z - nb < 32
      · obtain ⟨s', h1, h2⟩ := i.binWhole hA (show nb ≤ z ∧ z < nb + 32 by omega)
        rw [← unlinkLarge_eq hz] at h1
        have hz' : z - nb + nb = z := by omega
        rw [if_pos c, hz']
        simp only [h1, pure, Except.pure]
        exact ⟨v, s', _, rfl, h2⟩
      · obtain ⟨s1, s2, h1, h2, h3⟩ := i.binSplit hA (show nb + (z - nb) = z by omega) h8 h32 (by omega)
        rw [← unlinkLarge_eq hz] at h1
        rw [if_neg c]
        simp only [h1, h2, pure, Except.pure]
        exact ⟨v, _, _, rfl, h3⟩
    · rw [if_neg c0]; exact .inl rfl

/-! ## dv and top -/

theorem Inv.dvBins (i : Inv P s A) {p z : Nat} (h : A p = some (z, .dv)) : s.Bins (delF (binF A) p) :=
  i.bins.congr (fun q => by
    unfold delF
    split
    · rename_i e; subst e; exact (binF_none (by intro w e; rw [h] at e; cases e)).symm
    · rfl)

theorem Inv.useDv (i : Inv P s A) {nb : Nat} (hn : nb ≤ s.dvsize) (h8 : 8 ∣ nb) (h32 : 32 ≤ nb) (e : Env) :
    ∃ p s' A', dvTopSys e s nb = .ok (some (p + 16), s') ∧ Got P s A nb p s' A' := by
  have hA : A s.dv = some (s.dvsize, .dv) := (i.dv.iff _ _).2 ⟨rfl, rfl, by omega⟩
  unfold dvTopSys
  rw [if_pos hn]
  simp only []
  by_cases c : 32 ≤ s.dvsize - nb
  · rw [if_pos c]
    have m1 := i.mapped hA (x := s.dv + nb + 8) (by omega) (by omega)
    have m2 := i.mapped hA (x := s.dv + nb + (s.dvsize - nb)) (by omega) (by omega)
    have m3 := i.mapped hA (x := s.dv + 8) (by omega) (by omega)
    rw [setSizeFree_ok (s := { s with dv := s.dv + nb, dvsize := s.dvsize - nb }) m1 m2]
    simp only [bind, Except.bind, pure, Except.pure]
    rw [setSizeInuse_ok (s := { s with mem := upd (upd s.mem (s.dv + nb + 8) (s.dvsize - nb ||| 1)) (s.dv + nb + (s.dvsize - nb)) (s.dvsize - nb), dv := s.dv + nb, dvsize := s.dvsize - nb }) nb m3]
    simp only []
    refine ⟨s.dv, _, two A s.dv (s.dv + s.dvsize) nb .live (s.dvsize - nb) .dv, rfl, ?_⟩
    have e0 : s.dv + nb + (s.dvsize - nb) = s.dv + s.dvsize := by omega
    refine i.useSplit hA (v := .dv) (.inl ⟨rfl, rfl, c⟩) h8 h32 (by omega) rfl rfl rfl
      (by rw [if_neg (by simp)]; exact ⟨rfl, rfl⟩) ?_ ?_ ?_ ?_ ?_ ?_
    · dsimp only; rw [upd_same]
    · dsimp only; rw [upd_ne (by omega), upd_ne (by omega), upd_same]
    · intro _; dsimp only; rw [upd_ne (by omega), e0, upd_same]
    · intro x h1 h2 h3; dsimp only; rw [upd_ne h1, upd_ne (by rw [e0]; exact h3 rfl), upd_ne h2]
    · refine (i.dvBins hA).congr (fun q => ?_)
      rw [binF_two i hA (by omega) (by omega), if_neg (by simp)]
    · refine dvOk_two_dv (p := s.dv) (nb := nb) (rs := s.dvsize - nb) (by omega) (by omega) (by omega) ?_
      intro q w hq; exact ((i.dv.iff q w).1 hq).1
  · rw [if_neg c]
    obtain ⟨s', h1, h2⟩ := i.useWhole (s1 := { s with dvsize := 0, dv := 0 }) hA rfl ⟨rfl, rfl, rfl, rfl, rfl, rfl⟩
      (i.dvBins hA) (dvOk_none_one i hA (by simp)) (show nb ≤ s.dvsize ∧ s.dvsize < nb + 32 by omega)
    simp only [h1, bind, Except.bind, pure, Except.pure]
    exact ⟨s.dv, s', _, rfl, h2⟩

theorem Inv.splitTop (i : Inv P s A) {nb : Nat} (hn : nb < s.topsize) (h8 : 8 ∣ nb) (h32 : 32 ≤ nb) :
    Gets P s A nb (Dl.splitTop s nb) := by
  have hseg : s.segs ≠ [] := by
    intro e; have := (i.segs.nil e).2; omega
  have hA : A s.top = some (s.topsize, .top) := (i.top _ _).2 ⟨rfl, rfl, hseg⟩
  have o := i.tags.ok hA
  have hal := o.alz
  have m1 := i.mapped hA (x := s.top + nb + 8) (by omega) (by omega)
  have m3 := i.mapped hA (x := s.top + 8) (by omega) (by omega)
  unfold Dl.splitTop
  simp only []
  rw [Hp.set_ok (s := { s with topsize := s.topsize - nb, top := s.top + nb }) _ m1]
  simp only [bind, Except.bind, pure, Except.pure]
  rw [setSizeInuse_ok (s := { s with mem := upd s.mem (s.top + nb + 8) (s.topsize - nb ||| 1), topsize := s.topsize - nb, top := s.top + nb }) nb m3]
  simp only []
  refine ⟨s.top, _, two A s.top (s.top + s.topsize) nb .live (s.topsize - nb) .top, rfl, ?_⟩
  refine i.useSplit hA (v := .top) (.inr ⟨rfl, rfl, by omega⟩) h8 h32 (by omega) rfl rfl rfl
    (by rw [if_pos rfl]; exact ⟨rfl, rfl⟩) ?_ ?_ ?_ ?_ ?_ ?_
  · dsimp only; rw [upd_same]
  · dsimp only; rw [upd_ne (by omega), upd_same]
  · intro h; cases h
  · intro x h1 h2 _; dsimp only; rw [upd_ne h1, upd_ne h2]
  · refine i.bins.congr (fun q => ?_)
    rw [binF_two i hA (by omega) (by omega), if_neg (by simp)]
    unfold delF
    split
    · rename_i e; subst e; exact (binF_none (by intro w e; rw [hA] at e; cases e)).symm
    · rfl
  · exact dvOk_two i hA (by omega) (by omega) (by simp) (by simp)

end

end Verif.Dl
