import Verif.Dl.AddSeg

/-
dlmalloc as a whole.
-/
namespace Verif.Dl
open Verif

section
variable {P : Nat} {s : Hp} {A : Chunks}

/-- What an allocation may do: refuse, leaving all as it is, because the system refuses memory; or
hand out a chunk. -/
def Outcome (P : Nat) (e : Env) (s : Hp) (A : Chunks) (nb : Nat) (r : R (Option Nat × Hp)) : Prop :=
  (r = .ok (none, s) ∧ (reqSize e nb ≤ nb ∨ e.mmap (reqSize e nb) = none) ∧ s.dvsize < nb ∧ s.topsize ≤ nb) ∨
  ∃ p s' A', r = .ok (some (p + 16), s') ∧ Got P s A nb p s' A'

theorem Inv.dvTopSys (i : Inv P s A) (hP : PageOk P) {e : Env} (he : EnvOk P e s) {nb : Nat} (hn : nb < 2 ^ 64)
    (h8 : nb + 1 < 2 ^ 64 → 8 ∣ nb ∧ 32 ≤ nb) : Outcome P e s A nb (dvTopSys e s nb) := by
  have hbig : nb ≤ s.dvsize ∨ nb < s.topsize → nb + 1 < 2 ^ 64 := by
    rintro (h | h)
    · have hA : s.dvsize ≠ 0 → A s.dv = some (s.dvsize, .dv) := fun h => (i.dv.iff _ _).2 ⟨rfl, rfl, h⟩
      by_cases c : s.dvsize = 0
      · omega
      · have := i.lt64 (hA c); omega
    · have hne : s.segs ≠ [] := by intro e; have := (i.segs.nil e).2; omega
      have := i.lt64 ((i.top _ _).2 ⟨rfl, rfl, hne⟩); omega
  by_cases c : nb ≤ s.dvsize
  · obtain ⟨h1, h2⟩ := h8 (hbig (.inl c))
    exact .inr (i.useDv c h1 h2 e)
  · by_cases d : nb < s.topsize
    · obtain ⟨h1, h2⟩ := h8 (hbig (.inr d))
      obtain ⟨p, s', A', h3, h4⟩ := i.splitTop d h1 h2
      refine .inr ⟨p, s', A', ?_, h4⟩
      unfold Dl.dvTopSys
      rw [if_neg c, if_pos d, h3]; rfl
    · unfold Dl.dvTopSys
      rw [if_neg c, if_neg d]
      rcases i.sysAlloc hP he hn h8 with ⟨h1, h2⟩ | ⟨p, s', h1, A', h2⟩
      · exact .inl ⟨h1, h2, by omega, by omega⟩
      · exact .inr ⟨p, s', A', h1, h2⟩

theorem Gets.out {e : Env} {nb : Nat} {r : R (Nat × Hp)} (h : Gets P s A nb r) :
    Outcome P e s A nb (do let (p, s) ← r; return (some p, s)) := by
  obtain ⟨p, s', A', h1, h2⟩ := h
  exact .inr ⟨p, s', A', by rw [h1]; rfl, h2⟩

theorem testBit_zero_one (x : Nat) : x &&& 3 ≠ 0 → x.testBit 0 = true ∨ (x.testBit 0 = false ∧ x.testBit 1 = true) := by
  intro h
  by_contra hc
  apply h
  apply Nat.eq_of_testBit_eq
  intro j
  rw [Nat.testBit_and, Nat.zero_testBit]
  rcases j with _ | _ | j
  · cases e : x.testBit 0 with
    | false => rfl
    | true => exact absurd (.inl e) hc
  · cases e : x.testBit 1 with
    | false => rfl
    | true =>
      cases f : x.testBit 0 with
      | true => exact absurd (.inl f) hc
      | false => exact absurd (.inr ⟨f, e⟩) hc
  · have : Nat.testBit 3 (j + 2) = false := by
      apply Nat.testBit_lt_two_pow
      calc 3 < 2 ^ 2 := by decide
        _ ≤ 2 ^ (j + 2) := Nat.pow_le_pow_right (by decide) (by omega)
    simp only [Nat.add_assoc, Nat.reduceAdd] at *
    rw [this]; simp

/-- The next small bin that is not empty. -/
theorem Inv.smallNext (i : Inv P s A) {nb : Nat} (hid : 8 * (nb / 8) = nb) (h31 : nb / 8 < 32)
    (c : ¬ s.smallmap >>> (nb / 8) &&& 3 ≠ 0) (f : s.smallmap >>> (nb / 8) ≠ 0) :
    ∃ j, bit2idx (leastBit (((s.smallmap >>> (nb / 8)) <<< (nb / 8) % 2 ^ 32) &&& leftBits (1 <<< (nb / 8)))) = j ∧
      s.smallmap.testBit j = true ∧ nb / 8 < j ∧ ∀ k, s.smallmap.testBit k = true → nb / 8 ≤ k → k < 32 → j ≤ k := by
  have sb : ∀ j, (s.smallmap >>> (nb / 8)).testBit j = s.smallmap.testBit (nb / 8 + j) := by
    intro j; rw [Nat.testBit_shiftRight]
  have h0 : ¬ s.smallmap.testBit (nb / 8) = true := by
    intro h
    apply c
    intro h0
    have h1 := congrArg (fun x => Nat.testBit x 0) h0
    simp only [Nat.testBit_and, sb, Nat.add_zero, h, Nat.zero_testBit] at h1
    exact absurd h1 (by decide)
  have bb : ∀ j, j < 32 → (((s.smallmap >>> (nb / 8)) <<< (nb / 8) % 2 ^ 32) &&& leftBits (1 <<< (nb / 8))).testBit j =
      (decide (nb / 8 < j) && s.smallmap.testBit j) := by
    intro j hj
    have h1 := leftBits_spec _ h31 j hj
    rw [Nat.testBit_and, Nat.testBit_mod_two_pow, Nat.testBit_shiftLeft, sb]
    by_cases g : nb / 8 < j
    · rw [h1.2 g]
      have : nb / 8 + (j - nb / 8) = j := by omega
      rw [this]
      simp only [g, decide_true, hj, show j ≥ nb / 8 by omega, Bool.true_and, Bool.and_true]
    · have : (leftBits (1 <<< (nb / 8))).testBit j = false := by
        cases q : (leftBits (1 <<< (nb / 8))).testBit j with
        | false => rfl
        | true => exact absurd (h1.1 q) g
      rw [this]; simp [g]
  generalize hB : ((s.smallmap >>> (nb / 8)) <<< (nb / 8) % 2 ^ 32) &&& leftBits (1 <<< (nb / 8)) = B at *
  have Blt : B < 2 ^ 32 := by
    rw [← hB]; exact Nat.lt_of_le_of_lt Nat.and_le_right (leftBits_lt _)
  have Bne : B ≠ 0 := by
    obtain ⟨j, hj⟩ := exists_bit f
    have hj' := hj
    rw [sb] at hj
    have hlt : nb / 8 + j < 32 := by
      by_contra hcon
      have := Nat.testBit_lt_two_pow (x := s.smallmap) (i := nb / 8 + j)
        (Nat.lt_of_lt_of_le i.smallmap_lt (Nat.pow_le_pow_right (by decide) (by omega)))
      rw [this] at hj; cases hj
    have hj0 : j ≠ 0 := by
      rintro rfl
      apply c
      intro h0
      have h1 := congrArg (fun x => Nat.testBit x 0) h0
      simp only [Nat.testBit_and, hj', Nat.zero_testBit] at h1
      exact absurd h1 (by decide)
    intro hz
    have := bb _ hlt
    rw [hz, Nat.zero_testBit, hj] at this
    simp at this
    omega
  obtain ⟨b1, b2, b3⟩ := lowest Bne Blt
  rw [bb _ b2, Bool.and_eq_true, decide_eq_true_eq] at b1
  refine ⟨_, rfl, b1.2, b1.1, fun k hk h1 h2 => ?_⟩
  by_contra hc
  have h3 := b3 k (by omega)
  have hne : k ≠ nb / 8 := by rintro rfl; exact h0 hk
  rw [bb k h2, hk, decide_eq_true (by omega)] at h3
  cases h3

theorem Inv.smallRequest (i : Inv P s A) (hP : PageOk P) {e : Env} (he : EnvOk P e s) {nb : Nat} (h8 : 8 ∣ nb) (h32 : 32 ≤ nb)
    (hn : nb ≤ 248) : Outcome P e s A nb (smallRequest e s nb) := by
  have hid : 8 * (nb / 8) = nb := by omega
  have h31 : nb / 8 < 32 := by omega
  have sb : ∀ j, (s.smallmap >>> (nb / 8)).testBit j = s.smallmap.testBit (nb / 8 + j) := by
    intro j; rw [Nat.testBit_shiftRight]
  have ds := i.dvTopSys hP he (nb := nb) (by omega) (fun _ => ⟨h8, h32⟩)
  unfold Dl.smallRequest
  simp only []
  by_cases c : s.smallmap >>> (nb / 8) &&& 3 ≠ 0
  · rw [if_pos c]
    apply Gets.out
    rcases testBit_zero_one _ c with h | ⟨h, h'⟩
    · have e1 : s.smallmap >>> (nb / 8) % 2 = 1 := by rw [Nat.testBit_zero] at h; exact of_decide_eq_true h
      rw [e1]
      apply i.exactSmall
      · apply (i.bins.sbit _).1
        rw [sb] at h; exact h
      · omega
    · have e1 : s.smallmap >>> (nb / 8) % 2 = 0 := by
        rw [Nat.testBit_zero] at h
        have := Nat.mod_two_eq_zero_or_one (s.smallmap >>> (nb / 8))
        have := of_decide_eq_false h; omega
      rw [e1]
      apply i.exactSmall
      · apply (i.bins.sbit _).1
        rw [sb] at h'; exact h'
      · omega
  · rw [if_neg c]
    by_cases d : s.dvsize < nb
    · rw [if_pos d]
      by_cases f : s.smallmap >>> (nb / 8) ≠ 0
      · rw [if_pos f]
        apply Gets.out
        obtain ⟨j, ej, b1, b2, _⟩ := i.smallNext hid h31 c f
        rw [ej]
        exact i.nextSmall ((i.bins.sbit _).1 b1) (by omega) h8 h32 (by omega)
      · rw [if_neg f]
        by_cases g : s.treemap ≠ 0
        · rw [if_pos g]
          exact (i.tmallocSmall g hn h8 h32 (by omega)).out
        · rw [if_neg g]; exact ds
    · rw [if_neg d]; exact ds

/-- Size of the chunk for a request. -/
def need (bytes : Nat) : Nat :=
  if bytes < 23 then 32 else if 2 ^ 64 - 128 ≤ bytes then 2 ^ 64 - 1 else padRequest bytes

theorem need_ok {bytes : Nat} : need bytes < 2 ^ 64 ∧ (need bytes + 1 < 2 ^ 64 → 8 ∣ need bytes ∧ 32 ≤ need bytes ∧ bytes + 8 ≤ need bytes ∧
    need bytes ≤ max 32 (bytes + 15)) := by
  unfold need padRequest
  split
  · omega
  · split <;> omega

/-- `dlmalloc`. -/
theorem Inv.dlmalloc (i : Inv P s A) (hP : PageOk P) {e : Env} (he : EnvOk P e s) (bytes : Nat) :
    Outcome P e s A (need bytes) (dlmalloc e bytes s) := by
  obtain ⟨h1, h2⟩ := need_ok (bytes := bytes)
  have ds := i.dvTopSys hP he h1 (fun h => ⟨(h2 h).1, (h2 h).2.1⟩)
  unfold Dl.dlmalloc
  by_cases c : bytes ≤ 240
  · rw [if_pos c]
    have : (if bytes < 23 then 32 else padRequest bytes) = need bytes := by
      unfold need
      split
      · rfl
      · rw [if_neg (by omega)]
    rw [this]
    have : need bytes + 1 < 2 ^ 64 ∧ need bytes ≤ 248 := by
      unfold need padRequest
      split
      · omega
      · split <;> omega
    exact i.smallRequest hP he (h2 this.1).1 (h2 this.1).2.1 this.2
  · rw [if_neg c]
    by_cases d : 2 ^ 64 - 128 ≤ bytes
    · rw [if_pos d]
      have : need bytes = 2 ^ 64 - 1 := by unfold need; rw [if_neg (by omega), if_pos d]
      rw [← this]; exact ds
    · rw [if_neg d]
      have hnb : padRequest bytes = need bytes := by unfold need; rw [if_neg (by omega), if_neg d]
      have hb : need bytes + 1 < 2 ^ 64 := by rw [← hnb]; unfold padRequest; omega
      rw [hnb]
      simp only []
      by_cases f : s.treemap ≠ 0
      · rw [if_pos f]
        rcases i.tmallocLarge h1 (h2 hb).1 (h2 hb).2.1 with h | ⟨p, s', A', h, g⟩
        · rw [h]; exact ds
        · rw [h]; exact .inr ⟨p, s', A', rfl, g⟩
      · rw [if_neg f]; exact ds

end

end Verif.Dl
