import Verif.Arm.Hfa

/-! `place_vfp_arg` and `layout_vfp_args` allocate VFP registers as the standard says. -/
namespace Verif.Arm
open Verif Spec
open Verif.Spec.A32 (cprc Place Pos run Fits lowest placeArg placeFrom endFrom stackAt words)

theorem bit_iff (u s : Nat) : u &&& (1 <<< s) ≠ 0 ↔ u.testBit s = true := by
  rw [Nat.one_shiftLeft]
  constructor
  · intro h
    by_contra hb
    apply h
    apply Nat.eq_of_testBit_eq
    intro i
    rw [Nat.testBit_and, Nat.testBit_two_pow, Nat.zero_testBit]
    by_cases hi : s = i
    · subst hi; simp at hb; simp [hb]
    · simp [hi]
  · intro h hc
    have := congrArg (fun x => x.testBit s) hc
    simp [Nat.testBit_and, h, Nat.testBit_two_pow] at this

theorem bit_shift (s j : Nat) : (1 <<< s).testBit j = decide (j = s) := by
  rw [Nat.one_shiftLeft, Nat.testBit_two_pow]
  simp [eq_comm]

/-- The inner loop finds out whether a run is free. -/
theorem tryRun_spec (used : Nat) : ∀ (n s acc : Nat),
    ((∀ i < n, used.testBit (s + i) = false) →
      ∃ u, tryRun used n s acc = some u ∧ ∀ j, u.testBit j = (acc.testBit j || decide (s ≤ j ∧ j < s + n))) ∧
    ((∃ i < n, used.testBit (s + i) = true) → tryRun used n s acc = none)
  | 0, s, acc => ⟨fun _ => ⟨acc, rfl, fun j => by simp⟩, fun ⟨i, h, _⟩ => absurd h (by omega)⟩
  | n + 1, s, acc => by
    rw [tryRun]
    obtain ⟨ih1, ih2⟩ := tryRun_spec used n (s + 1) (acc ||| (1 <<< s))
    refine ⟨fun h => ?_, fun ⟨i, hi, hb⟩ => ?_⟩
    · have h0 := h 0 (by omega)
      rw [Nat.add_zero] at h0
      rw [if_neg (by rw [bit_iff, h0]; simp)]
      obtain ⟨u, hu, hj⟩ := ih1 (fun i hi => by rw [show s + 1 + i = s + (i + 1) by omega]; exact h _ (by omega))
      refine ⟨u, hu, fun j => ?_⟩
      rw [hj, Nat.testBit_or, bit_shift, Bool.or_assoc]
      congr 1
      rw [← Bool.decide_or]
      congr 1
      apply propext
      omega
    · by_cases h0 : used.testBit s = true
      · rw [if_pos ((bit_iff _ _).2 h0)]
      · rw [if_neg (fun h => h0 ((bit_iff _ _).1 h))]
        refine ih2 ⟨i - 1, ?_, ?_⟩
        · have : i ≠ 0 := by rintro rfl; exact h0 hb
          omega
        · have : i ≠ 0 := by rintro rfl; exact h0 hb
          rw [show s + 1 + (i - 1) = s + i by omega]; exact hb

/-- The run at `k` is free. -/
def Free (used n k : Nat) : Prop := k + n ≤ 16 ∧ ∀ i < n, used.testBit (k + i) = false

/-- The outer loop finds the first free run at `reg`, `reg + al`, ... -/
theorem search_spec (used n al : Nat) (hal : 0 < al) : ∀ (f reg : Nat), 17 ≤ reg + f →
    (∃ q u, search used n al f reg = some (reg + al * q, u) ∧ Free used n (reg + al * q) ∧
      (∀ j, u.testBit j = decide (reg + al * q ≤ j ∧ j < reg + al * q + n)) ∧
      ∀ q' < q, ¬ Free used n (reg + al * q')) ∨
    (search used n al f reg = none ∧ ∀ q, ¬ Free used n (reg + al * q))
  | 0, reg, h => by
    right
    refine ⟨rfl, fun q hq => ?_⟩
    have := hq.1
    omega
  | f + 1, reg, h => by
    rw [search]
    by_cases hr : reg + n ≤ 16
    · rw [if_pos hr]
      by_cases hfree : ∀ i < n, used.testBit (reg + i) = false
      · obtain ⟨u, hu, hj⟩ := (tryRun_spec used n reg 0).1 hfree
        left
        refine ⟨0, u, by rw [hu]; simp, ⟨by simpa using hr, by simpa using hfree⟩, fun j => by rw [hj]; simp, fun q' hq => absurd hq (by omega)⟩
      · have hex : ∃ i < n, used.testBit (reg + i) = true := by
          by_contra hc
          apply hfree
          intro i hi
          by_contra hb
          exact hc ⟨i, hi, by simpa using hb⟩
        rw [(tryRun_spec used n reg 0).2 hex]
        have h0 : ¬ Free used n (reg + al * 0) := by
          rintro ⟨_, hf⟩
          exact hfree (by simpa using hf)
        have hs : ∀ q, reg + al + al * q = reg + al * (q + 1) := fun q => by ring
        rcases search_spec used n al hal f (reg + al) (by omega) with ⟨q, u, h1, h2, h3, h4⟩ | ⟨h1, h2⟩
        · left
          rw [hs] at h1 h2
          simp only [hs] at h3
          refine ⟨q + 1, u, h1, h2, h3, fun q' hq => ?_⟩
          match q' with
          | 0 => exact h0
          | q' + 1 => have := h4 q' (by omega); rwa [hs] at this
        · right
          refine ⟨h1, fun q => ?_⟩
          match q with
          | 0 => exact h0
          | q + 1 => have := h2 q; rwa [hs] at this
    · rw [if_neg hr]
      right
      refine ⟨rfl, fun q hq => ?_⟩
      have := hq.1
      have : reg ≤ reg + al * q := Nat.le_add_right _ _
      omega

/-- `skip` stops at a register that is not in use; all before are. -/
theorem skip_spec (used : Nat) (hu : ∀ i, 16 ≤ i → used.testBit i = false) : ∀ (f reg : Nat), 17 ≤ reg + f → reg ≤ 16 →
    reg ≤ skip used f reg ∧ skip used f reg ≤ 16 ∧ (∀ i, reg ≤ i → i < skip used f reg → used.testBit i = true) ∧
      used.testBit (skip used f reg) = false
  | 0, reg, h, h2 => absurd h (by omega)
  | f + 1, reg, h, h2 => by
    rw [skip]
    by_cases hb : used.testBit reg = true
    · rw [if_pos ((bit_iff _ _).2 hb)]
      have hlt : reg < 16 := by
        by_contra hc
        rw [hu reg (by omega)] at hb
        cases hb
      obtain ⟨h3, h4, h5, h6⟩ := skip_spec used hu f (reg + 1) (by omega) (by omega)
      refine ⟨by omega, h4, fun i h6 h7 => ?_, h6⟩
      by_cases he : i = reg
      · rw [he]; exact hb
      · exact h5 i (by omega) h7
    · rw [if_neg (fun h => hb ((bit_iff _ _).1 h))]
      exact ⟨Nat.le_refl _, h2, fun i h6 h7 => absurd h6 (by omega), by simpa using hb⟩

/-- The bits are the registers in use, and there is no gap below `vfp_reg_free`. -/
structure Rel (v : Vfp) (u : List Nat) : Prop where
  bits : ∀ i, v.used.testBit i = decide (i ∈ u)
  lt : ∀ i ∈ u, i < 16
  free : v.free ≤ 16
  below : ∀ i < v.free, i ∈ u
  first : v.free ∉ u

theorem rel_start : Rel ⟨0, 0, []⟩ [] := ⟨by simp, by simp, by simp, by simp, by simp⟩

theorem Rel.free_iff {v : Vfp} {u : List Nat} (h : Rel v u) (n k : Nat) :
    Free v.used n k ↔ k + n ≤ 16 ∧ ∀ i < n, k + i ∉ u := by
  unfold Free
  simp only [h.bits, decide_eq_false_iff_not]

theorem lowest_some {u : List Nat} {n w k : Nat} :
    lowest u n w = some k ↔ k < 17 ∧ Fits u n w k ∧ ∀ j < k, ¬ Fits u n w j := by
  unfold lowest
  rw [List.find?_range_eq_some]
  simp only [decide_eq_true_eq, List.mem_range, Bool.not_eq_true', decide_eq_false_iff_not]
  tauto

theorem lowest_none {u : List Nat} {n w : Nat} : lowest u n w = none ↔ ∀ k, ¬ Fits u n w k := by
  unfold lowest
  rw [List.find?_eq_none]
  simp only [decide_eq_true_eq, List.mem_range]
  refine ⟨fun h k hk => ?_, fun h k _ => h k⟩
  exact h k (by have := hk.2.1; omega) hk

theorem mem_run {k n i : Nat} : i ∈ run k n ↔ k ≤ i ∧ i < k + n := by
  unfold run
  rw [List.mem_map]
  constructor
  · rintro ⟨j, hj, rfl⟩
    rw [List.mem_range] at hj
    omega
  · rintro ⟨h1, h2⟩
    exact ⟨i - k, List.mem_range.2 (by omega), by omega⟩

/-- One allocation. -/
theorem placeVfp_spec {v : Vfp} {u : List Nat} (hr : Rel v u) {n w : Nat} (hn : 1 ≤ n) (hw : w = 1 ∨ w = 2) (hn4 : n ≤ 4) :
    match lowest u (n * w) w with
    | some k => (placeVfp v (n * 256 + (w + 1))).1 = false ∧ (placeVfp v (n * 256 + (w + 1))).2.args = v.args ++ [k] ∧
        Rel (placeVfp v (n * 256 + (w + 1))).2 (u ++ run k (n * w))
    | none => placeVfp v (n * 256 + (w + 1)) = (true, ⟨0xffff, 16, v.args⟩) := by
  have hnw : 0 < n * w := by rcases hw with rfl | rfl <;> omega
  have e1 : (if (n * 256 + (w + 1)) % 256 = 3 then 2 else 1) = w := by
    rcases hw with rfl | rfl
    · rw [if_neg (by omega)]
    · rw [if_pos (by omega)]
  have e2 : (if (n * 256 + (w + 1)) % 256 = 3 then (n * 256 + (w + 1)) / 256 * 2 else (n * 256 + (w + 1)) / 256) = n * w := by
    rcases hw with rfl | rfl
    · rw [if_neg (by omega)]; omega
    · rw [if_pos (by omega)]; omega
  -- where the search starts
  obtain ⟨reg, hreg, hdvd, hge, hmin⟩ : ∃ reg, (if v.free % 2 = 1 ∧ w = 2 then v.free + 1 else v.free) = reg ∧ w ∣ reg ∧
      v.free ≤ reg ∧ ∀ k, w ∣ k → v.free ≤ k → reg ≤ k := by
    refine ⟨_, rfl, ?_⟩
    rcases hw with rfl | rfl
    · rw [if_neg (by omega)]
      exact ⟨Nat.one_dvd _, Nat.le_refl _, fun k _ h => h⟩
    · by_cases ho : v.free % 2 = 1
      · rw [if_pos ⟨ho, rfl⟩]
        exact ⟨by omega, by omega, fun k h1 h2 => by omega⟩
      · rw [if_neg (by tauto)]
        exact ⟨by omega, Nat.le_refl _, fun k _ h => h⟩
  have hwpos : 0 < w := by omega
  -- fitting runs are those that the search visits
  have hfit : ∀ k, Fits u (n * w) w k ↔ ∃ q, k = reg + w * q ∧ Free v.used (n * w) (reg + w * q) := by
    intro k
    constructor
    · rintro ⟨h1, h2, h3⟩
      have hk : v.free ≤ k := by
        by_contra hc
        have := h3 0 hnw
        exact this (hr.below _ (by omega))
      have hrk := hmin k h1 hk
      obtain ⟨q, hq⟩ := (Nat.dvd_sub h1 hdvd : w ∣ k - reg)
      refine ⟨q, by omega, ?_⟩
      rw [hr.free_iff, show reg + w * q = k by omega]
      exact ⟨h2, h3⟩
    · rintro ⟨q, rfl, hf⟩
      rw [hr.free_iff] at hf
      exact ⟨Nat.dvd_add hdvd (Nat.dvd_mul_right _ _), hf.1, hf.2⟩
  unfold placeVfp
  simp only [e1, e2, hreg]
  rcases search_spec v.used (n * w) w hwpos 17 reg (by omega) with ⟨q, nu, h1, h2, h3, h4⟩ | ⟨h1, h2⟩
  · have hlow : lowest u (n * w) w = some (reg + w * q) := by
      rw [lowest_some]
      refine ⟨by have := h2.1; omega, (hfit _).2 ⟨q, rfl, h2⟩, fun j hj hf => ?_⟩
      obtain ⟨q', rfl, hf'⟩ := (hfit _).1 hf
      refine h4 q' ?_ hf'
      by_contra hc
      have := Nat.mul_le_mul_left w (Nat.le_of_not_lt hc)
      omega
    rw [hlow, h1]
    dsimp only
    refine ⟨rfl, rfl, ?_⟩
    have hend := h2.1
    have hbits : ∀ i, (v.used ||| nu).testBit i = decide (i ∈ u ++ run (reg + w * q) (n * w)) := by
      intro i
      rw [Nat.testBit_or, hr.bits, h3, ← Bool.decide_or]
      congr 1
      apply propext
      rw [List.mem_append, mem_run]
    have hlt : ∀ i ∈ u ++ run (reg + w * q) (n * w), i < 16 := by
      intro i hi
      rw [List.mem_append, mem_run] at hi
      rcases hi with hi | hi
      · exact hr.lt i hi
      · omega
    have hhi : ∀ i, 16 ≤ i → (v.used ||| nu).testBit i = false := by
      intro i hi
      rw [hbits, decide_eq_false_iff_not]
      intro hc
      have := hlt i hc
      omega
    by_cases hf : (v.used ||| nu).testBit v.free = true
    · rw [if_pos ((bit_iff _ _).2 hf)]
      obtain ⟨s1, s2, s3, s4⟩ := skip_spec _ hhi 17 (reg + w * q + n * w) (by omega) hend
      have hreg0 : reg + w * q ≤ v.free := by
        rw [hbits, decide_eq_true_eq, List.mem_append, mem_run] at hf
        exact (hf.resolve_left hr.first).1
      refine ⟨hbits, hlt, s2, fun i hi => ?_, ?_⟩
      · by_cases hi1 : i < v.free
        · exact List.mem_append_left _ (hr.below i hi1)
        · by_cases hi2 : i < reg + w * q + n * w
          · exact List.mem_append_right _ (mem_run.2 ⟨by omega, hi2⟩)
          · have := s3 i (by omega) hi
            rwa [hbits, decide_eq_true_eq] at this
      · rwa [hbits, decide_eq_false_iff_not] at s4
    · rw [if_neg (fun h => hf ((bit_iff _ _).1 h))]
      exact ⟨hbits, hlt, hr.free, fun i hi => List.mem_append_left _ (hr.below i hi),
        fun h => hf (by rw [hbits, decide_eq_true_eq]; exact h)⟩
  · have hlow : lowest u (n * w) w = none := by
      rw [lowest_none]
      intro k hk
      obtain ⟨q, rfl, hf⟩ := (hfit k).1 hk
      exact h2 q hf
    rw [hlow, h1]

/-! ## All arguments -/

/-- The VFP register of a place. -/
def toVfp : Place → Option Nat
  | .vfp k => some k
  | _ => none

/-- The VFP registers that are the first of an argument. -/
def ksFrom : List FType → List Nat → List Nat
  | [], _ => []
  | t :: ts, u =>
    match cprc t with
    | none => ksFrom ts u
    | some (n, w) =>
      match lowest u (n * w) w with
      | some k => k :: ksFrom ts (u ++ run k (n * w))
      | none => ksFrom ts (List.range 16)

/-- The registers that are not available in the end. -/
def usedEnd : List FType → List Nat → List Nat
  | [], u => u
  | t :: ts, u =>
    match cprc t with
    | none => usedEnd ts u
    | some (n, w) =>
      match lowest u (n * w) w with
      | some k => usedEnd ts (u ++ run k (n * w))
      | none => usedEnd ts (List.range 16)

theorem placeArg_used (o : Bool) (t : FType) (p : Pos) :
    (placeArg o true t p).2.used = (match cprc t with
      | none => p.used
      | some (n, w) => match lowest p.used (n * w) w with | some k => p.used ++ run k (n * w) | none => List.range 16) ∧
    toVfp (placeArg o true t p).1 = (match cprc t with | none => none | some (n, w) => lowest p.used (n * w) w) := by
  unfold placeArg
  rw [if_pos rfl]
  cases cprc t with
  | none =>
    dsimp only
    generalize (if 8 ≤ t.align then roundUp p.ncrn 2 else p.ncrn) = g
    by_cases h1 : g + words t ≤ 4
    · simp only [if_pos h1]; exact ⟨trivial, rfl⟩
    · by_cases h2 : g < 4 ∧ p.nsaa = 0
      · simp only [if_neg h1, if_pos h2]; exact ⟨trivial, rfl⟩
      · simp only [if_neg h1, if_neg h2]; exact ⟨trivial, rfl⟩
  | some x =>
    obtain ⟨n, w⟩ := x
    dsimp only
    cases lowest p.used (n * w) w <;> exact ⟨rfl, rfl⟩

theorem ks_placeFrom (o : Bool) : ∀ (ts : List FType) (p : Pos), (placeFrom o true ts p).filterMap toVfp = ksFrom ts p.used
  | [], _ => rfl
  | t :: ts, p => by
    obtain ⟨h1, h2⟩ := placeArg_used o t p
    have ih := ks_placeFrom o ts (placeArg o true t p).2
    rw [placeFrom, ksFrom, List.filterMap_cons, ih, h1, h2]
    cases cprc t with
    | none => rfl
    | some x =>
      obtain ⟨n, w⟩ := x
      dsimp only
      cases lowest p.used (n * w) w <;> rfl

theorem used_endFrom (o : Bool) : ∀ (ts : List FType) (p : Pos), (endFrom o true ts p).used = usedEnd ts p.used
  | [], _ => rfl
  | t :: ts, p => by
    obtain ⟨h1, -⟩ := placeArg_used o t p
    have ih := used_endFrom o ts (placeArg o true t p).2
    rw [endFrom, usedEnd, ih, h1]
    cases cprc t with
    | none => rfl
    | some x =>
      obtain ⟨n, w⟩ := x
      dsimp only
      cases lowest p.used (n * w) w <;> rfl

theorem cprc_bounds {t : FType} {n w : Nat} (h : cprc t = some (n, w)) : 1 ≤ n ∧ n ≤ 4 ∧ (w = 1 ∨ w = 2) := by
  unfold cprc at h
  split at h
  · cases h
  · split at h
    · cases h
    · rename_i k ks hk w' hw
      split at h
      · rename_i hc
        cases h
        exact ⟨by omega, by omega, (tab_fp hw).2.2.2⟩
      · cases h

theorem cprc_nw {t : FType} {n w : Nat} (h : cprc t = some (n, w)) : 0 < n * w ∧ n * w ≤ 8 := by
  obtain ⟨h1, h2, rfl | rfl⟩ := cprc_bounds h <;> omega

theorem lowest_full {n w : Nat} (h : 0 < n) : lowest (List.range 16) n w = none := by
  rw [lowest_none]
  rintro k ⟨_, h1, h2⟩
  exact h2 0 h (List.mem_range.2 (by omega))

theorem ks_full : ∀ ts : List FType, ksFrom ts (List.range 16) = [] ∧ usedEnd ts (List.range 16) = List.range 16
  | [] => ⟨rfl, rfl⟩
  | t :: ts => by
    rw [ksFrom, usedEnd]
    cases h : cprc t with
    | none => exact ks_full ts
    | some x =>
      obtain ⟨n, w⟩ := x
      dsimp only
      rw [lowest_full (cprc_nw h).1]
      exact ks_full ts

/-- `layout_vfp_args` finds the registers that the standard gives to the arguments. -/
theorem layoutLoop_spec : ∀ {ts : List FType} {v : Vfp} {u : List Nat}, (∀ t ∈ ts, WF A32.tab t) → Rel v u →
    ∃ v', layoutLoop ts v = .ok v' ∧ v'.args = v.args ++ ksFrom ts u ∧
      ∀ i, v'.used.testBit i = decide (i ∈ usedEnd ts u)
  | [], v, u, _, hr => ⟨v, rfl, by simp [ksFrom], hr.bits⟩
  | t :: ts, v, u, hw, hr => by
    obtain ⟨c, hc, hm⟩ := vfpTypeP_spec (hw t (by simp))
    rw [layoutLoop, hc, ksFrom, usedEnd]
    change ∃ v', (if c ≠ 0 then _ else _) = _ ∧ _
    cases hcp : cprc t with
    | none =>
      rw [hcp] at hm
      dsimp only at hm ⊢
      rw [if_neg (by simpa using hm)]
      exact layoutLoop_spec (fun t ht => hw t (List.mem_cons_of_mem _ ht)) hr
    | some x =>
      obtain ⟨n, w⟩ := x
      rw [hcp] at hm
      dsimp only at hm ⊢
      obtain ⟨h1, h4, hw12⟩ := cprc_bounds hcp
      obtain ⟨-, -, -, hce, -⟩ := hm
      rw [if_pos (by omega), hce]
      have hp := placeVfp_spec hr h1 hw12 h4
      obtain ⟨o, hl⟩ : ∃ o, lowest u (n * w) w = o := ⟨_, rfl⟩
      rcases o with _ | k
      · rw [hl] at hp
        simp only [hl]
        dsimp only at hp ⊢
        rw [hp, if_pos rfl]
        simp only [(ks_full ts).1, (ks_full ts).2]
        refine ⟨_, rfl, by simp, fun i => ?_⟩
        dsimp only
        rw [show (0xffff : Nat) = 2 ^ 16 - 1 by norm_num, Nat.testBit_two_pow_sub_one]
        simp
      · rw [hl] at hp
        simp only [hl]
        dsimp only at hp ⊢
        obtain ⟨p1, p2, p3⟩ := hp
        rw [if_neg (by rw [p1]; decide)]
        obtain ⟨v', q1, q2, q3⟩ := layoutLoop_spec (fun t ht => hw t (List.mem_cons_of_mem _ ht)) p3
        exact ⟨v', q1, by rw [q2, p2]; simp, q3⟩

/-- Registers once in use remain so. -/
theorem usedEnd_sub : ∀ (ts : List FType) {u : List Nat}, (∀ i ∈ u, i < 16) → ∀ i ∈ u, i ∈ usedEnd ts u
  | [], _, _, i, hi => hi
  | t :: ts, u, hlt, i, hi => by
    rw [usedEnd]
    cases hcp : cprc t with
    | none => exact usedEnd_sub ts hlt i hi
    | some x =>
      obtain ⟨n, w⟩ := x
      dsimp only
      cases hl : lowest u (n * w) w with
      | none => exact usedEnd_sub ts (by simp) i (List.mem_range.2 (hlt i hi))
      | some k =>
        have := (lowest_some.1 hl).2.1.2.1
        refine usedEnd_sub ts (fun j hj => ?_) i (List.mem_append_left _ hi)
        rw [List.mem_append, mem_run] at hj
        rcases hj with hj | hj
        · exact hlt j hj
        · omega

theorem usedEnd_nil {ts : List FType} : usedEnd ts [] = [] ↔ ∀ t ∈ ts, cprc t = none := by
  induction ts with
  | nil => simp [usedEnd]
  | cons t ts ih =>
    rw [usedEnd]
    cases hcp : cprc t with
    | none => simp [hcp, ih]
    | some x =>
      obtain ⟨n, w⟩ := x
      dsimp only
      have hnw := (cprc_nw hcp).1
      refine ⟨fun h => ?_, fun h => ?_⟩
      · cases hl : lowest [] (n * w) w with
        | none =>
          rw [hl] at h
          dsimp only at h
          rw [(ks_full ts).2] at h
          simp at h
        | some k =>
          rw [hl] at h
          dsimp only at h
          have h1 := (lowest_some.1 hl).2.1.2.1
          have := usedEnd_sub ts (u := [] ++ run k (n * w)) (fun j hj => by rw [List.nil_append, mem_run] at hj; omega) k
            (by rw [List.nil_append, mem_run]; omega)
          rw [h] at this
          simp at this
      · rw [h t (by simp)] at hcp
        cases hcp

theorem bits_zero {u : Nat} {l : List Nat} (h : ∀ i, u.testBit i = decide (i ∈ l)) : u = 0 ↔ l = [] := by
  constructor
  · rintro rfl
    cases l with
    | nil => rfl
    | cons a l => have := h a; simp at this
  · rintro rfl
    apply Nat.eq_of_testBit_eq
    intro i
    rw [h]
    simp

end Verif.Arm
