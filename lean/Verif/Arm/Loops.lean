import Verif.Arm.Layout

/-! The loops over the arguments, for calls and closures, go through the places of the
standard without rule C.6 (`open6`). -/
namespace Verif.Arm
open Verif Spec
open Verif.Spec.A32 (cprc Place Pos run Fits lowest placeArg placeFrom endFrom stackAt words)

theorem align_le {t : FType} (h : WF A32.tab t) : t.align ≤ 8 := by rcases align_cases h with h | h | h | h <;> omega

theorem alignTy_eq {t : FType} (h : WF A32.tab t) {x : Nat} (hx : x < 2 ^ 63) :
    alignTy t x = if 8 ≤ t.align then roundUp x 8 else roundUp x 4 := by
  unfold alignTy
  rcases align_cases h with h | h | h | h <;> rw [h]
  · exact I386.align_eq (a := 4) (by omega) hx
  · exact I386.align_eq (a := 4) (by omega) hx
  · exact I386.align_eq (a := 4) (by omega) hx
  · exact I386.align_eq (a := 8) (by omega) hx

theorem up4 (x : Nat) : roundUp x 4 = (x + 3) / 4 * 4 := rfl
theorem up8 (x : Nat) : roundUp x 8 = (x + 7) / 8 * 8 := rfl
theorem up2 (x : Nat) : roundUp x 2 = (x + 1) / 2 * 2 := rfl

/-- A cursor in the stack arguments. -/
theorem align_stack {t : FType} (h : WF A32.tab t) {stack x n : Nat} (h8 : 8 ∣ stack) (hx : x < 2 ^ 63)
    (e : roundUp x 4 = stack + 16 + n) : alignTy t x = stack + 16 + stackAt t n := by
  rw [alignTy_eq h hx]
  unfold stackAt
  rw [up4] at e
  split <;> simp only [up8, up4] <;> omega

/-- A cursor in the core registers. -/
theorem align_core {t : FType} (h : WF A32.tab t) {stack x n : Nat} (h8 : 8 ∣ stack) (hx : x < 2 ^ 63)
    (e : roundUp x 4 = stack + 4 * n) : alignTy t x = stack + 4 * (if 8 ≤ t.align then roundUp n 2 else n) := by
  rw [alignTy_eq h hx]
  rw [up4] at e
  split <;> simp only [up8, up4, up2] <;> omega

theorem size_words (t : FType) : roundUp t.size 4 = 4 * words t := by
  rw [up4]; unfold words; omega

/-- Sizes are bounded by what the arguments take. -/
theorem size_bound (o hard : Bool) (t : FType) (p : Pos) : t.size ≤ (placeArg o hard t p).2.nsaa + 32 := by
  have hw : t.size ≤ 4 * words t := by unfold words; omega
  unfold placeArg
  cases hcp : (if hard = true then cprc t else none) with
  | some x =>
    obtain ⟨n, w⟩ := x
    have hh : hard = true := by
      cases hard
      · simp at hcp
      · rfl
    rw [if_pos hh] at hcp
    have := cprc_size hcp
    have := cprc_nw hcp
    dsimp only
    omega
  | none =>
    dsimp only
    generalize (if 8 ≤ t.align then roundUp p.ncrn 2 else p.ncrn) = g
    by_cases h1 : g + words t ≤ 4
    · rw [if_pos h1]; omega
    · by_cases h2 : g < 4 ∧ p.nsaa = 0
      · rw [if_neg h1, if_pos h2]; dsimp only; omega
      · rw [if_neg h1, if_neg h2]; dsimp only; omega

/-- State of the loop of a call and position of the standard. -/
structure ORel (stack : Nat) (st : ASt) (p : Pos) : Prop where
  argp : st.argp = stack + 16 + p.nsaa
  done : st.done = true → p.ncrn = 4
  regp : st.done = false → st.regp = stack + 4 * p.ncrn
  used : st.stackUsed = decide (p.nsaa ≠ 0)

/-- How the index into `vfp_args` agrees with the standard. -/
def ViOk (v : Vfp) (vi : Nat) (t : FType) (u : List Nat) : Prop :=
  match cprc t with
  | none => True
  | some (n, w) =>
    match lowest u (n * w) w with
    | some k => vi < v.args.length ∧ v.args.getD vi 0 = k
    | none => ¬ vi < v.args.length

theorem outStep_spec {v : Vfp} {stack vs : Nat} {t : FType} {st : ASt} {p : Pos} (h8 : 8 ∣ stack) (hw : WF A32.tab t)
    (hi : Inv p) (hr : ORel stack st p) (hv : ViOk v st.vi t p.used)
    (hb : stack + 16 + (placeArg true true t p).2.nsaa < 2 ^ 62) :
    (outStep v vs (stack + 16) t (cprc t).isSome st).1 = addr stack vs (placeArg true true t p).1 ∧
      ORel stack (outStep v vs (stack + 16) t (cprc t).isSome st).2 (placeArg true true t p).2 ∧
      (outStep v vs (stack + 16) t (cprc t).isSome st).2.vi =
        st.vi + (match toVfp (placeArg true true t p).1 with | some _ => 1 | none => 0) := by
  have hsb := size_bound true true t p
  obtain ⟨hi1, hmono, -⟩ := step_spec (stack := 64) (vs := 0) (c := 0) true (hard := true) (t := t) (fun _ => by omega) hi (by omega) (Nat.le_refl _)
  have hz : ffiAlign t.size 4 = 4 * words t := by rw [I386.align_eq (by omega) (by omega), size_words]
  have hwp : 0 < words t := by have := hw.size_pos tab_ok; unfold words; omega
  have hsw : (if t.size < 4 then 4 else t.size) ≤ 4 * words t ∧ 4 * words t < (if t.size < 4 then 4 else t.size) + 4 := by
    have := hw.size_pos tab_ok
    unfold words
    split <;> omega
  have hstk : alignTy t st.argp = stack + 16 + stackAt t p.nsaa :=
    align_stack hw h8 (by rw [hr.argp]; omega) (by rw [hr.argp, up4]; have := hi.nsaa; omega)
  have htk : toStack t st = (stack + 16 + stackAt t p.nsaa,
      { st with stackUsed := true, argp := stack + 16 + (stackAt t p.nsaa + 4 * words t) }) := by
    unfold toStack
    rw [hstk, hz, Nat.add_assoc (stack + 16)]
  obtain ⟨i1, i2, i3⟩ := hi
  obtain ⟨r1, r2, r3, r4⟩ := hr
  unfold outStep placeArg
  rw [if_pos rfl]
  unfold ViOk at hv
  cases hcp : cprc t with
  | some x =>
    obtain ⟨n, w⟩ := x
    rw [hcp] at hv
    dsimp only at hv ⊢
    cases hl : lowest p.used (n * w) w with
    | some k =>
      rw [hl] at hv
      dsimp only at hv ⊢
      rw [if_pos ⟨hv.1, rfl⟩]
      exact ⟨by simp only [addr, hv.2]; omega, ⟨r1, r2, r3, r4⟩, rfl⟩
    | none =>
      rw [hl] at hv
      dsimp only at hv ⊢
      rw [if_neg (fun h => hv h.1)]
      simp only [Option.isSome_some, Bool.not_true, Bool.and_false, Bool.false_eq_true, if_false]
      rw [htk]
      exact ⟨rfl, ⟨rfl, r2, r3, by simp; omega⟩, rfl⟩
  | none =>
    simp only [Option.isSome_none, Bool.false_eq_true, and_false, if_false, Bool.not_false, Bool.and_true]
    cases hd : st.done with
    | true =>
      have hn := r2 hd
      simp only [Bool.not_true, Bool.false_eq_true, if_false]
      rw [hn, show (if 8 ≤ t.align then roundUp 4 2 else 4) = 4 from by split <;> rfl, if_neg (by omega), if_neg (by omega), htk]
      refine ⟨rfl, ⟨rfl, fun _ => ?_, fun h => ?_, by simp; omega⟩, rfl⟩
      · dsimp only; rw [ite_self]
      · simp [hd] at h
    | false =>
      have hrg := r3 hd
      have ha : alignTy t st.regp = stack + 4 * (if 8 ≤ t.align then roundUp p.ncrn 2 else p.ncrn) :=
        align_core hw h8 (by rw [hrg]; omega) (by rw [hrg, up4]; omega)
      simp only [Bool.not_false, if_true]
      rw [ha, hz]
      generalize (if t.size < 4 then 4 else t.size) = z at hsw ⊢
      obtain ⟨g, hg, hg1, hg2⟩ : ∃ g, (if 8 ≤ t.align then roundUp p.ncrn 2 else p.ncrn) = g ∧ p.ncrn ≤ g ∧ g ≤ 4 := by
        refine ⟨_, rfl, ?_⟩
        split
        · exact ⟨roundUp_ge (by decide), roundUp_least (by decide) (by decide) i1⟩
        · exact ⟨Nat.le_refl _, i1⟩
      rw [hg]
      by_cases h1 : g + words t ≤ 4
      · rw [if_pos h1, if_pos (by omega)]
        refine ⟨rfl, ⟨r1, fun h => ?_, fun _ => by dsimp only; omega, r4⟩, rfl⟩
        simp only [decide_eq_true_eq] at h
        dsimp only
        omega
      · rw [if_neg h1, if_neg (by omega)]
        by_cases h3 : p.nsaa = 0
        · have h4 : st.stackUsed = false := by rw [r4]; simp [h3]
          rw [h4]
          simp only [Bool.not_false, if_true]
          by_cases h2 : g < 4
          · rw [if_pos ⟨h2, h3⟩]
            refine ⟨rfl, ⟨by dsimp only; omega, fun _ => rfl, fun h => by simp at h, by simp; omega⟩, rfl⟩
          · have hs0 : stackAt t 0 = 0 := by unfold stackAt; split <;> rfl
            have hg4 : g = 4 := by omega
            rw [if_neg (by omega), h3, hs0, hg4]
            refine ⟨rfl, ⟨by dsimp only; omega, fun _ => ?_, fun h => by simp at h, by simp; omega⟩, rfl⟩
            dsimp only
            rw [if_neg (by simp)]
        · have h4 : st.stackUsed = true := by rw [r4]; simp [h3]
          rw [h4]
          simp only [Bool.not_true, Bool.false_eq_true, if_false]
          rw [if_neg (by omega), htk]
          refine ⟨rfl, ⟨rfl, fun h => ?_, fun _ => ?_, by simp; omega⟩, rfl⟩
          · simp [hd] at h
          · dsimp only
            rw [if_pos ⟨trivial, h3⟩]
            exact hrg

/-- State of the loop of a closure and position of the standard. -/
structure IRel (stack : Nat) (st : ASt) (p : Pos) : Prop where
  argp : roundUp st.argp 4 = stack + 16 + p.nsaa
  done : st.done = true → p.ncrn = 4
  regp : st.done = false → roundUp st.regp 4 = stack + 4 * p.ncrn
  used : st.done = false → st.stackUsed = decide (p.nsaa ≠ 0)

theorem inStep_spec {v : Vfp} {stack vs : Nat} {t : FType} {st : ASt} {p : Pos} (h8 : 8 ∣ stack) (hw : WF A32.tab t)
    (hi : Inv p) (hr : IRel stack st p) (hv : ViOk v st.vi t p.used)
    (hb : stack + 16 + (placeArg true true t p).2.nsaa < 2 ^ 62) :
    (inStep v vs (stack + 16) t (cprc t).isSome st).1 = addr stack vs (placeArg true true t p).1 ∧
      IRel stack (inStep v vs (stack + 16) t (cprc t).isSome st).2 (placeArg true true t p).2 ∧
      (inStep v vs (stack + 16) t (cprc t).isSome st).2.vi =
        st.vi + (match toVfp (placeArg true true t p).1 with | some _ => 1 | none => 0) := by
  have hsb := size_bound true true t p
  obtain ⟨hi1, hmono, -⟩ := step_spec (stack := 64) (vs := 0) (c := 0) true (hard := true) (t := t) (fun _ => by omega) hi (by omega) (Nat.le_refl _)
  have hsp := hw.size_pos tab_ok
  have hwp : 0 < words t := by unfold words; omega
  have hsw : (if t.size < 4 then 4 else t.size) ≤ 4 * words t ∧ 4 * words t < (if t.size < 4 then 4 else t.size) + 4 := by
    unfold words
    split <;> omega
  have hsz : t.size ≤ 4 * words t ∧ 4 * words t < t.size + 4 := by unfold words; omega
  have hargp := hr.argp
  have h4 := hi.nsaa
  rw [up4] at hargp
  have hstk : alignTy t st.argp = stack + 16 + stackAt t p.nsaa :=
    align_stack hw h8 (by omega) (by rw [up4]; omega)
  obtain ⟨s1, s2, s3⟩ := stackAt_spec t h4
  obtain ⟨i1, i2, i3⟩ := hi
  obtain ⟨r1, r2, r3, r4⟩ := hr
  unfold inStep placeArg
  rw [if_pos rfl]
  unfold ViOk at hv
  cases hcp : cprc t with
  | some x =>
    obtain ⟨n, w⟩ := x
    rw [hcp] at hv
    dsimp only at hv ⊢
    cases hl : lowest p.used (n * w) w with
    | some k =>
      rw [hl] at hv
      dsimp only at hv ⊢
      rw [if_pos ⟨hv.1, rfl⟩]
      exact ⟨by simp only [addr, hv.2]; omega, ⟨r1, r2, r3, r4⟩, rfl⟩
    | none =>
      rw [hl] at hv
      dsimp only at hv ⊢
      rw [if_neg (fun h => hv h.1)]
      simp only [Option.isSome_some, Bool.not_true, Bool.and_false, Bool.false_eq_true, if_false]
      rw [hstk]
      exact ⟨rfl, ⟨by dsimp only; rw [up4]; omega, r2, r3, by simp; omega⟩, rfl⟩
  | none =>
    simp only [Option.isSome_none, Bool.false_eq_true, and_false, if_false, Bool.not_false, Bool.and_true]
    cases hd : st.done with
    | true =>
      have hn := r2 hd
      simp only [Bool.not_true, Bool.false_eq_true, if_false]
      rw [hn, show (if 8 ≤ t.align then roundUp 4 2 else 4) = 4 from by split <;> rfl, if_neg (by omega), if_neg (by omega), hstk]
      refine ⟨rfl, ⟨by dsimp only; rw [up4]; omega, fun _ => ?_, fun h => ?_, fun h => ?_⟩, rfl⟩
      · dsimp only; rw [ite_self]
      · simp [hd] at h
      · simp [hd] at h
    | false =>
      have hrg := r3 hd
      have hus := r4 hd
      rw [up4] at hrg
      have ha : alignTy t st.regp = stack + 4 * (if 8 ≤ t.align then roundUp p.ncrn 2 else p.ncrn) :=
        align_core hw h8 (by omega) (by rw [up4]; omega)
      simp only [Bool.not_false, if_true, Bool.false_or]
      rw [ha, hstk]
      generalize (if t.size < 4 then 4 else t.size) = z at hsw ⊢
      obtain ⟨g, hg, hg1, hg2⟩ : ∃ g, (if 8 ≤ t.align then roundUp p.ncrn 2 else p.ncrn) = g ∧ p.ncrn ≤ g ∧ g ≤ 4 := by
        refine ⟨_, rfl, ?_⟩
        split
        · exact ⟨roundUp_ge (by decide), roundUp_least (by decide) (by decide) i1⟩
        · exact ⟨Nat.le_refl _, i1⟩
      rw [hg]
      by_cases h1 : g + words t ≤ 4
      · rw [if_pos h1, if_pos (Or.inl (by omega))]
        have hne : ¬ stack + 16 < stack + 4 * g + z := by omega
        refine ⟨rfl, ⟨by dsimp only; rw [if_neg hne]; exact r1, fun h => ?_, fun _ => by dsimp only; rw [up4]; omega,
          fun h => ?_⟩, rfl⟩
        · simp only [decide_eq_true_eq] at h
          dsimp only
          omega
        · simp only [decide_eq_false_iff_not] at h
          dsimp only
          rw [hus]
          simp [h]
      · rw [if_neg h1]
        by_cases h3 : p.nsaa = 0
        · have h4 : st.stackUsed = false := by rw [hus]; simp [h3]
          rw [h4, if_pos (Or.inr rfl)]
          have hlt : stack + 16 < stack + 4 * g + z := by omega
          have hle : stack + 16 ≤ stack + 4 * g + z := by omega
          simp only [if_pos hlt, hle, decide_true]
          by_cases h2 : g < 4
          · rw [if_pos ⟨h2, h3⟩]
            refine ⟨rfl, ⟨by dsimp only; rw [up4]; omega, fun _ => rfl, fun h => by simp at h, fun h => by simp at h⟩, rfl⟩
          · have hs0 : stackAt t 0 = 0 := by unfold stackAt; split <;> rfl
            have hg4 : g = 4 := by omega
            rw [if_neg (by omega), h3, hs0, hg4]
            refine ⟨rfl, ⟨by dsimp only; rw [up4]; omega, fun _ => ?_, fun h => by simp at h, fun h => by simp at h⟩, rfl⟩
            dsimp only
            rw [if_neg (by simp)]
        · have h4 : st.stackUsed = true := by rw [hus]; simp [h3]
          rw [h4, if_neg (by simp; omega), if_neg (by omega)]
          refine ⟨rfl, ⟨by dsimp only; rw [up4]; omega, fun h => ?_, fun _ => ?_, fun _ => by simp; omega⟩, rfl⟩
          · simp [hd] at h
          · dsimp only
            rw [if_pos ⟨trivial, h3⟩]
            exact r3 hd

/-! ## The loops -/

theorem isv_eq {t : FType} (hw : WF A32.tab t) {h : Nat} (hh : vfpTypeP t = .ok h) : decide (h ≠ 0) = (cprc t).isSome := by
  obtain ⟨c, hc, hm⟩ := vfpTypeP_spec hw
  rw [hc] at hh
  cases hh
  cases hcp : cprc t with
  | none => rw [hcp] at hm; dsimp only at hm; simp [hm]
  | some x =>
    rw [hcp] at hm
    dsimp only at hm
    have : h ≠ 0 := by omega
    simp [this]

/-- The index into `vfp_args` agrees for all arguments. -/
theorem vi_step {v : Vfp} {vi : Nat} {t : FType} {ts : List FType} {p : Pos} {pre : List Nat}
    (hv : v.args = pre ++ ksFrom (t :: ts) p.used) (hvi : vi = pre.length) :
    ViOk v vi t p.used ∧ ∃ pre', v.args = pre' ++ ksFrom ts (placeArg true true t p).2.used ∧
      vi + (match toVfp (placeArg true true t p).1 with | some _ => 1 | none => 0) = pre'.length := by
  obtain ⟨h1, h2⟩ := placeArg_used true t p
  rw [h1, h2]
  unfold ViOk
  rw [ksFrom] at hv
  cases hcp : cprc t with
  | none =>
    rw [hcp] at hv
    exact ⟨trivial, pre, hv, hvi⟩
  | some x =>
    obtain ⟨n, w⟩ := x
    rw [hcp] at hv
    dsimp only at hv ⊢
    cases hl : lowest p.used (n * w) w with
    | some k =>
      rw [hl] at hv
      dsimp only at hv ⊢
      refine ⟨⟨by rw [hv, hvi]; simp, ?_⟩, pre ++ [k], by rw [hv]; simp, by simp [hvi]⟩
      rw [hv, hvi, List.getD_eq_getElem?_getD, List.getElem?_append_right (Nat.le_refl _)]
      simp
    | none =>
      rw [hl] at hv
      dsimp only at hv ⊢
      rw [(ks_full ts).1] at hv
      refine ⟨by rw [hv, hvi]; simp, pre, by rw [(ks_full ts).1]; exact hv, hvi⟩

theorem outLoop_eq {v : Vfp} {stack vs : Nat} (h8 : 8 ∣ stack) : ∀ {ts : List FType} {as : List Nat} {st : ASt} {p : Pos}
    {m : Mem} {pre : List Nat}, (∀ t ∈ ts, WF A32.tab t) → as.length = ts.length → Inv p → ORel stack st p →
      v.args = pre ++ ksFrom ts p.used → st.vi = pre.length →
      stack + 16 + (endFrom true true ts p).nsaa < 2 ^ 62 →
      outLoop v vs (stack + 16) ts as st m = writeAll ((dests true true stack vs ts p).zip ts) as m
  | [], as, st, p, m, pre, _, _, _, _, _, _, _ => by cases as <;> rfl
  | t :: ts, [], _, _, _, _, _, hlen, _, _, _, _, _ => by simp at hlen
  | t :: ts, a :: as, st, p, m, pre, hw, hlen, hi, hr, hv, hvi, hb => by
    have hwt := hw t (by simp)
    obtain ⟨hi', hmono, -⟩ := step_spec (stack := 64) (vs := 0) (c := 0) true (hard := true) (t := t) (fun _ => by omega) hi (by omega) (Nat.le_refl _)
    have hm2 := nsaa_mono true true ts hi'
    rw [endFrom] at hb
    obtain ⟨hvo, pre', hv', hvi'⟩ := vi_step hv hvi
    obtain ⟨e1, e2, e3⟩ := outStep_spec (vs := vs) h8 hwt hi hr hvo (by omega)
    obtain ⟨h, hh, -⟩ := vfpTypeP_spec hwt
    have hisv := isv_eq hwt hh
    have hd : dests true true stack vs (t :: ts) p = addr stack vs (placeArg true true t p).1 ::
        dests true true stack vs ts (placeArg true true t p).2 := rfl
    rw [outLoop, hh, hd, List.zip_cons_cons, writeAll]
    simp only [bind, Except.bind]
    rw [hisv]
    cases putArg m t a with
    | none => rfl
    | some bs =>
      dsimp only
      rw [e1]
      exact outLoop_eq h8 (fun x hx => hw x (by simp [hx])) (by simpa using hlen) hi' e2 hv' (by rw [e3, hvi']) hb

theorem inLoop_eq {v : Vfp} {stack vs : Nat} (h8 : 8 ∣ stack) : ∀ {ts : List FType} {st : ASt} {p : Pos}
    {pre : List Nat}, (∀ t ∈ ts, WF A32.tab t) → Inv p → IRel stack st p →
      v.args = pre ++ ksFrom ts p.used → st.vi = pre.length →
      stack + 16 + (endFrom true true ts p).nsaa < 2 ^ 62 →
      inLoop v vs (stack + 16) ts st = .ok (dests true true stack vs ts p)
  | [], st, p, pre, _, _, _, _, _, _ => rfl
  | t :: ts, st, p, pre, hw, hi, hr, hv, hvi, hb => by
    have hwt := hw t (by simp)
    obtain ⟨hi', hmono, -⟩ := step_spec (stack := 64) (vs := 0) (c := 0) true (hard := true) (t := t) (fun _ => by omega) hi (by omega) (Nat.le_refl _)
    have hm2 := nsaa_mono true true ts hi'
    rw [endFrom] at hb
    obtain ⟨hvo, pre', hv', hvi'⟩ := vi_step hv hvi
    obtain ⟨e1, e2, e3⟩ := inStep_spec (vs := vs) h8 hwt hi hr hvo (by omega)
    obtain ⟨h, hh, -⟩ := vfpTypeP_spec hwt
    have hisv := isv_eq hwt hh
    have hd : dests true true stack vs (t :: ts) p = addr stack vs (placeArg true true t p).1 ::
        dests true true stack vs ts (placeArg true true t p).2 := rfl
    have ih := inLoop_eq (vs := vs) h8 (fun x hx => hw x (by simp [hx])) hi' e2 hv' (by rw [e3, hvi']) hb
    rw [inLoop, hh, hd]
    simp only [bind, Except.bind]
    rw [hisv, ih]
    dsimp only
    rw [e1]

/-! ## Base standard -/

/-- The one cursor of the base standard. -/
structure SRel (stack x : Nat) (p : Pos) : Prop where
  cur : roundUp x 4 = stack + (if p.nsaa = 0 then 4 * p.ncrn else 16 + p.nsaa)
  full : p.nsaa ≠ 0 → p.ncrn = 4

theorem soft_step (o : Bool) {stack vs x z : Nat} {t : FType} {p : Pos} (h8 : 8 ∣ stack) (hw : WF A32.tab t) (hi : Inv p)
    (hr : SRel stack x p) (hz : z ≤ 4 * words t ∧ 4 * words t < z + 4)
    (hb : stack + 16 + (placeArg o false t p).2.nsaa < 2 ^ 62) :
    alignTy t x = addr stack vs (placeArg o false t p).1 ∧ SRel stack (alignTy t x + z) (placeArg o false t p).2 ∧
      x < 2 ^ 62 := by
  obtain ⟨hi1, hmono, -⟩ := step_spec (stack := 64) (vs := 0) (c := 0) o (hard := false) (t := t) (fun _ => by omega) hi (by omega) (Nat.le_refl _)
  have hwp : 0 < words t := by have := hw.size_pos tab_ok; unfold words; omega
  obtain ⟨s1, s2, s3⟩ := stackAt_spec t hi.nsaa
  obtain ⟨i1, i2, i3⟩ := hi
  obtain ⟨r1, r2⟩ := hr
  have hx : x < 2 ^ 62 := by
    rw [up4] at r1
    split at r1 <;> omega
  refine ⟨?_, ?_, hx⟩
  all_goals
    unfold placeArg
    rw [if_neg (by simp)]
    dsimp only
    by_cases h3 : p.nsaa = 0
    · rw [if_pos h3] at r1
      rw [align_core hw h8 (by omega) r1]
      obtain ⟨g, hg, hg1, hg2⟩ : ∃ g, (if 8 ≤ t.align then roundUp p.ncrn 2 else p.ncrn) = g ∧ p.ncrn ≤ g ∧ g ≤ 4 := by
        refine ⟨_, rfl, ?_⟩
        split
        · exact ⟨roundUp_ge (by decide), roundUp_least (by decide) (by decide) i1⟩
        · exact ⟨Nat.le_refl _, i1⟩
      rw [hg]
      by_cases h1 : g + words t ≤ 4
      · rw [if_pos h1]
        first
          | rfl
          | exact ⟨by dsimp only; rw [if_pos h3, up4]; omega, fun h => absurd h3 h⟩
      · rw [if_neg h1]
        by_cases h2 : g < 4
        · rw [if_pos ⟨h2, h3⟩]
          first
            | rfl
            | exact ⟨by dsimp only; rw [if_neg (by omega), up4]; omega, fun _ => rfl⟩
        · have hs0 : stackAt t 0 = 0 := by unfold stackAt; split <;> rfl
          have hg4 : g = 4 := by omega
          rw [if_neg (by omega), h3, hs0, hg4]
          first
            | rfl
            | exact ⟨by dsimp only; rw [if_neg (by omega), up4]; omega, fun _ => by dsimp only; rw [if_neg (by simp)]⟩
    · rw [if_neg h3] at r1
      have hn := r2 h3
      rw [align_stack hw h8 (by omega) (by rw [r1]; omega : roundUp x 4 = stack + 16 + p.nsaa), hn,
        show (if 8 ≤ t.align then roundUp 4 2 else 4) = 4 from by split <;> rfl, if_neg (by omega), if_neg (by omega)]
      first
        | rfl
        | exact ⟨by dsimp only; rw [if_neg (by omega), up4]; omega, fun _ => by dsimp only; rw [ite_self]⟩

theorem sysvLoop_eq (o : Bool) {stack vs : Nat} (h8 : 8 ∣ stack) : ∀ {ts : List FType} {as : List Nat} {x : Nat} {p : Pos}
    {m : Mem}, (∀ t ∈ ts, WF A32.tab t) → as.length = ts.length → Inv p → SRel stack x p →
      stack + 16 + (endFrom o false ts p).nsaa < 2 ^ 62 →
      sysvLoop ts as x m = writeAll ((dests o false stack vs ts p).zip ts) as m
  | [], as, x, p, m, _, _, _, _, _ => by cases as <;> rfl
  | t :: ts, [], _, _, _, _, hlen, _, _, _ => by simp at hlen
  | t :: ts, a :: as, x, p, m, hw, hlen, hi, hr, hb => by
    have hwt := hw t (by simp)
    obtain ⟨hi', hmono, -⟩ := step_spec (stack := 64) (vs := 0) (c := 0) o (hard := false) (t := t) (fun _ => by omega) hi (by omega) (Nat.le_refl _)
    have hm2 := nsaa_mono o false ts hi'
    rw [endFrom] at hb
    have hsb := size_bound o false t p
    have hz : ffiAlign t.size 4 = 4 * words t := by rw [I386.align_eq (by omega) (by omega), size_words]
    obtain ⟨e1, e2, -⟩ := soft_step (vs := vs) o (z := 4 * words t) h8 hwt hi hr (by omega) (by omega)
    have hd : dests o false stack vs (t :: ts) p = addr stack vs (placeArg o false t p).1 ::
        dests o false stack vs ts (placeArg o false t p).2 := rfl
    rw [sysvLoop, hd, List.zip_cons_cons, writeAll, hz]
    cases putArg m t a with
    | none => rfl
    | some bs =>
      dsimp only
      rw [← e1]
      exact sysvLoop_eq o h8 (fun x hx => hw x (by simp [hx])) (by simpa using hlen) hi' e2 hb

theorem sysvIn_eq (o : Bool) {stack vs : Nat} (h8 : 8 ∣ stack) : ∀ {ts : List FType} {x : Nat} {p : Pos},
    (∀ t ∈ ts, WF A32.tab t) → Inv p → SRel stack x p → stack + 16 + (endFrom o false ts p).nsaa < 2 ^ 62 →
      sysvIn ts x = dests o false stack vs ts p
  | [], x, p, _, _, _, _ => rfl
  | t :: ts, x, p, hw, hi, hr, hb => by
    have hwt := hw t (by simp)
    obtain ⟨hi', hmono, -⟩ := step_spec (stack := 64) (vs := 0) (c := 0) o (hard := false) (t := t) (fun _ => by omega) hi (by omega) (Nat.le_refl _)
    have hm2 := nsaa_mono o false ts hi'
    rw [endFrom] at hb
    obtain ⟨e1, e2, -⟩ := soft_step (vs := vs) o (z := t.size) h8 hwt hi hr (by unfold words; omega) (by omega)
    have hd : dests o false stack vs (t :: ts) p = addr stack vs (placeArg o false t p).1 ::
        dests o false stack vs ts (placeArg o false t p).2 := rfl
    rw [sysvIn, hd, sysvIn_eq (vs := vs) o h8 (fun x hx => hw x (by simp [hx])) hi' e2 hb, e1]

end Verif.Arm
