import Verif.Arm.Model
import Verif.AArch64.Hfa

/-! `vfp_type_p` decides which types are candidates for VFP registers. -/
namespace Verif.Arm
open Verif Spec
open Verif.A64 (tcs tcs_scalar tcs_complex tcs_struct tcs_ne_nil all_eq_replicate)
open Verif.Spec.A32 (cprc fpWords)

theorem tab_ok : TabOk A32.tab := by
  intro tc s a h
  cases tc <;> simp [A32.tab] at h <;> obtain ⟨rfl, rfl⟩ := h <;> decide

theorem tab_fp {k : TC} {w : Nat} (h : fpWords k = some w) :
    A32.tab k = some (4 * w, 4 * w) ∧ fpSizeof k = 4 * w ∧ code k = w + 1 ∧ (w = 1 ∨ w = 2) := by
  cases k <;> simp [fpWords] at h <;> subst h <;> exact ⟨rfl, rfl, rfl, by decide⟩

theorem fpWords_none {k : TC} (h : fpWords k = none) : fpSizeof k = 0 ∧ k ≠ .float ∧ k ≠ .double := by
  cases k <;> simp [fpWords] at h <;> exact ⟨rfl, by decide, by decide⟩

theorem cprc_of_tcs {t : FType} {k : TC} {ks : List TC} (h : tcs t = k :: ks) :
    cprc t = match fpWords k with
      | none => none
      | some w => if ks.length < 4 ∧ ks = List.replicate ks.length k ∧ t.size = 4 * ((ks.length + 1) * w) then
          some (ks.length + 1, w) else none := by
  unfold cprc
  have h' : (leaves t 0).map (·.tc) = k :: ks := h
  simp only [h']
  cases fpWords k <;> rfl

theorem same_size {t : FType} (h : WF A32.tab t) {k : TC} {w : Nat} (hk : fpWords k = some w)
    (hall : ∀ c ∈ tcs t, c = k) : t.align = 4 * w ∧ t.size = 4 * ((tcs t).length * w) := by
  obtain ⟨h1, h2⟩ := A64.size_of_same' tab_ok (tab_fp hk).1 h hall
  exact ⟨h1, by rw [h2]; ring⟩

/-- What `vfp_type_p` returns. -/
theorem vfpTypeP_spec {t : FType} (h : WF A32.tab t) :
    ∃ c, vfpTypeP t = .ok c ∧
      match cprc t with
      | none => c = 0
      | some (n, w) => 1 ≤ n ∧ n ≤ 4 ∧ (w = 1 ∨ w = 2) ∧ c = n * 256 + (w + 1) ∧ t.size = 4 * (n * w) ∧
          t.align = 4 * w ∧ ∃ k, fpWords k = some w ∧ tcs t = List.replicate n k := by
  cases h with
  | @scalar tc s a h =>
    have hw : WF A32.tab (.mk s a tc []) := .scalar h
    have htc := tab_ok _ _ _ h
    rw [cprc_of_tcs (tcs_scalar tab_ok h)]
    cases hf : fpWords tc with
    | none =>
      refine ⟨0, ?_, rfl⟩
      cases tc <;> first | rfl | (simp [fpWords] at hf; done) | exact absurd rfl htc.2.2.2.2.1 | exact absurd rfl htc.2.2.2.2.2
    | some w =>
      have hs := same_size hw hf (by rw [tcs_scalar tab_ok h]; simp)
      rw [tcs_scalar tab_ok h] at hs
      simp only [List.length_nil, Nat.zero_lt_succ, List.replicate_zero, true_and]
      rw [if_pos (by simpa using hs.2)]
      refine ⟨256 + code tc, ?_, by omega, by omega, (tab_fp hf).2.2.2, by rw [(tab_fp hf).2.2.1], hs.2, hs.1, tc, hf,
        by rw [tcs_scalar tab_ok h]; rfl⟩
      cases tc <;> simp [fpWords] at hf <;> rfl
  | @complex tc s a hb h =>
    have hw : WF A32.tab (.mk (2 * s) a .complex [.mk s a tc []]) := .complex hb h
    rw [cprc_of_tcs (tcs_complex ..)]
    cases hf : fpWords tc with
    | none =>
      refine ⟨0, ?_, rfl⟩
      have h0 := (fpWords_none hf).2
      unfold vfpTypeP
      exact if_pos h0
    | some w =>
      have hs := same_size hw hf (by rw [tcs_complex]; simp)
      rw [tcs_complex] at hs
      simp only [List.length_cons, List.length_nil] at hs ⊢
      rw [if_pos ⟨by omega, rfl, hs.2⟩]
      refine ⟨2 * 256 + code tc, ?_, by omega, by omega, (tab_fp hf).2.2.2, by rw [(tab_fp hf).2.2.1], hs.2, hs.1, tc, hf,
        by rw [tcs_complex]; rfl⟩
      have h0 : ¬ (tc ≠ .float ∧ tc ≠ .double) := by
        cases tc <;> simp [fpWords] at hf <;> simp
      unfold vfpTypeP
      exact if_neg h0
  | @struct es s a offs hes hl =>
    have hw : WF A32.tab (.mk s a .struct es) := .struct hes hl
    have hst := tcs_struct s a es
    have hne := tcs_ne_nil tab_ok hw
    obtain ⟨k, ks, hks⟩ := List.exists_cons_of_ne_nil hne
    rw [cprc_of_tcs hks]
    have hall1 : A64.isHfa1L k es = (es.flatMap tcs).all (· = k) :=
      A64.isHfa1L_of (fun e he rest => A64.isHfa1L_cons tab_ok (hes e he) rest)
    rw [← hst] at hall1
    have hes0 : es ≠ [] := by
      rintro rfl
      rw [hst] at hne
      exact hne rfl
    obtain ⟨e, es', rfl⟩ := List.exists_cons_of_ne_nil hes0
    have hcand : A64.candidate e (e :: es') = .ok k := by
      unfold A64.candidate
      have hwe := hes e (by simp)
      obtain ⟨k', ks', hk'⟩ := List.exists_cons_of_ne_nil (tcs_ne_nil tab_ok hwe)
      have hkk : k' = k := by
        rw [hst, List.flatMap_cons, hk'] at hks
        simp only [List.cons_append, List.cons.injEq] at hks
        exact hks.1
      by_cases hs : e.tc = .struct ∨ e.tc = .complex
      · rw [if_pos hs, A64.findCand, A64.isHfa0_eq tab_ok hwe hs, hk']
        simp [hkk]
      · rw [if_neg hs]
        cases hwe with
        | @scalar tc s a h => rw [tcs_scalar tab_ok h] at hk'; cases hk'; rw [hkk]; rfl
        | @complex tc s a hb h => simp at hs
        | @struct es s a offs h1 h2 => simp at hs
    have hstep : vfpTypeP (.mk s a .struct (e :: es')) =
        if s < 4 ∨ 32 < s then .ok 0
        else if fpSizeof k = 0 then .ok 0
        else if s ≠ s / fpSizeof k * fpSizeof k then .ok 0
        else if 4 < s / fpSizeof k then .ok 0
        else if A64.isHfa1L k (e :: es') then .ok (s / fpSizeof k * 256 + code k)
        else .ok 0 := by
      simp only [vfpTypeP, vfpStruct, hcand]
      rfl
    cases hf : fpWords k with
    | none =>
      refine ⟨0, ?_, rfl⟩
      rw [hstep, if_pos (fpWords_none hf).1, ite_self]
    | some w =>
      obtain ⟨-, hz, hc, hw12⟩ := tab_fp hf
      rw [hz] at hstep
      dsimp only
      by_cases hall : (tcs (.mk s a .struct (e :: es'))).all (· = k) = true
      · have hall' := hall
        rw [List.all_eq_true] at hall'
        obtain ⟨hal, hsz⟩ := same_size hw hf (by simpa using hall')
        simp only [FType.size_mk, FType.align_mk] at hal hsz
        rw [hks] at hsz
        simp only [List.length_cons] at hsz
        have hrep : ks = List.replicate ks.length k := by
          rw [all_eq_replicate, hks, List.length_cons, List.replicate_succ] at hall
          exact (List.cons.inj hall).2
        have hdiv : s / (4 * w) = ks.length + 1 := by
          rw [hsz, show 4 * ((ks.length + 1) * w) = (ks.length + 1) * (4 * w) by ring]
          exact Nat.mul_div_cancel _ (by omega)
        by_cases h4 : ks.length < 4
        · rw [if_pos ⟨h4, hrep, hsz⟩]
          refine ⟨(ks.length + 1) * 256 + (w + 1), ?_, by omega, by omega, hw12, rfl, hsz, hal, k, hf, ?_⟩
          · have h1 : 4 ≤ s ∧ s ≤ 32 := by rcases hw12 with rfl | rfl <;> omega
            rw [hstep, if_neg (by omega), if_neg (by omega), hdiv,
              if_neg (show ¬ s ≠ (ks.length + 1) * (4 * w) by rw [ne_eq, not_not, hsz]; ring),
              if_neg (by omega), if_pos (by rw [hall1, hall]), hc]
          · rw [hks, List.replicate_succ, ← hrep]
        · rw [if_neg (by tauto)]
          refine ⟨0, ?_, rfl⟩
          rw [hstep, hdiv, if_pos (show 4 < ks.length + 1 by omega)]
          simp
      · rw [if_neg]
        · refine ⟨0, ?_, rfl⟩
          rw [hstep, hall1, if_neg hall]
          simp
        · rintro ⟨_, hr, _⟩
          apply hall
          rw [all_eq_replicate, hks, List.length_cons, List.replicate_succ, ← hr]

end Verif.Arm
