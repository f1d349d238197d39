import Verif.AArch64.Model
import Verif.Spec.AArch64
import Verif.Spec.TypeLemmas

/-
`is_vfp_type` decides the definition of homogeneous floating-point aggregates.
-/
namespace Verif.A64
open Verif Spec Spec.A64

/-- Kinds of the scalar components. -/
def tcs (t : FType) : List TC := (leaves t 0).map (·.tc)

theorem leaves_tcs (t : FType) (o : Nat) : (leaves t o).map (·.tc) = tcs t := by
  have h := leaves_shift t 0 o
  rw [Nat.zero_add] at h
  rw [h, List.map_map]
  rfl

theorem leavesL_tcs (es : List FType) (o cur : Nat) :
    (leavesL es o cur).map (·.tc) = es.flatMap tcs := by
  induction es generalizing cur with
  | nil => simp [leavesL]
  | cons e es ih => simp only [leavesL, List.map_append, leaves_tcs, ih, List.flatMap_cons]

theorem tcs_struct (s a : Nat) (es : List FType) : tcs (.mk s a .struct es) = es.flatMap tcs := by
  unfold tcs
  rw [leaves]
  exact leavesL_tcs es 0 0

theorem tcs_scalar {tab} (ht : TabOk tab) {s a : Nat} {tc : TC} (h : tab tc = some (s, a)) : tcs (.mk s a tc []) = [tc] := by
  have := ht _ _ _ h
  cases tc <;> first | rfl | (exact absurd rfl this.2.2.2.2.1) | (exact absurd rfl this.2.2.2.2.2)

theorem tcs_complex (s a s' a' : Nat) (tc : TC) (es : List FType) :
    tcs (.mk s a .complex [.mk s' a' tc es]) = [tc, tc] := rfl

theorem tcs_ne_nil {tab} (ht : TabOk tab) {t : FType} (h : WF tab t) : tcs t ≠ [] := by
  obtain ⟨l, hl, _⟩ := h.align_leaf ht 0
  intro hc
  have : l.tc ∈ tcs t := List.mem_map_of_mem hl
  rw [hc] at this
  cases this

/-- `is_hfa0` on a list finds the first scalar. -/
theorem isHfa0L_of {es : List FType}
    (ih : ∀ e ∈ es, ∀ rest, isHfa0L (e :: rest) = (tcs e).head?.or (isHfa0L rest)) :
    isHfa0L es = (es.flatMap tcs).head? := by
  induction es with
  | nil => rw [isHfa0L]; rfl
  | cons e es ih2 =>
    rw [ih e (by simp), ih2 (fun x hx => ih x (by simp [hx])), List.flatMap_cons, List.head?_append]

theorem isHfa0L_cons {tab} (ht : TabOk tab) {e : FType} (h : WF tab e) (rest : List FType) :
    isHfa0L (e :: rest) = (tcs e).head?.or (isHfa0L rest) := by
  induction h generalizing rest with
  | @scalar tc s a h =>
    rw [tcs_scalar ht h]
    have := ht _ _ _ h
    rw [isHfa0L, if_neg (by tauto)]
    rfl
  | @complex tc s a hb h =>
    rw [tcs_complex]
    have := ht _ _ _ h
    have h1 : isHfa0L [FType.mk s a tc []] = some tc := by rw [isHfa0L, if_neg (by tauto)]
    rw [isHfa0L, if_pos (Or.inr rfl), isHfa0, h1]
    rfl
  | @struct es s a offs hes hl ih =>
    rw [tcs_struct, isHfa0L, if_pos (Or.inl rfl), isHfa0, isHfa0L_of ih]
    cases (es.flatMap tcs).head? <;> rfl

theorem isHfa0_eq {tab} (ht : TabOk tab) {e : FType} (h : WF tab e) (hs : e.tc = .struct ∨ e.tc = .complex) :
    isHfa0 e = (tcs e).head? := by
  cases h with
  | @scalar tc s a h => have := ht _ _ _ h; simp only [FType.tc_mk] at hs; tauto
  | @complex tc s a hb h =>
    have := ht _ _ _ h
    rw [tcs_complex, isHfa0, isHfa0L, if_neg (by tauto)]
    rfl
  | @struct es s a offs hes hl =>
    rw [tcs_struct, isHfa0]
    exact isHfa0L_of (fun e he rest => isHfa0L_cons ht (hes e he) rest)

/-- `is_hfa1` checks all scalars. -/
theorem isHfa1L_of {cand : TC} {es : List FType}
    (ih : ∀ e ∈ es, ∀ rest, isHfa1L cand (e :: rest) = ((tcs e).all (· = cand) && isHfa1L cand rest)) :
    isHfa1L cand es = (es.flatMap tcs).all (· = cand) := by
  induction es with
  | nil => rw [isHfa1L]; rfl
  | cons e es ih2 =>
    rw [ih e (by simp), ih2 (fun x hx => ih x (by simp [hx])), List.flatMap_cons, List.all_append]

theorem isHfa1L_cons {tab} (ht : TabOk tab) {cand : TC} {e : FType} (h : WF tab e) (rest : List FType) :
    isHfa1L cand (e :: rest) = ((tcs e).all (· = cand) && isHfa1L cand rest) := by
  induction h generalizing rest with
  | @scalar tc s a h =>
    rw [tcs_scalar ht h]
    have := ht _ _ _ h
    rw [isHfa1L, if_neg (by tauto)]
    simp
  | @complex tc s a hb h =>
    rw [tcs_complex]
    have := ht _ _ _ h
    have h1 : isHfa1L cand [FType.mk s a tc []] = decide (tc = cand) := by
      rw [isHfa1L, if_neg (by tauto), isHfa1L, Bool.and_true]
    rw [isHfa1L, if_pos (Or.inr rfl), isHfa1, h1]
    simp
  | @struct es s a offs hes hl ih =>
    rw [tcs_struct, isHfa1L, if_pos (Or.inl rfl), isHfa1, isHfa1L_of ih]

/-- A type made of one kind of floating-point number has no padding. -/
theorem size_of_same' {tab} (ht : TabOk tab) {k : TC} {z : Nat} (hz : tab k = some (z, z)) {t : FType} (h : WF tab t)
    (hall : ∀ c ∈ tcs t, c = k) : t.align = z ∧ t.size = (tcs t).length * z := by
  induction h with
  | @scalar tc s a h =>
    rw [tcs_scalar ht h] at hall ⊢
    have : tc = k := hall tc (by simp)
    rw [this, hz] at h
    cases h
    exact ⟨rfl, (Nat.one_mul _).symm⟩
  | @complex tc s a hb h =>
    rw [tcs_complex] at hall ⊢
    have : tc = k := hall tc (by simp)
    rw [this, hz] at h
    cases h
    exact ⟨rfl, rfl⟩
  | @struct es s a offs hes hl ih =>
    rw [tcs_struct] at hall ⊢
    have hzp : 0 < z := (ht _ _ _ hz).2.1
    have hm : ∀ e ∈ es, e.align = z ∧ e.size = (tcs e).length * z := fun e he =>
      ih e he (fun c hc => hall c (List.mem_flatMap.2 ⟨e, he, hc⟩))
    obtain ⟨e', hp, hmax, hlm⟩ := hl
    have ha : a = z := by
      obtain ⟨m, hm1, hm2⟩ := hmax.1
      obtain ⟨e, he, rfl⟩ := List.mem_map.1 hm1
      rw [← hm2]; exact (hm e he).1
    subst ha
    have hend : ∀ (es : List FType) (cur offs e'), (∀ e ∈ es, e.align = a ∧ e.size = (tcs e).length * a) →
        a ∣ cur → Placed cur (es.map fun e => (e.size, e.align)) offs e' →
        e' = cur + (es.flatMap tcs).length * a := by
      intro es
      induction es with
      | nil => intro cur offs e' _ _ hp; cases hp; simp
      | cons e es ih2 =>
        intro cur offs e' hm hd hp
        cases hp with
        | @cons _ o _ _ _ os _ h1 h2 =>
          obtain ⟨he1, he2⟩ := hm e (by simp)
          rw [he1] at h1
          have ho : o = cur := by rw [h1.eq_roundUp hzp, roundUp_of_dvd hzp hd]
          subst ho
          rw [he2] at h2
          have := ih2 _ _ _ (fun x hx => hm x (by simp [hx])) (Nat.dvd_add hd (Nat.dvd_mul_left _ _)) h2
          rw [this, List.flatMap_cons, List.length_append]
          ring
    have he := hend es 0 offs e' hm (Nat.dvd_zero _) hp
    rw [Nat.zero_add] at he
    refine ⟨rfl, ?_⟩
    rw [FType.size_mk, hlm.eq_roundUp hzp, he, roundUp_of_dvd hzp (Nat.dvd_mul_left _ _)]

theorem size_of_same {k : TC} {z : Nat} (hk : fpSize k = some z) {t : FType} (h : WF lp64 t)
    (hall : ∀ c ∈ tcs t, c = k) : t.align = z ∧ t.size = (tcs t).length * z :=
  size_of_same' lp64_ok (by cases k <;> simp [fpSize] at hk <;> subst hk <;> rfl) h hall

theorem fpSizeof_eq {k : TC} {z : Nat} (hk : fpSize k = some z) : fpSizeof k = z ∧ 0 < z := by
  cases k <;> simp [fpSize] at hk <;> subst hk <;> simp [fpSizeof]

theorem fpSizeof_none {k : TC} (hk : fpSize k = none) : fpSizeof k = 0 ∧ fpCode k = 0 := by
  cases k <;> simp [fpSize] at hk <;> simp [fpSizeof, fpCode]

theorem all_eq_replicate {α} [DecidableEq α] {k : α} {l : List α} :
    l.all (· = k) = true ↔ l = List.replicate l.length k := by
  rw [List.eq_replicate_iff]
  simp

/-- The number of members found by the specification and the code of `is_vfp_type`. -/
theorem isVfp_spec {t : FType} (h : WF lp64 t) :
    ∃ c, isVfp t = .ok c ∧
      match hfa t with
      | none => c = 0
      | some n => ∃ k z, fpSize k = some z ∧ 1 ≤ n ∧ n ≤ 4 ∧ tcs t = List.replicate n k ∧
          t.size = n * z ∧ t.align = z ∧ c = fpCode k * 4 + (4 - n) := by
  have key : ∀ k ks, tcs t = k :: ks → hfa t =
      match fpSize k with
      | none => none
      | some z => if ks.length < 4 ∧ ks = List.replicate ks.length k ∧ t.size = (ks.length + 1) * z then
          some (ks.length + 1) else none := by
    intro k ks hk
    unfold hfa
    have hk' : (leaves t 0).map (·.tc) = k :: ks := hk
    simp only [hk']
    cases fpSize k <;> rfl
  cases h with
  | @scalar tc s a h =>
    have hw : WF lp64 (.mk s a tc []) := .scalar h
    have htc := lp64_ok _ _ _ h
    rw [key tc [] (tcs_scalar lp64_ok h)]
    cases hf : fpSize tc with
    | none =>
      refine ⟨0, ?_, rfl⟩
      cases tc <;> first | rfl | (simp [fpSize] at hf; done) | exact absurd rfl htc.2.2.2.2.1 | exact absurd rfl htc.2.2.2.2.2
    | some z =>
      have hs := size_of_same hf hw (by rw [tcs_scalar lp64_ok h]; simp)
      rw [tcs_scalar lp64_ok h] at hs
      simp only [List.length_nil, Nat.zero_lt_succ, List.replicate_zero, true_and]
      rw [if_pos (by simpa using hs.2)]
      refine ⟨fpCode tc * 4 + 3, ?_, tc, z, hf, by omega, by omega, by rw [tcs_scalar lp64_ok h]; rfl, by simpa using hs.2, hs.1, rfl⟩
      cases tc <;> simp [fpSize] at hf <;> rfl
  | @complex tc s a hb h =>
    have hw : WF lp64 (.mk (2 * s) a .complex [.mk s a tc []]) := .complex hb h
    rw [key tc [tc] (tcs_complex ..)]
    cases hf : fpSize tc with
    | none =>
      refine ⟨0, ?_, rfl⟩
      have h0 : fpCode (FType.mk s a tc []).tc = 0 := (fpSizeof_none hf).2
      simp only [isVfp, h0, if_true]
    | some z =>
      have hs := size_of_same hf hw (by rw [tcs_complex]; simp)
      rw [tcs_complex] at hs
      simp only [List.length_cons, List.length_nil] at hs ⊢
      rw [if_pos ⟨by omega, rfl, hs.2⟩]
      refine ⟨fpCode tc * 4 + 2, ?_, tc, z, hf, by omega, by omega, by rw [tcs_complex]; rfl, hs.2, hs.1, rfl⟩
      have h0 : ¬ fpCode (FType.mk s a tc []).tc = 0 := by
        cases tc <;> simp [fpSize] at hf <;> simp [fpCode]
      simp only [isVfp, h0, if_false]
      rfl
  | @struct es s a offs hes hl =>
    have hw : WF lp64 (.mk s a .struct es) := .struct hes hl
    have hst := tcs_struct s a es
    have hne := tcs_ne_nil lp64_ok hw
    obtain ⟨k, ks, hks⟩ := List.exists_cons_of_ne_nil hne
    rw [key k ks hks]
    have hall1 : isHfa1L k es = (es.flatMap tcs).all (· = k) :=
      isHfa1L_of (fun e he rest => isHfa1L_cons lp64_ok (hes e he) rest)
    rw [← hst] at hall1
    -- the candidate
    have hes0 : es ≠ [] := by
      rintro rfl
      rw [hst] at hne
      exact hne rfl
    obtain ⟨e, es', rfl⟩ := List.exists_cons_of_ne_nil hes0
    have hcand : candidate e (e :: es') = .ok k := by
      unfold candidate
      have hwe := hes e (by simp)
      obtain ⟨k', ks', hk'⟩ := List.exists_cons_of_ne_nil (tcs_ne_nil lp64_ok hwe)
      have hkk : k' = k := by
        rw [hst, List.flatMap_cons, hk'] at hks
        simp only [List.cons_append, List.cons.injEq] at hks
        exact hks.1
      by_cases hs : e.tc = .struct ∨ e.tc = .complex
      · rw [if_pos hs, findCand, isHfa0_eq lp64_ok hwe hs, hk']
        simp [hkk]
      · rw [if_neg hs]
        cases hwe with
        | @scalar tc s a h => rw [tcs_scalar lp64_ok h] at hk'; cases hk'; rw [hkk]; rfl
        | @complex tc s a hb h => simp at hs
        | @struct es s a offs h1 h2 => simp at hs
    have hstep : isVfp (.mk s a .struct (e :: es')) =
        if s < 4 ∨ 64 < s then .ok 0
        else if fpSizeof k = 0 then .ok 0
        else if s ≠ s / fpSizeof k * fpSizeof k then .ok 0
        else if 4 < s / fpSizeof k then .ok 0
        else if isHfa1L k (e :: es') then .ok (fpCode k * 4 + (4 - s / fpSizeof k))
        else .ok 0 := by
      simp only [isVfp, vfpStruct, hcand]
      rfl
    cases hf : fpSize k with
    | none =>
      refine ⟨0, ?_, rfl⟩
      rw [hstep, if_pos (fpSizeof_none hf).1, ite_self]
    | some z =>
      obtain ⟨hz, hzp⟩ := fpSizeof_eq hf
      rw [hz] at hstep
      beta_reduce
      dsimp only
      by_cases hall : (tcs (.mk s a .struct (e :: es'))).all (· = k) = true
      · have hall' := hall
        rw [List.all_eq_true] at hall'
        obtain ⟨hal, hsz⟩ := size_of_same hf hw (by simpa using hall')
        simp only [FType.size_mk, FType.align_mk] at hal hsz
        rw [hks] at hsz
        simp only [List.length_cons] at hsz
        have hrep : ks = List.replicate ks.length k := by
          rw [all_eq_replicate, hks, List.length_cons, List.replicate_succ] at hall
          exact (List.cons.inj hall).2
        by_cases h4 : ks.length < 4
        · rw [if_pos ⟨h4, hrep, hsz⟩]
          have hdiv : s / z = ks.length + 1 := by rw [hsz, Nat.mul_div_cancel _ hzp]
          refine ⟨fpCode k * 4 + (4 - (ks.length + 1)), ?_, k, z, hf, by omega, by omega, ?_, hsz, hal, rfl⟩
          · have hz16 : 4 ≤ z ∧ z ≤ 16 := by
              cases k <;> simp [fpSize] at hf <;> omega
            have h1 : 4 ≤ s := by rw [hsz]; nlinarith
            have h2 : s ≤ 64 := by rw [hsz]; nlinarith
            rw [hstep, if_neg (by omega), if_neg (by omega), hdiv, if_neg (by rw [← hsz]; simp),
              if_neg (by omega), if_pos (by rw [hall1, hall])]
          · rw [hks, List.replicate_succ, ← hrep]
        · rw [if_neg (by tauto)]
          refine ⟨0, ?_, rfl⟩
          have hdiv : s / z = ks.length + 1 := by rw [hsz, Nat.mul_div_cancel _ hzp]
          rw [hstep, hdiv, if_pos (show 4 < ks.length + 1 by omega)]
          simp
      · rw [if_neg]
        · refine ⟨0, ?_, rfl⟩
          rw [hstep, hall1, if_neg hall]
          simp
        · rintro ⟨_, hr, _⟩
          apply hall
          rw [all_eq_replicate, hks, List.length_cons, List.replicate_succ, ← hr]

end Verif.A64
