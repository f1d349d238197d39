import Verif.X64.RetLemmas
import Verif.X64.EntryLemmas

/-
`ffi_prep_cif_machdep` as a whole.
-/
namespace Verif.X64
open Verif Spec Spec.X64

/-- A type with a single component has the size of that component. -/
theorem single_leaf_size {t : FType} (hwf : WF lp64 t) : ∀ o l, leaves t o = [l] → t.size = l.size := by
  induction hwf with
  | @scalar tc s a h =>
    intro o l hl
    rw [leaves_scalar h] at hl
    injection hl with hl
    rw [← hl]; rfl
  | @complex tc s a hb h => intro o l hl; simp [leaves] at hl
  | @struct es s a offs hwf hl ih =>
    intro o l h1
    obtain ⟨end_, hp, hmx, hle⟩ := hl
    simp only [leaves] at h1
    cases es with
    | nil => simp [leavesL] at h1
    | cons e es =>
      simp only [leavesL] at h1
      obtain ⟨l1, hl1, _⟩ := (hwf e (by simp)).align_leaf lp64_ok (o + roundUp 0 e.align)
      cases es with
      | cons e2 es =>
        simp only [leavesL] at h1
        obtain ⟨l2, hl2, _⟩ := (hwf e2 (by simp)).align_leaf lp64_ok
          (o + roundUp (roundUp 0 e.align + e.size) e2.align)
        have := congrArg List.length h1
        have p1 := List.length_pos_of_mem hl1
        have p2 := List.length_pos_of_mem hl2
        simp at this
        omega
      | nil =>
        simp only [leavesL, List.append_nil] at h1
        have he := ih e (by simp) _ _ h1
        have hap := (hwf e (by simp)).align_pos lp64_ok
        have hds := (hwf e (by simp)).align_dvd_size lp64_ok
        simp only [List.map_cons, List.map_nil] at hp hmx
        cases hp with
        | cons hm hp =>
          cases hp
          have h0 := Nat.le_zero.1 (hm.2.2 0 (Nat.dvd_zero _) (Nat.le_refl _))
          obtain ⟨⟨m, hmm, hma⟩, _⟩ := hmx
          simp only [List.mem_cons, List.not_mem_nil, or_false] at hmm
          subst hmm
          simp only at hma
          subst hma h0
          have := hle.eq_roundUp hap
          rw [Nat.zero_add, roundUp_of_dvd hap hds] at this
          simp only [FType.size_mk]
          omega

/-- The one type whose result the code does not handle as the psABI asks for: a
struct that consists of a single `long double`. -/
def LdStruct (t : FType) : Prop := t.tc = .struct ∧ leaves t 0 = [⟨0, 16, .longdouble⟩]

instance (t) : Decidable (LdStruct t) := by unfold LdStruct; infer_instance

theorem ldStruct_flags {t : FType} (hwf : WF lp64 t) (h : LdStruct t) :
    retFlags t = .ok (some (⟨.stRaxRdx, false, false, 16⟩, 0)) ∧ retPlace t = .x87 ∧ t.size = 16 := by
  obtain ⟨hst, hl⟩ := h
  have hsz : t.size = 16 := single_leaf_size hwf 0 _ hl
  have hal : t.align = 16 := (any_x87_iff hwf).1 (by rw [hl]; rfl)
  obtain ⟨cls, hc, hs⟩ := classify_spec hwf 0 (by omega) (Nat.dvd_zero _) (by omega)
  have hcls := hs.x87 hal (by omega)
  subst hcls
  have hex : examine t true = .ok (.x87 [.x87, .x87up]) := by
    unfold examine; rw [hc]; rfl
  refine ⟨?_, ?_, hsz⟩
  · unfold retFlags
    rw [hst]
    simp only [hex, hsz]
    rfl
  · unfold retPlace
    rw [if_neg (by rw [hst]; simp), if_pos hl]

/-- The return part of preparation. -/
theorem retFlags_spec {rt : FType} (h : RetOk rt) :
    ∃ fl, retFlags rt = .ok (some (fl, firstReg rt)) ∧ fl.inMem = decide (retPlace rt = .mem) ∧
      fl.xmm = false ∧ fl.size < 2 ^ 20 := by
  have done : ∀ fl, retFlags rt = .ok (some (fl, 0)) → fl.inMem = false → fl.xmm = false →
      fl.size < 2 ^ 20 → retPlace rt ≠ .mem →
      ∃ fl, retFlags rt = .ok (some (fl, firstReg rt)) ∧ fl.inMem = decide (retPlace rt = .mem) ∧
        fl.xmm = false ∧ fl.size < 2 ^ 20 := by
    intro fl h1 h2 h3 h4 h5
    exact ⟨fl, by rw [h1, firstReg, if_neg h5], by rw [h2, decide_eq_false h5], h3, h4⟩
  rcases h with h | h
  · refine done (.ofRet .void) ?_ rfl rfl (by simp [Flags.ofRet]) ?_
    · unfold retFlags; rw [h]
    · unfold retPlace; rw [if_pos h]; simp
  · by_cases hld : LdStruct rt
    · obtain ⟨h1, h2, _⟩ := ldStruct_flags h hld
      exact done _ h1 rfl rfl (by simp) (by rw [h2]; simp)
    · cases h with
      | scalar h =>
        obtain ⟨fl, h1, h2, h3, h4, h5, _⟩ := good_scalar h
        exact done fl h1 h2 h3 h4 h5
      | complex hb h =>
        obtain ⟨fl, h1, h2, h3, h4, h5, _⟩ := good_complex hb h
        exact done fl h1 h2 h3 h4 h5
      | struct hwf hl =>
        rcases good_struct (.struct hwf hl) rfl (fun hc => hld ⟨rfl, hc⟩) with
          ⟨h1, h2⟩ | ⟨fl, h1, h2, h3, h4, h5, _⟩
        · exact ⟨_, by rw [h2, firstReg, if_pos h1], by rw [decide_eq_true h1], rfl, by simp⟩
        · exact done fl h1 h2 h3 h4 h5

/-- Result values of everything but a struct of one `long double`. -/
theorem retFlags_good {rt : FType} (h : WF lp64 rt) (hld : ¬LdStruct rt) (hm : retPlace rt ≠ .mem) :
    ∃ fl, retFlags rt = .ok (some (fl, 0)) ∧ GoodStore rt fl ∧ GoodLoad rt fl := by
  cases h with
  | scalar h =>
    obtain ⟨fl, h1, h2, h3, h4, h5, h6⟩ := good_scalar h
    exact ⟨fl, h1, h6⟩
  | complex hb h =>
    obtain ⟨fl, h1, h2, h3, h4, h5, h6⟩ := good_complex hb h
    exact ⟨fl, h1, h6⟩
  | struct hwf hl =>
    rcases good_struct (.struct hwf hl) rfl (fun hc => hld ⟨rfl, hc⟩) with
      ⟨h1, h2⟩ | ⟨fl, h1, h2, h3, h4, h5, h6⟩
    · exact absurd h1 hm
    · exact ⟨fl, h1, h6⟩

theorem ffiAlign8_small {v : Nat} (h : v + 8 < 2 ^ 32) : v ≤ ffiAlign v 8 % 2 ^ 32 := by
  have := ffiAlign_eq_roundUp (v := v) (k := 3) (by omega)
  rw [show (2 : Nat) ^ 3 = 8 from rfl] at this
  rw [this]
  have h1 := roundUp_ge (v := v) (a := 8) (by omega)
  have h2 := roundUp_lt (v := v) (a := 8) (by omega)
  rw [Nat.mod_eq_of_lt (by omega)]
  exact h1

theorem prep_spec {rt : FType} {ats : List FType} (hrt : RetOk rt) (hats : ∀ t ∈ ats, WF lp64 t)
    (hb : stackBytes rt ats + 8 < 2 ^ 32) :
    ∃ fl0 fl bytes, retFlags rt = .ok (some (fl0, firstReg rt)) ∧ prep rt ats = .ok (some (fl, bytes)) ∧
      fl = { fl0 with xmm := decide ((totals ats (firstReg rt) 0 0).2.1 ≠ 0) } ∧
      fl.inMem = decide (retPlace rt = .mem) ∧ firstGpr fl = firstReg rt ∧
      fl.size < 2 ^ 20 ∧ stackBytes rt ats ≤ bytes ∧ bytes < 2 ^ 32 := by
  obtain ⟨fl, h1, h2, h3, h4⟩ := retFlags_spec hrt
  have hp := prepLoop_spec ats (firstReg rt) 0 0 hats (by unfold stackBytes at hb; omega)
  refine ⟨fl, _, _, h1, ?_, rfl, h2, ?_, h4, ffiAlign8_small hb, Nat.mod_lt _ (by decide)⟩
  · unfold prep
    rw [h1]
    simp only [hp]
    rfl
  · unfold firstGpr firstReg
    simp [h2]

end Verif.X64
