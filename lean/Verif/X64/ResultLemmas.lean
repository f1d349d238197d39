import Verif.X64.PrepLemmas

/-
Results as a whole: flags word, store table, load table.
-/
namespace Verif.X64
open Verif Spec Spec.X64

/-- Facts about the flags of a prepared signature that matter for results. -/
structure ResFlags (rt : FType) (fl : Flags) : Prop where
  inMem : fl.inMem = decide (retPlace rt = .mem)
  size : fl.size < 2 ^ 20
  silent : rt.tc = .void ∨ retPlace rt = .mem → fl.ret = .void
  ld : LdStruct rt → fl.ret = .stRaxRdx ∧ fl.size = 16 ∧ rt.size = 16
  good : rt.tc ≠ .void → retPlace rt ≠ .mem → ¬LdStruct rt → GoodStore rt fl ∧ GoodLoad rt fl

theorem retFlags_void {rt : FType} (h : rt.tc = .void) : retFlags rt = .ok (some (.ofRet .void, 0)) := by
  unfold retFlags; rw [h]

theorem retFlags_mem {rt : FType} (h : WF lp64 rt) (hm : retPlace rt = .mem) :
    retFlags rt = .ok (some (⟨.void, true, false, 0⟩, 1)) := by
  have hld : ¬LdStruct rt := fun hc => by rw [(ldStruct_flags h hc).2.1] at hm; simp at hm
  cases h with
  | scalar h =>
    obtain ⟨fl, h1, h2, h3, h4, h5, h6⟩ := good_scalar h
    exact absurd hm h5
  | complex hb h =>
    obtain ⟨fl, h1, h2, h3, h4, h5, h6⟩ := good_complex hb h
    exact absurd hm h5
  | struct hwf hl =>
    rcases good_struct (.struct hwf hl) rfl (fun hc => hld ⟨rfl, hc⟩) with
      ⟨h1, h2⟩ | ⟨fl, h1, h2, h3, h4, h5, h6⟩
    · exact h2
    · exact absurd hm h5

theorem not_ld_void {rt : FType} (h : rt.tc = .void) : ¬LdStruct rt := by
  rintro ⟨h1, _⟩; rw [h] at h1; simp at h1

theorem resFlags {rt : FType} {ats : List FType} (hrt : RetOk rt) (hats : ∀ t ∈ ats, WF lp64 t)
    (hb : stackBytes rt ats + 8 < 2 ^ 32) {fl : Flags} {bytes : Nat}
    (hp : prep rt ats = .ok (some (fl, bytes))) : ResFlags rt fl := by
  obtain ⟨fl0, fl', bytes', h0, hp', hfl, hm, hg, hsz, hle, _⟩ := prep_spec hrt hats hb
  rw [hp] at hp'
  simp only [Except.ok.injEq, Option.some.injEq, Prod.mk.injEq] at hp'
  obtain ⟨rfl, rfl⟩ := hp'
  have hret : fl.ret = fl0.ret := by rw [hfl]
  have hsize : fl.size = fl0.size := by rw [hfl]
  refine ⟨hm, hsz, ?_, ?_, ?_⟩
  · rintro (h | h)
    · rw [retFlags_void h] at h0
      simp only [Except.ok.injEq, Option.some.injEq, Prod.mk.injEq] at h0
      rw [hret, ← h0.1]; rfl
    · have hwf : WF lp64 rt := by
        rcases hrt with hv | hw
        · unfold retPlace at h; rw [if_pos hv] at h; simp at h
        · exact hw
      rw [retFlags_mem hwf h] at h0
      simp only [Except.ok.injEq, Option.some.injEq, Prod.mk.injEq] at h0
      rw [hret, ← h0.1]
  · intro hld
    have hwf : WF lp64 rt := by
      rcases hrt with hv | hw
      · exact absurd hld (not_ld_void hv)
      · exact hw
    obtain ⟨k1, _, k3⟩ := ldStruct_flags hwf hld
    rw [k1] at h0
    simp only [Except.ok.injEq, Option.some.injEq, Prod.mk.injEq] at h0
    exact ⟨by rw [hret, ← h0.1], by rw [hsize, ← h0.1], k3⟩
  · intro hv hmm hld
    have hwf : WF lp64 rt := by
      rcases hrt with h | hw
      · exact absurd h hv
      · exact hw
    obtain ⟨fl1, k1, k2, k3⟩ := retFlags_good hwf hld hmm
    rw [k1] at h0
    simp only [Except.ok.injEq, Option.some.injEq, Prod.mk.injEq] at h0
    obtain ⟨rfl, _⟩ := h0
    refine ⟨?_, ?_⟩
    · intro R frame rv v; rw [hret, hsize]; exact k2 R frame rv v
    · intro R rv v; rw [hret]; exact k3 R rv v

theorem callReturn_some {rt : FType} {fl : Flags} (h : ResFlags rt fl) (R : RetRegs) (frame rv : Buf) :
    callReturn fl R frame (some rv) = (storeRet fl.ret fl.size R frame rv).map fun p => (some p.1, p.2) := by
  unfold callReturn
  simp only [decodeRet_pack fl h.size, decodeSize_pack fl h.size]
  cases storeRet fl.ret fl.size R frame rv <;> rfl

theorem closureReturn_regs {rt : FType} {fl : Flags} (h : ResFlags rt fl) (hm : retPlace rt ≠ .mem)
    (R : RetRegs) (rv : Buf) : closureReturn fl R rv = loadRet fl.ret R rv := by
  unfold closureReturn
  rw [decodeInMem_pack fl h.size, h.inMem, decide_eq_false hm, decodeRet_pack fl h.size]
  rfl

theorem argClass_length {t : FType} {cs : List EB} (h : argClass t = some cs) : cs.length = (t.size + 7) / 8 := by
  unfold argClass at h
  split at h
  · simp at h
  · injection h with h
    rw [← h]; simp

/-- Whatever the registers contain is some value of the type. -/
theorem exists_returned (R : RetRegs) {t : FType} (hwf : WF lp64 t) : ∃ v, ReturnedIn (rregs R) t v := by
  cases hpl : retPlace t with
  | void => exact ⟨fun _ => 0, by unfold ReturnedIn; rw [hpl]; trivial⟩
  | mem => exact ⟨fun _ => 0, by unfold ReturnedIn; rw [hpl]; trivial⟩
  | x87 => exact ⟨R.st0, by unfold ReturnedIn; rw [hpl]; intro q _; rfl⟩
  | x87x2 =>
    refine ⟨fun q => if q < 16 then R.st0 q else R.st1 (q - 16), ?_⟩
    unfold ReturnedIn; rw [hpl]
    intro q hq
    refine ⟨?_, ?_⟩
    · simp only; rw [if_pos (by omega)]; rfl
    · simp only; rw [if_neg (by omega), show 16 + q - 16 = q by omega]; rfl
  | regs rs =>
    refine ⟨fun q => rreg R (rs.getD (q / 8) (.gpr 0)) (q % 8), ?_⟩
    rw [returned_regs hpl]
    intro q hq
    have hlt := dataByte_lt hwf hq
    have hlen : rs.length = (t.size + 7) / 8 := by
      unfold retPlace at hpl
      split at hpl
      · simp at hpl
      · split at hpl
        · simp at hpl
        · split at hpl
          · simp at hpl
          · cases hcs : argClass t with
            | none => rw [hcs] at hpl; simp at hpl
            | some cs =>
              rw [hcs] at hpl
              simp only [RPlace.regs.injEq] at hpl
              rw [← hpl, assign_length, argClass_length hcs]
    have hi : q / 8 < rs.length := by omega
    exact ⟨rs[q / 8], List.getElem?_eq_getElem hi, by simp [List.getD_eq_getElem?_getD, hi]⟩

end Verif.X64
