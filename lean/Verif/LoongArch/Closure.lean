import Verif.LoongArch.ClosureLemmas
import Verif.RiscV.Closure

/-! `ffi_closure_asm` and `ffi_closure_inner` up to the handler. -/
namespace Verif.LA
open Verif Verif.Spec Verif.Spec.RV RV

theorem closureEntry_spec {c : Cfg} {rt : FType} {ats : List FType} {vs : List (List Byte)} {E : Entry}
    (h : ClosurePre c rt ats vs E) (fp ra : Nat) :
    ClosurePost c rt ats vs E (closureEntry c rt ats fp ra E) := by
  have hc := h.ok
  have hw : c.w = 4 ∨ c.w = 8 := hc.1
  have hroom := h.room
  unfold closureFrame at hroom
  have hcs : ctxSize c = 8 * c.fl + 8 * c.w + 16 := rfl
  generalize hctx : E.sp - ctxSize c = ctx
  have hctx' : ctx + ctxSize c = E.sp := by omega
  -- the saved registers
  have hm0 : ∃ m0, saveRegs (aAddr c ctx 0) c.w E.a 8 (saveRegs (faAddr c ctx 0) c.fl E.fa 8
        (E.mem.wr (E.sp - 2 * c.w) (leBytes c.w fp ++ leBytes c.w ra))) = m0 ∧
      Reads Valid c ctx E.sp m0 E.regs ∧ (∀ x, x < ctx ∨ E.sp ≤ x → m0 x = E.mem x) := by
    refine ⟨_, rfl, ?_, ?_⟩
    · intro l hl
      cases l with
      | fa k =>
        have hk : k < 8 := hl
        have hm : c.fl * (k + 1) ≤ c.fl * 8 := Nat.mul_le_mul_left _ hk
        rw [Nat.mul_succ] at hm
        show Mem.rd _ (faAddr c ctx k) c.fl = E.fa k
        have e := saveRegs_rd (faAddr c ctx 0) c.fl E.fa h.fa 8
          (E.mem.wr (E.sp - 2 * c.w) (leBytes c.w fp ++ leBytes c.w ra)) hk
        have e0 : faAddr c ctx k = faAddr c ctx 0 + c.fl * k := by simp [faAddr]
        rw [e0]
        rw [← e]
        apply Mem.rd_congr
        intro i hi
        apply saveRegs_out _ _ _ h.a
        simp only [faAddr, aAddr]
        omega
      | a k =>
        show Mem.rd _ (aAddr c ctx k) c.w = E.a k
        have e0 : aAddr c ctx k = aAddr c ctx 0 + c.w * k := by simp [aAddr]
        rw [e0]
        exact saveRegs_rd _ _ _ h.a 8 _ hl
      | stk o =>
        show Mem.rd _ (E.sp + o) c.w = E.mem.rd (E.sp + o) c.w
        apply Mem.rd_congr
        intro i _
        rw [saveRegs_out _ _ _ h.a _ _ _ (by simp only [aAddr]; omega),
          saveRegs_out _ _ _ h.fa _ _ _ (by simp only [faAddr]; omega),
          Mem.wr_out _ _ _ _ (by simp only [List.length_append, leBytes_length]; omega)]
    · intro x hx
      rw [saveRegs_out _ _ _ h.a _ _ _ (by simp only [aAddr]; omega),
        saveRegs_out _ _ _ h.fa _ _ _ (by simp only [faAddr]; omega),
        Mem.wr_out _ _ _ _ (by simp only [List.length_append, leBytes_length]; omega)]
  obtain ⟨m0, hme, hreads, hm0out⟩ := hm0
  have hwn : c.w * ats.length ≤ 8 * ats.length := Nat.mul_le_mul_right _ (by omega)
  have hast : ∃ ast, alloca (alloca ctx (c.w * ats.length)) (16 * ats.length) = ast ∧ 16 ∣ ast ∧
      ast + 16 * ats.length ≤ ctx ∧ E.sp - closureFrame c rt.size ats.length + rt.size + 16 ≤ ast := by
    refine ⟨_, rfl, Nat.dvd_mul_left _ _, ?_, ?_⟩ <;> unfold alloca
    · omega
    · unfold closureFrame; omega
  obtain ⟨ast, haste, hast16, hastr, hastl⟩ := hast
  have hst := start_eq hc h.rtOk E.sp 0
  have hsingle := h.single
  have hfirst : ∃ r, (if passedByRef c rt ⟨0, 0, E.sp, 0⟩ then unmarshalAtom c ctx .pointer ⟨0, 0, E.sp, 0⟩ m0
      else ([], ⟨0, 0, E.sp, 0⟩)) = r ∧ Sim E.sp r.2 (start (abi c) (retOf rt)) ∧
      (passedByRef c rt ⟨0, 0, E.sp, 0⟩ = true → leNat r.1 = leNat (E.a 0)) := by
    rw [hst]
    refine ⟨_, rfl, ?_⟩
    by_cases hr : passedByRef c rt ⟨0, 0, E.sp, 0⟩ = true
    · rw [if_pos hr, if_pos hr]
      obtain ⟨st', bs, e1, e2, _, _, _, e3⟩ := atom_back hc (pointer_tab c.w) (.inr (.inr rfl)) hreads
        (st := ⟨0, 0, E.sp, 0⟩) (p := ⟨0, 0, 0⟩) ⟨rfl, rfl, rfl, by dsimp only; omega⟩ (show 0 < 8 by decide)
      rw [e1]
      refine ⟨e2, fun _ => ?_⟩
      show leNat bs = leNat (E.a 0)
      rw [(e3 rfl).2]
      rfl
    · rw [if_neg hr, if_neg hr]
      exact ⟨⟨rfl, rfl, rfl, by dsimp only; omega⟩, fun h => absurd h hr⟩
  obtain ⟨r, hre, hrs, hrv⟩ := hfirst
  obtain ⟨as, m', h1, h2, h3, h4⟩ := closureLoop_spec hc (ctx := ctx) (base := E.sp) (ast := ast) (n := ats.length)
    (lo := E.sp - closureFrame c rt.size ats.length) (R := E.regs) h.align (by omega) (by omega) hast16 hastr h.fa h.a (ts := ats) (vs := vs) (i := 0) (m := m0) h.atsOk (by omega)
    hrs hsingle hreads h.sized h.top h.passed (allOut_mono (Nat.le_refl _) (by omega) h.out)
    (fun x hx => by
      by_cases hc : x < ctx ∨ E.sp ≤ x
      · exact .inl (hm0out x hc)
      · exact .inr (by omega))
    (allOut_mono (lo := E.sp - closureFrame c rt.size ats.length) (hi := E.sp) (by omega) (by omega) h.out)
  have hV : closureEntry c rt ats fp ra E =
      { mem := m', rvalue := if passedByRef c rt ⟨0, 0, E.sp, 0⟩ then leNat r.1 else alloca ast rt.size, avalue := as,
        ctx := ctx, byRef := passedByRef c rt ⟨0, 0, E.sp, 0⟩ } := by
    unfold closureEntry closureFrameMem
    dsimp only
    rw [hctx, hme, haste, hre, h1]
  rw [hV]
  have hsz : 0 < rt.size := by
    cases h.rtOk with
    | void => decide
    | obj hp => exact (plain_wf hp).size_pos (tab_ok hw)
  have hbuf : E.sp - closureFrame c rt.size ats.length ≤ alloca ast rt.size ∧
      alloca ast rt.size + max rt.size 16 ≤ ast := by
    unfold alloca
    omega
  refine ⟨?_, h4, ?_, hctx.symm, byRef_eq hc h.rtOk _ _, ?_, ?_⟩
  · intro m hm
    refine h2 m fun x hx => hm x ?_
    rintro ⟨hb, h⟩
    dsimp only at hb h
    rw [hb, if_neg (by decide)] at h
    omega
  · intro x hx
    show m' x = E.mem x
    rw [h3 x (by omega), hm0out x (by omega)]
  · intro hb
    have hb' : passedByRef c rt ⟨0, 0, E.sp, 0⟩ = true := hb
    dsimp only
    rw [if_pos hb']
    exact hrv hb'
  · intro hb
    have hb' : ¬ passedByRef c rt ⟨0, 0, E.sp, 0⟩ = true := by
      have : passedByRef c rt ⟨0, 0, E.sp, 0⟩ = false := hb
      rw [this]; decide
    dsimp only
    rw [if_neg hb']
    omega

end Verif.LA
