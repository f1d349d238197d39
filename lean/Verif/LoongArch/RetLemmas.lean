import Verif.LoongArch.Closure
import Verif.RiscV.RetLemmas

/-! Results. -/
namespace Verif.LA
open Verif Verif.Spec Verif.Spec.RV RV

/-- `ffi_call_int` stores a result that is in registers with `unmarshal`. -/
theorem finish_eq {c : Cfg} {rt : FType} {rvalue ctx : Nat} {R : RetRegs} (m : Mem) (hr : rvalue ≠ 0) :
    finishCall c rt rvalue false ctx R m =
      (unmarshal c ctx rt false rvalue ⟨0, 0, 0, 0⟩ (savedRets c ctx R m)).2.2 := by
  unfold finishCall
  dsimp only
  rw [if_neg (by simp [hr])]
  rfl

theorem finish_none {c : Cfg} {rt : FType} {rvalue ctx : Nat} {R : RetRegs} {byRef : Bool} (m : Mem)
    (h : byRef = true ∨ rvalue = 0) : finishCall c rt rvalue byRef ctx R m = savedRets c ctx R m := by
  unfold finishCall
  dsimp only
  rw [if_pos (by rcases h with h | h <;> simp [h])]
  rfl

/-- The whole register is stored for integers. -/
theorem finish_int {c : Cfg} (hc : (abi c).Ok) {rt : FType} {rvalue ctx : Nat} {R : RetRegs} (hl : RetLens c R)
    (m : Mem) (hi : (abi c).integer rt.tc = true) (hs : rt.size ≤ c.w) (hr : rvalue ≠ 0) :
    finishCall c rt rvalue false ctx R m = (savedRets c ctx R m).wr rvalue (R.a 0) := by
  have hw : c.w = 4 ∨ c.w = 8 := hc.1
  have hrd := saved_reads hc (ctx := ctx) hl m (.a 0) ⟨by decide, by decide⟩
  have hrd : (savedRets c ctx R m).rd (aAddr c ctx 0) c.w = R.a 0 := hrd
  have hnr : (abi c).real rt.tc = false := by
    cases hx : (abi c).real rt.tc with
    | false => rfl
    | true => rw [real_not_int hx] at hi; cases hi
  have hst : rt.tc ≠ .struct := by intro h; rw [h] at hi; cases hi
  rw [finish_eq m hr]
  unfold unmarshal fsiOf
  rw [if_neg (by simp [hst])]
  dsimp only
  rw [if_neg (by rw [isFloat_eq hc, hnr]; simp)]
  unfold unmarshalInt
  rw [if_neg (by omega), isInt_eq hc, hi, if_pos (by simp)]
  have hld : ∃ x, atomLoad c rt.tc = some x := by
    generalize rt.tc = tc at hi
    obtain ⟨w, fl, nx⟩ := c
    dsimp only at hw
    clear hrd hl hnr hst hs
    rcases hw with rfl | rfl <;> cases tc <;> simp [Abi.integer, abi] at hi <;> simp [atomLoad]
  obtain ⟨x, hx⟩ := hld
  unfold unmarshalAtom
  rw [isFloat_eq hc, hnr, hx]
  dsimp only
  unfold getWord
  rw [if_neg (by decide), if_neg (by dsimp only; decide)]
  dsimp only
  rw [hrd]

theorem finish_spec {c : Cfg} (hc : (abi c).Ok) {rt : FType} (h : Plain (tab c.w) rt) {rvalue ctx : Nat} {R : RetRegs}
    (hl : RetLens c R) (m : Mem) (hr : rvalue ≠ 0) (hnr : (retPlace (abi c) rt).isRef = false)
    (hd : rvalue + 16 ≤ ctx ∨ ctx + ctxSize c ≤ rvalue) {v : List Byte} (hv : v.length = rt.size)
    (hp : PassedAt (abi c) (R.regs m) rt v (retPlace (abi c) rt)) :
    SameMembers rt ((finishCall c rt rvalue false ctx R m).rd rvalue rt.size) v ∧
    ∀ x, (x < rvalue ∨ rvalue + 16 ≤ x ∨ rvalue + max rt.size c.w ≤ x ∧ TailOk c rt) →
      (x < ctx ∨ ctx + ctxSize c ≤ x) → finishCall c rt rvalue false ctx R m x = m x := by
  have hw : c.w = 4 ∨ c.w = 8 := hc.1
  have hb0 : After (placeArg (abi c) false rt ⟨0, 0, 0⟩).2 ⟨2, 2, 0⟩ := ret_pos hc rt
  have hreads := saved_reads hc (ctx := ctx) hl m
  have hns := hb0.ns
  have f := unmarshal_step (V := fun l => Used l ⟨2, 2, 0⟩ c.w) hc h (var := false) (p := ⟨0, 0, 0⟩) (st := ⟨0, 0, 0, 0⟩)
    (data := rvalue) (v := v) hreads
    ⟨rfl, rfl, rfl, by dsimp only; omega⟩ (Nat.dvd_zero _) (singleOk_zero _ _ _ _ _)
    (fun l hu => by have := fut_ctx (ctx := ctx) l hu (by omega); omega)
    (fun l hu => hu.mono hb0) (by dsimp only at hns; omega) hl.fa hl.a hv hp
  rw [finish_eq m hr]
  constructor
  · have hg := f.got
    have hpl : (placeArg (abi c) false rt ⟨0, 0, 0⟩).1 = retPlace (abi c) rt := rfl
    rw [hpl] at hg
    cases hq : retPlace (abi c) rt with
    | direct ps => rw [hq] at hg; exact hg.2.2
    | ref l => rw [hq] at hnr; cases hnr
  · intro x hx hx'
    rw [f.frame x hx, saved_out hl m x hx']

/-- The result registers after a closure. -/
theorem closureExit_spec {c : Cfg} (hc : (abi c).Ok) {rt : FType} (h : Plain (tab c.w) rt) {rvalue ctx : Nat}
    (hnr : (retPlace (abi c) rt).isRef = false) (hctx : ctx < 2 ^ 62) (hcw : ctx ≤ 256 ^ c.w)
    {junk : List Byte} (hj : junk.length = 2 * c.w) (m m' : Mem) :
    RetLens c (closureExit c rt rvalue false ctx junk m) ∧
    PassedAt (abi c) ((closureExit c rt rvalue false ctx junk m).regs m') rt (m.rd rvalue rt.size) (retPlace (abi c) rt) ∧
    (∀ ps, retPlace (abi c) rt = .direct ps → (abi c).integer rt.tc = true → ∀ q ∈ ps,
      Widened rt.tc (m.rd rvalue rt.size)
        (((closureExit c rt rvalue false ctx junk m).regs m').at (abi c) q.loc)) := by
  have hw : c.w = 4 ∨ c.w = 8 := hc.1
  have hb0 : After (placeArg (abi c) false rt ⟨0, 0, 0⟩).2 ⟨2, 2, 0⟩ := ret_pos hc rt
  have hns := hb0.ns
  dsimp only at hns
  have hcp : lowAfter rt (placeArg (abi c) false rt ⟨0, 0, 0⟩).1 0 = 0 := Nat.le_zero.1 (lowAfter_le _ _ _)
  have w := marshal_step hc h (var := false) (p := ⟨0, 0, 0⟩) (st := ⟨0, 0, 0, 0⟩) (ctx := ctx) (base := 0) (low := 0)
    ⟨rfl, rfl, rfl, by dsimp only; omega⟩ (singleOk_zero _ _ _ _ _) (Nat.dvd_zero _) rfl (Nat.zero_le _) hctx hcw
    (fun h => by
      have h' : (retPlace (abi c) rt).isRef = true := h
      rw [hnr] at h'; cases h')
    (by rw [hcp]; exact hns) (load := fun o n => m.rd (rvalue + o) n) (v := m.rd rvalue rt.size)
    (Mem.rd_length _ _ _) (fun o n hon => (rd_sub m rvalue hon).symm) hj m
  generalize hr : marshal c ctx 0 rt false (fun o n => m.rd (rvalue + o) n) junk ⟨0, 0, 0, 0⟩ m = r at w
  have hE : closureExit c rt rvalue false ctx junk m =
      ⟨fun k => r.2.rd (faAddr c ctx k) c.fl, fun k => r.2.rd (aAddr c ctx k) c.w⟩ := by
    unfold closureExit
    dsimp only
    rw [if_pos (by simp [plain_notVoid h]), hr]
  have ha := w.stable r.2 (fun _ _ => rfl)
  have hpl : (placeArg (abi c) false rt ⟨0, 0, 0⟩).1 = retPlace (abi c) rt := rfl
  rw [hpl] at ha
  rw [hE]
  refine ⟨⟨fun k => Mem.rd_length _ _ _, fun k => Mem.rd_length _ _ _⟩, ?_⟩
  -- no stack locations
  have hnostk : ∀ ps, retPlace (abi c) rt = .direct ps → ∀ q ∈ ps,
      (img c ctx 0 r.2).at (abi c) q.loc =
        (RetRegs.regs ⟨fun k => r.2.rd (faAddr c ctx k) c.fl, fun k => r.2.rd (aAddr c ctx k) c.w⟩ m').at (abi c) q.loc := by
    intro ps hps q hq
    have hst := noStack hc h ps hps q hq
    cases hl : q.loc with
    | fa k => rfl
    | a k => rfl
    | stk o => exact absurd hl (hst o)
  cases hq : retPlace (abi c) rt with
  | ref l => rw [hq] at hnr; cases hnr
  | direct ps =>
    rw [hq] at ha
    have hn := hnostk ps hq
    constructor
    · intro q hqm
      rw [← hn q hqm]
      exact ha.passed q hqm
    · intro ps' hps' hi q hqm
      obtain rfl := Place.direct.inj hps'
      rw [← hn q hqm]
      exact ha.ext ps rfl hi q hqm

end Verif.LA
