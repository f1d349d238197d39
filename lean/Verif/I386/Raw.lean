import Verif.I386.Pop

/-! `ffi_raw_call` for the conventions without register arguments. -/
namespace Verif.I386
open Verif Verif.Spec Verif.Spec.X86

/-- What a raw call needs. -/
structure RawPre (c : Cfg) (D : Data) (fl : Flag) (bytes : Nat) (rt : FType) (ats : List FType) (raw : Nat) (I : CallIn) :
    Prop where
  target : Target c D
  dir : (params c.abi).up = true
  noRegs : c.abi.regs = []
  flag : isMem fl = true → fl = structFlag c
  atsOk : ∀ t ∈ ats, Passable D t
  noPad : ∀ t ∈ ats, t.align ≤ 4
  fits : reserve c (retBytes fl) ats ≤ bytes ∧ bytes < 2 ^ 31
  words : I.fn.length = 4 ∧ I.ebp.length = 4 ∧ I.retaddr.length = 4 ∧ I.pc.length = 4
  top : I.sp < 2 ^ 32
  room : stackAlign c bytes + 32 + rsize fl rt I.rvalue + 64 ≤ I.sp
  out : raw + 2 * stackAlign c bytes + 32 + rsize fl rt I.rvalue + 64 ≤ I.sp ∨ I.sp ≤ raw

theorem rawHolds_passed {R : Regs} {m : Mem} {A : Conv} (hA : A.regs = []) {D : Data} (hD : D.Ok) {ts : List FType}
    (hp : ∀ t ∈ ts, Passable D t) (h4 : ∀ t ∈ ts, t.align ≤ 4) :
    ∀ {vs : List (List Byte)} {o raw : Nat}, 4 ∣ o → RawHolds m ts vs raw →
      (∀ i, i < total ts → R.mem (R.sp + o + i) = m (raw + i)) → AllPassed R ts vs (placeFrom A ts ⟨[], o⟩) := by
  induction ts with
  | nil => intro vs o raw _ h _; cases vs with
    | nil => trivial
    | cons => exact h.elim
  | cons t ts ih =>
    intro vs o raw ho h hm
    cases vs with
    | nil => exact h.elim
    | cons v vs =>
      obtain ⟨h1, h2, h3⟩ := h
      have hz : 4 ∣ roundUp t.size 4 := dvd_roundUp _ _
      have hge : t.size ≤ roundUp t.size 4 := roundUp_ge (by decide)
      have hpos := (hp t (by simp)).1.size_pos (tab_ok hD)
      have hst : stkAlign t = 4 := if_neg (by have := h4 t (by simp); omega)
      have e : placeArg A t ⟨[], o⟩ = (.stk o, ⟨[], o + roundUp t.size 4⟩) := by
        unfold placeArg
        dsimp only
        rw [hst, roundUp_of_dvd (by decide) ho]
      have hrd : ∀ n, n ≤ roundUp t.size 4 → R.mem.rd (R.sp + o) n = m.rd raw n := by
        intro n hn
        unfold Mem.rd
        apply List.map_congr_left
        intro i hi
        rw [List.mem_range] at hi
        exact hm i (by rw [total]; omega)
      rw [placeFrom, e]
      refine ⟨⟨?_, fun hw => ?_⟩, ih (fun x hx => hp x (by simp [hx])) (fun x hx => h4 x (by simp [hx]))
        (Nat.dvd_add ho hz) h3 ?_⟩
      · show R.mem.rd (R.sp + o) t.size = v
        rw [hrd _ hge, h1]
      · have := h2 hw
        rw [List.take_of_length_le (by simp)] at this
        show (intVal _ v - leNat (R.mem.rd (R.sp + o) 4)) % 2 ^ 32 = 0
        rw [hrd 4 (by omega)]
        exact this
      · intro i hi
        have := hm (roundUp t.size 4 + i) (by rw [total]; omega)
        rw [show R.sp + (o + roundUp t.size 4) + i = R.sp + o + (roundUp t.size 4 + i) by omega, this,
          show raw + roundUp t.size 4 + i = raw + (roundUp t.size 4 + i) by omega]

/-- Copying a region. -/
theorem copy_at {m : Mem} {a b n i : Nat} (h : i < n) : (m.wr a (m.rd b n)) (a + i) = m (b + i) := by
  rw [Mem.wr_in _ _ _ _ (by simpa using h), Mem.rd_getD _ _ _ _ h]

theorem rawEntry_spec {c : Cfg} {D : Data} {fl : Flag} {bytes : Nat} {rt : FType} {ats : List FType} {raw : Nat}
    {I : CallIn} (h : RawPre c D fl bytes rt ats raw I) {vs : List (List Byte)} (hraw : RawHolds I.mem ats vs raw) :
    ∃ O, rawEntry c fl bytes rt ats raw I = .ok O ∧ O.fn = I.fn ∧
      AllPassed O.entry.regs ats vs (placeFrom c.abi ats (start c.abi (isMem fl))) ∧
      (isMem fl = true → O.entry.regs.at 4 (hidden c.abi) = leBytes 4 O.rvalue) ∧
      O.rvalue = (if rsize fl rt I.rvalue ≠ 0 then O.frame + 32 else I.rvalue.getD 0) ∧
      O.entry.mem.rd (O.frame + 12) 4 = leBytes 4 (callFlag fl I.rvalue).code ∧
      O.entry.mem.rd (O.frame + 16) 4 = leBytes 4 O.rvalue := by
  have hD := h.target.data
  have hb32 : bytes < 2 ^ 32 := by have := h.fits.2; omega
  have hB := stackAlign_ge (c := c) hb32
  have hroom := h.room
  have htop := h.top
  have hout := h.out
  have hret : retBytes fl = if isMem fl then 4 else 0 := by cases fl <;> rfl
  have hr4 : 4 ∣ retBytes fl := by rw [hret]; split <;> omega
  have hfit := h.fits.1
  rw [reserve_total hD (fun t ht => (h.atsOk t ht).1) (fun t ht => .inr (h.noPad t ht)) hr4] at hfit
  obtain ⟨hl1, hl2, hl3, hl4⟩ := h.words
  have hnr : (params c.abi).regs = [] := by rw [params_regs, h.noRegs]; rfl
  obtain ⟨hs4, hs16, hsn, hsp⟩ := alloca_spec (c := c) (sp := I.sp)
    (n := stackAlign c bytes + 32 + rsize fl rt I.rvalue + 15) (by omega)
  unfold rawEntry
  dsimp only
  generalize hBl : alloca c I.sp (stackAlign c bytes + 32 + rsize fl rt I.rvalue + 15) = block at *
  generalize hBB : stackAlign c bytes = B at *
  generalize hrs : rsize fl rt I.rvalue = rs at *
  have hS : block - 16 ≤ block - block / 16 % 2 * 16 ∧ block - block / 16 % 2 * 16 ≤ block := by omega
  generalize block - block / 16 % 2 * 16 = stack at *
  rw [passHidden_callFlag]
  generalize hrv : (if rs ≠ 0 then stack + B + 32 else I.rvalue.getD 0) = rv
  generalize hm1 : ((I.mem.wr (stack + B + 8) I.fn).wr (stack + B + 12)
    (leBytes 4 (callFlag fl I.rvalue).code)).wr (stack + B + 16) (leBytes 4 rv) = m1
  have hm1k : ∀ x, x < stack + B + 8 ∨ stack + B + 20 ≤ x → m1 x = I.mem x := by
    intro x hx
    rw [← hm1, Mem.wr_out _ _ _ _ (by simp; omega), Mem.wr_out _ _ _ _ (by simp; omega), Mem.wr_out _ _ _ _ (by omega)]
  have hm1a : m1.rd (stack + B + 8) 4 = I.fn := by
    rw [← hm1, Mem.rd_wr_disj _ _ _ _ _ (by simp), Mem.rd_wr_disj _ _ _ _ _ (by simp), rd_wr hl1]
  have hm1b : m1.rd (stack + B + 12) 4 = leBytes 4 (callFlag fl I.rvalue).code := by
    rw [← hm1, Mem.rd_wr_disj _ _ _ _ _ (by simp), rd_wr (by simp)]
  have hm1c : m1.rd (stack + B + 16) 4 = leBytes 4 rv := by rw [← hm1, rd_wr (by simp)]
  -- the hidden pointer
  have hh : passHidden c (stack + B + 20) fl rv stack m1 =
      if isMem fl then (⟨0, stack + 4⟩, m1.wr stack (leBytes 4 rv)) else (⟨0, stack⟩, m1) := by
    unfold passHidden
    rw [hnr]
    cases fl <;> rfl
  rw [hh]
  generalize hm2 : (if isMem fl = true then m1.wr stack (leBytes 4 rv) else m1) = m2
  have hst : (if isMem fl = true then ((⟨0, stack + 4⟩, m1.wr stack (leBytes 4 rv)) : St × Mem) else (⟨0, stack⟩, m1)) =
      (⟨0, stack + retBytes fl⟩, m2) := by
    rw [hret, ← hm2]; split <;> rfl
  rw [hst]
  dsimp only
  have hb' : (if stack + retBytes fl ≠ stack then B - 4 else B) = B - retBytes fl := by
    rw [hret]; split <;> split <;> omega
  rw [hb']
  have hm2k : ∀ x, x < stack ∨ stack + retBytes fl ≤ x → m2 x = m1 x := by
    intro x hx
    rw [← hm2]
    split
    · rename_i hm
      rw [hret, if_pos hm] at hx
      rw [Mem.wr_out _ _ _ _ (by simp; omega)]
    · rfl
  have hm2h : isMem fl = true → m2.rd stack 4 = leBytes 4 rv := by
    intro hm
    rw [← hm2, if_pos hm, rd_wr (by simp)]
  -- the copy
  have hloop : ∃ m3, rawLoop c (stack + B + 20) ats ⟨0, stack + retBytes fl, raw, B - retBytes fl, m2⟩ =
        .ok ⟨0, stack + retBytes fl, raw, B - retBytes fl, m3⟩ ∧
      (∀ x, x < stack + retBytes fl ∨ stack + B ≤ x → m3 x = m2 x) ∧
      (∀ i, i < total ats → m3 (stack + retBytes fl + i) = m2 (raw + i)) := by
    cases ats with
    | nil => exact ⟨m2, rfl, fun _ _ => rfl, fun i hi => by simp [total] at hi⟩
    | cons t ts =>
      refine ⟨m2.wr (stack + retBytes fl) (m2.rd raw (B - retBytes fl)), ?_, ?_, ?_⟩
      · rw [rawLoop, hnr]; rfl
      · intro x hx; rw [Mem.wr_out _ _ _ _ (by simp; omega)]
      · intro i hi; exact copy_at (by omega)
  obtain ⟨m3, hl, hk3, hc3⟩ := hloop
  rw [hl]
  dsimp only
  generalize hmf : ((m3.wr (stack + B) I.ebp).wr (stack + B + 4) I.retaddr).wr (stack - 4) I.pc = mf
  have hmk : ∀ x, (stack ≤ x ∧ x < stack + B ∨ stack + B + 8 ≤ x) → mf x = m3 x := by
    intro x hx
    rw [← hmf, Mem.wr_out _ _ _ _ (by omega), Mem.wr_out _ _ _ _ (by omega), Mem.wr_out _ _ _ _ (by omega)]
  have hen : (enter (stack + B) stack I m3).mem = mf ∧ (enter (stack + B) stack I m3).sp = stack := ⟨hmf, rfl⟩
  have hword : ∀ a, stack + B + 8 ≤ a → mf.rd a 4 = m1.rd a 4 := by
    intro a h1
    apply Mem.rd_congr
    intro i hi
    rw [hmk _ (by omega), hk3 _ (by omega), hm2k _ (by omega)]
  have hstart : start c.abi (isMem fl) = ⟨[], retBytes fl⟩ := by
    unfold start
    rw [hret, h.noRegs]
    split <;> rfl
  refine ⟨_, rfl, ?_, ?_, ?_, ?_, ?_, ?_⟩ <;> dsimp only
  · rw [hen.1, hword _ (by omega), hm1a]
  · rw [hstart]
    refine rawHolds_passed h.noRegs hD h.atsOk h.noPad hr4 hraw ?_
    intro i hi
    show (enter (stack + B) stack I m3).mem ((enter (stack + B) stack I m3).sp + retBytes fl + i) = _
    rw [hen.1, hen.2, hmk _ (by omega), hc3 i hi, hm2k _ (by omega), hm1k _ (by omega)]
  · intro hm
    have hhid : hidden c.abi = .stk 0 := by unfold Spec.X86.hidden; rw [h.noRegs]
    have hre : retBytes fl = 4 := by rw [hret, if_pos hm]
    rw [hhid, ← hm2h hm]
    show (enter (stack + B) stack I m3).mem.rd ((enter (stack + B) stack I m3).sp + 0) 4 = _
    rw [hen.1, hen.2]
    apply Mem.rd_congr
    intro i hi
    rw [hmk _ (by omega), hk3 _ (by omega)]
  · exact hrv.symm
  · rw [hen.1, hword _ (by omega), hm1b]
  · rw [hen.1, hword _ (by omega), hm1c]

end Verif.I386
