import Verif.I386.Place

/-! Closures, from the entry to the handler. -/
namespace Verif.I386
open Verif Verif.Spec Verif.Spec.X86

theorem lay_snd (c : Cfg) (rb rb' : Nat) (t : FType) (st : St) : (lay c rb t st).2 = (lay c rb' t st).2 := by
  unfold lay
  split
  · split
    · rfl
    · rfl
  · rfl

theorem layLoop_snd (c : Cfg) (rb rb' : Nat) (ts : List FType) (st : St) :
    (layLoop c rb ts st).2 = (layLoop c rb' ts st).2 := by
  induction ts generalizing st with
  | nil => rfl
  | cons t ts ih => rw [layLoop, layLoop]; dsimp only; rw [ih, lay_snd c rb rb']

theorem closureLoop_lay {c : Cfg} {rb lo hi : Nat} (hhi : hi < 2 ^ 62) {ts : List FType} {st : St}
    (hsz : ∀ t ∈ ts, t.size < 2 ^ 62) (hr : Room c hi lo hi ts st) : closureLoop c rb ts st = layLoop c rb ts st := by
  induction ts generalizing st with
  | nil => rfl
  | cons t ts ih =>
    obtain ⟨_, hr', _, hle⟩ := room_step (Nat.le_refl _) (hsz t (by simp)) hhi hr
    rw [lay_snd c hi rb] at hr'
    rw [closureLoop, layLoop, closureArg_eq (hsz t (by simp)) (by omega), ih (fun x hx => hsz x (by simp [hx])) hr']

theorem rd_wr4 {m : Mem} {a : Nat} {bs : List Byte} (h : bs.length = 4) : (m.wr a bs).rd a 4 = bs := by
  have := Mem.rd_wr_same m a bs
  rwa [h] at this

/-- Address of the fields that a closure reads. -/
def fieldAt (kind : Kind) (self : Nat) : Nat :=
  match kind with
  | .closure => self + 16
  | .go => self + 4

/-- `user_data`; the address of the closure itself for a Go closure. -/
def dataOf (kind : Kind) (self : Nat) (m : Mem) : List Byte :=
  match kind with
  | .closure => m.rd (self + 24) 4
  | .go => leBytes 4 self

/-- What a closure needs: any caller that follows the convention.  Its own object is not
in the part of the stack that is about to be used. -/
structure ClosPre (c : Cfg) (D : Data) (kind : Kind) (fl : Flag) (bytes : Nat) (ats : List FType)
    (vs : List (List Byte)) (closure : Nat) (E : Entry) : Prop where
  target : Target c D
  abi : c.abi ≠ .register
  ebx : c.pcc = false ∨ c.saveEbx = false
  dir : (params c.abi).up = true ∨ isMem fl = false
  flag : isMem fl = true → fl = structFlag c
  atsOk : ∀ t ∈ ats, Passable D t
  sizes : ∀ t ∈ ats, t.size < 2 ^ 32
  fits : reserve c (retBytes fl) ats ≤ bytes ∧ bytes < 2 ^ 32
  words : E.eax.length = 4 ∧ E.edx.length = 4 ∧ E.ecx.length = 4 ∧ E.ebx.length = 4
  low : 64 ≤ E.sp
  top : E.sp < 2 ^ 32
  align : 4 ∣ E.sp ∧ (c.msvc = false → 16 ∣ E.sp)
  obj : closure + 28 ≤ E.sp - 64 ∨ E.sp ≤ closure
  chain : kind = .go →
    leNat (if c.abi = .thiscall ∨ c.abi = .fastcall then E.eax else E.ecx) = closure
  passed : AllPassed (up E.regs (gap c bytes ats)) ats vs (placed c.abi (isMem fl) ats)

structure ClosPost (c : Cfg) (D : Data) (kind : Kind) (fl : Flag) (bytes : Nat) (ats : List FType)
    (vs : List (List Byte)) (closure : Nat) (E : Entry) (V : View) : Prop where
  esp : V.esp = E.sp - 4 - fs c
  frame : V.frame = V.esp + cf c
  cif : V.cif = E.mem.rd (fieldAt kind closure) 4
  handler : V.handler = E.mem.rd (fieldAt kind closure + 4) 4
  userData : V.userData = dataOf kind closure E.mem
  args : AllFound V.mem ats vs V.args
  plain : isMem fl = false → V.rvalue = V.frame
  hidden : isMem fl = true → V.rvalue = leNat (E.regs.at 4 (hidden c.abi)) ∧
    V.mem.rd V.frame 4 = E.regs.at 4 (hidden c.abi)
  ret : V.ret = innerRet c fl bytes (layLoop c 0 ats (startSt c fl (argBase c E.sp bytes))).2.narg
  keep : ∀ x, x < V.esp ∨ E.sp - 4 ≤ x → V.mem x = E.mem x

/-- The entry point's work. -/
structure AsmPost (c : Cfg) (kind : Kind) (closure : Nat) (E : Entry) (A : Asm) : Prop where
  esp : A.esp = E.sp - 4 - fs c
  cif : A.mem.rd (A.esp + cf c + 28) 4 = E.mem.rd (fieldAt kind closure) 4
  handler : A.mem.rd (A.esp + cf c + 32) 4 = E.mem.rd (fieldAt kind closure + 4) 4
  userData : A.mem.rd (A.esp + cf c + 36) 4 = dataOf kind closure E.mem
  eax : kind = .go → A.mem.rd (A.esp + cf c + 16) 4 = E.eax
  edx : A.mem.rd (A.esp + cf c + 20) 4 = E.edx
  ecx : A.mem.rd (A.esp + cf c + 24) 4 = E.ecx
  keep : ∀ x, x < A.esp ∨ E.sp - 4 ≤ x → A.mem x = E.mem x

theorem asmEntry_spec {c : Cfg} {kind : Kind} {closure : Nat} {E : Entry} (hreg : c.abi ≠ .register)
    (hebx : c.pcc = false ∨ c.saveEbx = false)
    (words : E.eax.length = 4 ∧ E.edx.length = 4 ∧ E.ecx.length = 4 ∧ E.ebx.length = 4) (low : 64 ≤ E.sp)
    (obj : closure + 28 ≤ E.sp - 64 ∨ E.sp ≤ closure)
    (chain : kind = .go → leNat (if c.abi = .thiscall ∨ c.abi = .fastcall then E.eax else E.ecx) = closure) :
    AsmPost c kind closure E (asmEntry c kind closure E) := by
  obtain ⟨ha, hd, hc, hb⟩ := words
  -- the part that depends on the kind
  have key : ∃ (x y : List Byte), x.length = 4 ∧ y.length = 4 ∧ (kind = .go → x = E.eax) ∧
      y = dataOf kind closure E.mem ∧
      asmEntry c kind closure E =
        let esp := E.sp - 4 - fs c
        let frame := esp + cf c
        let m := ((((E.mem.wr (frame + 16) x).wr (frame + 20) E.edx).wr (frame + 24) E.ecx).wr (frame + 28)
          (E.mem.rd (fieldAt kind closure) 4)).wr (frame + 32) (E.mem.rd (fieldAt kind closure + 4) 4) |>.wr (frame + 36) y
        let m := if c.pcc then (m.wr esp (leBytes 4 frame)).wr (esp + 4) (leBytes 4 E.sp) else m
        let m := if c.saveEbx then m.wr (esp + 40) E.ebx else m
        ⟨esp, closure, m⟩ := by
    have hfs : fs c = 44 ∧ cf c = 0 ∨ fs c = 60 ∧ cf c = 8 := by unfold fs cf; cases c.pcc <;> simp
    cases kind with
    | closure =>
      refine ⟨leBytes 4 closure, E.mem.rd (closure + 24) 4, by simp, by simp, fun h => (by cases h), rfl, ?_⟩
      unfold asmEntry
      dsimp only
      rw [if_neg hreg]
      dsimp only
      unfold copyData saveRegs fieldAt
      dsimp only
      have hl : (leBytes 4 closure).length = 4 := by simp
      generalize leBytes 4 closure = lc at hl ⊢
      generalize hes : E.sp - 4 - fs c = esp
      have r : ∀ (m : Mem) (k : Nat) (bs : List Byte) (o : Nat), bs.length = 4 → 16 ≤ k → k ≤ 36 → 16 ≤ o → o ≤ 24 →
          (m.wr (esp + cf c + k) bs).rd (closure + o) 4 = m.rd (closure + o) 4 := by
        intro m k bs o h1 h2 h3 h4 h5
        rw [Mem.rd_wr_disj _ _ _ _ _ (by omega)]
      rw [r _ 24 _ 16 hc (by omega) (by omega) (by omega) (by omega), r _ 20 _ 16 hd (by omega) (by omega) (by omega) (by omega),
        r _ 16 _ 16 hl (by omega) (by omega) (by omega) (by omega)]
      rw [r _ 24 _ 20 hc (by omega) (by omega) (by omega) (by omega), r _ 20 _ 20 hd (by omega) (by omega) (by omega) (by omega),
        r _ 16 _ 20 hl (by omega) (by omega) (by omega) (by omega)]
      rw [r _ 24 _ 24 hc (by omega) (by omega) (by omega) (by omega), r _ 20 _ 24 hd (by omega) (by omega) (by omega) (by omega),
        r _ 16 _ 24 hl (by omega) (by omega) (by omega) (by omega)]
    | go =>
      refine ⟨E.eax, leBytes 4 closure, ha, by simp, fun _ => rfl, rfl, ?_⟩
      unfold asmEntry
      dsimp only
      rw [chain rfl]
      unfold copyData saveRegs fieldAt
      dsimp only
      generalize hes : E.sp - 4 - fs c = esp
      have r : ∀ (m : Mem) (k : Nat) (bs : List Byte) (o : Nat), bs.length = 4 → 16 ≤ k → k ≤ 36 → 4 ≤ o → o ≤ 24 →
          (m.wr (esp + cf c + k) bs).rd (closure + o) 4 = m.rd (closure + o) 4 := by
        intro m k bs o h1 h2 h3 h4 h5
        rw [Mem.rd_wr_disj _ _ _ _ _ (by omega)]
      rw [r _ 24 _ 4 hc (by omega) (by omega) (by omega) (by omega), r _ 20 _ 4 hd (by omega) (by omega) (by omega) (by omega),
        r _ 16 _ 4 ha (by omega) (by omega) (by omega) (by omega)]
      rw [r _ 24 _ 8 hc (by omega) (by omega) (by omega) (by omega), r _ 20 _ 8 hd (by omega) (by omega) (by omega) (by omega),
        r _ 16 _ 8 ha (by omega) (by omega) (by omega) (by omega)]
  obtain ⟨x, y, hx, hy, hxe, hye, e⟩ := key
  rw [e]
  dsimp only
  have hfs : c.pcc = false ∧ fs c = 44 ∧ cf c = 0 ∨ c.pcc = true ∧ c.saveEbx = false ∧ fs c = 60 ∧ cf c = 8 := by
    unfold fs cf
    cases h : c.pcc with
    | false => simp
    | true =>
      rw [h] at hebx
      simpa using hebx
  generalize hes : E.sp - 4 - fs c = esp
  generalize hfr : esp + cf c = fr
  generalize hw1 : E.mem.rd (fieldAt kind closure) 4 = w1
  generalize hw2 : E.mem.rd (fieldAt kind closure + 4) 4 = w2
  have hl1 : w1.length = 4 := by rw [← hw1]; simp
  have hl2 : w2.length = 4 := by rw [← hw2]; simp
  generalize hm1 : (((((E.mem.wr (fr + 16) x).wr (fr + 20) E.edx).wr (fr + 24) E.ecx).wr (fr + 28) w1).wr
    (fr + 32) w2).wr (fr + 36) y = m1
  generalize hm2 : (if c.saveEbx = true then
      (if c.pcc = true then (m1.wr esp (leBytes 4 fr)).wr (esp + 4) (leBytes 4 E.sp) else m1).wr (esp + 40) E.ebx
    else if c.pcc = true then (m1.wr esp (leBytes 4 fr)).wr (esp + 4) (leBytes 4 E.sp) else m1) = m2
  have hk2 : ∀ z, (fr + 16 ≤ z ∧ z < fr + 40 ∨ z < esp ∨ E.sp - 4 ≤ z) → m2 z = m1 z := by
    intro z hz
    rw [← hm2]
    rcases hfs with ⟨hp, h1, h2⟩ | ⟨hp, hs, h1, h2⟩
    · rw [hp]
      simp only [if_false, Bool.false_eq_true]
      split
      · rw [Mem.wr_out _ _ _ _ (by omega)]
      · rfl
    · rw [hp, hs]
      simp only [if_true, if_false, Bool.false_eq_true]
      rw [Mem.wr_out _ _ _ _ (by simp; omega), Mem.wr_out _ _ _ _ (by simp; omega)]
  have hr2 : ∀ k, 16 ≤ k → k ≤ 36 → m2.rd (fr + k) 4 = m1.rd (fr + k) 4 := fun k h1 h2 =>
    Mem.rd_congr (fun i hi => hk2 _ (by omega))
  refine ⟨hes.symm, ?_, ?_, ?_, ?_, ?_, ?_, ?_⟩ <;> dsimp only <;> try rw [hfr]
  · rw [hr2 _ (by omega) (by omega), ← hm1, Mem.rd_wr_disj _ _ _ _ _ (by omega), Mem.rd_wr_disj _ _ _ _ _ (by omega),
      rd_wr4 hl1, hw1]
  · rw [hr2 _ (by omega) (by omega), ← hm1, Mem.rd_wr_disj _ _ _ _ _ (by omega), rd_wr4 hl2, hw2]
  · rw [hr2 _ (by omega) (by omega), ← hm1, rd_wr4 hy, hye]
  · intro hk
    rw [hr2 _ (by omega) (by omega), ← hm1, Mem.rd_wr_disj _ _ _ _ _ (by omega), Mem.rd_wr_disj _ _ _ _ _ (by omega),
      Mem.rd_wr_disj _ _ _ _ _ (by omega), Mem.rd_wr_disj _ _ _ _ _ (by omega), Mem.rd_wr_disj _ _ _ _ _ (by omega),
      rd_wr4 hx, hxe hk]
  · rw [hr2 _ (by omega) (by omega), ← hm1, Mem.rd_wr_disj _ _ _ _ _ (by omega), Mem.rd_wr_disj _ _ _ _ _ (by omega),
      Mem.rd_wr_disj _ _ _ _ _ (by omega), Mem.rd_wr_disj _ _ _ _ _ (by omega), rd_wr4 hd]
  · rw [hr2 _ (by omega) (by omega), ← hm1, Mem.rd_wr_disj _ _ _ _ _ (by omega), Mem.rd_wr_disj _ _ _ _ _ (by omega),
      Mem.rd_wr_disj _ _ _ _ _ (by omega), rd_wr4 hc]
  · intro z hz
    have hz' : z < fr + 16 ∨ fr + 40 ≤ z := by omega
    rw [hk2 z (by omega), ← hm1, Mem.wr_out _ _ _ _ (by omega), Mem.wr_out _ _ _ _ (by omega),
      Mem.wr_out _ _ _ _ (by omega), Mem.wr_out _ _ _ _ (by omega), Mem.wr_out _ _ _ _ (by omega),
      Mem.wr_out _ _ _ _ (by omega)]

/-- Values passed at locations are found at the corresponding addresses. -/
theorem passed_found {R : Regs} {m : Mem} {rb : Nat} {A : Conv} (hr : ∀ r ∈ A.regs, m.rd (rb + 4 * idx r) 4 = R.reg r)
    (hm : ∀ x, R.sp ≤ x → m x = R.mem x) {ts : List FType} (hsm : ∀ t ∈ ts, word t.tc = true → t.size ≤ 4) :
    ∀ {vs : List (List Byte)} {ls : List Loc} {as : List Nat}, (∀ r, Loc.reg r ∈ ls → r ∈ A.regs) →
      AllAt rb R.sp ls as → RegsWords ts ls → AllPassed R ts vs ls → AllFound m ts vs as := by
  induction ts with
  | nil =>
    intro vs ls as _ h1 _ h3
    cases vs with
    | cons => cases ls <;> exact h3.elim
    | nil =>
      cases ls with
      | cons => exact h3.elim
      | nil =>
        cases as with
        | nil => trivial
        | cons => exact h1.elim
  | cons t ts ih =>
    intro vs ls as hin h1 h2 h3
    cases vs with
    | nil => exact h3.elim
    | cons v vs =>
      cases ls with
      | nil => exact h3.elim
      | cons l ls =>
        cases as with
        | nil => exact h1.elim
        | cons a as =>
          refine ⟨?_, ih (fun x hx => hsm x (by simp [hx])) (fun r h => hin r (by simp [h])) h1.2 h2.2 h3.2⟩
          rw [← h3.1.1]
          cases l with
          | stk o =>
            have hl : a = R.sp + o := h1.1
            rw [hl]
            exact Mem.rd_congr (fun i _ => hm _ (by omega))
          | reg r =>
            have hl : a = rb + 4 * idx r := h1.1
            show _ = (R.reg r).take t.size
            rw [← hr r (hin r (by simp)), hl, Mem.rd_take _ _ (hsm t (by simp) (h2.1 r rfl))]

theorem placeFrom_regs {A : Conv} {ts : List FType} : ∀ {p : Pos}, (∀ r ∈ p.free, r ∈ A.regs) →
    ∀ r, Loc.reg r ∈ placeFrom A ts p → r ∈ A.regs := by
  induction ts with
  | nil => intro p _ r h; cases h
  | cons t ts ih =>
    intro p hp r h
    rw [placeFrom, List.mem_cons] at h
    unfold placeArg at h
    rcases h with h | h
    · split at h
      · rename_i r' rs hf
        split at h
        · injection h with h; subst h; exact hp _ (by rw [hf]; simp)
        · cases h
      · cases h
    · refine ih ?_ r h
      intro q hq
      split at hq
      · rename_i r' rs hf
        split at hq
        · exact hp q (by rw [hf]; simp at hq ⊢; exact .inr hq)
        · dsimp only at hq
          split at hq
          · cases hq
          · exact hp q (by rw [hf]; exact hq)
      · cases hq

theorem placeRev_regs {A : Conv} {ts : List FType} : ∀ {free : List Reg}, (∀ r ∈ free, r ∈ A.regs) →
    ∀ r, Loc.reg r ∈ placeRev ts free → r ∈ A.regs := by
  induction ts with
  | nil => intro free _ r h; cases free <;> cases h
  | cons t ts ih =>
    intro free hp r h
    cases free with
    | nil =>
      rw [placeRev, List.mem_cons] at h
      rcases h with h | h
      · cases h
      · exact ih hp r h
    | cons q qs =>
      rw [placeRev] at h
      split at h <;> rw [List.mem_cons] at h <;> rcases h with h | h
      · injection h with h; subst h; exact hp _ (by simp)
      · exact ih (fun x hx => hp x (by simp [hx])) r h
      · cases h
      · exact ih hp r h

theorem placed_regs (A : Conv) (mem : Bool) (ts : List FType) (r : Reg) (h : Loc.reg r ∈ placed A mem ts) :
    r ∈ A.regs := by
  unfold placed at h
  split at h
  · refine placeFrom_regs ?_ r h
    intro q hq
    unfold start at hq
    split at hq
    · split at hq
      · rename_i hr; rw [hr]; exact List.mem_cons_of_mem _ hq
      · cases hq
    · exact hq
  · exact placeRev_regs (fun _ h => h) r h

/-- A closure entered according to the convention calls its handler with the arguments
that were passed. -/
theorem closureEntry_spec {c : Cfg} {D : Data} {kind : Kind} {fl : Flag} {bytes : Nat} {ats : List FType}
    {vs : List (List Byte)} {closure : Nat} {E : Entry} (h : ClosPre c D kind fl bytes ats vs closure E) :
    ClosPost c D kind fl bytes ats vs closure E (closureEntry c kind fl bytes ats closure E) := by
  have hA := asmEntry_spec h.abi h.ebx h.words h.low h.obj h.chain
  have hlow := h.low
  have htop := h.top
  have hbts := h.fits.2
  unfold closureEntry
  dsimp only
  generalize asmEntry c kind closure E = A at hA ⊢
  have hfs : fs c = 44 ∧ cf c = 0 ∨ fs c = 60 ∧ cf c = 8 := by unfold fs cf; cases c.pcc <;> simp
  have hesp := hA.esp
  have hst : A.esp + fs c + 4 = E.sp := by omega
  rw [hst]
  rw [show (if (params c.abi).up = true then E.sp else E.sp + stackAlign c bytes) = argBase c E.sp bytes from rfl]
  rw [takeHidden_st]
  have hR := start_room h.target h.dir h.atsOk h.fits.1 h.fits.2 h.align.1 h.align.2 (E.sp + stackAlign c bytes)
  have hBlt : stackAlign c bytes < 2 ^ 33 := by
    unfold stackAlign
    split
    · omega
    · rw [align_eq (by omega) (by omega)]
      have := roundUp_lt (v := bytes) (a := 16) (by decide)
      omega
  have hloop := closureLoop_lay (c := c) (rb := A.esp + cf c + 16) (ts := ats) (by omega)
    (fun t ht => by have := h.sizes t ht; omega) hR.1
  rw [hloop]
  -- the hidden pointer
  generalize hh : takeHidden c (A.esp + cf c) fl (argBase c E.sp bytes) A.mem = hd
  have hhk : ∀ x, x < A.esp + cf c ∨ A.esp + cf c + 4 ≤ x → hd.2.2 x = A.mem x := by
    intro x hx
    rw [← hh]
    unfold takeHidden
    cases fl <;> try rfl
    · dsimp only; rw [Mem.wr_out _ _ _ _ (by simp; omega)]
    · dsimp only
      split <;> (dsimp only; rw [Mem.wr_out _ _ _ _ (by simp; omega)])
  have hhr : ∀ k, 4 ≤ k → hd.2.2.rd (A.esp + cf c + k) 4 = A.mem.rd (A.esp + cf c + k) 4 := fun k hk =>
    Mem.rd_congr (fun i _ => hhk _ (by omega))
  have hregs : ∀ r ∈ c.abi.regs, A.mem.rd (A.esp + cf c + 16 + 4 * idx r) 4 = E.regs.reg r := by
    intro r hr
    cases r with
    | eax =>
      exfalso
      have := h.abi
      cases hc : c.abi <;> rw [hc] at hr this <;> simp [Conv.regs] at hr this
    | edx => exact hA.edx
    | ecx => exact hA.ecx
  have hs16 : D.ldAlign ≠ 4 → 16 ∣ E.sp := fun hl => h.align.2 (by
    cases hm : c.msvc with
    | false => rfl
    | true => exact absurd (h.target.win (.inr hm)) hl)
  refine ⟨hesp, rfl, ?_, ?_, ?_, ?_, ?_, ?_, ?_, ?_⟩ <;> dsimp only
  · rw [hhr 28 (by omega)]; exact hA.cif
  · rw [hhr 32 (by omega)]; exact hA.handler
  · rw [hhr 36 (by omega)]; exact hA.userData
  · refine passed_found (R := up E.regs (gap c bytes ats)) (A := c.abi) (rb := A.esp + cf c + 16) ?_ ?_ ?_
      (placed_regs c.abi (isMem fl) ats) (layLoop_placed h.target h.dir h.flag h.atsOk h.fits.1 hbts h.align.1 hs16)
      (placed_words _ _ _) h.passed
    · intro r hr
      rw [show A.esp + cf c + 16 + 4 * idx r = A.esp + cf c + (16 + 4 * idx r) by omega, hhr _ (by omega),
        show A.esp + cf c + (16 + 4 * idx r) = A.esp + cf c + 16 + 4 * idx r by omega]
      exact hregs r hr
    · intro x hx
      have hx' : E.sp + gap c bytes ats ≤ x := hx
      rw [hhk x (by omega), hA.keep x (by omega)]
      rfl
    · intro t ht hw
      exact (word_small (h.atsOk t ht).1 hw).1
  · intro hm
    rw [← hh]
    unfold takeHidden
    cases fl <;> first | rfl | cases hm
  · intro hm
    have hu : (params c.abi).up = true := h.dir.resolve_right (by rw [hm]; simp)
    have hab : argBase c E.sp bytes = E.sp := if_pos hu
    have hstk : A.mem.rd E.sp 4 = E.mem.rd E.sp 4 := Mem.rd_congr (fun i _ => hA.keep _ (by omega))
    have hfl := h.flag hm
    have hlen : ∀ m : Mem, ∀ a, (m.rd a 4).length = 4 := fun m a => by simp
    rw [← hh, hab]
    have hword : ∀ r ∈ c.abi.regs, (E.regs.reg r).take 4 = E.regs.reg r := by
      intro r _
      apply List.take_of_length_le
      obtain ⟨ha, hd, hc, _⟩ := h.words
      cases r
      · exact Nat.le_of_eq ha
      · exact Nat.le_of_eq hd
      · exact Nat.le_of_eq hc
    cases hc : c.abi <;> rw [hc] at hu <;> first | (cases hu; done) | skip
    case thiscall =>
      have e : fl = .structArg := by rw [hfl]; simp [structFlag, hc]
      have h1 := hregs .ecx (by rw [hc]; simp [Conv.regs])
      have h2 := hword .ecx (by rw [hc]; simp [Conv.regs])
      have h3 : E.regs.at 4 (Spec.X86.hidden .thiscall) = E.regs.reg .ecx := h2
      rw [e]
      simp only [takeHidden, hc, params]
      rw [rd_wr4 (hlen _ _), h3, ← h1]
      exact ⟨rfl, rfl⟩
    case fastcall =>
      have e : fl = .structArg := by rw [hfl]; simp [structFlag, hc]
      have h1 := hregs .ecx (by rw [hc]; simp [Conv.regs])
      have h2 := hword .ecx (by rw [hc]; simp [Conv.regs])
      have h3 : E.regs.at 4 (Spec.X86.hidden .fastcall) = E.regs.reg .ecx := h2
      rw [e]
      simp only [takeHidden, hc, params]
      rw [rd_wr4 (hlen _ _), h3, ← h1]
      exact ⟨rfl, rfl⟩
    all_goals
      have e : fl = structFlag c := hfl
      rw [e]
      simp only [structFlag, takeHidden, hc, params]
      rw [rd_wr4 (hlen _ _), hstk]
      exact ⟨rfl, rfl⟩
  · rw [layLoop_snd c _ 0]
  · intro x hx
    rw [hhk x (by omega), hA.keep x hx]

end Verif.I386
