import Verif.I386.Layout

/-! Space for the arguments, and `ffi_call_int` up to the call. -/
namespace Verif.I386
open Verif Verif.Spec Verif.Spec.X86

/-- Data model and build configuration go together: `long double` has 16-byte alignment
on Darwin only, where `X86_WIN32` and MSVC are not in use. -/
structure Target (c : Cfg) (D : Data) : Prop where
  data : D.Ok
  win : c.win32 = true ∨ c.msvc = true → D.ldAlign = 4

/-- Space reserved by `ffi_prep_cif_machdep`, as numbers that do not wrap around. -/
def reserve (c : Cfg) (b : Nat) (ts : List FType) : Nat :=
  ts.foldl (fun b t => roundUp b (if c.win32 ∧ c.abi = .stdcall then 4 else t.align) + roundUp t.size 4) b

theorem reserve_cons (c : Cfg) (b : Nat) (t : FType) (ts : List FType) :
    reserve c b (t :: ts) =
      reserve c (roundUp b (if c.win32 ∧ c.abi = .stdcall then 4 else t.align) + roundUp t.size 4) ts := rfl

theorem wf_align_le {D : Data} (h : D.Ok) (h4 : D.ldAlign = 4) {t : FType} (hw : WF D.tab t) : t.align ≤ 8 := by
  have key : ∀ tc s a, D.tab tc = some (s, a) → a ≤ 8 := by
    obtain ⟨ha, hl⟩ := h
    intro tc s a ht
    cases tc <;> simp only [Data.tab, Option.some.injEq, Prod.mk.injEq, reduceCtorEq] at ht <;> omega
  induction hw with
  | scalar h => exact key _ _ _ h
  | complex _ h => exact key _ _ _ h
  | struct _ hl ih =>
    obtain ⟨e, _, ⟨⟨m, hm, rfl⟩, _⟩, _⟩ := hl
    rw [List.mem_map] at hm
    obtain ⟨x, hx, rfl⟩ := hm
    exact ih x hx

theorem pad_pos {c : Cfg} {D : Data} (hD : D.Ok) {t : FType} (ht : WF D.tab t) :
    (if c.win32 ∧ c.abi = .stdcall then 4 else t.align) = 1 ∨ (if c.win32 ∧ c.abi = .stdcall then 4 else t.align) = 2 ∨
    (if c.win32 ∧ c.abi = .stdcall then 4 else t.align) = 4 ∨ (if c.win32 ∧ c.abi = .stdcall then 4 else t.align) = 8 ∨
    (if c.win32 ∧ c.abi = .stdcall then 4 else t.align) = 16 := by
  split
  · simp
  · exact ht.align_cases (tab_ok hD)

theorem reserve_ge {c : Cfg} {D : Data} (hD : D.Ok) {ts : List FType} (h : ∀ t ∈ ts, WF D.tab t) (b : Nat) :
    b ≤ reserve c b ts := by
  induction ts generalizing b with
  | nil => exact Nat.le_refl _
  | cons t ts ih =>
    rw [reserve_cons]
    have h1 := roundUp_ge (v := b) (a := if c.win32 ∧ c.abi = .stdcall then 4 else t.align)
      (by have := pad_pos (c := c) hD (h t (by simp)); omega)
    have h2 := ih (fun x hx => h x (by simp [hx]))
      (roundUp b (if c.win32 ∧ c.abi = .stdcall then 4 else t.align) + roundUp t.size 4)
    omega

theorem prepBytes_eq {c : Cfg} {D : Data} (hD : D.Ok) {ts : List FType} (h : ∀ t ∈ ts, WF D.tab t) {b : Nat}
    (hfit : reserve c b ts < 2 ^ 32) : ts.foldl (addArg c) b = reserve c b ts := by
  induction ts generalizing b with
  | nil => rfl
  | cons t ts ih =>
    have hge := reserve_ge (c := c) hD (fun x hx => h x (List.mem_cons_of_mem _ hx))
      (roundUp b (if c.win32 ∧ c.abi = .stdcall then 4 else t.align) + roundUp t.size 4)
    rw [reserve_cons] at hfit ⊢
    have hp := pad_pos (c := c) hD (h t (by simp))
    have h1 := roundUp_ge (v := b) (a := if c.win32 ∧ c.abi = .stdcall then 4 else t.align) (by omega)
    have h2 := roundUp_ge (v := t.size) (a := 4) (by omega)
    have e : addArg c b t = roundUp b (if c.win32 ∧ c.abi = .stdcall then 4 else t.align) + roundUp t.size 4 := by
      unfold addArg
      have e1 : (if c.win32 ∧ c.abi = .stdcall then ffiAlign b 4 else ffiAlign b t.align) =
          roundUp b (if c.win32 ∧ c.abi = .stdcall then 4 else t.align) := by
        rw [← align_eq hp (by omega)]
        split <;> rfl
      rw [e1, align_eq (by omega) (by omega), Nat.mod_eq_of_lt (by omega)]
    rw [List.foldl_cons, e]
    exact ih (fun x hx => h x (by simp [hx])) hfit

/-! ### The arguments fit -/

theorem slot_eq {D : Data} (hD : D.Ok) {t : FType} (h : Passable D t) : slot t = roundUp t.size 4 := by
  unfold slot
  split
  · rename_i hs
    have := h.1.size_pos (tab_ok hD)
    have := hs.1
    unfold roundUp
    omega
  · rfl

theorem roundUp4_mul (v : Nat) : roundUp v 4 = (v + 3) / 4 * 4 := rfl
theorem roundUp16_mul (v : Nat) : roundUp v 16 = (v + 15) / 16 * 16 := rfl

theorem pad_dvd {a b : Nat} (ha : a = 1 ∨ a = 2 ∨ a = 4 ∨ a = 8 ∨ a = 16) (h : 4 ∣ b) : 4 ∣ roundUp b a := by
  rcases ha with rfl | rfl | rfl | rfl | rfl <;> unfold roundUp <;> omega

theorem lay_room {c : Cfg} {D : Data} (hT : Target c D) (hu : (params c.abi).up = true) {rb stack b : Nat}
    {t : FType} {st : St} (ht : Passable D t) (hs4 : 4 ∣ stack) (hs16 : D.ldAlign ≠ 4 → 16 ∣ stack)
    (hb : 4 ∣ b) (ha : 4 ∣ st.argp) (hle : st.argp ≤ stack + b) :
    4 ∣ (lay c rb t st).2.argp ∧ (lay c rb t st).2.argp ≤
      stack + (roundUp b (if c.win32 ∧ c.abi = .stdcall then 4 else t.align) + roundUp t.size 4) := by
  have hp := pad_pos (c := c) hT.data ht.1
  have hge := roundUp_ge (v := b) (a := if c.win32 ∧ c.abi = .stdcall then 4 else t.align) (by omega)
  have hz := roundUp4_mul t.size
  have hz0 := ht.1.size_pos (tab_ok hT.data)
  unfold lay
  by_cases hs : small t
  · rw [if_pos hs]
    split
    · exact ⟨ha, by dsimp only; omega⟩
    · dsimp only
      omega
  · rw [if_neg hs]
    dsimp only
    rw [if_pos hu]
    dsimp only
    by_cases h16 : t.tc = .struct ∧ 16 ≤ t.align
    · have ha16 : t.align = 16 := by have := ht.1.align_cases (tab_ok hT.data); omega
      have hld : D.ldAlign ≠ 4 := fun h => by have := wf_align_le hT.data h ht.1; omega
      have hnw : ¬ (c.win32 = true ∧ c.abi = .stdcall) := fun h => hld (hT.win (.inl h.1))
      rw [if_neg hnw] at hge ⊢
      have e : stkAlign t = 16 := if_pos h16
      have h16s := hs16 hld
      rw [e, ha16]
      have h1 := roundUp16_mul st.argp
      have h2 := roundUp16_mul b
      omega
    · have e : stkAlign t = 4 := if_neg h16
      rw [e]
      have h1 := roundUp4_mul st.argp
      omega

theorem layLoop_room {c : Cfg} {D : Data} (hT : Target c D) (hu : (params c.abi).up = true) {rb stack : Nat}
    {ts : List FType} (hp : ∀ t ∈ ts, Passable D t) (hs4 : 4 ∣ stack) (hs16 : D.ldAlign ≠ 4 → 16 ∣ stack) :
    ∀ {st : St} {b : Nat}, 4 ∣ b → 4 ∣ st.argp → st.argp ≤ stack + b →
      (layLoop c rb ts st).2.argp ≤ stack + reserve c b ts := by
  induction ts with
  | nil => intro st b _ _ h; exact h
  | cons t ts ih =>
    intro st b hb ha hle
    have h := lay_room hT hu (rb := rb) (hp t (by simp)) hs4 hs16 hb ha hle
    have h4 : 4 ∣ roundUp b (if c.win32 ∧ c.abi = .stdcall then 4 else t.align) + roundUp t.size 4 :=
      Nat.dvd_add (pad_dvd (pad_pos hT.data (hp t (by simp)).1) hb) (dvd_roundUp _ _)
    exact ih (fun x hx => hp x (by simp [hx])) h4 h.1 h.2

theorem downBytes_le {c : Cfg} {D : Data} (hD : D.Ok) {ts : List FType} (hp : ∀ t ∈ ts, Passable D t) :
    ∀ {n b : Nat}, b + downBytes c ts n ≤ reserve c b ts := by
  induction ts with
  | nil => intro n b; exact Nat.le_refl _
  | cons t ts ih =>
    intro n b
    rw [reserve_cons]
    have hge := roundUp_ge (v := b) (a := if c.win32 ∧ c.abi = .stdcall then 4 else t.align)
      (by have := pad_pos (c := c) hD (hp t (by simp)).1; omega)
    have hsl := slot_eq hD (hp t (by simp))
    unfold downBytes
    split
    · have := ih (fun x hx => hp x (by simp [hx])) (n := n + 1)
        (b := roundUp b (if c.win32 ∧ c.abi = .stdcall then 4 else t.align) + roundUp t.size 4)
      omega
    · have := ih (fun x hx => hp x (by simp [hx])) (n := n)
        (b := roundUp b (if c.win32 ∧ c.abi = .stdcall then 4 else t.align) + roundUp t.size 4)
      omega

/-! ### Stored values survive later changes elsewhere -/

theorem allStored_congr {c : Cfg} {rb lo hi : Nat} (hb : hi ≤ rb) (hhi : hi < 2 ^ 62) {ts : List FType} :
    ∀ {st : St} {vs : List (List Byte)} {m m' : Mem}, (∀ t ∈ ts, t.size < 2 ^ 62) → Room c rb lo hi ts st →
      (∀ x, Fut c rb lo hi st x → m' x = m x) → AllStored m ts vs (layLoop c rb ts st).1 →
      AllStored m' ts vs (layLoop c rb ts st).1 := by
  induction ts with
  | nil => intro st vs m m' _ _ _ h; cases vs <;> exact h
  | cons t ts ih =>
    intro st vs m m' hsz hr hx h
    cases vs with
    | nil => exact h
    | cons v vs =>
      obtain ⟨hst, hr', e, _⟩ := room_step hb (hsz t (by simp)) hhi hr
      have hci := hst.cellIn
      have hre := hst.rest
      rw [e] at hci hre
      refine ⟨?_, ih (fun x hx => hsz x (by simp [hx])) hr' (fun x hf => hx x (hre x hf).1) h.2⟩
      have h1 := h.1
      unfold Stored at h1 ⊢
      rw [Mem.rd_congr (m := m)]
      · exact h1
      · intro i hi
        exact hx _ (hci _ (by omega) (by omega))

/-! ### The call -/

/-- Machine state in the terms of the specification. -/
def Entry.regs (E : Entry) : Regs :=
  ⟨fun | .eax => E.eax | .edx => E.edx | .ecx => E.ecx, E.mem, E.sp⟩

/-- Flags for which the result's address is passed. -/
def isMem (fl : Flag) : Bool := fl = .structPop || fl = .structArg

/-- The state after the hidden pointer. -/
def startSt (c : Cfg) (fl : Flag) (argp : Nat) : St :=
  if isMem fl then
    if fl = .structArg ∧ (params c.abi).regs ≠ [] then ⟨1, argp⟩ else ⟨0, argp + 4⟩
  else ⟨0, argp⟩

theorem passHidden_st (c : Cfg) (rb : Nat) (fl : Flag) (rv argp : Nat) (m : Mem) :
    (passHidden c rb fl rv argp m).1 = startSt c fl argp := by
  unfold passHidden startSt isMem
  cases fl <;> simp
  cases (params c.abi).regs <;> simp

theorem takeHidden_st (c : Cfg) (frame : Nat) (fl : Flag) (argp : Nat) (m : Mem) :
    (takeHidden c frame fl argp m).2.1 = startSt c fl argp := by
  unfold takeHidden startSt isMem
  cases fl <;> simp
  cases (params c.abi).regs <;> simp

theorem isMem_callFlag (fl : Flag) (rv : Option Nat) : isMem (callFlag fl rv) = isMem fl := by
  cases rv <;> cases fl <;> rfl

theorem startSt_callFlag (c : Cfg) (fl : Flag) (rv : Option Nat) (argp : Nat) :
    startSt c (callFlag fl rv) argp = startSt c fl argp := by
  cases rv <;> cases fl <;> rfl

theorem passHidden_callFlag (c : Cfg) (rb : Nat) (fl : Flag) (o : Option Nat) (rv argp : Nat) (m : Mem) :
    passHidden c rb (callFlag fl o) rv argp m = passHidden c rb fl rv argp m := by
  cases o <;> cases fl <;> rfl

/-- What a call needs.  The argument objects are not in the part of the stack that is
about to be used. -/
structure CallPre (c : Cfg) (D : Data) (fl : Flag) (bytes : Nat) (rt : FType) (ats : List FType) (I : CallIn) :
    Prop where
  target : Target c D
  dir : (params c.abi).up = true ∨ isMem fl = false
  atsOk : ∀ t ∈ ats, Passable D t
  sizes : ∀ t ∈ ats, t.size < 2 ^ 32
  len : I.avalue.length = ats.length
  fits : reserve c (retBytes fl) ats ≤ bytes ∧ bytes < 2 ^ 32
  words : I.fn.length = 4 ∧ I.closure.length = 4 ∧ I.ebp.length = 4 ∧ I.retaddr.length = 4 ∧ I.pc.length = 4
  top : I.sp < 2 ^ 32
  room : stackAlign c bytes + 32 + rsize fl rt I.rvalue + 20 ≤ I.sp
  out : ∀ q ∈ ats.zip I.avalue, q.2 + q.1.size + stackAlign c bytes + 32 + rsize fl rt I.rvalue + 20 ≤ I.sp ∨ I.sp ≤ q.2

/-- The first stack argument's address for the loops. -/
def argBase (c : Cfg) (stack bytes : Nat) : Nat := if (params c.abi).up then stack else stack + stackAlign c bytes

/-- What a call achieves. -/
structure CallPost (c : Cfg) (D : Data) (fl : Flag) (bytes : Nat) (rt : FType) (ats : List FType) (I : CallIn)
    (O : CallOut) : Prop where
  sp : O.entry.sp = alloca c I.sp (stackAlign c bytes + 32 + rsize fl rt I.rvalue)
  align : 4 ∣ O.entry.sp ∧ (c.msvc = false → 16 ∣ O.entry.sp)
  low : 4 ≤ O.entry.sp
  frame : O.frame = O.entry.sp + stackAlign c bytes
  block : O.frame + 32 + rsize fl rt I.rvalue ≤ I.sp
  regs : O.entry.eax = O.entry.mem.rd (O.frame + 20) 4 ∧ O.entry.edx = O.entry.mem.rd (O.frame + 24) 4 ∧
    O.entry.ecx = O.entry.mem.rd (O.frame + 28) 4
  fn : O.fn = I.fn
  saved : O.entry.mem.rd O.frame 4 = I.ebp ∧ O.entry.mem.rd (O.frame + 4) 4 = I.retaddr ∧
    O.entry.mem.rd (O.entry.sp - 4) 4 = I.pc
  words : O.entry.mem.rd (O.frame + 12) 4 = leBytes 4 (callFlag fl I.rvalue).code ∧
    O.entry.mem.rd (O.frame + 16) 4 = leBytes 4 O.rvalue
  rvalue : O.rvalue = if rsize fl rt I.rvalue ≠ 0 then O.frame + 32 else I.rvalue.getD 0
  hidden : isMem fl = true →
    if fl = .structArg ∧ (params c.abi).regs ≠ [] then
      O.entry.mem.rd (O.frame + 20 + 4 * (params c.abi).regs.getD 0 0) 4 = leBytes 4 O.rvalue
    else O.entry.mem.rd O.entry.sp 4 = leBytes 4 O.rvalue
  args : AllStored O.entry.mem ats (argVals I.mem ats I.avalue)
    (layLoop c (O.frame + 20) ats (startSt c fl (argBase c O.entry.sp bytes))).1
  keep : ∀ x, x + 4 < O.entry.sp ∨ O.frame + 32 ≤ x → O.entry.mem x = I.mem x
  roomOk : Room c (O.frame + 20) O.entry.sp O.frame ats (startSt c fl (argBase c O.entry.sp bytes))

theorem stackAlign_ge {c : Cfg} {b : Nat} (h : b < 2 ^ 32) : b ≤ stackAlign c b := by
  unfold stackAlign
  split
  · exact Nat.le_refl _
  · rw [align_eq (by omega) (by omega)]; exact roundUp_ge (by decide)

theorem alloca_spec {c : Cfg} {sp n : Nat} (h : n ≤ sp) :
    4 ∣ alloca c sp n ∧ (c.msvc = false → 16 ∣ alloca c sp n) ∧ alloca c sp n + n ≤ sp ∧ sp < alloca c sp n + n + 16 := by
  unfold alloca
  split
  · rename_i hm
    refine ⟨Nat.dvd_mul_left _ _, ?_, by omega, by omega⟩
    intro h
    rw [h] at hm
    cases hm
  · refine ⟨⟨(sp - n) / 16 * 4, by omega⟩, fun _ => Nat.dvd_mul_left _ _, by omega, by omega⟩

theorem start_room {c : Cfg} {D : Data} (hT : Target c D) {fl : Flag} (hdir : (params c.abi).up = true ∨ isMem fl = false)
    {bytes stack : Nat} {ats : List FType} (hp : ∀ t ∈ ats, Passable D t)
    (hfit : reserve c (retBytes fl) ats ≤ bytes) (hb : bytes < 2 ^ 32)
    (hs4 : 4 ∣ stack) (hs16 : c.msvc = false → 16 ∣ stack) (rb : Nat) :
    Room c rb stack (stack + stackAlign c bytes) ats (startSt c fl (argBase c stack bytes)) ∧
      stack ≤ (startSt c fl (argBase c stack bytes)).argp := by
  have hB := stackAlign_ge (c := c) hb
  have hs16' : D.ldAlign ≠ 4 → 16 ∣ stack := fun h => hs16 (by
    cases hm : c.msvc with
    | false => rfl
    | true => exact absurd (hT.win (.inr hm)) h)
  have hret : retBytes fl = if isMem fl then 4 else 0 := by cases fl <;> rfl
  unfold Room
  by_cases hu : (params c.abi).up = true
  · have hab : argBase c stack bytes = stack := if_pos hu
    have hst : 4 ∣ (startSt c fl stack).argp ∧ (startSt c fl stack).argp ≤ stack + retBytes fl ∧
        stack ≤ (startSt c fl stack).argp := by
      rw [hret]
      unfold startSt
      split
      · split <;> (dsimp only; omega)
      · dsimp only; omega
    rw [if_pos hu, hab]
    have := layLoop_room hT hu (rb := rb) hp hs4 hs16' (st := startSt c fl stack) (b := retBytes fl)
      (by rw [hret]; split <;> omega) hst.1 hst.2.1
    exact ⟨by omega, hst.2.2⟩
  · have hm : isMem fl = false := hdir.resolve_left hu
    have hab : argBase c stack bytes = stack + stackAlign c bytes := if_neg hu
    have hst : startSt c fl (stack + stackAlign c bytes) = ⟨0, stack + stackAlign c bytes⟩ := by
      unfold startSt; rw [hm]; rfl
    rw [if_neg hu, hab, hst]
    have := downBytes_le (c := c) hT.data hp (n := 0) (b := retBytes fl)
    dsimp only
    omega

theorem fut_cases {c : Cfg} {rb lo hi : Nat} {st : St} {x : Nat} (h : Fut c rb lo hi st x) :
    ((params c.abi).up = true ∧ st.argp ≤ x ∧ x < hi) ∨ ((params c.abi).up = false ∧ lo ≤ x ∧ x < st.argp) ∨
      FutReg c rb st.narg x := by
  rcases h with h | h
  · split at h
    · rename_i hu; exact .inl ⟨hu, h⟩
    · rename_i hu; exact .inr (.inl ⟨by simpa using hu, h⟩)
  · exact .inr (.inr h)

theorem callEntry_spec {c : Cfg} {D : Data} {fl : Flag} {bytes : Nat} {rt : FType} {ats : List FType} {I : CallIn}
    (h : CallPre c D fl bytes rt ats I) :
    ∃ O, callEntry c fl bytes rt ats I = .ok O ∧ CallPost c D fl bytes rt ats I O := by
  have hD := h.target.data
  have hB := stackAlign_ge (c := c) h.fits.2
  have hroom := h.room
  have htop := h.top
  have hout := h.out
  obtain ⟨hl1, hl2, hl3, hl4, hl5⟩ := h.words
  obtain ⟨hs4, hs16, hsn, hsp⟩ := alloca_spec (c := c) (sp := I.sp)
    (n := stackAlign c bytes + 32 + rsize fl rt I.rvalue) (by omega)
  have hR := start_room h.target h.dir h.atsOk h.fits.1 h.fits.2 hs4 hs16
    (alloca c I.sp (stackAlign c bytes + 32 + rsize fl rt I.rvalue) + stackAlign c bytes + 20)
  unfold callEntry
  dsimp only
  generalize hS : alloca c I.sp (stackAlign c bytes + 32 + rsize fl rt I.rvalue) = stack at *
  generalize hBB : stackAlign c bytes = B at *
  generalize hrs : rsize fl rt I.rvalue = rs at *
  have hab : (if (params c.abi).up = true then stack else stack + B) = argBase c stack bytes := by
    unfold argBase; rw [hBB]
  rw [hab, passHidden_callFlag]
  generalize hrv : (if rs ≠ 0 then stack + B + 32 else I.rvalue.getD 0) = rv
  generalize hm1 : (((I.mem.wr (stack + B + 8) I.fn).wr (stack + B + 12)
    (leBytes 4 (callFlag fl I.rvalue).code)).wr (stack + B + 16) (leBytes 4 rv)).wr
      (stack + B + 20 + 4 * (params c.abi).chain) I.closure = m1
  have hch : (params c.abi).chain < 3 := by cases c.abi <;> decide
  -- the frame's words
  have hm1k : ∀ x, x < stack + B + 8 ∨ stack + B + 32 ≤ x → m1 x = I.mem x := by
    intro x hx
    rw [← hm1, Mem.wr_out _ _ _ _ (by omega), Mem.wr_out _ _ _ _ (by simp; omega),
      Mem.wr_out _ _ _ _ (by simp; omega), Mem.wr_out _ _ _ _ (by omega)]
  have hm1a : m1.rd (stack + B + 8) 4 = I.fn := by
    rw [← hm1, Mem.rd_wr_disj _ _ _ _ _ (by omega), Mem.rd_wr_disj _ _ _ _ _ (by simp),
      Mem.rd_wr_disj _ _ _ _ _ (by simp), ← hl1, Mem.rd_wr_same]
  have hm1b : m1.rd (stack + B + 12) 4 = leBytes 4 (callFlag fl I.rvalue).code := by
    rw [← hm1, Mem.rd_wr_disj _ _ _ _ _ (by omega), Mem.rd_wr_disj _ _ _ _ _ (by simp)]
    have := Mem.rd_wr_same (I.mem.wr (stack + B + 8) I.fn) (stack + B + 12) (leBytes 4 (callFlag fl I.rvalue).code)
    rwa [leBytes_length] at this
  have hm1c : m1.rd (stack + B + 16) 4 = leBytes 4 rv := by
    rw [← hm1, Mem.rd_wr_disj _ _ _ _ _ (by omega)]
    have := Mem.rd_wr_same ((I.mem.wr (stack + B + 8) I.fn).wr (stack + B + 12) (leBytes 4 (callFlag fl I.rvalue).code))
      (stack + B + 16) (leBytes 4 rv)
    rwa [leBytes_length] at this
  -- the hidden pointer
  generalize hh : passHidden c (stack + B + 20) fl rv (argBase c stack bytes) m1 = hd
  have hst : hd.1 = startSt c fl (argBase c stack bytes) := by rw [← hh, passHidden_st]
  have hret : retBytes fl ≤ B := Nat.le_trans (reserve_ge (c := c) hD (fun t ht => (h.atsOk t ht).1) _)
    (by have := h.fits.1; omega)
  have hhk : ∀ x, (x < stack ∨ stack + B ≤ x ∧ x < stack + B + 20 ∨ stack + B + 32 ≤ x ∨ isMem fl = false) →
      hd.2 x = m1 x := by
    intro x hx
    rw [← hh]
    unfold passHidden
    have hr3 := regs_lt (c := c) (i := 0)
    have hupm : isMem fl = true → argBase c stack bytes = stack := fun hm => by
      rcases h.dir with hu | hu
      · exact if_pos hu
      · rw [hm] at hu; cases hu
    cases fl <;> try rfl
    · have e := hupm rfl
      have hret' : 4 ≤ B := hret
      have hx' : x < stack ∨ stack + B ≤ x ∧ x < stack + B + 20 ∨ stack + B + 32 ≤ x := by
        rcases hx with h | h | h | h
        · exact .inl h
        · exact .inr (.inl h)
        · exact .inr (.inr h)
        · cases h
      dsimp only
      rw [e, Mem.wr_out _ _ _ _ (by rw [leBytes_length]; omega)]
    · have e := hupm rfl
      have hret' : 4 ≤ B := hret
      have hx' : x < stack ∨ stack + B ≤ x ∧ x < stack + B + 20 ∨ stack + B + 32 ≤ x := by
        rcases hx with h | h | h | h
        · exact .inl h
        · exact .inr (.inl h)
        · exact .inr (.inr h)
        · cases h
      dsimp only
      cases hr : (params c.abi).regs with
      | nil => dsimp only; rw [e, Mem.wr_out _ _ _ _ (by rw [leBytes_length]; omega)]
      | cons r rs' =>
        rw [hr] at hr3
        have hr3 : r < 3 := hr3
        dsimp only; rw [Mem.wr_out _ _ _ _ (by rw [leBytes_length]; omega)]
  have hhid : isMem fl = true →
      if fl = .structArg ∧ (params c.abi).regs ≠ [] then
        hd.2.rd (stack + B + 20 + 4 * (params c.abi).regs.getD 0 0) 4 = leBytes 4 rv
      else hd.2.rd stack 4 = leBytes 4 rv := by
    intro hm
    have e : argBase c stack bytes = stack := by
      rcases h.dir with hu | hu
      · exact if_pos hu
      · rw [hm] at hu; cases hu
    rw [← hh]
    have hrd : ∀ a, (m1.wr a (leBytes 4 rv)).rd a 4 = leBytes 4 rv := fun a => by
      have := Mem.rd_wr_same m1 a (leBytes 4 rv)
      rwa [leBytes_length] at this
    unfold passHidden
    cases fl <;> try (cases hm; done)
    · rw [if_neg (fun h => by cases h.1), e]; exact hrd _
    · cases hr : (params c.abi).regs with
      | nil => rw [if_neg (fun h => h.2 rfl), e]; exact hrd _
      | cons r rs' => rw [if_pos ⟨rfl, by simp⟩]; exact hrd _
  rw [hst]
  -- the arguments
  have hoi : ∀ q ∈ ats.zip I.avalue, ∀ i < q.1.size, q.2 + i + 4 < stack ∨ stack + B + 32 ≤ q.2 + i := by
    intro q hq i hi
    have := hout q hq
    omega
  obtain ⟨m', hm', hk, hargs⟩ := callLoop_spec hD (c := c) (rb := stack + B + 20) (lo := stack) (hi := stack + B)
    (by omega) (by omega) (ts := ats) (as := I.avalue) (m := hd.2)
    (fun t ht => ⟨h.atsOk t ht, by have := h.sizes t ht; omega⟩) h.len hR.1 hR.2 (fun q hq i hi => by
      have := hoi q hq i hi
      omega)
  rw [hm']
  dsimp only
  have hvals : argVals hd.2 ats I.avalue = argVals I.mem ats I.avalue := by
    apply argVals_congr
    intro q hq i hi
    have := hoi q hq i hi
    rw [hhk _ (by omega), hm1k _ (by omega)]
  rw [hvals] at hargs
  have hfutf : ∀ x, stack + B ≤ x ∧ x < stack + B + 20 ∨ stack + B + 32 ≤ x ∨ x < stack →
      ¬ Fut c (stack + B + 20) stack (stack + B) (startSt c fl (argBase c stack bytes)) x := by
    intro x hx hf
    have hale : (startSt c fl (argBase c stack bytes)).argp ≤ stack + B := by
      have := hR.1
      unfold Room at this
      split at this
      · rename_i hu
        exact Nat.le_trans (layLoop_up hu _ _ _) this
      · exact this.2
    have := fut_range hR.2 hale hf
    omega
  -- what the assembly adds
  generalize hmf : ((m'.wr (stack + B) I.ebp).wr (stack + B + 4) I.retaddr).wr (stack - 4) I.pc = mf
  have hen : enter (stack + B) stack I m' = ⟨mf.rd (stack + B + 20) 4, mf.rd (stack + B + 24) 4, mf.rd (stack + B + 28) 4,
      I.ebx, mf, stack⟩ := by
    unfold enter
    dsimp only
    rw [hmf, ← hmf, Mem.rd_wr_disj _ (stack - 4) _ _ _ (by omega), Mem.rd_wr_disj _ (stack - 4) _ _ _ (by omega),
      Mem.rd_wr_disj _ (stack - 4) _ _ _ (by omega)]
  have hmk : ∀ x, (stack ≤ x ∧ x < stack + B ∨ stack + B + 8 ≤ x) → mf x = m' x := by
    intro x hx
    rw [← hmf, Mem.wr_out _ _ _ _ (by omega), Mem.wr_out _ _ _ _ (by omega), Mem.wr_out _ _ _ _ (by omega)]
  have hword : ∀ a, stack + B + 8 ≤ a → a + 4 ≤ stack + B + 20 → mf.rd a 4 = m1.rd a 4 := by
    intro a h1 h2
    apply Mem.rd_congr
    intro i hi
    rw [hmk _ (by omega), hk _ (hfutf _ (by omega)), hhk _ (by omega)]
  refine ⟨_, rfl, ?_⟩
  rw [hen]
  refine ⟨hS.symm ▸ by rw [hBB, hrs, hS], ⟨hs4, hs16⟩, by dsimp only; omega, by rw [hBB], by rw [hrs]; dsimp only; omega, ⟨rfl, rfl, rfl⟩, ?_, ⟨?_, ?_, ?_⟩,
    ⟨?_, ?_⟩, ?_, ?_, ?_, ?_, ?_⟩
  all_goals dsimp only
  · rw [hword _ (by omega) (by omega), hm1a]
  · rw [← hmf, Mem.rd_wr_disj _ (stack - 4) _ _ _ (by omega), Mem.rd_wr_disj _ _ _ _ _ (by omega), ← hl3, Mem.rd_wr_same]
  · rw [← hmf, Mem.rd_wr_disj _ (stack - 4) _ _ _ (by omega), ← hl4, Mem.rd_wr_same]
  · rw [← hmf, ← hl5, Mem.rd_wr_same]
  · rw [hword _ (by omega) (by omega), hm1b]
  · rw [hword _ (by omega) (by omega), hm1c]
  · rw [hrs, hrv]
  · intro hm
    have h1 := hhid hm
    have hup : (params c.abi).up = true := h.dir.resolve_right (by rw [hm]; simp)
    have e : argBase c stack bytes = stack := if_pos hup
    split at h1
    · rename_i hc
      rw [if_pos hc, ← h1]
      apply Mem.rd_congr
      intro i hi
      have hr3 := regs_lt (c := c) (i := 0)
      have hlen : 0 < (params c.abi).regs.length := List.length_pos_iff.2 hc.2
      rw [hmk _ (by omega), hk]
      intro hf
      have hst1 : startSt c fl (argBase c stack bytes) = ⟨1, argBase c stack bytes⟩ := by
        unfold startSt; rw [if_pos hm, if_pos hc]
      rw [hst1] at hf
      rcases fut_cases hf with hf | hf | hf
      · omega
      · rw [hup] at hf; cases hf.1
      · obtain ⟨j, hj, hl, hx⟩ := hf
        dsimp only at hj
        have : (params c.abi).regs.getD j 0 ≠ (params c.abi).regs.getD 0 0 := fun h =>
          absurd (regs_nodup hl hlen h) (by omega)
        omega
    · rename_i hc
      rw [if_neg hc, ← h1]
      have hret4 : 4 ≤ B := by
        have : retBytes fl = 4 := by cases fl <;> first | rfl | cases hm
        omega
      apply Mem.rd_congr
      intro i hi
      rw [hmk _ (by omega), hk]
      intro hf
      have hst1 : startSt c fl (argBase c stack bytes) = ⟨0, stack + 4⟩ := by
        unfold startSt; rw [if_pos hm, if_neg hc, e]
      rw [hst1] at hf
      rcases fut_cases hf with hf | hf | hf
      · have := hf.2.1; dsimp only at this; omega
      · rw [hup] at hf; cases hf.1
      · have := futReg_ge hf; omega
  · apply allStored_congr (lo := stack) (hi := stack + B) (by omega) (by omega)
      (fun t ht => by have := h.sizes t ht; omega) hR.1 _ hargs
    intro x hf
    have hnf : ¬ (stack + B ≤ x ∧ x < stack + B + 20 ∨ stack + B + 32 ≤ x ∨ x < stack) := fun hx => hfutf x hx hf
    exact hmk x (by omega)
  · intro x hx
    rw [← hmf, Mem.wr_out _ _ _ _ (by omega), Mem.wr_out _ _ _ _ (by omega), Mem.wr_out _ _ _ _ (by omega),
      hk _ (hfutf x (by omega)), hhk _ (by omega), hm1k _ (by omega)]
  · exact hR.1

end Verif.I386
