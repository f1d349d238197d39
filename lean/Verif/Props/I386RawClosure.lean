import Verif.I386.RawClosure
import Verif.Props.I386

/-! Native raw closures of 32-bit x86 (C57). -/
namespace Verif.Props
open Verif Verif.I386 Verif.Spec Verif.Spec.X86

/-- A raw closure of a prepared and accepted signature has been entered according to its
convention. -/
structure X86RawEntered (c : Cfg) (D : Data) (rt : FType) (ats : List FType) (fl : Flag) (bytes : Nat)
    (vs : List (List Byte)) (closure : Nat) (E : Entry) : Prop where
  prep : I386Prep c D rt ats fl bytes
  accept : rawAccept c.abi ats = true
  words : E.ecx.length = 4 ∧ E.ebx.length = 4
  sp : 64 ≤ E.sp ∧ E.sp < 2 ^ 32
  obj : closure + 28 ≤ E.sp - 64 ∨ E.sp ≤ closure
  passed : AllPassed E.regs ats vs (placeFrom c.abi ats (start c.abi (inMemory (c.win32 || c.darwin) rt)))

theorem x86raw_accept {abi : Abi} {ats : List FType} (h : rawAccept abi ats = true) :
    (∀ t ∈ ats, t.tc ≠ .struct) ∧ (abi = .thiscall ∨ abi = .sysv) := by
  unfold rawAccept at h
  simp only [Bool.and_eq_true, List.all_eq_true, Bool.or_eq_true, decide_eq_true_eq, Bool.not_eq_true', Bool.or_eq_false_iff,
    decide_eq_false_iff_not] at h
  exact ⟨fun t ht => (h.1 t ht).1, h.2⟩

theorem x86raw_post {c : Cfg} {D : Data} {rt : FType} {ats : List FType} {fl : Flag} {bytes : Nat}
    {vs : List (List Byte)} {closure : Nat} {E : Entry} (h : X86RawEntered c D rt ats fl bytes vs closure E) :
    RawPost c.abi closure E (rawClosureEntry c.abi closure E) :=
  rawClosureEntry_spec h.sp.1 h.sp.2 h.words.1 h.words.2 h.obj

theorem x86raw_word_size {D : Data} (hD : D.Ok) {t : FType} (h : WF D.tab t) (hw : word t.tc = true) :
    0 < t.size ∧ t.size ≤ 4 := by
  obtain ⟨s, a, tc, es⟩ := t
  cases h with
  | scalar h =>
    change word tc = true at hw
    cases tc <;> simp_all [word, Data.tab, FType.size] <;> omega
  | struct => simp [word, FType.tc] at hw
  | complex => simp [word, FType.tc] at hw

/-- C57: the handler of a raw closure finds every argument, widened if it is a small
integer, in the array of raw arguments, in the order of the signature; it is called with
the closure's own description, function and data and with 16 bytes for the result; the
caller's memory is unchanged.  `_partial`: the result is not in memory, and under
`FFI_THISCALL` the first argument is passed in the register. -/
theorem C57_arguments_partial {c : Cfg} {D : Data} {rt : FType} {ats : List FType} {fl : Flag} {bytes : Nat}
    {vs : List (List Byte)} {closure : Nat} {E : Entry} (h : X86RawEntered c D rt ats fl bytes vs closure E)
    (hmem : inMemory (c.win32 || c.darwin) rt = false)
    (hthis : c.abi = .thiscall → ∀ t ∈ ats.head?, word t.tc = true) :
    let V := rawClosureEntry c.abi closure E
    RawHolds V.mem ats vs V.raw ∧ V.cif = E.mem.rd (closure + 16) 4 ∧ V.handler = E.mem.rd (closure + 20) 4 ∧
      V.userData = E.mem.rd (closure + 24) 4 ∧
      (V.esp + 16 = V.rvalue ∧ V.rvalue + 16 ≤ V.esp + rawFS c.abi - 4) ∧
      ∀ x, x < V.esp ∨ E.sp ≤ x → V.mem x = E.mem x := by
  intro V
  have p := x86raw_post h
  obtain ⟨hns, habi⟩ := x86raw_accept h.accept
  have hsp := h.sp
  have hpass := h.passed
  rw [hmem] at hpass
  have hfs : rawFS c.abi = 40 ∨ rawFS c.abi = 44 := by unfold rawFS; split <;> simp
  refine ⟨?_, p.cif, p.handler, p.userData, ⟨by rw [p.esp, p.rvalue]; omega, by rw [p.esp, p.rvalue]; omega⟩,
    fun x hx => p.other x (by rw [p.esp] at hx; split <;> omega)⟩
  rcases habi with ha | ha
  · have hreg : start c.abi false = ⟨[.ecx], 0⟩ := by rw [ha]; rfl
    rw [hreg] at hpass
    have hraw : V.raw = E.sp - 4 := by rw [p.raw, if_pos ha]
    have hoth : ∀ x, E.sp ≤ x → V.mem x = E.mem x := fun x hx => p.other x (by rw [if_pos ha]; omega)
    rw [hraw]
    cases ats with
    | nil => cases vs with
      | nil => trivial
      | cons => exact hpass.elim
    | cons t ts =>
      cases vs with
      | nil => exact hpass.elim
      | cons v vs =>
        have hw : word t.tc = true := hthis ha t (by simp)
        simp only [placeFrom, placeArg, hw, if_true] at hpass
        obtain ⟨⟨h1, h2⟩, h3⟩ := hpass
        obtain ⟨s1, s2⟩ := x86raw_word_size h.prep.sig.target.1 (h.prep.sig.atsOk t (by simp)).1 hw
        have hecx := p.ecx ha
        change V.mem.rd (E.sp - 4) 4 = E.ecx at hecx
        change E.ecx.take t.size = v at h1
        have h2 := h2 hw
        change (intVal (signed t.tc) v - (leNat (E.ecx.take 4) : Int)) % 2 ^ 32 = 0 at h2
        have hr4 : roundUp t.size 4 = 4 := by
          have := roundUp_ge (v := t.size) (a := 4) (by omega)
          have := roundUp_lt (v := t.size) (a := 4) (by omega)
          have := dvd_roundUp t.size 4
          omega
        refine ⟨?_, ?_, ?_⟩
        · rw [← h1, ← hecx, Mem.rd_take _ _ s2]
        · intro _
          rw [hecx]
          exact h2
        · rw [hr4, show E.sp - 4 + 4 = E.sp by omega]
          exact stack_raw (R := E.regs) (o := 0) (fun x hx => hoth x hx) rfl (by omega)
            (fun x hx => hns x (by simp [hx])) h3
  · have hreg : start c.abi false = ⟨[], 0⟩ := by rw [ha]; rfl
    rw [hreg] at hpass
    have hne : ¬ c.abi = .thiscall := by rw [ha]; simp
    have hraw : V.raw = E.sp := by rw [p.raw, if_neg hne]
    rw [hraw]
    exact stack_raw (R := E.regs) (o := 0) (fun x hx => p.other x (by rw [if_neg hne]; change E.sp + 0 ≤ x at hx; omega)) rfl (by omega) hns hpass

/-- C57: what the handler stores at the address it is given is returned as the
convention prescribes, to the caller, and %ebx is restored.  `_partial`: the result is not
in memory. -/
theorem C57_result_partial {c : Cfg} {D : Data} {rt : FType} {ats : List FType} {fl : Flag} {bytes : Nat}
    {vs : List (List Byte)} {closure : Nat} {E : Entry} (h : X86RawEntered c D rt ats fl bytes vs closure E)
    (hmem : inMemory (c.win32 || c.darwin) rt = false) {m : Mem} {v : List Byte} :
    let V := rawClosureEntry c.abi closure E
    (rt.tc ≠ .void → m.rd V.rvalue (valueBytes rt) = v) →
    (∀ x, V.rvalue + 16 ≤ x → x < V.esp + rawFS c.abi + 4 → m x = V.mem x) →
    ∃ X, rawClosureExit c.abi V.esp fl.code m = some (X, E.ebx) ∧ X.retaddr = E.mem.rd (E.sp - 4) 4 ∧
      Returned rt v X.eax X.edx (X.st0.map fun x => (x.w, x.bs)) ∧ (rt.tc ≠ .void → WidenedTo rt v X.eax) := by
  intro V hv hk
  have p := x86raw_post h
  have hsp := h.sp
  obtain ⟨h1, h2, h3, -⟩ := x86_prep h.prep
  rw [hmem] at h2
  have hcode := code_lt fl
  have hfs : rawFS c.abi = 40 ∨ rawFS c.abi = 44 := by unfold rawFS; split <;> simp
  have e1 : V.esp = E.sp - 48 := p.esp
  have e2 : V.rvalue = E.sp - 32 := p.rvalue
  have lt := loadTable_spec (frame := V.esp + 16) (m := m) (h3 h2) (v := v)
    (fun hn => by rw [← hv hn, e1, e2, show E.sp - 48 + 16 = E.sp - 32 by omega])
  unfold rawClosureExit
  rw [Nat.mod_eq_of_lt (by omega), ofCode_code]
  have eb : m.rd (V.esp + rawFS c.abi - 4) 4 = E.ebx := by
    rw [← p.ebx]
    exact Mem.rd_congr fun i hi => hk _ (by omega) (by omega)
  have er : m.rd (V.esp + rawFS c.abi) 4 = E.mem.rd (E.sp - 4) 4 := by
    rw [← p.retaddr]
    exact Mem.rd_congr fun i hi => hk _ (by omega) (by omega)
  refine ⟨_, by rw [Option.map_some, eb], er, lt.1, lt.2⟩

/-- C57: under `FFI_SYSV` a raw closure leaves the stack pointer where the convention
wants it, for every result. -/
theorem C57_pop_sysv {c : Cfg} {D : Data} {rt : FType} {ats : List FType} {fl : Flag} {bytes : Nat}
    {vs : List (List Byte)} {closure : Nat} {E : Entry} (h : X86RawEntered c D rt ats fl bytes vs closure E)
    (ha : c.abi = .sysv) (m : Mem) :
    ∃ X, rawClosureExit c.abi (rawClosureEntry c.abi closure E).esp fl.code m = some X ∧
      X.1.sp = E.sp + popped c.abi (c.win32 || c.darwin) rt ats := by
  have p := x86raw_post h
  have hsp := h.sp
  obtain ⟨h1, h2, -⟩ := x86_prep h.prep
  have hcode := code_lt fl
  have hne : ¬ c.abi = .thiscall := by rw [ha]; simp
  unfold rawClosureExit
  rw [Nat.mod_eq_of_lt (by omega), ofCode_code]
  refine ⟨_, rfl, ?_⟩
  dsimp only
  rw [p.esp, if_neg hne, rawFS, if_neg hne, ha]
  simp only [popped]
  rw [← h2]
  cases hm : isMem fl with
  | true =>
    have := h1 hm
    rw [if_pos (by rw [this, structFlag, ha]), if_pos rfl]
    omega
  | false =>
    rw [if_neg (by intro he; rw [he] at hm; cases hm), if_neg (by simp)]
    omega

theorem x86raw_ns {A : Conv} {ats : List FType} (hpos : ∀ t ∈ ats, 0 < t.size) {p : Pos} (h4 : 4 ∣ p.ns) :
    p.ns ≤ (endFrom A ats p).ns ∧ ((endFrom A ats p).ns = p.ns ↔ ∀ l ∈ placeFrom A ats p, ∃ r, l = .reg r) := by
  induction ats generalizing p with
  | nil => exact ⟨Nat.le_refl _, by simp [endFrom, placeFrom]⟩
  | cons t ts ih =>
    have hp := hpos t (by simp)
    have hq := fun x hx => hpos x (List.mem_cons_of_mem t hx)
    obtain ⟨free, ns⟩ := p
    have hr := roundUp_ge (v := t.size) (a := 4) (by omega)
    have hr' := dvd_roundUp t.size 4
    have hs : ns ≤ roundUp ns (stkAlign t) := roundUp_ge (by unfold stkAlign; split <;> omega)
    have hs' : 4 ∣ roundUp ns (stkAlign t) := by
      have := dvd_roundUp ns (stkAlign t)
      unfold stkAlign at this ⊢
      split at this <;> rename_i hc
      · rw [if_pos hc]; omega
      · rw [if_neg hc]; omega
    have stk : ∀ fr : List Reg, ns ≤ (endFrom A ts ⟨fr, roundUp ns (stkAlign t) + roundUp t.size 4⟩).ns ∧
        ((endFrom A ts ⟨fr, roundUp ns (stkAlign t) + roundUp t.size 4⟩).ns = ns ↔
          ∀ l ∈ Loc.stk (roundUp ns (stkAlign t)) :: placeFrom A ts ⟨fr, roundUp ns (stkAlign t) + roundUp t.size 4⟩,
            ∃ r, l = .reg r) := by
      intro fr
      have := (ih hq (p := ⟨fr, roundUp ns (stkAlign t) + roundUp t.size 4⟩) (Nat.dvd_add hs' hr')).1
      dsimp only at this
      refine ⟨by omega, ⟨fun he => by omega, fun hl => ?_⟩⟩
      obtain ⟨r, hr⟩ := hl _ List.mem_cons_self
      cases hr
    cases free with
    | nil => exact stk []
    | cons r rs =>
      simp only [endFrom, placeFrom, placeArg]
      by_cases hw : word t.tc = true
      · simp only [hw, if_true]
        have i := ih hq (p := ⟨rs, ns⟩) h4
        refine ⟨i.1, i.2.trans ?_⟩
        simp
      · simp only [hw, Bool.false_eq_true, if_false]
        exact stk _

/-- C57: under `FFI_THISCALL` a raw closure removes from the stack what the convention
prescribes if and only if no argument is on the stack: it always returns with the
caller's arguments still there. -/
theorem C57_pop_thiscall {c : Cfg} {D : Data} {rt : FType} {ats : List FType} {fl : Flag} {bytes : Nat}
    {vs : List (List Byte)} {closure : Nat} {E : Entry} (h : X86RawEntered c D rt ats fl bytes vs closure E)
    (ha : c.abi = .thiscall) (hpos : ∀ t ∈ ats, 0 < t.size) (m : Mem) :
    ∃ X, rawClosureExit c.abi (rawClosureEntry c.abi closure E).esp fl.code m = some X ∧ X.1.sp = E.sp ∧
      (X.1.sp = E.sp + popped c.abi (c.win32 || c.darwin) rt ats ↔
        ∀ l ∈ placeFrom c.abi ats (start c.abi (inMemory (c.win32 || c.darwin) rt)), ∃ r, l = .reg r) := by
  have p := x86raw_post h
  have hsp := h.sp
  obtain ⟨h1, h2, -⟩ := x86_prep h.prep
  have hcode := code_lt fl
  unfold rawClosureExit
  rw [Nat.mod_eq_of_lt (by omega), ofCode_code]
  have hne : ¬ fl = .structPop := by
    intro he
    have := h1 (by rw [he]; rfl)
    rw [structFlag, ha, he] at this
    cases this
  refine ⟨_, rfl, ?_, ?_⟩
  · dsimp only
    rw [p.esp, if_pos ha, rawFS, if_pos ha, if_neg hne]
    omega
  · dsimp only
    rw [p.esp, if_pos ha, rawFS, if_pos ha, if_neg hne]
    have hstart : ∀ b, (start c.abi b).ns = 0 := by intro b; rw [ha]; cases b <;> rfl
    have i := x86raw_ns (A := c.abi) hpos (p := start c.abi (inMemory (c.win32 || c.darwin) rt)) (by rw [hstart]; omega)
    rw [hstart] at i
    refine Iff.trans ?_ i.2
    have hpp : popped c.abi (c.win32 || c.darwin) rt ats =
        (endFrom c.abi ats (start c.abi (inMemory (c.win32 || c.darwin) rt))).ns := by
      rw [ha]
      rfl
    rw [hpp]
    omega

/-! ## Examples -/

def x86RawM : Mem := fun a => BitVec.ofNat 8 (a * 5 + 3)

/-- Entered with the stack pointer at 4096, the closure at 8192. -/
def x86RawE : Entry := ⟨leBytes 4 8192, leBytes 4 1, leBytes 4 (2 ^ 32 - 2), leBytes 4 4, x86RawM, 4096⟩

theorem x86RawSig_prep : I386Prep (x86Gnu .sysv) linux x86F64 [x86F32, x86I64] .double 12 :=
  ⟨⟨x86Gnu_target _, .inr (mkScalar_wf rfl), by
    intro t ht
    simp at ht
    rcases ht with rfl | rfl <;> exact ⟨mkScalar_wf rfl, fun h => by cases h⟩, by decide +kernel⟩, by decide +kernel⟩

/-- `double f (float, int64_t)` with whatever is on the stack. -/
theorem x86RawSig_entered : X86RawEntered (x86Gnu .sysv) linux x86F64 [x86F32, x86I64] .double 12
    [x86RawM.rd 4096 4, x86RawM.rd 4100 8] 8192 x86RawE :=
  ⟨x86RawSig_prep, by decide, ⟨rfl, rfl⟩, by decide, .inr (by decide),
    ⟨rfl, fun h => by cases h⟩, ⟨rfl, fun h => by cases h⟩, trivial⟩

example := C57_arguments_partial x86RawSig_entered (by decide) (fun h => by cases h)
example := C57_result_partial x86RawSig_entered (by decide)
  (m := ((rawClosureEntry .sysv 8192 x86RawE).mem.wr 4064 (leBytes 8 77))) (v := leBytes 8 77)
  (fun _ => by decide +kernel) (fun x h1 h2 => by
    have e : (rawClosureEntry Conv.sysv 8192 x86RawE).rvalue = 4064 := by decide +kernel
    change (rawClosureEntry Conv.sysv 8192 x86RawE).rvalue + 16 ≤ x at h1
    rw [Mem.wr_out _ _ _ _ (by rw [leBytes_length]; omega)]
    rfl)
example := C57_pop_sysv x86RawSig_entered rfl

theorem x86RawThis_prep : I386Prep (x86Gnu .thiscall) linux x86I32 [x86I32, x86F64] .int32 12 :=
  ⟨⟨x86Gnu_target _, .inr (mkScalar_wf rfl), by
    intro t ht
    simp at ht
    rcases ht with rfl | rfl <;> exact ⟨mkScalar_wf rfl, fun h => by cases h⟩, by decide +kernel⟩, by decide +kernel⟩

theorem x86RawThis_prep2 : I386Prep (x86Gnu .thiscall) linux x86I32 [x86F32, x86I32] .int32 8 :=
  ⟨⟨x86Gnu_target _, .inr (mkScalar_wf rfl), by
    intro t ht
    simp at ht
    rcases ht with rfl | rfl <;> exact ⟨mkScalar_wf rfl, fun h => by cases h⟩, by decide +kernel⟩, by decide +kernel⟩

/-- `int f (int, double)` under `FFI_THISCALL`, the first argument being -2. -/
theorem x86RawThis_entered : X86RawEntered (x86Gnu .thiscall) linux x86I32 [x86I32, x86F64] .int32 12
    [leBytes 4 (2 ^ 32 - 2), x86RawM.rd 4096 8] 8192 x86RawE :=
  ⟨x86RawThis_prep, by decide, ⟨rfl, rfl⟩, by decide, .inr (by decide),
    ⟨by decide +kernel, fun _ => by decide +kernel⟩, ⟨rfl, fun h => by cases h⟩, trivial⟩

example := C57_arguments_partial x86RawThis_entered (by decide) (by decide)
example := C57_pop_thiscall x86RawThis_entered rfl (by decide)

/-! ## Where it fails -/

/-- C57 violated: under `FFI_THISCALL` a first argument that is not passed in the
register (anything but an integer of at most 32 bits or a pointer) is four bytes beyond
the place where the handler looks for it; what is there is %ecx.  For every such
signature. -/
theorem C57_thiscall_order {c : Cfg} {D : Data} {rt : FType} {t : FType} {ts : List FType} {fl : Flag} {bytes : Nat}
    {v : List Byte} {vs : List (List Byte)} {closure : Nat} {E : Entry}
    (h : X86RawEntered c D rt (t :: ts) fl bytes (v :: vs) closure E)
    (hmem : inMemory (c.win32 || c.darwin) rt = false) (ha : c.abi = .thiscall) (hw : word t.tc = false) :
    let V := rawClosureEntry c.abi closure E
    V.mem.rd V.raw 4 = E.ecx ∧ V.mem.rd (V.raw + 4) t.size = v := by
  intro V
  have p := x86raw_post h
  have hsp := h.sp
  have hpass := h.passed
  have hreg : start c.abi false = ⟨[.ecx], 0⟩ := by rw [ha]; rfl
  rw [hmem, hreg] at hpass
  have hraw : V.raw = E.sp - 4 := by rw [p.raw, if_pos ha]
  simp only [placeFrom, placeArg, hw, Bool.false_eq_true, if_false] at hpass
  obtain ⟨⟨h1, -⟩, -⟩ := hpass
  have hr : roundUp 0 (stkAlign t) = 0 := by unfold stkAlign roundUp; split <;> simp
  rw [hr] at h1
  change E.mem.rd (E.sp + 0) t.size = v at h1
  rw [hraw]
  refine ⟨p.ecx ha, ?_⟩
  rw [← h1, show E.sp - 4 + 4 = E.sp + 0 by omega]
  exact Mem.rd_congr fun i hi => p.other _ (by rw [if_pos ha]; omega)

example := C57_thiscall_order (c := x86Gnu .thiscall) (D := linux) (rt := x86I32) (t := x86F32) (ts := [x86I32]) (fl := .int32)
  (bytes := 8) (v := x86RawM.rd 4096 4) (vs := [leBytes 4 (2 ^ 32 - 2)]) (closure := 8192) (E := x86RawE)
  ⟨x86RawThis_prep2, by decide, ⟨rfl, rfl⟩, by decide, .inr (by decide), ⟨rfl, fun h => by cases h⟩,
    ⟨by decide +kernel, fun _ => by decide +kernel⟩, trivial⟩ (by decide) rfl (by decide)

/-- C57 violated for every result in memory: the handler is given 16 bytes of the
closure's own frame instead of the caller's address, which it finds as the first raw
argument; the closure returns the first bytes of the result instead of that address; and
a result of 32 bytes (28 under `FFI_THISCALL`) or more replaces the return address. -/
theorem C57_memory_result {c : Cfg} {D : Data} {rt : FType} {ats : List FType} {fl : Flag} {bytes : Nat}
    {vs : List (List Byte)} {closure : Nat} {E : Entry} (h : X86RawEntered c D rt ats fl bytes vs closure E)
    (hmem : inMemory (c.win32 || c.darwin) rt = true) {v : List Byte} (hv : v.length = rt.size) :
    let V := rawClosureEntry c.abi closure E
    V.rvalue = E.sp - 32 ∧ V.mem.rd V.raw 4 = E.regs.at 4 (hidden c.abi) ∧
    ∃ X, rawClosureExit c.abi V.esp fl.code (V.mem.wr V.rvalue v) = some X ∧
      (4 ≤ rt.size → X.1.eax = v.take 4) ∧
      (rawFS c.abi - 12 ≤ rt.size → X.1.retaddr = (v.drop (rawFS c.abi - 16)).take 4) := by
  intro V
  have p := x86raw_post h
  have hsp := h.sp
  obtain ⟨h1, h2, -⟩ := x86_prep h.prep
  obtain ⟨hns, habi⟩ := x86raw_accept h.accept
  rw [hmem] at h2
  have hcode := code_lt fl
  have e1 : V.esp = E.sp - 48 := p.esp
  have e2 : V.rvalue = E.sp - 32 := p.rvalue
  have part : ∀ o n, o + n ≤ v.length → (V.mem.wr V.rvalue v).rd (V.rvalue + o) n = (v.drop o).take n := by
    intro o n hon
    apply bytes_ext
    · simp; omega
    · intro i hi
      rw [Mem.rd_length] at hi
      rw [Mem.rd_getD _ _ _ _ hi, Nat.add_assoc, Mem.wr_in _ _ _ _ (by omega)]
      simp [List.getD_eq_getElem?_getD, hi]
  refine ⟨e2, ?_, ?_⟩
  · rcases habi with ha | ha
    · rw [show V.raw = E.sp - 4 by rw [p.raw, if_pos ha]]
      have := p.ecx ha
      change V.mem.rd (E.sp - 4) 4 = E.ecx at this
      rw [this, ha]
      exact (List.take_of_length_le (by rw [h.words.1])).symm
    · have hne : ¬ c.abi = .thiscall := by rw [ha]; simp
      rw [show V.raw = E.sp by rw [p.raw, if_neg hne], ha]
      change _ = E.mem.rd (E.sp + 0) 4
      exact Mem.rd_congr fun i hi => p.other _ (by rw [if_neg hne]; omega)
  · unfold rawClosureExit
    rw [Nat.mod_eq_of_lt (by omega), ofCode_code]
    refine ⟨_, rfl, ?_, ?_⟩
    · intro h4
      dsimp only
      have hl : (loadTable (V.esp + 16) (V.mem.wr V.rvalue v) fl).1 = (V.mem.wr V.rvalue v).rd (V.esp + 16) 4 := by
        have := h1 h2
        rw [this]
        unfold structFlag
        rcases habi with ha | ha <;> rw [ha] <;> rfl
      rw [hl, show V.esp + 16 = V.rvalue + 0 by rw [e1, e2]; omega, part 0 4 (by omega)]
      rfl
    · intro hsz
      dsimp only
      have hfs : rawFS c.abi = 40 ∨ rawFS c.abi = 44 := by unfold rawFS; split <;> simp
      rw [show V.esp + rawFS c.abi = V.rvalue + (rawFS c.abi - 16) by rw [e1, e2]; omega, part _ 4 (by omega)]

/-- `struct { struct s16 a, b; }` -/
def x86S32 := mkStruct [x86S16, x86S16]

theorem x86S32_ok : WF linux.tab x86S32 :=
  mkStruct_wf (tab_ok x86_linux_ok) (by simp) (by
    intro t ht
    simp at ht
    subst ht
    exact x86S16_ok)

example : rawFS (x86Gnu .sysv).abi - 12 ≤ x86S32.size := by decide

example (v : List Byte) (hv : v.length = x86S32.size) := C57_memory_result (c := x86Gnu .sysv) (D := linux) (rt := x86S32) (ats := [x86I32])
  (fl := .structPop) (bytes := 8) (vs := [x86RawM.rd 4100 4]) (closure := 8192) (E := x86RawE)
  ⟨⟨⟨x86Gnu_target _, .inr x86S32_ok,
      by intro t ht; simp at ht; subst ht; exact ⟨mkScalar_wf rfl, fun h => by cases h⟩, by decide +kernel⟩, by decide +kernel⟩,
    by decide, ⟨rfl, rfl⟩, by decide, .inr (by decide), ⟨rfl, fun _ => by decide +kernel⟩, trivial⟩ (by decide +kernel) hv

end Verif.Props
