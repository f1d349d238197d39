import Verif.I386.Pop

/-
Native raw closures of 32-bit x86: `ffi_prep_raw_closure_loc` (src/x86/ffi.c:679-727),
`ffi_closure_raw_SYSV` and `ffi_closure_raw_THISCALL` (src/x86/sysv.S:666-885).
-/
namespace Verif.I386
open Verif Verif.Spec Verif.Spec.X86

/-- Which types and conventions are accepted, src/x86/ffi.c:690-712 (the result's type is
not looked at). -/
def rawAccept (abi : Abi) (ats : List FType) : Bool :=
  ats.all (fun t => !(t.tc = .struct || t.tc = .longdouble)) && (abi = .thiscall || abi = .sysv)

/-- `raw_closure_S_FS` and `raw_closure_T_FS`, src/x86/sysv.S:666, 770. -/
def rawFS (abi : Abi) : Nat := if abi = .thiscall then 40 else 44

/-- What the handler is called with. -/
structure RawView where
  esp : Nat
  cif : List Byte
  handler : List Byte
  userData : List Byte
  rvalue : Nat
  raw : Nat
  mem : Mem

/-- From the entry to the call of the handler, src/x86/sysv.S:674-692, 778-809; `closure` is
the value of %eax.  The return address of that call is pushed below `esp` and left out, as
is the thunk that loads the GOT pointer. -/
def rawClosureEntry (abi : Abi) (closure : Nat) (E : Entry) : RawView :=
  let r : Nat × Mem :=
    if abi = .thiscall then
      let edx := E.mem.rd (E.sp - 4) 4
      (E.sp - 8, (E.mem.wr (E.sp - 4) E.ecx).wr (E.sp - 8) edx)
    else (E.sp - 4, E.mem)
  let esp := r.1 - rawFS abi
  let m := r.2.wr (esp + rawFS abi - 4) E.ebx
  let m := m.wr (esp + 12) (m.rd (closure + 24) 4)
  let m := m.wr (esp + 8) (leBytes 4 (esp + rawFS abi + 4))
  let m := m.wr (esp + 4) (leBytes 4 (esp + 16))
  let m := m.wr esp (m.rd (closure + 16) 4)
  { esp := esp, cif := m.rd esp 4, handler := m.rd (closure + 20) 4, userData := m.rd (esp + 12) 4,
    rvalue := leNat (m.rd (esp + 4) 4), raw := leNat (m.rd (esp + 8) 4), mem := m }

/-- After the handler has returned, leaving memory `m`, src/x86/sysv.S:694-763, 811-880:
registers, and %ebx.  `flags` is `cif->flags`; `none` is `ud2`. -/
def rawClosureExit (abi : Abi) (esp flags : Nat) (m : Mem) : Option (Exit × List Byte) :=
  (Flag.ofCode (flags % 16)).map fun fl =>
    let r := loadTable (esp + 16) m fl
    let pop := (if abi = .thiscall then 4 else 0) + (if fl = .structPop then 4 else 0)
    (⟨r.1, r.2.1, r.2.2, esp + rawFS abi + 4 + pop, m.rd (esp + rawFS abi) 4⟩, m.rd (esp + rawFS abi - 4) 4)

/-! ## Entry -/

/-- What the entry establishes; `top` is where the frame ends. -/
structure RawPost (abi : Abi) (closure : Nat) (E : Entry) (V : RawView) : Prop where
  esp : V.esp = E.sp - 48
  cif : V.cif = E.mem.rd (closure + 16) 4
  handler : V.handler = E.mem.rd (closure + 20) 4
  userData : V.userData = E.mem.rd (closure + 24) 4
  rvalue : V.rvalue = E.sp - 32
  raw : V.raw = if abi = .thiscall then E.sp - 4 else E.sp
  ecx : abi = .thiscall → V.mem.rd (E.sp - 4) 4 = E.ecx
  retaddr : V.mem.rd (V.esp + rawFS abi) 4 = E.mem.rd (E.sp - 4) 4
  ebx : V.mem.rd (V.esp + rawFS abi - 4) 4 = E.ebx
  other : ∀ x, x < E.sp - 48 ∨ (if abi = .thiscall then E.sp else E.sp - 4) ≤ x → V.mem x = E.mem x

theorem rawClosureEntry_spec {abi : Abi} {closure : Nat} {E : Entry} (hsp : 64 ≤ E.sp) (hsp' : E.sp < 2 ^ 32)
    (hecx : E.ecx.length = 4) (hebx : E.ebx.length = 4) (obj : closure + 28 ≤ E.sp - 64 ∨ E.sp ≤ closure) :
    RawPost abi closure E (rawClosureEntry abi closure E) := by
  have le4 : ∀ v, v < 2 ^ 32 → leNat (leBytes 4 v) = v := fun v hv => by
    rw [leNat_leBytes, show 256 ^ 4 = 2 ^ 32 from rfl, Nat.mod_eq_of_lt hv]
  by_cases ha : abi = .thiscall
  · have hf : rawFS abi = 40 := by rw [rawFS, if_pos ha]
    unfold rawClosureEntry
    simp only [hf, if_pos ha]
    have hra : (E.mem.rd (E.sp - 4) 4).length = 4 := by simp
    generalize hm0 : (E.mem.wr (E.sp - 4) E.ecx).wr (E.sp - 8) (E.mem.rd (E.sp - 4) 4) = m0
    have f0 : ∀ k, k + 4 ≤ 28 → m0.rd (closure + k) 4 = E.mem.rd (closure + k) 4 := by
      intro k hk
      rw [← hm0, Mem.rd_wr_disj _ _ _ _ _ (by rw [hra]; omega), Mem.rd_wr_disj _ _ _ _ _ (by rw [hecx]; omega)]
    have r0 : m0.rd (E.sp - 8) 4 = E.mem.rd (E.sp - 4) 4 := by
      rw [← hm0, rd_wr hra]
    have c0 : m0.rd (E.sp - 4) 4 = E.ecx := by
      rw [← hm0, Mem.rd_wr_disj _ _ _ _ _ (by rw [hra]; omega), rd_wr hecx]
    have o0 : ∀ x, x < E.sp - 8 ∨ E.sp ≤ x → m0 x = E.mem x := by
      intro x hx
      rw [← hm0, Mem.wr_out _ _ _ _ (by rw [hra]; omega), Mem.wr_out _ _ _ _ (by rw [hecx]; omega)]
    have e1 : E.sp - 8 - 40 = E.sp - 48 := by omega
    rw [e1]
    have g1 : ((m0.wr (E.sp - 48 + 40 - 4) E.ebx)).rd (closure + 24) 4 = E.mem.rd (closure + 24) 4 := by
      rw [Mem.rd_wr_disj _ _ _ _ _ (by rw [hebx]; omega), f0 24 (by omega)]
    rw [g1]
    have hu : (E.mem.rd (closure + 24) 4).length = 4 := by simp
    have hc : (E.mem.rd (closure + 16) 4).length = 4 := by simp
    have g2 : (((((m0.wr (E.sp - 48 + 40 - 4) E.ebx)).wr (E.sp - 48 + 12) (E.mem.rd (closure + 24) 4)).wr (E.sp - 48 + 8)
        (leBytes 4 (E.sp - 48 + 40 + 4))).wr (E.sp - 48 + 4) (leBytes 4 (E.sp - 48 + 16))).rd (closure + 16) 4 =
        E.mem.rd (closure + 16) 4 := by
      rw [Mem.rd_wr_disj _ _ _ _ _ (by simp; omega), Mem.rd_wr_disj _ _ _ _ _ (by simp; omega),
        Mem.rd_wr_disj _ _ _ _ _ (by simp; omega), Mem.rd_wr_disj _ _ _ _ _ (by rw [hebx]; omega), f0 16 (by omega)]
    rw [g2]
    constructor
    · rfl
    · dsimp only
      rw [rd_wr hc]
    · dsimp only
      rw [Mem.rd_wr_disj _ _ _ _ _ (by simp; omega), Mem.rd_wr_disj _ _ _ _ _ (by simp; omega),
        Mem.rd_wr_disj _ _ _ _ _ (by simp; omega), Mem.rd_wr_disj _ _ _ _ _ (by simp; omega),
        Mem.rd_wr_disj _ _ _ _ _ (by rw [hebx]; omega), f0 20 (by omega)]
    · dsimp only
      rw [Mem.rd_wr_disj _ _ _ _ _ (by simp), Mem.rd_wr_disj _ _ _ _ _ (by simp),
        Mem.rd_wr_disj _ _ _ _ _ (by simp), rd_wr hu]
    · dsimp only
      rw [Mem.rd_wr_disj _ _ _ _ _ (by simp), rd_wr (by simp), le4 _ (by omega)]
      omega
    · dsimp only
      rw [Mem.rd_wr_disj _ _ _ _ _ (by simp), Mem.rd_wr_disj _ _ _ _ _ (by simp), rd_wr (by simp), le4 _ (by omega), if_pos ha]
      omega
    · intro _
      dsimp only
      rw [Mem.rd_wr_disj _ _ _ _ _ (by simp; omega), Mem.rd_wr_disj _ _ _ _ _ (by simp; omega),
        Mem.rd_wr_disj _ _ _ _ _ (by simp; omega), Mem.rd_wr_disj _ _ _ _ _ (by simp; omega),
        Mem.rd_wr_disj _ _ _ _ _ (by rw [hebx]; omega), c0]
    · dsimp only
      rw [hf, show E.sp - 48 + 40 = E.sp - 8 by omega]
      rw [Mem.rd_wr_disj _ _ _ _ _ (by simp; omega), Mem.rd_wr_disj _ _ _ _ _ (by simp; omega),
        Mem.rd_wr_disj _ _ _ _ _ (by simp; omega), Mem.rd_wr_disj _ _ _ _ _ (by simp; omega),
        Mem.rd_wr_disj _ _ _ _ _ (by rw [hebx]; omega), r0]
    · dsimp only
      rw [hf]
      rw [Mem.rd_wr_disj _ _ _ _ _ (by simp), Mem.rd_wr_disj _ _ _ _ _ (by simp),
        Mem.rd_wr_disj _ _ _ _ _ (by simp), Mem.rd_wr_disj _ _ _ _ _ (by simp), rd_wr hebx]
    · intro x hx
      rw [if_pos ha] at hx
      dsimp only
      rw [Mem.wr_out _ _ _ _ (by simp; omega), Mem.wr_out _ _ _ _ (by simp; omega), Mem.wr_out _ _ _ _ (by simp; omega),
        Mem.wr_out _ _ _ _ (by simp; omega), Mem.wr_out _ _ _ _ (by rw [hebx]; omega), o0 x (by omega)]
  · have hf : rawFS abi = 44 := by rw [rawFS, if_neg ha]
    unfold rawClosureEntry
    simp only [hf, if_neg ha]
    have e1 : E.sp - 4 - 44 = E.sp - 48 := by omega
    rw [e1]
    have g1 : ((E.mem.wr (E.sp - 48 + 44 - 4) E.ebx)).rd (closure + 24) 4 = E.mem.rd (closure + 24) 4 := by
      rw [Mem.rd_wr_disj _ _ _ _ _ (by rw [hebx]; omega)]
    rw [g1]
    have hu : (E.mem.rd (closure + 24) 4).length = 4 := by simp
    have hc : (E.mem.rd (closure + 16) 4).length = 4 := by simp
    have g2 : (((((E.mem.wr (E.sp - 48 + 44 - 4) E.ebx)).wr (E.sp - 48 + 12) (E.mem.rd (closure + 24) 4)).wr (E.sp - 48 + 8)
        (leBytes 4 (E.sp - 48 + 44 + 4))).wr (E.sp - 48 + 4) (leBytes 4 (E.sp - 48 + 16))).rd (closure + 16) 4 =
        E.mem.rd (closure + 16) 4 := by
      rw [Mem.rd_wr_disj _ _ _ _ _ (by simp; omega), Mem.rd_wr_disj _ _ _ _ _ (by simp; omega),
        Mem.rd_wr_disj _ _ _ _ _ (by simp; omega), Mem.rd_wr_disj _ _ _ _ _ (by rw [hebx]; omega)]
    rw [g2]
    constructor
    · rfl
    · dsimp only
      rw [rd_wr hc]
    · dsimp only
      rw [Mem.rd_wr_disj _ _ _ _ _ (by simp; omega), Mem.rd_wr_disj _ _ _ _ _ (by simp; omega),
        Mem.rd_wr_disj _ _ _ _ _ (by simp; omega), Mem.rd_wr_disj _ _ _ _ _ (by simp; omega),
        Mem.rd_wr_disj _ _ _ _ _ (by rw [hebx]; omega)]
    · dsimp only
      rw [Mem.rd_wr_disj _ _ _ _ _ (by simp), Mem.rd_wr_disj _ _ _ _ _ (by simp),
        Mem.rd_wr_disj _ _ _ _ _ (by simp), rd_wr hu]
    · dsimp only
      rw [Mem.rd_wr_disj _ _ _ _ _ (by simp), rd_wr (by simp), le4 _ (by omega)]
      omega
    · dsimp only
      rw [Mem.rd_wr_disj _ _ _ _ _ (by simp), Mem.rd_wr_disj _ _ _ _ _ (by simp), rd_wr (by simp), le4 _ (by omega), if_neg ha]
      omega
    · exact fun h => absurd h ha
    · dsimp only
      rw [hf, show E.sp - 48 + 44 = E.sp - 4 by omega]
      rw [Mem.rd_wr_disj _ _ _ _ _ (by simp; omega), Mem.rd_wr_disj _ _ _ _ _ (by simp; omega),
        Mem.rd_wr_disj _ _ _ _ _ (by simp; omega), Mem.rd_wr_disj _ _ _ _ _ (by simp; omega),
        Mem.rd_wr_disj _ _ _ _ _ (by rw [hebx]; omega)]
    · dsimp only
      rw [hf]
      rw [Mem.rd_wr_disj _ _ _ _ _ (by simp), Mem.rd_wr_disj _ _ _ _ _ (by simp),
        Mem.rd_wr_disj _ _ _ _ _ (by simp), Mem.rd_wr_disj _ _ _ _ _ (by simp), rd_wr hebx]
    · intro x hx
      rw [if_neg ha] at hx
      dsimp only
      rw [Mem.wr_out _ _ _ _ (by simp; omega), Mem.wr_out _ _ _ _ (by simp; omega), Mem.wr_out _ _ _ _ (by simp; omega),
        Mem.wr_out _ _ _ _ (by simp; omega), Mem.wr_out _ _ _ _ (by rw [hebx]; omega)]

/-! ## Arguments -/

/-- Arguments on the stack from offset `o` on are an array of raw arguments. -/
theorem stack_raw {A : Conv} {R : Regs} {m : Mem} {b : Nat} {ats : List FType} {vs : List (List Byte)} {o : Nat}
    (hm : ∀ x, R.sp + o ≤ x → m x = R.mem x) (hb : b = R.sp + o) (ho : 4 ∣ o) (hns : ∀ t ∈ ats, t.tc ≠ .struct)
    (hp : AllPassed R ats vs (placeFrom A ats ⟨[], o⟩)) : RawHolds m ats vs b := by
  induction ats generalizing vs o b with
  | nil => cases vs with
    | nil => trivial
    | cons => exact hp.elim
  | cons t ts ih =>
    cases vs with
    | nil => exact hp.elim
    | cons v vs =>
      have hst : stkAlign t = 4 := by unfold stkAlign; rw [if_neg (fun h => hns t (by simp) h.1)]
      have hro : roundUp o 4 = o := roundUp_of_dvd (by omega) ho
      simp only [placeFrom, placeArg, hst, hro] at hp
      obtain ⟨⟨h1, h2⟩, h3⟩ := hp
      have rd : ∀ n, m.rd b n = R.mem.rd (R.sp + o) n := by
        intro n
        rw [hb]
        exact Mem.rd_congr fun i hi => hm _ (by omega)
      refine ⟨by rw [rd]; exact h1, ?_, ih (fun x hx => hm x (by omega)) (by omega) ?_ (fun x hx => hns x (by simp [hx])) h3⟩
      · intro hw
        have h2 := h2 hw
        rw [rd]
        have ht : (R.mem.rd (R.sp + o) 4).take 4 = R.mem.rd (R.sp + o) 4 := List.take_of_length_le (by simp)
        rw [ht]
        exact h2
      · exact Nat.dvd_add ho (dvd_roundUp _ _)

end Verif.I386
