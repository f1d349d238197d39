import Verif.Arm.AsmClosure
import Verif.Base.Code

/-
Trampolines of 32-bit ARM (ARM mode, ELF, not Windows), decoded from their bytes in memory, and
what `ffi_prep_closure_loc` and `ffi_prep_go_closure` write.
-/
namespace Verif.Arm.Asm
open Verif

/-- The instructions of trampolines (ARM DDI 0406, A5.2, A5.3; condition always; immediate
operands below 256). -/
inductive TIns
  | sub (d n k : Nat)                    -- sub d, n, #k
  | ldr (d n k : Nat) (up : Bool)        -- ldr d, [n, #±k]
  | str (d n k : Nat)                    -- str d, [n, #k]
  deriving DecidableEq, Repr

def decode (w : Nat) : Option TIns :=
  let n := w / 2 ^ 16 % 16
  let d := w / 2 ^ 12 % 16
  let k := w % 2 ^ 12
  let op := w / 2 ^ 20
  if op = 0xe24 ∧ k < 256 then some (.sub d n k)
  else if op = 0xe59 then some (.ldr d n k true)
  else if op = 0xe51 then some (.ldr d n k false)
  else if op = 0xe58 then some (.str d n k)
  else none

/-- Program counter, registers 0 to 14, memory. -/
structure MState where
  pc : Nat
  r : Nat → Nat
  mem : Mem

/-- A register as an operand: the program counter reads as the address of the instruction
plus 8 (ARM DDI 0406, A2.3). -/
def MState.rd (s : MState) (n : Nat) : Nat := if n = 15 then s.pc + 8 else s.r n

/-- Addresses modulo 2^32. -/
def w32 (n : Nat) : Nat := n % 2 ^ 32

/-- Differences modulo 2^32. -/
def sub32 (a k : Nat) : Nat := w32 (a + 2 ^ 32 - k)

def MState.put (s : MState) (d v : Nat) : MState := if d = 15 then { s with pc := v } else { s with pc := s.pc + 4, r := upd s.r d v }

def texec (s : MState) : TIns → MState
  | .sub d n k => s.put d (sub32 (s.rd n) k)
  | .ldr d n k u => s.put d (leNat (s.mem.rd (if u then w32 (s.rd n + k) else sub32 (s.rd n) k) 4))
  | .str d n k => { s with pc := s.pc + 4, mem := s.mem.wr (w32 (s.rd n + k)) (leBytes 4 (s.rd d)) }

def tstep (s : MState) : Option MState :=
  if s.pc % 4 = 0 then (decode (leNat (s.mem.rd s.pc 4))).map (texec s) else none

/-- Execution with interruptions, as `Reach`. -/
inductive TReach (lo : Nat) : MState → MState → Prop
  | refl {s} : TReach lo s s
  | step {s s' t} : tstep s = some s' → TReach lo s' t → TReach lo s t
  | irq {s m t} : (∀ a, a < lo ∨ s.r 13 ≤ a → m a = s.mem a) → TReach lo { s with mem := m } t → TReach lo s t

/-- `ffi_arm_trampoline` as assembled, src/arm/sysv.S:443-447: `sub ip, pc, #8`,
`ldr pc, [pc, #-4]`. -/
def trampWords : List Nat := [0xe24fc008, 0xe51ff004]

/-- Which entry point, src/arm/ffi.c:612-621 (681-690 for Go closures): `FFI_SYSV` is 1,
`FFI_VFP` is 2 (src/arm/ffitarget.h:41-52); `none` is `FFI_BAD_ABI`. -/
def selVfp (abi used : Nat) : Option Bool := if abi = 2 then some (decide (used ≠ 0)) else if abi ≠ 1 then none else some false

/-- `closure->cif`, `fun`, `user_data`, src/arm/ffi.c:669-671. -/
def fields (closure cif fn ud : Nat) (m : Mem) : Mem :=
  ((m.wr (closure + 12) (leBytes 4 cif)).wr (closure + 16) (leBytes 4 fn)).wr (closure + 20) (leBytes 4 ud)

/-- `ffi_prep_closure_loc`, src/arm/ffi.c:606-674, without a static trampoline; `entry` gives
the addresses of `ffi_closure_SYSV` and `ffi_closure_VFP`. -/
def prepClosure (entry : Bool → Nat) (abi used closure cif fn ud : Nat) (m : Mem) : Option Mem :=
  (selVfp abi used).map fun v =>
    fields closure cif fn ud ((m.wr closure (trampWords.flatMap (leBytes 4))).wr (closure + 8) (leBytes 4 (entry v)))

/-- The same with a static trampoline, whose parameter block is at `parm`
(`ffi_tramp_set_parms`, src/tramp.c:643-651: data, then code); `alt` gives the addresses of
`ffi_closure_SYSV_alt` and `ffi_closure_VFP_alt`. -/
def prepStatic (alt : Bool → Nat) (abi used closure parm cif fn ud : Nat) (m : Mem) : Option Mem :=
  (selVfp abi used).map fun v =>
    fields closure cif fn ud ((m.wr (parm + 4) (leBytes 4 (alt v))).wr parm (leBytes 4 closure))

/-- `ffi_prep_go_closure`, src/arm/ffi.c:677-697. -/
def prepGo (entry : Bool → Nat) (abi used closure cif fn : Nat) (m : Mem) : Option Mem :=
  (selVfp abi used).map fun v =>
    ((m.wr closure (leBytes 4 (entry v))).wr (closure + 4) (leBytes 4 cif)).wr (closure + 8) (leBytes 4 fn)

/-- The words of a slot of `trampoline_code_table`, src/arm/sysv.S:407-411: `sub sp, sp, #8`,
`str ip, [sp]`, `ldr ip, [pc, #4080]`, `str ip, [sp, #4]`, `ldr pc, [pc, #4076]`. -/
def slotWords : List Nat := [0xe24dd008, 0xe58dc000, 0xe59fcff0, 0xe58dc004, 0xe59fffec]

/-- `ARM_TRAMP_SIZE`, `ARM_TRAMP_MAP_SIZE`, src/arm/internal.h:14-16. -/
def slotSize : Nat := 20
def mapSize : Nat := 4096

/-- `trampoline_code_table`, src/arm/sysv.S:404-413: 4096 / 20 slots. -/
def codeTable : List Byte := (List.replicate (mapSize / slotSize) (slotWords.flatMap (leBytes 4))).flatten

/-! ## Lemmas -/

variable {lo : Nat}

theorem TReach.trans {s t u : MState} (h1 : TReach lo s t) (h2 : TReach lo t u) : TReach lo s u := by
  induction h1 with
  | refl => exact h2
  | step h _ ih => exact .step h (ih h2)
  | irq h _ ih => exact .irq h (ih h2)

/-- Executions through `n` stages that interruptions preserve. -/
theorem stages {P : Nat → MState → Prop} {n : Nat}
    (hirq : ∀ k t m, k < n → P k t → (∀ a, a < lo ∨ t.r 13 ≤ a → m a = t.mem a) → P k { t with mem := m })
    (hstep : ∀ k t, k < n → P k t → ∃ v, tstep t = some v ∧ P (k + 1) v) {s t : MState} (h : TReach lo s t) :
    ∀ {k : Nat}, k ≤ n → P k s → (∃ j, j < n ∧ P j t) ∨ ∃ w, P n w ∧ TReach lo w t := by
  have split : ∀ {k : Nat} {s t : MState}, k ≤ n → P k s → TReach lo s t → k < n ∨ ∃ w, P n w ∧ TReach lo w t := by
    intro k s t hk hp hr
    rcases Nat.lt_or_ge k n with h | h
    · exact .inl h
    · have : k = n := by omega
      subst this
      exact .inr ⟨_, hp, hr⟩
  induction h with
  | refl =>
    intro k hk hp
    rcases split hk hp .refl with h | h
    · exact .inl ⟨k, h, hp⟩
    · exact .inr h
  | irq hm hr ih =>
    intro k hk hp
    rcases split hk hp (.irq hm hr) with h | h
    · exact ih hk (hirq k _ _ h hp hm)
    · exact .inr h
  | step he hr ih =>
    intro k hk hp
    rcases split hk hp (.step he hr) with h | h
    · obtain ⟨v, hv, hp'⟩ := hstep k _ h hp
      rw [he] at hv
      cases hv
      exact ih h hp'
    · exact .inr h

/-- From every stage the last one is reached. -/
theorem stages_end {P : Nat → MState → Prop} {n : Nat} (hstep : ∀ k t, k < n → P k t → ∃ v, tstep t = some v ∧ P (k + 1) v) :
    ∀ (d : Nat) {k : Nat} {t : MState}, k + d = n → P k t → ∃ w, P n w ∧ TReach lo t w := by
  intro d
  induction d with
  | zero => intro k t hk hp; exact ⟨t, hk ▸ hp, .refl⟩
  | succ d ih =>
    intro k t hk hp
    obtain ⟨v, hv, hp'⟩ := hstep k t (by omega) hp
    obtain ⟨w, hw, hr⟩ := ih (by omega) hp'
    exact ⟨w, hw, .step hv hr⟩

theorem tstep_word {s : MState} {w : Nat} {i : TIns} (ha : s.pc % 4 = 0) (h : Code s.mem s.pc (leBytes 4 w)) (hw : w < 2 ^ 32)
    (hd : decode w = some i) : tstep s = some (texec s i) := by
  unfold tstep
  unfold Code at h
  rw [leBytes_length] at h
  rw [if_pos ha, h, leNat_leBytes, show 256 ^ 4 = 2 ^ 32 from rfl, Nat.mod_eq_of_lt hw, hd]
  rfl

theorem rd_word {m : Mem} {a v : Nat} (h : Code m a (leBytes 4 v)) (hv : v < 2 ^ 32) : leNat (m.rd a 4) = v := by
  unfold Code at h
  rw [leBytes_length] at h
  rw [h, leNat_leBytes, show 256 ^ 4 = 2 ^ 32 from rfl, Nat.mod_eq_of_lt hv]

theorem w32_lt {n : Nat} (h : n < 2 ^ 32) : w32 n = n := Nat.mod_eq_of_lt h

theorem w32_sub {a k : Nat} (h : k ≤ a) (ha : a < 2 ^ 32) : sub32 a k = a - k := by
  unfold sub32 w32
  omega

attribute [local irreducible] w32 sub32

/-- The fields of a closure. -/
structure Fields (m : Mem) (a cif fn ud : Nat) : Prop where
  cif : Code m (a + 12) (leBytes 4 cif)
  fn : Code m (a + 16) (leBytes 4 fn)
  ud : Code m (a + 20) (leBytes 4 ud)

theorem fields_ok {closure cif fn ud : Nat} {m : Mem} : Fields (fields closure cif fn ud m) closure cif fn ud := by
  refine ⟨?_, ?_, Code.same⟩
  · exact Code.wr (Code.wr Code.same (by simp)) (by simp)
  · exact Code.wr Code.same (by simp)

theorem fields_out {closure cif fn ud a : Nat} {m : Mem} (h : a < closure + 12 ∨ closure + 24 ≤ a) : fields closure cif fn ud m a = m a := by
  unfold fields
  rw [Mem.wr_out _ _ _ _ (by simp; omega), Mem.wr_out _ _ _ _ (by simp; omega), Mem.wr_out _ _ _ _ (by simp; omega)]

/-- The bytes of a dynamic trampoline that is to jump to `entry`. -/
structure Tramp (m : Mem) (a entry : Nat) : Prop where
  w0 : Code m a (leBytes 4 0xe24fc008)
  w1 : Code m (a + 4) (leBytes 4 0xe51ff004)
  entry : Code m (a + 8) (leBytes 4 entry)

theorem prep_tramp {entry : Bool → Nat} {abi used closure cif fn ud : Nat} {v : Bool} {m m' : Mem} (hv : selVfp abi used = some v)
    (h : prepClosure entry abi used closure cif fn ud m = some m') : Tramp m' closure (entry v) ∧ Fields m' closure cif fn ud := by
  unfold prepClosure at h
  rw [hv] at h
  simp only [Option.map_some, Option.some.injEq] at h
  subst h
  refine ⟨?_, fields_ok⟩
  have hcode : Code (m.wr closure (trampWords.flatMap (leBytes 4))) closure (leBytes 4 0xe24fc008 ++ (leBytes 4 0xe51ff004 ++ [])) := Code.same
  obtain ⟨c0, hcode⟩ := hcode.append
  obtain ⟨c1, -⟩ := hcode.append
  rw [leBytes_length] at c1
  generalize m.wr closure (trampWords.flatMap (leBytes 4)) = m1 at *
  have out : ∀ {a : Nat} {bs : List Byte} {m2 : Mem}, Code m2 a bs → a + bs.length ≤ closure + 12 → Code (fields closure cif fn ud m2) a bs :=
    fun h hl => h.congr fun i hi => fields_out (.inl (by omega))
  refine ⟨out (Code.wr c0 (by simp)) (by simp), out (Code.wr c1 (by simp)) (by simp), out Code.same (by simp)⟩

/-- The stages of a dynamic trampoline at `a`. -/
def DynAt (lo a entry : Nat) (s : MState) (k : Nat) (t : MState) : Prop :=
  (∀ b, b < lo ∨ s.r 13 ≤ b → t.mem b = s.mem b) ∧
  match k with
  | 0 => t.pc = a ∧ t.r = s.r
  | 1 => t.pc = a + 4 ∧ t.r = upd s.r 12 a
  | _ => t.pc = entry ∧ t.r = upd s.r 12 a

theorem dyn_irq {a entry : Nat} {s : MState} : ∀ k t m, k < 2 → DynAt lo a entry s k t → (∀ b, b < lo ∨ t.r 13 ≤ b → m b = t.mem b) →
    DynAt lo a entry s k { t with mem := m } := by
  intro k t m hk h hm
  refine ⟨fun b hb => (hm b ?_).trans (h.1 b hb), ?_⟩
  · obtain ⟨-, h⟩ := h
    match k, h with
    | 0, h => rw [h.2]; exact hb
    | 1, h => rw [h.2]; exact hb
  · match k, h.2 with
    | 0, h => exact h
    | 1, h => exact h

theorem dyn_step {a entry : Nat} {s : MState} (h : Tramp s.mem a entry) (h4 : a % 4 = 0) (hl : a + 12 < 2 ^ 32) (he : entry < 2 ^ 32)
    (hd : a + 12 ≤ lo ∨ s.r 13 ≤ a) : ∀ k t, k < 2 → DynAt lo a entry s k t → ∃ v, tstep t = some v ∧ DynAt lo a entry s (k + 1) v := by
  intro k t hk ht
  have cc : ∀ {b : Nat} {bs : List Byte}, Code s.mem b bs → a ≤ b → b + bs.length ≤ a + 12 → Code t.mem b bs :=
    fun hc h1 h2 => hc.congr fun i hi => ht.1 _ (by omega)
  match k, ht.2 with
  | 0, ⟨h1, h2⟩ =>
    have e := tstep_word (s := t) (w := 0xe24fc008) (i := .sub 12 15 8) (by omega) (by rw [h1]; exact cc h.w0 (by omega) (by simp)) (by decide) (by decide)
    refine ⟨_, e, ht.1, ?_, ?_⟩
    · show t.pc + 4 = _; omega
    · show upd t.r 12 (sub32 (t.pc + 8) 8) = _
      rw [h2, w32_sub (by omega) (by omega), show t.pc + 8 - 8 = a by omega]
  | 1, ⟨h1, h2⟩ =>
    have e := tstep_word (s := t) (w := 0xe51ff004) (i := .ldr 15 15 4 false) (by omega) (by rw [h1]; exact cc h.w1 (by omega) (by simp)) (by decide) (by decide)
    have e' : texec t (.ldr 15 15 4 false) = { t with pc := leNat (t.mem.rd (sub32 (t.pc + 8) 4) 4) } := by
      simp only [texec, MState.put, MState.rd, if_true, Bool.false_eq_true, if_false]
    rw [e'] at e
    refine ⟨_, e, ht.1, ?_, h2⟩
    show leNat (t.mem.rd (sub32 (t.pc + 8) 4) 4) = entry
    rw [w32_sub (by omega) (by omega), show t.pc + 8 - 4 = a + 8 by omega]
    exact rd_word (cc h.entry (by omega) (by simp)) he

theorem texec_ldr {t : MState} {k d : Nat} (hd : d ≠ 15) : texec t (.ldr d 15 k true) =
    ⟨t.pc + 4, upd t.r d (leNat (t.mem.rd (w32 (t.pc + 8 + k)) 4)), t.mem⟩ := by
  simp only [texec, MState.put, MState.rd, if_true, if_neg hd]

theorem texec_ldrpc {t : MState} {k : Nat} : texec t (.ldr 15 15 k true) = ⟨leNat (t.mem.rd (w32 (t.pc + 8 + k)) 4), t.r, t.mem⟩ := by
  simp only [texec, MState.put, MState.rd, if_true]

theorem texec_str {t : MState} {k d n : Nat} (hd : d ≠ 15) (hn : n ≠ 15) : texec t (.str d n k) =
    ⟨t.pc + 4, t.r, t.mem.wr (w32 (t.r n + k)) (leBytes 4 (t.r d))⟩ := by
  simp only [texec, MState.rd, if_neg hd, if_neg hn]

theorem texec_sub {t : MState} {k d n : Nat} (hd : d ≠ 15) (hn : n ≠ 15) : texec t (.sub d n k) =
    ⟨t.pc + 4, upd t.r d (sub32 (t.r n) k), t.mem⟩ := by
  simp only [texec, MState.put, MState.rd, if_neg hd, if_neg hn]

/-- The stages of a slot at `a`. -/
def SlotAt (lo a data target : Nat) (s : MState) (k : Nat) (t : MState) : Prop :=
  (∀ b, b < lo ∨ s.r 13 ≤ b → t.mem b = s.mem b) ∧
  match k with
  | 0 => t.pc = a ∧ t.r = s.r
  | 1 => t.pc = a + 4 ∧ t.r = upd s.r 13 (s.r 13 - 8)
  | 2 => t.pc = a + 8 ∧ t.r = upd s.r 13 (s.r 13 - 8)
  | 3 => t.pc = a + 12 ∧ t.r = upd (upd s.r 13 (s.r 13 - 8)) 12 data
  | 4 => t.pc = a + 16 ∧ t.r = upd (upd s.r 13 (s.r 13 - 8)) 12 data ∧ leNat (t.mem.rd (s.r 13 - 4) 4) = data
  | _ => t.pc = target ∧ t.r = upd (upd s.r 13 (s.r 13 - 8)) 12 data ∧ leNat (t.mem.rd (s.r 13 - 4) 4) = data

theorem slot_irq {a data target : Nat} {s : MState} (h8 : 8 ≤ s.r 13) : ∀ k t m, k < 5 → SlotAt lo a data target s k t →
    (∀ b, b < lo ∨ t.r 13 ≤ b → m b = t.mem b) → SlotAt lo a data target s k { t with mem := m } := by
  intro k t m hk h hm
  have hr : t.r 13 ≤ s.r 13 := by
    obtain ⟨-, h⟩ := h
    match k, h with
    | 0, h => rw [h.2]
    | 1, h => rw [h.2]; show s.r 13 - 8 ≤ _; omega
    | 2, h => rw [h.2]; show s.r 13 - 8 ≤ _; omega
    | 3, h => rw [h.2]; show s.r 13 - 8 ≤ _; omega
    | 4, h => rw [h.2.1]; show s.r 13 - 8 ≤ _; omega
  refine ⟨fun b hb => (hm b (by omega)).trans (h.1 b hb), ?_⟩
  match k, h.2 with
  | 0, h => exact h
  | 1, h => exact h
  | 2, h => exact h
  | 3, h => exact h
  | 4, h =>
    refine ⟨h.1, h.2.1, ?_⟩
    rw [← h.2.2]
    refine congrArg leNat (Mem.rd_congr fun i hi => hm _ (.inr ?_))
    rw [h.2.1]
    show s.r 13 - 8 ≤ _
    omega

theorem slot_step {a data target : Nat} {s : MState} (h : Code s.mem a (slotWords.flatMap (leBytes 4))) (h4 : a % 4 = 0)
    (hl : a + 4104 < 2 ^ 32) (h8 : 8 ≤ s.r 13) (hsp : s.r 13 < 2 ^ 32) (hlo : lo ≤ s.r 13 - 8)
    (hd : leNat (s.mem.rd (a + 4096) 4) = data) (ht : leNat (s.mem.rd (a + 4100) 4) = target) (hdl : data < 2 ^ 32)
    (ha : a + 4104 ≤ lo ∨ s.r 13 ≤ a) :
    ∀ k t, k < 5 → SlotAt lo a data target s k t → ∃ v, tstep t = some v ∧ SlotAt lo a data target s (k + 1) v := by
  have hcode : Code s.mem a (leBytes 4 0xe24dd008 ++ (leBytes 4 0xe58dc000 ++ (leBytes 4 0xe59fcff0 ++ (leBytes 4 0xe58dc004 ++
      (leBytes 4 0xe59fffec ++ []))))) := h
  obtain ⟨c0, hcode⟩ := hcode.append
  obtain ⟨c1, hcode⟩ := hcode.append
  obtain ⟨c2, hcode⟩ := hcode.append
  obtain ⟨c3, hcode⟩ := hcode.append
  obtain ⟨c4, -⟩ := hcode.append
  simp only [leBytes_length] at c1 c2 c3 c4
  obtain ⟨p, hp⟩ : ∃ p, s.r 13 = p + 8 := ⟨s.r 13 - 8, by omega⟩
  intro k t hk hs
  have cc : ∀ {b : Nat} {bs : List Byte}, Code s.mem b bs → a ≤ b → b + bs.length ≤ a + 4104 → Code t.mem b bs :=
    fun hc h1 h2 => hc.congr fun i hi => hs.1 _ (by omega)
  have rr : ∀ b, a ≤ b → b + 4 ≤ a + 4104 → t.mem.rd b 4 = s.mem.rd b 4 :=
    fun b h1 h2 => Mem.rd_congr fun i hi => hs.1 _ (by omega)
  have e8 : s.r 13 - 8 = p := by omega
  have e4 : s.r 13 - 4 = p + 4 := by omega
  unfold SlotAt at hs ⊢
  match k, hs.2 with
  | 0, ⟨h1, h2⟩ =>
    have e := tstep_word (s := t) (w := 0xe24dd008) (i := .sub 13 13 8) (by omega) (by rw [h1]; exact cc c0 (by omega) (by simp)) (by decide) (by decide)
    rw [texec_sub (by omega) (by omega), h2, w32_sub h8 hsp] at e
    exact ⟨_, e, hs.1, by show t.pc + 4 = _; omega, rfl⟩
  | 1, ⟨h1, h2⟩ =>
    have er : t.r 13 = p := by rw [h2]; exact e8
    have e := tstep_word (s := t) (w := 0xe58dc000) (i := .str 12 13 0) (by omega) (by rw [h1]; exact cc c1 (by omega) (by simp)) (by decide) (by decide)
    rw [texec_str (by omega) (by omega), w32_lt (by omega), er] at e
    refine ⟨_, e, fun b hb => ?_, by show t.pc + 4 = _; omega, h2⟩
    dsimp only
    rw [Mem.wr_out _ _ _ _ (by simp; omega)]
    exact hs.1 b hb
  | 2, ⟨h1, h2⟩ =>
    have e := tstep_word (s := t) (w := 0xe59fcff0) (i := .ldr 12 15 4080 true) (by omega) (by rw [h1]; exact cc c2 (by omega) (by simp)) (by decide) (by decide)
    rw [texec_ldr (by omega), w32_lt (by omega), show t.pc + 8 + 4080 = a + 4096 by omega, rr _ (by omega) (by omega), hd, h2] at e
    exact ⟨_, e, hs.1, by show t.pc + 4 = _; omega, rfl⟩
  | 3, ⟨h1, h2⟩ =>
    have er : t.r 13 = p := by rw [h2]; exact e8
    have ed : t.r 12 = data := by rw [h2]; rfl
    have e := tstep_word (s := t) (w := 0xe58dc004) (i := .str 12 13 4) (by omega) (by rw [h1]; exact cc c3 (by omega) (by simp)) (by decide) (by decide)
    rw [texec_str (by omega) (by omega), w32_lt (by omega), er, ed] at e
    refine ⟨_, e, fun b hb => ?_, by show t.pc + 4 = _; omega, h2, ?_⟩
    · dsimp only
      rw [Mem.wr_out _ _ _ _ (by simp; omega)]
      exact hs.1 b hb
    · rw [e4]
      exact rd_word Code.same hdl
  | 4, ⟨h1, h2, h3⟩ =>
    have e := tstep_word (s := t) (w := 0xe59fffec) (i := .ldr 15 15 4076 true) (by omega) (by rw [h1]; exact cc c4 (by omega) (by simp)) (by decide) (by decide)
    rw [texec_ldrpc, w32_lt (by omega), show t.pc + 8 + 4076 = a + 4100 by omega, rr _ (by omega) (by omega), ht] at e
    exact ⟨_, e, hs.1, rfl, h2, h3⟩

end Verif.Arm.Asm
