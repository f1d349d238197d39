import Verif.RiscV.AsmLemmas
import Verif.Props.RiscV

/-! Trampolines, Go closures (C59) and assembly entry points (C60) of RISC-V. -/
namespace Verif.Props
open Verif Verif.RV Verif.RV.Asm

/-- A build: XLEN 32 or 64, with or without floating-point argument registers. -/
def RvBuild (c : Cfg) : Prop := (c.w = 4 ∨ c.w = 8) ∧ (c.fl = 0 ∨ c.fl = 4 ∨ c.fl = 8)

/-- A machine state of the build with room for the frame of a closure below the stack
pointer. -/
structure RvState (c : Cfg) (s : AState) : Prop where
  x : ∀ r, s.x r < 256 ^ c.w
  f : ∀ r, (s.f r).length = c.fl
  room : ctxSize c ≤ s.x 2

/-- The registers of which the psABI says that a call preserves them: sp, gp, tp, s0–s11
and fs0–fs11. -/
def RvKept (r : Nat) : Prop := r = 2 ∨ r = 3 ∨ r = 4 ∨ r = 8 ∨ r = 9 ∨ (18 ≤ r ∧ r ≤ 27)
def RvKeptF (r : Nat) : Prop := r = 8 ∨ r = 9 ∨ (18 ≤ r ∧ r ≤ 27)

/-- `t` is a state in which a function entered in `s` may return. -/
def RvReturns (s t : AState) : Prop := (∀ r, RvKept r → t.x r = s.x r) ∧ ∀ r, RvKeptF r → t.f r = s.f r

/-- What `ffi_closure_inner` is called with: the interface description, the function and
its data, where the caller's stack arguments begin, and the saved registers. -/
structure RvInner (c : Cfg) (cif fn ud : Nat) (s t : AState) : Prop where
  cif : t.x 10 = cif
  fn : t.x 11 = fn
  ud : t.x 12 = ud
  stack : t.x 13 = s.x 2
  regs : t.x 14 + ctxSize c = s.x 2
  a : ∀ k, k < 8 → t.mem.rd (t.x 14 + 8 * c.fl + c.w * k) c.w = leBytes c.w (s.x (10 + k))
  fa : ∀ k, k < 8 → t.mem.rd (t.x 14 + c.fl * k) c.fl = s.f (10 + k)
  out : ∀ x, x < t.x 14 ∨ s.x 2 ≤ x → t.mem x = s.mem x
  sp : t.x 2 = t.x 14 ∧ (16 ∣ s.x 2 → 16 ∣ t.x 2)

theorem rv_frame {c : Cfg} (hc : RvBuild c) {s : AState} (h : RvState c s) :
    (∀ k, k < 8 → (frameMem c s).rd (s.x 2 - ctxSize c + 8 * c.fl + c.w * k) c.w = leBytes c.w (s.x (10 + k))) ∧
    ∀ k, k < 8 → (frameMem c s).rd (s.x 2 - ctxSize c + c.fl * k) c.fl = s.f (10 + k) := by
  have hF : ctxSize c = 8 * c.fl + 8 * c.w + 16 := rfl
  have e0 : ∀ P, aAddr c P 0 = P + 8 * c.fl := fun P => by simp [aAddr]
  have e1 : ∀ P, faAddr c P 0 = P := fun P => by simp [faAddr]
  constructor
  · intro k hk
    unfold frameMem
    dsimp only
    rw [e0, e1]
    exact saveRegs_rd _ _ _ (fun _ => leBytes_length _ _) 8 _ hk
  · intro k hk
    have hm : c.fl * (k + 1) ≤ c.fl * 8 := Nat.mul_le_mul_left _ hk
    rw [Nat.mul_succ] at hm
    unfold frameMem
    dsimp only
    rw [e0, e1]
    refine (Mem.rd_congr fun i hi => ?_).trans (saveRegs_rd _ _ _ (fun _ => h.f _) 8
      (s.mem.wr (s.x sp - 2 * c.w) (leBytes c.w (s.x fp) ++ leBytes c.w (s.x ra))) hk)
    exact saveRegs_out _ _ _ (fun _ => leBytes_length _ _) _ _ _ (.inl (by unfold Asm.sp; omega))

theorem rv_ctx16 {c : Cfg} (hc : RvBuild c) : 16 ∣ ctxSize c := by
  unfold ctxSize
  obtain ⟨h | h, h' | h' | h'⟩ := hc <;> rw [h, h'] <;> decide

theorem rv_save {c : Cfg} (hc : RvBuild c) {s : AState} (h : RvState c s) :
    run c (closureSave c) s = ⟨upd (upd s.x 2 (s.x 2 - ctxSize c)) 8 (s.x 2), s.f, frameMem c s⟩ :=
  closureSave_run hc.1 h.f h.room (h.x 2)

theorem rv_closure_run {c : Cfg} (hc : RvBuild c) {s : AState} (h : RvState c s) {a cif fn ud : Nat} (ht : s.x 6 = a)
    (ha : a + 24 + 3 * c.w < 256 ^ c.w) (apart : a + 24 + 3 * c.w ≤ s.x 2 - ctxSize c ∨ s.x 2 ≤ a + 24)
    (h1 : Code s.mem (a + 24) (leBytes c.w cif)) (h2 : Code s.mem (a + 24 + c.w) (leBytes c.w fn))
    (h3 : Code s.mem (a + 24 + 2 * c.w) (leBytes c.w ud)) (hv : cif < 256 ^ c.w ∧ fn < 256 ^ c.w ∧ ud < 256 ^ c.w) :
    run c (closureSave c ++ closureArgs c) s =
      ⟨upd (upd (upd (upd (upd (upd (upd s.x 2 (s.x 2 - ctxSize c)) 8 (s.x 2)) 10 cif) 11 fn) 12 ud) 13 (s.x 2)) 14
        (s.x 2 - ctxSize c), s.f, frameMem c s⟩ := by
  have hr := h.room
  have hx := h.x 2
  have hk : ∀ {k v}, k + c.w ≤ 3 * c.w → Code s.mem (a + 24 + k) (leBytes c.w v) →
      Code (frameMem c s) (a + 24 + k) (leBytes c.w v) := by
    intro k v hk hcode
    refine hcode.congr fun i hi => frameMem_out hc.1 h.f hr ?_
    rw [leBytes_length] at hi
    unfold Asm.sp
    omega
  rw [run_append, rv_save hc h]
  refine (closureArgs_run (s := ⟨upd (upd s.x 2 (s.x 2 - ctxSize c)) 8 (s.x 2), s.f, frameMem c s⟩)
    (P := s.x 2 - ctxSize c) (a := a) (cif := cif) (fn := fn) (ud := ud) rfl (by omega) ht ha
    (rd_word (hk (k := 0) (by omega) h1) hv.1) (rd_word (hk (by omega) h2) hv.2.1) (rd_word (hk (by omega) h3) hv.2.2)).trans ?_
  dsimp only
  rw [Nat.sub_add_cancel hr]
  rfl

theorem rv_inner {c : Cfg} (hc : RvBuild c) {s s0 : AState} (h : RvState c s) {cif fn ud : Nat}
    (h2 : s.x 2 = s0.x 2) (hm : s.mem = s0.mem) (hff : s.f = s0.f) (ha : ∀ k, k < 8 → s.x (10 + k) = s0.x (10 + k)) :
    RvInner c cif fn ud s0
      ⟨upd (upd (upd (upd (upd (upd (upd s.x 2 (s.x 2 - ctxSize c)) 8 (s.x 2)) 10 cif) 11 fn) 12 ud) 13 (s.x 2)) 14
        (s.x 2 - ctxSize c), s.f, frameMem c s⟩ := by
  have hr := h.room
  obtain ⟨f1, f2⟩ := rv_frame hc h
  refine ⟨rfl, rfl, rfl, h2, ?_, fun k hk => ?_, fun k hk => ?_, ?_, rfl, ?_⟩
  · show s.x 2 - ctxSize c + ctxSize c = s0.x 2
    omega
  · rw [← ha k hk]
    exact f1 k hk
  · rw [← hff]
    exact f2 k hk
  · intro x hx
    rw [← hm]
    rw [← h2] at hx
    exact frameMem_out hc.1 h.f hr hx
  · intro h16
    show 16 ∣ s.x 2 - ctxSize c
    rw [h2]
    exact Nat.dvd_sub h16 (rv_ctx16 hc)

/-- C59: the code that `ffi_prep_closure_loc` writes, executed at any address where the
object is mapped, leads through `ffi_closure_asm` to `ffi_closure_inner` with the fields
of the closure and the registers and stack of the caller, on all builds. -/
theorem C59_dynamic {c : Cfg} (hc : RvBuild c) {abi entry closure codeloc cif fn ud : Nat} {m0 m1 : Mem}
    (prep : prepClosure c abi entry closure cif fn ud m0 = some m1) {s : AState} (h : RvState c s)
    (view : ∀ i, i < 24 + 3 * c.w → s.mem (codeloc + i) = m1 (closure + i)) (hl : codeloc + 24 + 3 * c.w < 256 ^ c.w)
    (he : entry < 256 ^ c.w) (he2 : 2 ∣ entry) (hv : cif < 256 ^ c.w ∧ fn < 256 ^ c.w ∧ ud < 256 ^ c.w)
    (apart : codeloc + 24 + 3 * c.w ≤ s.x 2 - ctxSize c ∨ s.x 2 ≤ codeloc) :
    ∃ s1, tsteps c 3 ⟨codeloc, s⟩ = some ⟨entry, s1⟩ ∧ s1.x 6 = codeloc ∧ s1.mem = s.mem ∧ s1.f = s.f ∧
      (∀ r, r ≠ 6 → r ≠ 7 → s1.x r = s.x r) ∧ RvInner c cif fn ud s (run c (closureSave c ++ closureArgs c) s1) := by
  have im := (prep_image hc.1 prep).view hc.1 view
  refine ⟨_, tramp_run hc.1 im hl he he2, rfl, rfl, rfl, fun r h6 h7 => (upd_ne h7).trans (upd_ne h6), ?_⟩
  have h' : RvState c ⟨upd (upd s.x t1 codeloc) t2 entry, s.f, s.mem⟩ := by
    refine ⟨fun r => ?_, h.f, h.room⟩
    show upd (upd s.x t1 codeloc) t2 entry r < _
    unfold upd
    split
    · exact he
    · split
      · omega
      · exact h.x r
  rw [rv_closure_run hc h' (a := codeloc) rfl hl (by show _ ≤ s.x 2 - _ ∨ s.x 2 ≤ _; omega) im.cif im.fn im.ud hv]
  refine rv_inner hc h' rfl rfl rfl fun k _ => ?_
  show upd (upd s.x t1 codeloc) t2 entry (10 + k) = _
  rw [upd_ne (by unfold t2; omega), upd_ne (by unfold t1; omega)]

/-- C59: all conventions that exist are accepted, and nothing else. -/
theorem C59_accepts {c : Cfg} {abi entry closure cif fn ud : Nat} {m0 : Mem} :
    (prepClosure c abi entry closure cif fn ud m0).isSome = true ↔ 1 ≤ abi ∧ abi ≤ 4 := by
  unfold prepClosure abiOk
  by_cases h : 1 ≤ abi ∧ abi ≤ 4
  · rw [if_pos (by simp; omega)]
    simp [h]
  · rw [if_neg (by simp; omega)]
    simp [h]

/-- C59: a Go closure gets its own address as data; its function and description are those
it was prepared with. -/
theorem C59_go {c : Cfg} (hc : RvBuild c) {abi entry closure cif fn : Nat} {m0 m1 : Mem}
    (prep : prepGo c abi entry closure cif fn m0 = some m1) {s : AState} (h : RvState c s)
    (view : ∀ i, i < 3 * c.w → s.mem (closure + i) = m1 (closure + i)) (hl : closure + 3 * c.w < 256 ^ c.w)
    (he : entry < 256 ^ c.w) (hv : cif < 256 ^ c.w ∧ fn < 256 ^ c.w) (ht : s.x 7 = closure)
    (apart : closure + 3 * c.w ≤ s.x 2 - ctxSize c ∨ s.x 2 ≤ closure) :
    leNat (s.mem.rd closure c.w) = entry ∧ RvInner c cif fn closure s (run c (closureSave c ++ goArgs c) s) := by
  have hr := h.room
  have hx := h.x 2
  have hw : 0 < c.w := by have := hc.1; omega
  have key : Code m1 (closure + 0) (leBytes c.w entry) ∧ Code m1 (closure + c.w) (leBytes c.w cif) ∧
      Code m1 (closure + 2 * c.w) (leBytes c.w fn) := by
    unfold prepGo at prep
    split at prep
    · simp only [Option.some.injEq] at prep
      subst prep
      refine ⟨?_, ?_, Code.same⟩
      · refine Code.wr (Code.wr Code.same ?_) ?_
        · simp
        · simp; omega
      · exact Code.wr Code.same (by simp; omega)
    · cases prep
  have hs : ∀ {k v}, k + c.w ≤ 3 * c.w → Code m1 (closure + k) (leBytes c.w v) → Code s.mem (closure + k) (leBytes c.w v) := by
    intro k v hk hcode
    refine hcode.congr fun i hi => ?_
    rw [leBytes_length] at hi
    rw [Nat.add_assoc]
    exact view _ (by omega)
  have hk : ∀ {k v}, k + c.w ≤ 3 * c.w → Code m1 (closure + k) (leBytes c.w v) →
      Code (frameMem c s) (closure + k) (leBytes c.w v) := by
    intro k v hk hcode
    refine (hs hk hcode).congr fun i hi => frameMem_out hc.1 h.f hr ?_
    rw [leBytes_length] at hi
    unfold Asm.sp
    omega
  refine ⟨rd_word (hs (k := 0) (by omega) key.1) he, ?_⟩
  rw [run_append, rv_save hc h]
  rw [goArgs_run (s := ⟨upd (upd s.x 2 (s.x 2 - ctxSize c)) 8 (s.x 2), s.f, frameMem c s⟩)
    (P := s.x 2 - ctxSize c) (a := closure) (cif := cif) (fn := fn) hw rfl (by omega) ht hl
    (rd_word (hk (by omega) key.2.1) hv.1) (rd_word (hk (by omega) key.2.2) hv.2)]
  dsimp only
  rw [Nat.sub_add_cancel hr]
  exact rv_inner hc h rfl rfl rfl fun _ _ => rfl

/-! A state for the examples. -/

def rvBuilds : List Cfg := [⟨4, 0, 0⟩, ⟨4, 4, 0⟩, ⟨4, 8, 0⟩, ⟨8, 0, 0⟩, ⟨8, 4, 0⟩, ⟨8, 8, 0⟩]

theorem rvBuilds_ok {c : Cfg} (h : c ∈ rvBuilds) : RvBuild c := by
  revert c; unfold RvBuild; decide

def rvAState (c : Cfg) (m : Mem) : AState :=
  ⟨fun r => if r = 2 then 0x80000 else if r = 6 then 0x20000 else if r = 7 then 0x30000 else 100 + r,
    fun r => List.replicate c.fl (BitVec.ofNat 8 r), m⟩

/-- For the examples the registers beyond x31 do not matter. -/
def rvAState' (c : Cfg) (m : Mem) : AState :=
  { rvAState c m with x := fun r => if r < 32 then (rvAState c m).x r else 0 }

theorem rvAState'_ok {c : Cfg} (h : c ∈ rvBuilds) (m : Mem) : RvState c (rvAState' c m) := by
  refine ⟨fun r => ?_, fun _ => by simp [rvAState', rvAState], ?_⟩
  · have hp : 2 ^ 32 ≤ 256 ^ c.w := by revert c; decide
    show (if r < 32 then (if r = 2 then 0x80000 else if r = 6 then 0x20000 else if r = 7 then 0x30000 else 100 + r) else 0) < _
    split
    · split
      · omega
      · split
        · omega
        · split <;> omega
    · omega
  · show ctxSize c ≤ 0x80000
    revert c; decide

example {c : Cfg} (h : c ∈ rvBuilds) := fun m0 : Mem => C59_dynamic (rvBuilds_ok h) (abi := 1) (entry := 0x1000) (closure := 0x20000)
  (codeloc := 0x20000) (cif := 5) (fn := 6) (ud := 7) (m0 := m0) rfl
  (s := rvAState' c ((prepClosure c 1 0x1000 0x20000 5 6 7 m0).getD m0)) (rvAState'_ok h _) (fun _ _ => rfl)
  (by revert c; decide) (by revert c; decide) (by decide) (by revert c; decide)
  (.inl (by show _ ≤ 0x80000 - ctxSize c; revert c; decide))

example {c : Cfg} (h : c ∈ rvBuilds) := fun m0 : Mem => C59_go (rvBuilds_ok h) (abi := 1) (entry := 0x1000) (closure := 0x30000)
  (cif := 5) (fn := 6) (m0 := m0) rfl (s := rvAState' c ((prepGo c 1 0x1000 0x30000 5 6 m0).getD m0)) (rvAState'_ok h _) (fun _ _ => rfl)
  (by revert c; decide) (by revert c; decide) (by revert c; decide) rfl
  (.inl (by show _ ≤ 0x80000 - ctxSize c; revert c; decide))

/-- C60: `ffi_closure_asm` and `ffi_go_closure_asm` are well-behaved functions: when
`ffi_closure_inner` returns, with the frame record (the saved fp and ra) untouched, they
return to their caller with all registers that have to be preserved, and the first two
registers of either kind hold what the saved ones now are. -/
theorem C60_closure {c : Cfg} (hc : RvBuild c) {s : AState} (h : RvState c s) {args : List Ins}
    (hargs : args = closureArgs c ∨ args = goArgs c) :
    let t := run c (closureSave c ++ args) s
    ∀ u, RvReturns t u → (∀ x, s.x 2 - 2 * c.w ≤ x → x < s.x 2 → u.mem x = t.mem x) →
      ∃ v, run c (closureOut c) u = v ∧ RvReturns s v ∧ v.x 1 = s.x 1 ∧ v.mem = u.mem ∧
        (∀ k, k < 2 → leBytes c.w (v.x (10 + k)) = u.mem.rd (t.x 2 + 8 * c.fl + c.w * k) c.w) ∧
        (c.fl ≠ 0 → ∀ k, k < 2 → v.f (10 + k) = u.mem.rd (t.x 2 + c.fl * k) c.fl) := by
  intro t u hu hrec
  have hr := h.room
  have hx := h.x 2
  have hF : ctxSize c = 8 * c.fl + 8 * c.w + 16 := rfl
  -- the instructions before the call change only a0 to a4
  have hsame : (∀ r, (r < 10 ∨ 15 ≤ r) → t.x r = upd (upd s.x 2 (s.x 2 - ctxSize c)) 8 (s.x 2) r) ∧ t.f = s.f ∧
      t.mem = frameMem c s := by
    have ht : t = run c args ⟨upd (upd s.x 2 (s.x 2 - ctxSize c)) 8 (s.x 2), s.f, frameMem c s⟩ := by
      show run c (closureSave c ++ args) s = _
      rw [run_append, rv_save hc h]
    rw [ht]
    rcases hargs with rfl | rfl <;>
    · refine ⟨fun r hr => ?_, rfl, rfl⟩
      simp only [closureArgs, goArgs, run_cons, run_nil, exec]
      rw [upd_ne (by unfold a0; omega), upd_ne (by unfold a0; omega), upd_ne (by unfold a0; omega), upd_ne (by unfold a0; omega),
        upd_ne (by unfold a0; omega)]
  obtain ⟨hx1, hf1, hm1⟩ := hsame
  have ht2 : t.x 2 = s.x 2 - ctxSize c := hx1 2 (.inl (by decide))
  have hu2 : u.x 2 = s.x 2 - ctxSize c := (hu.1 2 (.inl rfl)).trans ht2
  obtain ⟨v, hv, v1, v2, v3, v4, v5, v6, v7, v8⟩ := closureOut_run (c := c) hc.1 (s := u) (ctx := s.x 2 - ctxSize c) hu2 (by omega)
  obtain ⟨r1, r2⟩ := frameMem_record hc.1 h.f hr
  have hrd : ∀ a, s.x 2 - 2 * c.w ≤ a → a + c.w ≤ s.x 2 → u.mem.rd a c.w = (frameMem c s).rd a c.w := by
    intro a h1 h2
    rw [← hm1]
    exact Mem.rd_congr fun i hi => hrec _ (by omega) (by omega)
  have e : s.x 2 - ctxSize c + ctxSize c = s.x 2 := by omega
  rw [e] at v2 v3 v4
  rw [hrd _ (by omega) (by omega)] at v3 v4
  refine ⟨v, hv, ⟨?_, ?_⟩, ?_, v1, ?_, ?_⟩
  · intro r hr
    by_cases h2 : r = 2
    · subst h2; exact v2
    · by_cases h8 : r = 8
      · subst h8
        refine v4.trans ?_
        rw [show leNat ((frameMem c s).rd (s.x 2 - 2 * c.w) c.w) = _ from congrArg leNat r1]
        exact leNat_lt_w (h.x 8)
      · have hr' : r < 10 ∨ 18 ≤ r := by unfold RvKept at hr; omega
        have h1 : r ≠ 1 := by unfold RvKept at hr; omega
        rw [v7 r h1 h2 h8 (by omega), hu.1 r hr, hx1 r (by omega), upd_ne h8, upd_ne h2]
  · intro r hr
    have hr' : r < 10 ∨ 12 ≤ r := by unfold RvKeptF at hr; omega
    rw [v8 r hr', hu.2 r hr, hf1]
  · refine v3.trans ?_
    rw [show leNat ((frameMem c s).rd (s.x 2 - c.w) c.w) = _ from congrArg leNat r2]
    exact leNat_lt_w (h.x 1)
  · intro k hk
    rw [ht2]
    have := v5 k hk
    unfold a0 at this
    rw [this]
    have hl : (u.mem.rd (aAddr c (s.x 2 - ctxSize c) k) c.w).length = c.w := Mem.rd_length _ _ _
    have e2 := leBytes_leNat (u.mem.rd (aAddr c (s.x 2 - ctxSize c) k) c.w)
    rw [hl] at e2
    exact e2
  · intro h0 k hk
    rw [ht2]
    exact v6 h0 k hk

/-- What is in memory when `ffi_closure_inner` starts is what the model of C53 starts from. -/
theorem C60_closure_refines {c : Cfg} (hc : RvBuild c) {s : AState} (h : RvState c s) {args : List Ins}
    (hargs : args = closureArgs c ∨ args = goArgs c) :
    (run c (closureSave c ++ args) s).mem =
      closureFrameMem c (s.x 8) (s.x 1) ⟨s.mem, s.x 2, fun k => s.f (10 + k), fun k => leBytes c.w (s.x (10 + k))⟩ := by
  rw [run_append, rv_save hc h]
  rcases hargs with rfl | rfl <;> rfl

example {c : Cfg} (h : c ∈ rvBuilds) (m : Mem) := C60_closure (rvBuilds_ok h) (rvAState'_ok h m) (.inl rfl) _
  ⟨fun _ _ => rfl, fun _ _ => rfl⟩ (fun _ _ _ => rfl)

example {c : Cfg} (h : c ∈ rvBuilds) (m : Mem) := C60_closure_refines (rvBuilds_ok h) (rvAState'_ok h m) (.inr rfl)

/-- How `ffi_call_int` calls `ffi_call_asm`: stack arguments, register image, function,
static chain. -/
structure RvCallAsm (c : Cfg) (s : AState) (stk ctx fn clo : Nat) : Prop where
  x : ∀ r, s.x r < 256 ^ c.w
  f : ∀ r, (s.f r).length = c.fl
  a0 : s.x 10 = stk
  a1 : s.x 11 = ctx
  a2 : s.x 12 = fn
  a3 : s.x 13 = clo
  top : ctx + ctxSize c < 256 ^ c.w

/-- C60: `ffi_call_asm` jumps to the function with the stack pointer at the stacked
arguments, the registers from the image and the static chain in t2; it stores nothing but
the frame record in the image. -/
theorem C60_call_enter {c : Cfg} (hc : RvBuild c) {s : AState} {stk ctx fn clo : Nat} (h : RvCallAsm c s stk ctx fn clo) :
    let t := run c (callIn c) s
    t.x 6 = fn ∧ t.x 7 = clo ∧ t.x 2 = stk ∧
      (∀ k, k < 8 → leBytes c.w (t.x (10 + k)) = s.mem.rd (ctx + 8 * c.fl + c.w * k) c.w) ∧
      (c.fl ≠ 0 → ∀ k, k < 8 → t.f (10 + k) = s.mem.rd (ctx + c.fl * k) c.fl) ∧
      ∀ x, x < ctx + ctxSize c - 2 * c.w ∨ ctx + ctxSize c ≤ x → t.mem x = s.mem x := by
  intro t
  obtain ⟨t', ht', m1, m2, m3, m4, m5, m6, m7, m8, m9⟩ := callIn_run hc.1 h.a0 h.a1 h.a2 h.a3 (h.a0 ▸ h.x 10) (h.a2 ▸ h.x 12)
    (h.a3 ▸ h.x 13) h.top
  have : t = t' := ht'
  rw [this]
  have hF : ctxSize c = 8 * c.fl + 8 * c.w + 16 := rfl
  have hw := hc.1
  have hout : ∀ x, x < ctx + ctxSize c - 2 * c.w ∨ ctx + ctxSize c ≤ x → t'.mem x = s.mem x := by
    intro x hx
    rw [m1, Mem.wr_out _ _ _ _ (by simp only [List.length_append, leBytes_length]; omega)]
  refine ⟨m3, m4, m2, fun k hk => ?_, fun h0 k hk => ?_, hout⟩
  · have hm : c.w * (k + 1) ≤ c.w * 8 := Nat.mul_le_mul_left _ hk
    rw [Nat.mul_succ] at hm
    have e := m6 k hk
    unfold Asm.a0 at e
    rw [e]
    have hl : (t'.mem.rd (aAddr c ctx k) c.w).length = c.w := Mem.rd_length _ _ _
    have e2 := leBytes_leNat (t'.mem.rd (aAddr c ctx k) c.w)
    rw [hl] at e2
    rw [e2]
    exact Mem.rd_congr fun i hi => hout _ (.inl (by unfold aAddr; omega))
  · have hm : c.fl * (k + 1) ≤ c.fl * 8 := Nat.mul_le_mul_left _ hk
    rw [Nat.mul_succ] at hm
    refine (m7 h0 k hk).trans ?_
    exact Mem.rd_congr fun i hi => hout _ (.inl (by unfold faAddr; omega))

/-- C60: the rest of `ffi_call_asm`: when the function returns, with the frame record
untouched, the first two registers of either kind are put in the image, and control goes
back to `ffi_call_int` with all registers that have to be preserved but the stack
pointer (`C60_call_sp`). -/
theorem C60_call_partial {c : Cfg} (hc : RvBuild c) {s : AState} {stk ctx fn clo : Nat} (h : RvCallAsm c s stk ctx fn clo) :
    let t := run c (callIn c) s
    ∀ u, RvReturns t u → (∀ r, (u.f r).length = c.fl) →
      (∀ x, ctx + ctxSize c - 2 * c.w ≤ x → x < ctx + ctxSize c → u.mem x = t.mem x) →
      ∃ v, run c (callOut c) u = v ∧ (∀ r, RvKept r → r ≠ 2 → v.x r = s.x r) ∧ (∀ r, RvKeptF r → v.f r = s.f r) ∧ v.x 1 = s.x 1 ∧
        v.mem = (u.mem.wr ctx (u.f 10 ++ u.f 11)).wr (ctx + 8 * c.fl) (leBytes c.w (u.x 10) ++ leBytes c.w (u.x 11)) ∧ v.x 2 = ctx := by
  intro t u hu huf hrec
  obtain ⟨t', ht', m1, m2, m3, m4, m5, m6, m7, m8, m9⟩ := callIn_run hc.1 h.a0 h.a1 h.a2 h.a3 (h.a0 ▸ h.x 10) (h.a2 ▸ h.x 12)
    (h.a3 ▸ h.x 13) h.top
  have htt : t = t' := ht'
  rw [htt] at hu hrec
  clear_value t
  have hF : ctxSize c = 8 * c.fl + 8 * c.w + 16 := rfl
  have hw := hc.1
  have hfp : u.x 8 = ctx + ctxSize c := (hu.1 8 (by unfold RvKept; omega)).trans m5
  obtain ⟨v, hv, v1, v2, v3, v4, v5, v6⟩ := callOut_run hc.1 hfp huf h.top
  have hcode : Code t'.mem (ctx + ctxSize c - 2 * c.w) (leBytes c.w (s.x 8) ++ leBytes c.w (s.x 1)) := by
    rw [m1]; exact Code.same
  obtain ⟨c1, c2⟩ := hcode.append
  rw [leBytes_length, show ctx + ctxSize c - 2 * c.w + c.w = ctx + ctxSize c - c.w by omega] at c2
  have key : ∀ {a n}, ctx + ctxSize c - 2 * c.w ≤ a → a + c.w ≤ ctx + ctxSize c → n < 256 ^ c.w → Code t'.mem a (leBytes c.w n) →
      leNat (u.mem.rd a c.w) = n := by
    intro a n h1 h2 hn hcode
    refine rd_word (hcode.congr fun i hi => ?_) hn
    rw [leBytes_length] at hi
    exact hrec _ (by omega) (by omega)
  rw [key (by omega) (by omega) (h.x 1) c2] at v3
  rw [key (by omega) (by omega) (h.x 8) c1] at v4
  refine ⟨v, hv, ?_, ?_, v3, ?_, v2⟩
  · intro r hr h2
    by_cases h8 : r = 8
    · subst h8; exact v4
    · have hr' : r < 10 ∨ 18 ≤ r := by unfold RvKept at hr; omega
      have h1 : r ≠ 1 := by unfold RvKept at hr; omega
      rw [v5 r h1 h2 h8, hu.1 r hr, m8 r h2 (by unfold t1 RvKept at *; omega) (by unfold t2 RvKept at *; omega) h8 hr']
  · intro r hr
    rw [v6, hu.2 r hr, m9 r (by unfold RvKeptF at hr; omega)]
  · rw [v1]
    simp only [faAddr, aAddr, Nat.mul_zero, Nat.add_zero]
    rfl

/-- C60 violated (on purpose, src/riscv/sysv.S:79-87): the stack pointer that
`ffi_call_asm` returns with is the register image, whatever it was when it was called.
So it is not preserved when there is anything in the block below the image (stacked
arguments, copies, or a result): `ffi_call_int` must not refer to its frame by sp. -/
theorem C60_call_sp {c : Cfg} (hc : RvBuild c) {s : AState} {stk ctx fn clo : Nat} (h : RvCallAsm c s stk ctx fn clo)
    (hsp : s.x 2 ≤ stk) (hbelow : stk < ctx) :
    let t := run c (callIn c) s
    ∀ u, RvReturns t u → (∀ r, (u.f r).length = c.fl) →
      (∀ x, ctx + ctxSize c - 2 * c.w ≤ x → x < ctx + ctxSize c → u.mem x = t.mem x) →
      (run c (callOut c) u).x 2 ≠ s.x 2 := by
  intro t u hu huf hrec
  obtain ⟨v, hv, -, -, -, -, h2⟩ := C60_call_partial hc h u hu huf hrec
  rw [hv, h2]
  omega

/-- The registers and memory at the entry of the function are those of the model of C52. -/
theorem C60_call_refines {c : Cfg} (hc : RvBuild c) {bytes : Nat} {rt : FType} {ats : List FType} {I : CallIn} {s : AState}
    {fn clo : Nat} (h : RvCallAsm c s (callEntry c bytes rt ats I).base (callEntry c bytes rt ats I).ctx fn clo)
    (hm : s.mem = (callMem c bytes rt ats I (callEntry c bytes rt ats I).base).2) (hfp : s.x 8 = I.fp) (hra : s.x 1 = I.ra) :
    let t := run c (callIn c) s
    let E := (callEntry c bytes rt ats I).entry
    t.mem = E.mem ∧ t.x 2 = E.sp ∧ (∀ k, k < 8 → leBytes c.w (t.x (10 + k)) = E.a k) ∧
      (c.fl ≠ 0 → ∀ k, k < 8 → t.f (10 + k) = E.fa k) := by
  intro t E
  obtain ⟨t', ht', m1, m2, m3, m4, m5, m6, m7, m8, m9⟩ := callIn_run hc.1 h.a0 h.a1 h.a2 h.a3 (h.a0 ▸ h.x 10) (h.a2 ▸ h.x 12)
    (h.a3 ▸ h.x 13) h.top
  have : t = t' := ht'
  rw [this]
  have hmem : t'.mem = E.mem := by
    rw [m1, hm]
    unfold Asm.fp Asm.ra
    rw [hfp, hra]
    rfl
  refine ⟨hmem, m2, fun k hk => ?_, fun h0 k hk => ?_⟩
  · have e := m6 k hk
    unfold Asm.a0 at e
    rw [e]
    have hl : (t'.mem.rd (aAddr c (callEntry c bytes rt ats I).ctx k) c.w).length = c.w := Mem.rd_length _ _ _
    have e2 := leBytes_leNat (t'.mem.rd (aAddr c (callEntry c bytes rt ats I).ctx k) c.w)
    rw [hl] at e2
    rw [e2, hmem]
    rfl
  · refine (m7 h0 k hk).trans ?_
    rw [hmem]
    rfl

/-- For the examples: a state in which `ffi_call_asm` is called. -/
def rvCState (c : Cfg) (m : Mem) (sp stk ctx fn clo fp ra : Nat) : AState :=
  ⟨fun r => if r = 10 then stk else if r = 11 then ctx else if r = 12 then fn else if r = 13 then clo else if r = 2 then sp
      else if r = 8 then fp else if r = 1 then ra else 0,
    fun r => List.replicate c.fl (BitVec.ofNat 8 r), m⟩

theorem rvCState_ok {c : Cfg} (m : Mem) {sp stk ctx fn clo fp ra : Nat} (h : sp < 256 ^ c.w ∧ stk < 256 ^ c.w ∧ ctx + ctxSize c < 256 ^ c.w ∧
    fn < 256 ^ c.w ∧ clo < 256 ^ c.w ∧ fp < 256 ^ c.w ∧ ra < 256 ^ c.w) :
    RvCallAsm c (rvCState c m sp stk ctx fn clo fp ra) stk ctx fn clo := by
  refine ⟨fun r => ?_, fun r => by simp [rvCState], rfl, rfl, rfl, rfl, h.2.2.1⟩
  simp only [rvCState]
  split_ifs <;> omega

theorem rvCState_ex {c : Cfg} (h : c ∈ rvBuilds) (m : Mem) :
    RvCallAsm c (rvCState c m 0x8000 0x8000 0x8100 0x500 0x600 7 9) 0x8000 0x8100 0x500 0x600 := by
  refine rvCState_ok m ?_
  revert c
  decide

example {c : Cfg} (h : c ∈ rvBuilds) (m : Mem) := C60_call_enter (rvBuilds_ok h) (rvCState_ex h m)

theorem rv_call_f {c : Cfg} {s : AState} (h : ∀ r, (s.f r).length = c.fl) : ∀ r, ((run c (callIn c) s).f r).length = c.fl := by
  have key : ∀ (is : List Ins) (s : AState), (∀ r, (s.f r).length = c.fl) → ∀ r, ((run c is s).f r).length = c.fl := by
    intro is
    induction is with
    | nil => exact fun _ h => h
    | cons i is ih =>
      intro s hs
      rw [run_cons]
      refine ih _ fun r => ?_
      cases i <;> simp only [exec] <;> first | exact hs r | skip
      unfold upd
      split
      · exact Mem.rd_length _ _ _
      · exact hs r
  exact key _ _ h

example {c : Cfg} (h : c ∈ rvBuilds) (m : Mem) := C60_call_partial (rvBuilds_ok h) (rvCState_ex h m) _ ⟨fun _ _ => rfl, fun _ _ => rfl⟩
  (rv_call_f (rvCState_ex h m).f) (fun _ _ _ => rfl)
example {c : Cfg} (h : c ∈ rvBuilds) (m : Mem) := C60_call_sp (rvBuilds_ok h) (rvCState_ex h m) (Nat.le_refl 0x8000) (by decide) _
  ⟨fun _ _ => rfl, fun _ _ => rfl⟩ (rv_call_f (rvCState_ex h m).f) (fun _ _ _ => rfl)

example := C60_call_refines (c := rvD) ⟨.inr rfl, .inr (.inr rfl)⟩ (bytes := coreBytes rvD rvS24 rvSig) (rt := rvS24) (ats := rvSig)
  (I := rvIn 7) (s := rvCState rvD _ 0x8000 _ _ 0x500 0x600 _ _) (rvCState_ok _ (by decide +kernel)) rfl rfl rfl

end Verif.Props
