import Verif.LoongArch.Tramp
import Verif.Props.LoongArch

/-! Trampolines, Go closures (C93) and assembly entry points (C94) of LoongArch. -/
namespace Verif.Props
open Verif Verif.LA.Asm
open Verif.RV hiding callEntry callMem
open Verif.RV.Asm hiding frameMem closureSave closureArgs goArgs closureOut callIn callOut closureSave_run closureOut_run callIn_run callOut_run
  sp fp ra a0 t1 t2 closureArgs_run goArgs_run frameMem_out frameMem_record run_larg run_flarg run_sarg run_fsarg
open Verif.LA (callEntry callMem)

/-- A build: 64-bit registers, with or without floating-point argument registers. -/
def LaBuild (c : Cfg) : Prop := c.w = 8 ∧ (c.fl = 0 ∨ c.fl = 4 ∨ c.fl = 8)

theorem LaBuild.or {c : Cfg} (h : LaBuild c) : c.w = 4 ∨ c.w = 8 := .inr h.1

/-- A machine state of the build with room for the frame of a closure below the stack
pointer. -/
structure LaState (c : Cfg) (s : AState) : Prop where
  x : ∀ r, s.x r < 256 ^ c.w
  f : ∀ r, (s.f r).length = c.fl
  room : ctxSize c ≤ s.x 3

/-- The registers of which the psABI says that a call preserves them or that nobody uses them: tp, sp, r21, fp,
s0–s8 and fs0–fs7. -/
def LaKept (r : Nat) : Prop := r = 2 ∨ r = 3 ∨ (21 ≤ r ∧ r ≤ 31)
def LaKeptF (r : Nat) : Prop := 24 ≤ r ∧ r ≤ 31

/-- `t` is a state in which a function entered in `s` may return. -/
def LaReturns (s t : AState) : Prop := (∀ r, LaKept r → t.x r = s.x r) ∧ ∀ r, LaKeptF r → t.f r = s.f r

/-- What `ffi_closure_inner` is called with: the interface description, the function and
its data, where the caller's stack arguments begin, and the saved registers. -/
structure LaInner (c : Cfg) (cif fn ud : Nat) (s t : AState) : Prop where
  cif : t.x 4 = cif
  fn : t.x 5 = fn
  ud : t.x 6 = ud
  stack : t.x 7 = s.x 3
  regs : t.x 8 + ctxSize c = s.x 3
  a : ∀ k, k < 8 → t.mem.rd (t.x 8 + 8 * c.fl + c.w * k) c.w = leBytes c.w (s.x (4 + k))
  fa : ∀ k, k < 8 → t.mem.rd (t.x 8 + c.fl * k) c.fl = s.f k
  out : ∀ x, x < t.x 8 ∨ s.x 3 ≤ x → t.mem x = s.mem x
  sp : t.x 3 = t.x 8 ∧ (16 ∣ s.x 3 → 16 ∣ t.x 3)

theorem la_frame {c : Cfg} (hc : LaBuild c) {s : AState} (h : LaState c s) :
    (∀ k, k < 8 → (frameMem c s).rd (s.x 3 - ctxSize c + 8 * c.fl + c.w * k) c.w = leBytes c.w (s.x (4 + k))) ∧
    ∀ k, k < 8 → (frameMem c s).rd (s.x 3 - ctxSize c + c.fl * k) c.fl = s.f k := by
  have hF : ctxSize c = 8 * c.fl + 8 * c.w + 16 := rfl
  have e0 : ∀ P, aAddr c P 0 = P + 8 * c.fl := fun P => by simp [aAddr]
  have e1 : ∀ P, faAddr c P 0 = P := fun P => by simp [faAddr]
  constructor
  · intro k hk
    unfold frameMem
    dsimp only
    rw [e0, e1]
    exact saveRegs_rd _ _ _ (fun _ => leBytes_length _ _) 8 _ hk
  · intro k hk
    have hm : c.fl * (k + 1) ≤ c.fl * 8 := Nat.mul_le_mul_left _ hk
    rw [Nat.mul_succ] at hm
    unfold frameMem
    dsimp only
    rw [e0, e1, show s.f k = s.f (fa0 + k) by rw [show fa0 + k = k from Nat.zero_add k]]
    refine (Mem.rd_congr fun i hi => ?_).trans (saveRegs_rd _ _ _ (fun _ => h.f _) 8
      (s.mem.wr (s.x sp - 2 * c.w) (leBytes c.w (s.x fp) ++ leBytes c.w (s.x ra))) hk)
    exact saveRegs_out _ _ _ (fun _ => leBytes_length _ _) _ _ _ (.inl (by unfold Verif.LA.Asm.sp; omega))

theorem la_ctx16 {c : Cfg} (hc : LaBuild c) : 16 ∣ ctxSize c := by
  unfold ctxSize
  obtain ⟨h, h' | h' | h'⟩ := hc <;> rw [h, h'] <;> decide

theorem la_save {c : Cfg} (hc : LaBuild c) {s : AState} (h : LaState c s) :
    run c (closureSave c) s = ⟨upd (upd s.x 3 (s.x 3 - ctxSize c)) 22 (s.x 3), s.f, frameMem c s⟩ :=
  closureSave_run hc.or h.f h.room (h.x 3)

theorem la_closure_run {c : Cfg} (hc : LaBuild c) {s : AState} (h : LaState c s) {a cif fn ud : Nat} (ht : s.x 12 = a)
    (ha : a + 24 + 3 * c.w < 256 ^ c.w) (apart : a + 24 + 3 * c.w ≤ s.x 3 - ctxSize c ∨ s.x 3 ≤ a + 24)
    (h1 : Code s.mem (a + 24) (leBytes c.w cif)) (h2 : Code s.mem (a + 24 + c.w) (leBytes c.w fn))
    (h3 : Code s.mem (a + 24 + 2 * c.w) (leBytes c.w ud)) (hv : cif < 256 ^ c.w ∧ fn < 256 ^ c.w ∧ ud < 256 ^ c.w) :
    run c (closureSave c ++ closureArgs c) s =
      ⟨upd (upd (upd (upd (upd (upd (upd s.x 3 (s.x 3 - ctxSize c)) 22 (s.x 3)) 4 cif) 5 fn) 6 ud) 7 (s.x 3)) 8
        (s.x 3 - ctxSize c), s.f, frameMem c s⟩ := by
  have hr := h.room
  have hx := h.x 3
  have hk : ∀ {k v}, k + c.w ≤ 3 * c.w → Code s.mem (a + 24 + k) (leBytes c.w v) →
      Code (frameMem c s) (a + 24 + k) (leBytes c.w v) := by
    intro k v hk hcode
    refine hcode.congr fun i hi => frameMem_out hc.or h.f hr ?_
    rw [leBytes_length] at hi
    unfold Verif.LA.Asm.sp
    omega
  rw [run_append, la_save hc h]
  refine (closureArgs_run (s := ⟨upd (upd s.x 3 (s.x 3 - ctxSize c)) 22 (s.x 3), s.f, frameMem c s⟩)
    (P := s.x 3 - ctxSize c) (a := a) (cif := cif) (fn := fn) (ud := ud) rfl (by omega) ht ha
    (rd_word (hk (k := 0) (by omega) h1) hv.1) (rd_word (hk (by omega) h2) hv.2.1) (rd_word (hk (by omega) h3) hv.2.2)).trans ?_
  dsimp only
  rw [Nat.sub_add_cancel hr]
  rfl

theorem la_inner {c : Cfg} (hc : LaBuild c) {s s0 : AState} (h : LaState c s) {cif fn ud : Nat}
    (h2 : s.x 3 = s0.x 3) (hm : s.mem = s0.mem) (hff : s.f = s0.f) (ha : ∀ k, k < 8 → s.x (4 + k) = s0.x (4 + k)) :
    LaInner c cif fn ud s0
      ⟨upd (upd (upd (upd (upd (upd (upd s.x 3 (s.x 3 - ctxSize c)) 22 (s.x 3)) 4 cif) 5 fn) 6 ud) 7 (s.x 3)) 8
        (s.x 3 - ctxSize c), s.f, frameMem c s⟩ := by
  have hr := h.room
  obtain ⟨f1, f2⟩ := la_frame hc h
  refine ⟨rfl, rfl, rfl, h2, ?_, fun k hk => ?_, fun k hk => ?_, ?_, rfl, ?_⟩
  · show s.x 3 - ctxSize c + ctxSize c = s0.x 3
    omega
  · rw [← ha k hk]
    exact f1 k hk
  · rw [← hff]
    exact f2 k hk
  · intro x hx
    rw [← hm]
    rw [← h2] at hx
    exact frameMem_out hc.or h.f hr hx
  · intro h16
    show 16 ∣ s.x 3 - ctxSize c
    rw [h2]
    exact Nat.dvd_sub h16 (la_ctx16 hc)

theorem la_entered {c : Cfg} (hc : LaBuild c) {s : AState} (h : LaState c s) {a cif fn ud entry : Nat} (ha : a + 48 < 2 ^ 64) (he : entry < 2 ^ 64)
    (im : Fields s.mem a cif fn ud) (apart : a + 48 ≤ s.x 3 - ctxSize c ∨ s.x 3 ≤ a + 24) (hv : cif < 2 ^ 64 ∧ fn < 2 ^ 64 ∧ ud < 2 ^ 64) :
    LaInner c cif fn ud s (run c (LA.Asm.closureSave c ++ LA.Asm.closureArgs c) ⟨upd (upd s.x 12 a) 13 entry, s.f, s.mem⟩) := by
  have hw : c.w = 8 := hc.1
  have hp : 256 ^ c.w = 2 ^ 64 := by rw [hw]; rfl
  have h' : LaState c ⟨upd (upd s.x 12 a) 13 entry, s.f, s.mem⟩ := by
    refine ⟨fun r => ?_, h.f, h.room⟩
    show upd (upd s.x 12 a) 13 entry r < _
    unfold upd
    split
    · omega
    · split
      · omega
      · exact h.x r
  rw [la_closure_run hc h' (a := a) rfl (by omega) (by show _ ≤ s.x 3 - _ ∨ s.x 3 ≤ _; omega) (hw.symm ▸ im.cif)
    (by rw [hw]; exact im.fn) (by rw [hw]; exact im.ud) (by omega)]
  refine la_inner hc h' rfl rfl rfl fun k _ => ?_
  show upd (upd s.x 12 a) 13 entry (4 + k) = _
  rw [upd_ne (by omega), upd_ne (by omega)]

/-- C93: the code that `ffi_prep_closure_loc` writes, executed at any address where the
object is mapped, leads through `ffi_closure_asm` to `ffi_closure_inner` with the fields
of the closure and the registers and stack of the caller, on all builds. -/
theorem C93_dynamic {c : Cfg} (hc : LaBuild c) {abi entry closure codeloc cif fn ud : Nat} {m0 m1 : Mem}
    (prep : LA.Asm.prepClosure abi entry closure cif fn ud m0 = some m1) {s : AState} (h : LaState c s)
    (view : ∀ i, i < 48 → s.mem (codeloc + i) = m1 (closure + i)) (hl : codeloc + 48 < 2 ^ 64) (h4 : codeloc % 4 = 0)
    (he : entry < 2 ^ 64) (hv : cif < 2 ^ 64 ∧ fn < 2 ^ 64 ∧ ud < 2 ^ 64)
    (apart : codeloc + 48 ≤ s.x 3 - ctxSize c ∨ s.x 3 ≤ codeloc) :
    ∃ s1, LA.Asm.tsteps 3 ⟨codeloc, s⟩ = some ⟨entry, s1⟩ ∧ s1.x 12 = codeloc ∧ s1.mem = s.mem ∧ s1.f = s.f ∧
      (∀ r, r ≠ 12 → r ≠ 13 → s1.x r = s.x r) ∧ LaInner c cif fn ud s (run c (LA.Asm.closureSave c ++ LA.Asm.closureArgs c) s1) := by
  have im := (LA.Asm.prep_image prep).view view
  exact ⟨_, LA.Asm.tramp_run im hl h4 he, rfl, rfl, rfl, fun r h6 h7 => (upd_ne h7).trans (upd_ne h6),
    la_entered hc h (by omega) he im.toFields (by omega) hv⟩

/-- C93: the same for every slot of every table of static trampolines: with the parameters that
`ffi_prep_closure_loc` sets, slot `k` of the table mapped at `T` leads to `ffi_closure_asm` with the closure's address
(whose fields may be anywhere relative to the table), and from there to `ffi_closure_inner`. -/
theorem C93_static {c : Cfg} (hc : LaBuild c) {abi entry closure T k cif fn ud : Nat} {m0 m1 : Mem} (hk : k < 4096)
    (prep : LA.Asm.prepStatic abi entry closure (T + 65536 + 16 * k) cif fn ud m0 = some m1) {s : AState} (h : LaState c s)
    (table : s.mem.rd T 65536 = LA.Asm.codeTable) (hT : T % 4 = 0) (hTl : T + 131072 ≤ 2 ^ 64)
    (parm : ∀ i, i < 16 → s.mem (T + 65536 + 16 * k + i) = m1 (T + 65536 + 16 * k + i))
    (view : ∀ i, i < 48 → s.mem (closure + i) = m1 (closure + i)) (hl : closure + 48 < 2 ^ 64)
    (clear : closure + 48 ≤ T + 65536 + 16 * k ∨ T + 65536 + 16 * k + 16 ≤ closure)
    (he : entry < 2 ^ 64) (hv : cif < 2 ^ 64 ∧ fn < 2 ^ 64 ∧ ud < 2 ^ 64)
    (apart : closure + 48 ≤ s.x 3 - ctxSize c ∨ s.x 3 ≤ closure) :
    ∃ s1, LA.Asm.tsteps 4 ⟨T + 16 * k, s⟩ = some ⟨entry, s1⟩ ∧ s1.x 12 = closure ∧ s1.mem = s.mem ∧ s1.f = s.f ∧
      (∀ r, r ≠ 12 → r ≠ 13 → s1.x r = s.x r) ∧ LaInner c cif fn ud s (run c (LA.Asm.closureSave c ++ LA.Asm.closureArgs c) s1) := by
  have key : Code m1 (T + 65536 + 16 * k + 0) (leBytes 8 closure) ∧ Code m1 (T + 65536 + 16 * k + 8) (leBytes 8 entry) ∧ Fields m1 closure cif fn ud := by
    unfold LA.Asm.prepStatic at prep
    split at prep
    · simp only [Option.some.injEq] at prep
      subst prep
      refine ⟨?_, ?_, ?_, ?_, Code.same⟩
      · refine Code.wr (Code.wr (Code.wr (Code.wr Code.same ?_) ?_) ?_) ?_ <;> simp <;> omega
      · refine Code.wr (Code.wr (Code.wr Code.same ?_) ?_) ?_ <;> simp <;> omega
      · refine Code.wr (Code.wr Code.same ?_) ?_ <;> simp
      · exact Code.wr Code.same (by simp)
    · cases prep
  have hp : ∀ {j v}, j + 8 ≤ 16 → v < 2 ^ 64 → Code m1 (T + 65536 + 16 * k + j) (leBytes 8 v) → leNat (s.mem.rd (T + 65536 + 16 * k + j) 8) = v := by
    intro j v hj hv hcode
    refine LA.Asm.rd_word8 (hcode.congr fun i hi => ?_) hv
    rw [leBytes_length] at hi
    rw [Nat.add_assoc]
    exact parm _ (by omega)
  exact ⟨_, LA.Asm.static_run hk table hT hTl (hp (j := 0) (by omega) (by omega) key.1) (hp (by omega) he key.2.1) he, rfl, rfl, rfl,
    fun r h6 h7 => (upd_ne h7).trans (upd_ne h6), la_entered hc h hl he (key.2.2.view fun i _ hi => view i hi) (by omega) hv⟩

/-- C93: all conventions that exist are accepted, and nothing else. -/
theorem C93_accepts {abi entry closure cif fn ud : Nat} {m0 : Mem} :
    (LA.Asm.prepClosure abi entry closure cif fn ud m0).isSome = true ↔ 1 ≤ abi ∧ abi ≤ 3 := by
  unfold LA.Asm.prepClosure LA.Asm.abiOk
  by_cases h : 1 ≤ abi ∧ abi ≤ 3
  · rw [if_pos (by simp; omega)]
    simp [h]
  · rw [if_neg (by simp; omega)]
    simp [h]

/-- C93: a Go closure gets its own address as data; its function and description are those
it was prepared with. -/
theorem C93_go {c : Cfg} (hc : LaBuild c) {abi entry closure cif fn : Nat} {m0 m1 : Mem}
    (prep : LA.Asm.prepGo abi entry closure cif fn m0 = some m1) {s : AState} (h : LaState c s)
    (view : ∀ i, i < 24 → s.mem (closure + i) = m1 (closure + i)) (hl : closure + 24 < 2 ^ 64)
    (he : entry < 2 ^ 64) (hv : cif < 2 ^ 64 ∧ fn < 2 ^ 64) (ht : s.x 14 = closure)
    (apart : closure + 24 ≤ s.x 3 - ctxSize c ∨ s.x 3 ≤ closure) :
    leNat (s.mem.rd closure 8) = entry ∧ LaInner c cif fn closure s (run c (LA.Asm.closureSave c ++ LA.Asm.goArgs c) s) := by
  have hr := h.room
  have hx := h.x 3
  have hw8 : c.w = 8 := hc.1
  have hpw : 256 ^ c.w = 2 ^ 64 := by rw [hw8]; rfl
  have key : Code m1 (closure + 0) (leBytes 8 entry) ∧ Code m1 (closure + 8) (leBytes 8 cif) ∧
      Code m1 (closure + 16) (leBytes 8 fn) := by
    unfold LA.Asm.prepGo at prep
    split at prep
    · simp only [Option.some.injEq] at prep
      subst prep
      refine ⟨?_, ?_, Code.same⟩
      · refine Code.wr (Code.wr Code.same ?_) ?_ <;> simp
      · exact Code.wr Code.same (by simp)
    · cases prep
  have hs : ∀ {k v}, k + 8 ≤ 24 → Code m1 (closure + k) (leBytes 8 v) → Code s.mem (closure + k) (leBytes 8 v) := by
    intro k v hk hcode
    refine hcode.congr fun i hi => ?_
    rw [leBytes_length] at hi
    rw [Nat.add_assoc]
    exact view _ (by omega)
  have hk : ∀ {k v}, k + 8 ≤ 24 → Code m1 (closure + k) (leBytes 8 v) →
      Code (LA.Asm.frameMem c s) (closure + k) (leBytes 8 v) := by
    intro k v hk hcode
    refine (hs hk hcode).congr fun i hi => LA.Asm.frameMem_out hc.or h.f hr ?_
    rw [leBytes_length] at hi
    unfold Verif.LA.Asm.sp
    omega
  refine ⟨LA.Asm.rd_word8 (hs (k := 0) (by omega) key.1) he, ?_⟩
  rw [run_append, la_save hc h]
  rw [LA.Asm.goArgs_run (s := ⟨upd (upd s.x 3 (s.x 3 - ctxSize c)) 22 (s.x 3), s.f, LA.Asm.frameMem c s⟩)
    (P := s.x 3 - ctxSize c) (a := closure) (cif := cif) (fn := fn) (by omega) rfl (by omega) ht (by omega)
    (by rw [hw8]; exact LA.Asm.rd_word8 (hk (by omega) key.2.1) hv.1) (by rw [hw8]; exact LA.Asm.rd_word8 (hk (by omega) key.2.2) hv.2)]
  dsimp only
  rw [Nat.sub_add_cancel hr]
  exact la_inner hc h rfl rfl rfl fun _ _ => rfl

/-! A state for the examples. -/

def laBuilds : List Cfg := [⟨8, 0, 0⟩, ⟨8, 4, 0⟩, ⟨8, 8, 0⟩]

theorem laBuilds_ok {c : Cfg} (h : c ∈ laBuilds) : LaBuild c := by
  revert c; unfold LaBuild; decide

def laAState (c : Cfg) (m : Mem) : AState :=
  ⟨fun r => if r < 32 then (if r = 3 then 0x80000 else if r = 12 then 0x20000 else if r = 14 then 0x30000 else 100 + r) else 0,
    fun r => List.replicate c.fl (BitVec.ofNat 8 r), m⟩

theorem laAState_ok {c : Cfg} (h : c ∈ laBuilds) (m : Mem) : LaState c (laAState c m) := by
  refine ⟨fun r => ?_, fun _ => by simp [laAState], ?_⟩
  · have hp : 2 ^ 32 ≤ 256 ^ c.w := by revert c; decide
    show (if r < 32 then (if r = 3 then 0x80000 else if r = 12 then 0x20000 else if r = 14 then 0x30000 else 100 + r) else 0) < _
    split_ifs <;> omega
  · show ctxSize c ≤ 0x80000
    revert c; decide

example {c : Cfg} (h : c ∈ laBuilds) := fun m0 : Mem => C93_dynamic (laBuilds_ok h) (abi := 1) (entry := 0x1000) (closure := 0x20000)
  (codeloc := 0x20000) (cif := 5) (fn := 6) (ud := 7) (m0 := m0) rfl
  (s := laAState c ((LA.Asm.prepClosure 1 0x1000 0x20000 5 6 7 m0).getD m0)) (laAState_ok h _) (fun _ _ => rfl)
  (by decide) (by decide) (by decide) (by decide) (.inl (by show _ ≤ 0x80000 - ctxSize c; revert c; decide))

example {c : Cfg} (h : c ∈ laBuilds) := fun m0 : Mem => C93_go (laBuilds_ok h) (abi := 1) (entry := 0x1000) (closure := 0x30000)
  (cif := 5) (fn := 6) (m0 := m0) rfl (s := laAState c ((LA.Asm.prepGo 1 0x1000 0x30000 5 6 m0).getD m0)) (laAState_ok h _) (fun _ _ => rfl)
  (by decide) (by decide) (by decide) rfl (.inl (by show _ ≤ 0x80000 - ctxSize c; revert c; decide))

/-- The memory of the example: a table at 0x100000, the closure at 0x20000. -/
def laTable (m0 : Mem) : Mem := m0.wr 0x100000 LA.Asm.codeTable

theorem laTable_len : LA.Asm.codeTable.length = 65536 := by
  have key : ∀ (l : List Byte) n, ((List.replicate n l).flatten).length = n * l.length := by
    intro l n
    induction n with
    | zero => simp
    | succ n ih => rw [List.replicate_succ, List.flatten_cons, List.length_append, ih, Nat.succ_mul, Nat.add_comm]
  exact key _ _

theorem laTable_rd (m0 : Mem) {abi entry closure parm cif fn ud : Nat} {m1 : Mem}
    (prep : LA.Asm.prepStatic abi entry closure parm cif fn ud (laTable m0) = some m1) (hp : 0x110000 ≤ parm)
    (hc : closure + 48 ≤ 0x100000 ∨ 0x110000 ≤ closure) : m1.rd 0x100000 65536 = LA.Asm.codeTable := by
  unfold LA.Asm.prepStatic at prep
  split at prep
  · simp only [Option.some.injEq] at prep
    subst prep
    obtain ⟨T, hT⟩ : ∃ T, 0x100000 = T := ⟨_, rfl⟩
    have hlen := laTable_len
    unfold laTable
    rw [hT]
    obtain ⟨n, hn⟩ : ∃ n, 65536 = n := ⟨_, rfl⟩
    rw [hn] at hlen
    rw [hn]
    rw [Mem.rd_wr_disj _ _ _ _ _ (by rw [leBytes_length]; omega), Mem.rd_wr_disj _ _ _ _ _ (by rw [leBytes_length]; omega),
      Mem.rd_wr_disj _ _ _ _ _ (by rw [leBytes_length]; omega), Mem.rd_wr_disj _ _ _ _ _ (by rw [leBytes_length]; omega),
      Mem.rd_wr_disj _ _ _ _ _ (by rw [leBytes_length]; omega)]
    have := Mem.rd_wr_same m0 T LA.Asm.codeTable
    rw [hlen] at this
    exact this
  · cases prep

example {c : Cfg} (h : c ∈ laBuilds) := fun m0 : Mem => C93_static (laBuilds_ok h) (abi := 3) (entry := 0x1000) (closure := 0x20000)
  (T := 0x100000) (k := 4095) (cif := 5) (fn := 6) (ud := 7) (m0 := laTable m0) (by decide) rfl
  (s := laAState c ((LA.Asm.prepStatic 3 0x1000 0x20000 (0x100000 + 65536 + 16 * 4095) 5 6 7 (laTable m0)).getD m0)) (laAState_ok h _)
  (laTable_rd m0 (abi := 3) (entry := 0x1000) (closure := 0x20000) (parm := 0x100000 + 65536 + 16 * 4095) (cif := 5) (fn := 6) (ud := 7) rfl
    (by decide) (.inl (by decide)))
  (by decide) (by decide) (fun _ _ => rfl) (fun _ _ => rfl) (by decide) (by decide) (by decide) (by decide)
  (.inl (by show _ ≤ 0x80000 - ctxSize c; revert c; decide))

/-- C94: `ffi_closure_asm` and `ffi_go_closure_asm` are well-behaved functions: when
`ffi_closure_inner` returns, with the frame record (the saved fp and ra) untouched, they
return to their caller with all registers that have to be preserved, and the first two
registers of either kind hold what the saved ones now are. -/
theorem C94_closure {c : Cfg} (hc : LaBuild c) {s : AState} (h : LaState c s) {args : List Ins}
    (hargs : args = closureArgs c ∨ args = goArgs c) :
    let t := run c (closureSave c ++ args) s
    ∀ u, LaReturns t u → (∀ x, s.x 3 - 2 * c.w ≤ x → x < s.x 3 → u.mem x = t.mem x) →
      ∃ v, run c (closureOut c) u = v ∧ LaReturns s v ∧ v.x 1 = s.x 1 ∧ v.mem = u.mem ∧
        (∀ k, k < 2 → leBytes c.w (v.x (4 + k)) = u.mem.rd (t.x 3 + 8 * c.fl + c.w * k) c.w) ∧
        (c.fl ≠ 0 → ∀ k, k < 2 → v.f k = u.mem.rd (t.x 3 + c.fl * k) c.fl) := by
  intro t u hu hrec
  have hr := h.room
  have hx := h.x 3
  have hF : ctxSize c = 8 * c.fl + 8 * c.w + 16 := rfl
  -- the instructions before the call change only a0 to a4
  have hsame : (∀ r, (r < 4 ∨ 9 ≤ r) → t.x r = upd (upd s.x 3 (s.x 3 - ctxSize c)) 22 (s.x 3) r) ∧ t.f = s.f ∧
      t.mem = frameMem c s := by
    have ht : t = run c args ⟨upd (upd s.x 3 (s.x 3 - ctxSize c)) 22 (s.x 3), s.f, frameMem c s⟩ := by
      show run c (closureSave c ++ args) s = _
      rw [run_append, la_save hc h]
    rw [ht]
    rcases hargs with rfl | rfl <;>
    · refine ⟨fun r hr => ?_, rfl, rfl⟩
      simp only [closureArgs, goArgs, run_cons, run_nil, exec]
      rw [upd_ne (by unfold Verif.LA.Asm.a0; omega), upd_ne (by unfold Verif.LA.Asm.a0; omega), upd_ne (by unfold Verif.LA.Asm.a0; omega), upd_ne (by unfold Verif.LA.Asm.a0; omega),
        upd_ne (by unfold Verif.LA.Asm.a0; omega)]
  obtain ⟨hx1, hf1, hm1⟩ := hsame
  have ht2 : t.x 3 = s.x 3 - ctxSize c := hx1 3 (.inl (by decide))
  have hu2 : u.x 3 = s.x 3 - ctxSize c := (hu.1 3 (.inr (.inl rfl))).trans ht2
  obtain ⟨v, hv, v1, v2, v3, v4, v5, v6, v7, v8⟩ := closureOut_run (c := c) hc.or (s := u) (ctx := s.x 3 - ctxSize c) hu2 (by omega)
  obtain ⟨r1, r2⟩ := frameMem_record hc.or h.f hr
  have hrd : ∀ a, s.x 3 - 2 * c.w ≤ a → a + c.w ≤ s.x 3 → u.mem.rd a c.w = (frameMem c s).rd a c.w := by
    intro a h1 h2
    rw [← hm1]
    exact Mem.rd_congr fun i hi => hrec _ (by omega) (by omega)
  have e : s.x 3 - ctxSize c + ctxSize c = s.x 3 := by omega
  rw [e] at v2 v3 v4
  rw [hrd _ (by omega) (by omega)] at v3 v4
  refine ⟨v, hv, ⟨?_, ?_⟩, ?_, v1, ?_, ?_⟩
  · intro r hr
    by_cases h2 : r = 3
    · subst h2; exact v2
    · by_cases h8 : r = 22
      · subst h8
        refine v4.trans ?_
        rw [show leNat ((frameMem c s).rd (s.x 3 - 2 * c.w) c.w) = _ from congrArg leNat r1]
        exact leNat_lt_w (h.x 22)
      · have hr' : r < 4 ∨ 15 ≤ r := by unfold LaKept at hr; omega
        have h1 : r ≠ 1 := by unfold LaKept at hr; omega
        rw [v7 r h1 h2 h8 (by omega), hu.1 r hr, hx1 r (by omega), upd_ne h8, upd_ne h2]
  · intro r hr
    have hr' : r < 0 ∨ 2 ≤ r := by unfold LaKeptF at hr; omega
    rw [v8 r hr', hu.2 r hr, hf1]
  · refine v3.trans ?_
    rw [show leNat ((frameMem c s).rd (s.x 3 - c.w) c.w) = _ from congrArg leNat r2]
    exact leNat_lt_w (h.x 1)
  · intro k hk
    rw [ht2]
    have := v5 k hk
    unfold Verif.LA.Asm.a0 at this
    rw [this]
    have hl : (u.mem.rd (aAddr c (s.x 3 - ctxSize c) k) c.w).length = c.w := Mem.rd_length _ _ _
    have e2 := leBytes_leNat (u.mem.rd (aAddr c (s.x 3 - ctxSize c) k) c.w)
    rw [hl] at e2
    exact e2
  · intro h0 k hk
    rw [ht2]
    have e := v6 h0 k hk
    rw [show fa0 + k = k from Nat.zero_add k] at e
    exact e

/-- What is in memory when `ffi_closure_inner` starts is what the model of C57 starts from. -/
theorem C94_closure_refines {c : Cfg} (hc : LaBuild c) {s : AState} (h : LaState c s) {args : List Ins}
    (hargs : args = closureArgs c ∨ args = goArgs c) :
    (run c (closureSave c ++ args) s).mem =
      closureFrameMem c (s.x 22) (s.x 1) ⟨s.mem, s.x 3, fun k => s.f k, fun k => leBytes c.w (s.x (4 + k))⟩ := by
  rw [run_append, la_save hc h]
  rcases hargs with rfl | rfl <;> rfl

example {c : Cfg} (h : c ∈ laBuilds) (m : Mem) := C94_closure (laBuilds_ok h) (laAState_ok h m) (.inl rfl) _
  ⟨fun _ _ => rfl, fun _ _ => rfl⟩ (fun _ _ _ => rfl)

example {c : Cfg} (h : c ∈ laBuilds) (m : Mem) := C94_closure_refines (laBuilds_ok h) (laAState_ok h m) (.inr rfl)

/-- How `ffi_call_int` calls `ffi_call_asm`: stack arguments, register image, function,
static chain. -/
structure LaCallAsm (c : Cfg) (s : AState) (stk ctx fn clo : Nat) : Prop where
  x : ∀ r, s.x r < 256 ^ c.w
  f : ∀ r, (s.f r).length = c.fl
  a0 : s.x 4 = stk
  a1 : s.x 5 = ctx
  a2 : s.x 6 = fn
  a3 : s.x 7 = clo
  top : ctx + ctxSize c < 256 ^ c.w

/-- C94: `ffi_call_asm` jumps to the function with the stack pointer at the stacked
arguments, the registers from the image and the static chain in t2; it stores nothing but
the frame record in the image. -/
theorem C94_call_enter {c : Cfg} (hc : LaBuild c) {s : AState} {stk ctx fn clo : Nat} (h : LaCallAsm c s stk ctx fn clo) :
    let t := run c (callIn c) s
    t.x 13 = fn ∧ t.x 14 = clo ∧ t.x 3 = stk ∧
      (∀ k, k < 8 → leBytes c.w (t.x (4 + k)) = s.mem.rd (ctx + 8 * c.fl + c.w * k) c.w) ∧
      (c.fl ≠ 0 → ∀ k, k < 8 → t.f k = s.mem.rd (ctx + c.fl * k) c.fl) ∧
      ∀ x, x < ctx + ctxSize c - 2 * c.w ∨ ctx + ctxSize c ≤ x → t.mem x = s.mem x := by
  intro t
  obtain ⟨t', ht', m1, m2, m3, m4, m5, m6, m7, m8, m9⟩ := callIn_run hc.or h.a0 h.a1 h.a2 h.a3 (h.a0 ▸ h.x 4) (h.a2 ▸ h.x 6)
    (h.a3 ▸ h.x 7) h.top
  have : t = t' := ht'
  rw [this]
  have hF : ctxSize c = 8 * c.fl + 8 * c.w + 16 := rfl
  have hw := hc.or
  have hout : ∀ x, x < ctx + ctxSize c - 2 * c.w ∨ ctx + ctxSize c ≤ x → t'.mem x = s.mem x := by
    intro x hx
    rw [m1, Mem.wr_out _ _ _ _ (by simp only [List.length_append, leBytes_length]; omega)]
  refine ⟨m3, m4, m2, fun k hk => ?_, fun h0 k hk => ?_, hout⟩
  · have hm : c.w * (k + 1) ≤ c.w * 8 := Nat.mul_le_mul_left _ hk
    rw [Nat.mul_succ] at hm
    have e := m6 k hk
    unfold Verif.LA.Asm.a0 at e
    rw [e]
    have hl : (t'.mem.rd (aAddr c ctx k) c.w).length = c.w := Mem.rd_length _ _ _
    have e2 := leBytes_leNat (t'.mem.rd (aAddr c ctx k) c.w)
    rw [hl] at e2
    rw [e2]
    exact Mem.rd_congr fun i hi => hout _ (.inl (by unfold aAddr; omega))
  · have hm : c.fl * (k + 1) ≤ c.fl * 8 := Nat.mul_le_mul_left _ hk
    rw [Nat.mul_succ] at hm
    have e := m7 h0 k hk
    rw [show fa0 + k = k from Nat.zero_add k] at e
    refine e.trans ?_
    exact Mem.rd_congr fun i hi => hout _ (.inl (by unfold faAddr; omega))

/-- C94: the rest of `ffi_call_asm`: when the function returns, with the frame record
untouched, the first two registers of either kind are put in the image, and control goes
back to `ffi_call_int` with all registers that have to be preserved but the stack
pointer (`C94_call_sp`). -/
theorem C94_call_partial {c : Cfg} (hc : LaBuild c) {s : AState} {stk ctx fn clo : Nat} (h : LaCallAsm c s stk ctx fn clo) :
    let t := run c (callIn c) s
    ∀ u, LaReturns t u → (∀ r, (u.f r).length = c.fl) →
      (∀ x, ctx + ctxSize c - 2 * c.w ≤ x → x < ctx + ctxSize c → u.mem x = t.mem x) →
      ∃ v, run c (callOut c) u = v ∧ (∀ r, LaKept r → r ≠ 3 → v.x r = s.x r) ∧ (∀ r, LaKeptF r → v.f r = s.f r) ∧ v.x 1 = s.x 1 ∧
        v.mem = (u.mem.wr ctx (u.f 0 ++ u.f 1)).wr (ctx + 8 * c.fl) (leBytes c.w (u.x 4) ++ leBytes c.w (u.x 5)) ∧ v.x 3 = ctx := by
  intro t u hu huf hrec
  obtain ⟨t', ht', m1, m2, m3, m4, m5, m6, m7, m8, m9⟩ := callIn_run hc.or h.a0 h.a1 h.a2 h.a3 (h.a0 ▸ h.x 4) (h.a2 ▸ h.x 6)
    (h.a3 ▸ h.x 7) h.top
  have htt : t = t' := ht'
  rw [htt] at hu hrec
  clear_value t
  have hF : ctxSize c = 8 * c.fl + 8 * c.w + 16 := rfl
  have hw := hc.or
  have hfp : u.x 22 = ctx + ctxSize c := (hu.1 22 (by unfold LaKept; omega)).trans m5
  obtain ⟨v, hv, v1, v2, v3, v4, v5, v6⟩ := callOut_run hc.or hfp huf h.top
  have hcode : Code t'.mem (ctx + ctxSize c - 2 * c.w) (leBytes c.w (s.x 22) ++ leBytes c.w (s.x 1)) := by
    rw [m1]; exact Code.same
  obtain ⟨c1, c2⟩ := hcode.append
  rw [leBytes_length, show ctx + ctxSize c - 2 * c.w + c.w = ctx + ctxSize c - c.w by omega] at c2
  have key : ∀ {a n}, ctx + ctxSize c - 2 * c.w ≤ a → a + c.w ≤ ctx + ctxSize c → n < 256 ^ c.w → Code t'.mem a (leBytes c.w n) →
      leNat (u.mem.rd a c.w) = n := by
    intro a n h1 h2 hn hcode
    refine rd_word (hcode.congr fun i hi => ?_) hn
    rw [leBytes_length] at hi
    exact hrec _ (by omega) (by omega)
  rw [key (by omega) (by omega) (h.x 1) c2] at v3
  rw [key (by omega) (by omega) (h.x 22) c1] at v4
  refine ⟨v, hv, ?_, ?_, v3, ?_, v2⟩
  · intro r hr h2
    by_cases h8 : r = 22
    · subst h8; exact v4
    · have hr' : r < 4 ∨ 15 ≤ r := by unfold LaKept at hr; omega
      have h1 : r ≠ 1 := by unfold LaKept at hr; omega
      rw [v5 r h1 h2 h8, hu.1 r hr, m8 r h2 (by unfold Verif.LA.Asm.t1; omega) (by unfold Verif.LA.Asm.t2; omega) h8 (by omega)]
  · intro r hr
    rw [v6, hu.2 r hr, m9 r (by unfold LaKeptF at hr; omega)]
  · rw [v1]
    simp only [faAddr, aAddr, Nat.mul_zero, Nat.add_zero]
    rfl

/-- C94 violated (on purpose, src/loongarch64/sysv.S:82-90): the stack pointer that
`ffi_call_asm` returns with is the register image, whatever it was when it was called.
So it is not preserved when there is anything in the block below the image (stacked
arguments, copies, or a result): `ffi_call_int` must not refer to its frame by sp. -/
theorem C94_call_sp {c : Cfg} (hc : LaBuild c) {s : AState} {stk ctx fn clo : Nat} (h : LaCallAsm c s stk ctx fn clo)
    (hsp : s.x 3 ≤ stk) (hbelow : stk < ctx) :
    let t := run c (callIn c) s
    ∀ u, LaReturns t u → (∀ r, (u.f r).length = c.fl) →
      (∀ x, ctx + ctxSize c - 2 * c.w ≤ x → x < ctx + ctxSize c → u.mem x = t.mem x) →
      (run c (callOut c) u).x 3 ≠ s.x 3 := by
  intro t u hu huf hrec
  obtain ⟨v, hv, -, -, -, -, h2⟩ := C94_call_partial hc h u hu huf hrec
  rw [hv, h2]
  omega

/-- The registers and memory at the entry of the function are those of the model of C56. -/
theorem C94_call_refines {c : Cfg} (hc : LaBuild c) {bytes : Nat} {rt : FType} {ats : List FType} {I : CallIn} {s : AState}
    {fn clo : Nat} (h : LaCallAsm c s (callEntry c bytes rt ats I).base (callEntry c bytes rt ats I).ctx fn clo)
    (hm : s.mem = (callMem c bytes rt ats I (callEntry c bytes rt ats I).base).2) (hfp : s.x 22 = I.fp) (hra : s.x 1 = I.ra) :
    let t := run c (callIn c) s
    let E := (callEntry c bytes rt ats I).entry
    t.mem = E.mem ∧ t.x 3 = E.sp ∧ (∀ k, k < 8 → leBytes c.w (t.x (4 + k)) = E.a k) ∧
      (c.fl ≠ 0 → ∀ k, k < 8 → t.f k = E.fa k) := by
  intro t E
  obtain ⟨t', ht', m1, m2, m3, m4, m5, m6, m7, m8, m9⟩ := callIn_run hc.or h.a0 h.a1 h.a2 h.a3 (h.a0 ▸ h.x 4) (h.a2 ▸ h.x 6)
    (h.a3 ▸ h.x 7) h.top
  have : t = t' := ht'
  rw [this]
  have hmem : t'.mem = E.mem := by
    rw [m1, hm]
    unfold Verif.LA.Asm.fp Verif.LA.Asm.ra
    rw [hfp, hra]
    rfl
  refine ⟨hmem, m2, fun k hk => ?_, fun h0 k hk => ?_⟩
  · have e := m6 k hk
    unfold Verif.LA.Asm.a0 at e
    rw [e]
    have hl : (t'.mem.rd (aAddr c (callEntry c bytes rt ats I).ctx k) c.w).length = c.w := Mem.rd_length _ _ _
    have e2 := leBytes_leNat (t'.mem.rd (aAddr c (callEntry c bytes rt ats I).ctx k) c.w)
    rw [hl] at e2
    rw [e2, hmem]
    rfl
  · have e := m7 h0 k hk
    rw [show fa0 + k = k from Nat.zero_add k] at e
    refine e.trans ?_
    rw [hmem]
    rfl

/-- For the examples: a state in which `ffi_call_asm` is called. -/
def laCState (c : Cfg) (m : Mem) (sp stk ctx fn clo fp ra : Nat) : AState :=
  ⟨fun r => if r = 4 then stk else if r = 5 then ctx else if r = 6 then fn else if r = 7 then clo else if r = 3 then sp
      else if r = 22 then fp else if r = 1 then ra else 0,
    fun r => List.replicate c.fl (BitVec.ofNat 8 r), m⟩

theorem laCState_ok {c : Cfg} (m : Mem) {sp stk ctx fn clo fp ra : Nat} (h : sp < 256 ^ c.w ∧ stk < 256 ^ c.w ∧ ctx + ctxSize c < 256 ^ c.w ∧
    fn < 256 ^ c.w ∧ clo < 256 ^ c.w ∧ fp < 256 ^ c.w ∧ ra < 256 ^ c.w) :
    LaCallAsm c (laCState c m sp stk ctx fn clo fp ra) stk ctx fn clo := by
  refine ⟨fun r => ?_, fun r => by simp [laCState], rfl, rfl, rfl, rfl, h.2.2.1⟩
  simp only [laCState]
  split_ifs <;> omega

theorem laCState_ex {c : Cfg} (h : c ∈ laBuilds) (m : Mem) :
    LaCallAsm c (laCState c m 0x8000 0x8000 0x8100 0x500 0x600 7 9) 0x8000 0x8100 0x500 0x600 := by
  refine laCState_ok m ?_
  revert c
  decide

example {c : Cfg} (h : c ∈ laBuilds) (m : Mem) := C94_call_enter (laBuilds_ok h) (laCState_ex h m)

theorem la_call_f {c : Cfg} {s : AState} (h : ∀ r, (s.f r).length = c.fl) : ∀ r, ((run c (callIn c) s).f r).length = c.fl := by
  have key : ∀ (is : List Ins) (s : AState), (∀ r, (s.f r).length = c.fl) → ∀ r, ((run c is s).f r).length = c.fl := by
    intro is
    induction is with
    | nil => exact fun _ h => h
    | cons i is ih =>
      intro s hs
      rw [run_cons]
      refine ih _ fun r => ?_
      cases i <;> simp only [exec] <;> first | exact hs r | skip
      unfold upd
      split
      · exact Mem.rd_length _ _ _
      · exact hs r
  exact key _ _ h

example {c : Cfg} (h : c ∈ laBuilds) (m : Mem) := C94_call_partial (laBuilds_ok h) (laCState_ex h m) _ ⟨fun _ _ => rfl, fun _ _ => rfl⟩
  (la_call_f (laCState_ex h m).f) (fun _ _ _ => rfl)
example {c : Cfg} (h : c ∈ laBuilds) (m : Mem) := C94_call_sp (laBuilds_ok h) (laCState_ex h m) (Nat.le_refl 0x8000) (by decide) _
  ⟨fun _ _ => rfl, fun _ _ => rfl⟩ (la_call_f (laCState_ex h m).f) (fun _ _ _ => rfl)

example := C94_call_refines (c := rvD) ⟨rfl, .inr (.inr rfl)⟩ (bytes := coreBytes rvD rvS24 rvSig) (rt := rvS24) (ats := rvSig)
  (I := rvIn 7) (s := laCState rvD _ 0x8000 _ _ 0x500 0x600 _ _) (laCState_ok _ (by decide +kernel)) rfl rfl rfl

end Verif.Props
