import Verif.AArch64.AsmLemmas
import Verif.AArch64.ClosureLemmas

/-! The assembly of AArch64: calling convention, pointer authentication (C61). -/
namespace Verif.Props
open Verif Verif.A64 Verif.A64.Asm

/-- Pointer authentication works: a signed address authenticates with the same
modifier. -/
def A64Pac (P : Pac) : Prop := ∀ p m, p < 2 ^ 48 → P.sign p m < 2 ^ 64 ∧ P.auth (P.sign p m) m = some p

/-- The registers that AAPCS64 has a function preserve: x19–x29, sp and the lower halves of
v8–v15. -/
def A64Returns (s t : AState) : Prop :=
  (∀ r, 19 ≤ r ∧ r ≤ 29 ∨ r = 31 → t.x r = s.x r) ∧ (∀ k, 8 ≤ k → k ≤ 15 → (t.v k).take 8 = (s.v k).take 8) ∧
    ∀ k, (t.v k).length = 16

/-- A machine state. -/
structure A64State (s : AState) : Prop where
  x : ∀ r, s.x r < 2 ^ 64
  v : ∀ k, (s.v k).length = 16
  lr : s.x 30 < 2 ^ 48

/-- How `ffi_call_int` calls `ffi_call_SYSV`. -/
structure A64CallAsm (s : AState) (ctx frame fn rvalue flags clo : Nat) : Prop extends A64State s where
  x0 : s.x 0 = ctx
  x1 : s.x 1 = frame
  x2 : s.x 2 = fn
  x3 : s.x 3 = rvalue
  x4 : s.x 4 = flags
  x5 : s.x 5 = clo
  order : ctx + 192 ≤ frame
  top : frame + 40 < 2 ^ 64

theorem a64_num {n : Nat} (h : n < 2 ^ 64) : leNat (leBytes 8 n) = n := by
  rw [leNat_leBytes]
  exact Nat.mod_eq_of_lt (Nat.lt_of_lt_of_le h (by decide))

theorem a64_rd8 (m : Mem) (a : Nat) : leBytes 8 (leNat (m.rd a 8)) = m.rd a 8 := by
  have := leBytes_leNat (m.rd a 8)
  rwa [Mem.rd_length] at this

theorem a64_callMem_out {P : Pac} {mode : Mode} {s : AState} {a : Nat} (h : a < s.x 1 ∨ s.x 1 + 40 ≤ a) :
    callMemory P mode s a = s.mem a := by
  unfold callMemory
  rw [Mem.wr_out _ _ _ _ (by simp; omega), Mem.wr_out _ _ _ _ (by simp; omega), Mem.wr_out _ _ _ _ (by simp; omega)]

/-- C61: `ffi_call_SYSV` branches to the function with the stack pointer at the stacked
arguments, the argument registers from the context (the vector registers if the
signature uses any), the result address in x8 and the static chain in x18; it stores
nothing outside its 40-byte frame. -/
theorem C61_call_enter {P : Pac} {T : Nat} {mode : Mode} {go : Bool} {s : AState} {ctx frame fn rvalue flags clo : Nat}
    (h : A64CallAsm s ctx frame fn rvalue flags clo) :
    ∃ t, run P T (callIn mode go) 0 s = some t ∧ t.x 9 = fn ∧ t.x 31 = ctx + 192 ∧ t.x 8 = rvalue ∧ (go = true → t.x 18 = clo) ∧
      (∀ k, k < 8 → leBytes 8 (t.x k) = s.mem.rd (ctx + 128 + 8 * k) 8) ∧
      (∀ k, k < 8 → t.v k = if flags.testBit 7 then s.mem.rd (ctx + 16 * k) 16 else s.v k) ∧
      (∀ k, 8 ≤ k → t.v k = s.v k) ∧ (∀ r, 19 ≤ r → r < 29 → t.x r = s.x r) ∧
      ∀ a, a < frame ∨ frame + 40 ≤ a → t.mem a = s.mem a := by
  obtain ⟨u, hu, u1, u2, u3, u4, u5, u6, u7, u8, u9⟩ := callFrame_run (P := P) (T := T) mode go s
  obtain ⟨t, ht, t1, t2, t3, t4, t5, t6⟩ := callLoads_run (P := P) (T := T) u
  have ho := h.order
  have hout : ∀ a, a < frame ∨ frame + 40 ≤ a → u.mem a = s.mem a := by
    intro a ha
    rw [u1]
    rw [← h.x1] at ha
    exact a64_callMem_out ha
  refine ⟨t, hu.trans ht, ?_, ?_, ?_, ?_, ?_, ?_,
    fun k hk => (t6 k hk).trans (congrFun u2 k), fun r h1 h2 => (t4 r (by omega) (by omega)).trans (u9 r h1 h2),
    fun a ha => (congrFun t1 a).trans (hout a ha)⟩
  · rw [t4 9 (by decide) (by decide), u5, h.x2]
  · rw [t2, u3, h.x0]
  · rw [t4 8 (by decide) (by decide), u6, h.x3]
  · intro hg
    rw [t4 18 (by decide) (by decide), u8, if_pos hg, h.x5]
  · intro k hk
    rw [t3 k hk, a64_rd8, u3, h.x0]
    exact Mem.rd_congr fun i hi => hout _ (by omega)
  · intro k hk
    rw [t5 k hk, u7, h.x4, u2, u3, h.x0]
    split
    · exact Mem.rd_congr fun i hi => hout _ (by omega)
    · rfl

/-- Codes that `ffi_prep_cif_machdep` produces, src/aarch64/internal.h:22-57. -/
def A64Ret (r : Nat) : Prop := r ∈ [0, 1, 2, 8, 9, 10, 11, 12, 13, 14, 15, 16, 17, 18, 19, 20, 22, 24, 26, 28, 30]

theorem a64_store_ok {r : Nat} (h : A64Ret r) (R : RetRegs) (a : Nat) (m : Mem) : ∃ m', storeRet r R a m = .ok m' := by
  simp only [A64Ret, List.mem_cons, List.not_mem_nil, or_false] at h
  rcases h with h | h | h | h | h | h | h | h | h | h | h | h | h | h | h | h | h | h | h | h | h <;> subst h <;> exact ⟨_, rfl⟩

theorem a64_auth {P : Pac} {T : Nat} (hP : A64Pac P) {mode : Mode} {s : AState} {p r : Nat} (hp : p < 2 ^ 48)
    (h30 : s.x 30 = signed P mode p (s.x r)) (hr9 : r ≠ 9) :
    ∃ t, run P T (authWith r mode) 0 s = some t ∧ t.x 30 = p ∧ t.mem = s.mem ∧ t.v = s.v ∧ ∀ q, q ≠ 9 → q ≠ 30 → t.x q = s.x q := by
  cases mode
  · exact ⟨s, rfl, h30, rfl, rfl, fun _ _ _ => rfl⟩
  · have ha : P.auth (s.x 30) (s.x r) = some p := by
      rw [h30]; exact (hP p (s.x r) hp).2
    have e : upd s.x 9 (s.x 31) r = s.x r := if_neg hr9
    refine ⟨⟨upd (upd (upd (upd s.x 9 (s.x 31)) 31 (s.x r)) 30 p) 31 (s.x 31), s.v, s.mem⟩, ?_, rfl, rfl, rfl, ?_⟩
    · show (match (P.auth (s.x 30) (upd s.x 9 (s.x 31) r)).map
        (fun p => (some 0, AState.set ⟨upd (upd s.x 9 (s.x 31)) 31 (upd s.x 9 (s.x 31) r), s.v, s.mem⟩ 30 p)) with
        | none => none | some (none, s') => some s' | some (some k, s') => run P T [.mov 31 9] k s') = _
      rw [e, ha]
      rfl
    · intro q h9 h30
      simp only [upd]
      split
      · subst q; rfl
      · rfl
  · have ha : P.auth (s.x 30) (s.x r) = some p := by
      rw [h30]; exact (hP p (s.x r) hp).2
    refine ⟨⟨upd s.x 30 p, s.v, s.mem⟩, ?_, rfl, rfl, rfl, fun q _ h => if_neg h⟩
    show (match (P.auth (s.x 30) (s.x r)).map (fun p => (some 0, AState.set s 30 p)) with
        | none => none | some (none, s') => some s' | some (some k, s') => run P T [] k s') = _
    rw [ha]
    rfl

/-- C61: the rest of `ffi_call_SYSV`: when the function returns, with the frame untouched,
the result registers are stored as `storeRet` says (C41), and control returns to the
caller's address with every preserved register, whatever the kind of pointer
authentication. -/
theorem C61_call {P : Pac} {T : Nat} (hP : A64Pac P) {mode : Mode} {go : Bool} {s t : AState} {ctx frame fn rvalue flags clo : Nat}
    (h : A64CallAsm s ctx frame fn rvalue flags clo) (ht : run P T (callIn mode go) 0 s = some t) (hret : A64Ret (flags % 32))
    {u : AState} (hu : A64Returns t u) (hf : ∀ a, frame ≤ a → a < frame + 40 → u.mem a = t.mem a) :
    ∃ w, callOut P T mode u = some w ∧ w.x 30 = s.x 30 ∧ A64Returns s w ∧
      storeRet (flags % 32) ⟨fun k => leBytes 8 (u.x k), u.v⟩ rvalue u.mem = .ok w.mem := by
  obtain ⟨f, hf', f1, f2, f3, f4, f5, f6, f7, f8, f9⟩ := callFrame_run (P := P) (T := T) mode go s
  obtain ⟨t', ht', t1, t2, t3, t4, t5, t6⟩ := callLoads_run (P := P) (T := T) f
  obtain rfl : t' = t := by
    have := ht.symm.trans (hf'.trans ht')
    simpa using this.symm
  have hs64 : signed P mode (s.x 30) (s.x 1) < 2 ^ 64 := by
    unfold signed
    split
    · exact h.x 30
    · exact (hP _ _ h.lr).1
  -- the frame as it was stored
  have hu29 : u.x 29 = frame := by
    rw [hu.1 29 (by decide), t4 29 (by decide) (by decide), f4, h.x1]
  have hm : t'.mem = callMemory P mode s := t1.trans f1
  have hrd : ∀ {a n bs}, frame ≤ a → a + n ≤ frame + 40 → (callMemory P mode s).rd a n = bs → u.mem.rd a n = bs := by
    intro a n bs h1 h2 h3
    rw [← h3, ← hm]
    exact Mem.rd_congr fun i hi => hf _ (by omega) (by omega)
  have c1 : (callMemory P mode s).rd frame 16 = leBytes 8 (s.x 29) ++ leBytes 8 (signed P mode (s.x 30) (s.x 1)) := by
    unfold callMemory
    rw [h.x1, Mem.rd_wr_disj _ _ _ _ _ (.inl (by omega)), Mem.rd_wr_disj _ _ _ _ _ (.inl (by omega))]
    exact Mem.rd_wr_same _ _ _
  have c2 : (callMemory P mode s).rd (frame + 32) 8 = leBytes 8 (s.x 31) := by
    unfold callMemory
    rw [h.x1, Mem.rd_wr_disj _ _ _ _ _ (.inr (by simp))]
    exact Mem.rd_wr_same _ _ _
  have c3 : (callMemory P mode s).rd (frame + 16) 16 = leBytes 8 (s.x 3) ++ leBytes 8 (s.x 4) := by
    unfold callMemory
    rw [h.x1]
    exact Mem.rd_wr_same _ _ _
  have split : ∀ {a x y}, (callMemory P mode s).rd a 16 = leBytes 8 x ++ leBytes 8 y →
      (callMemory P mode s).rd a 8 = leBytes 8 x ∧ (callMemory P mode s).rd (a + 8) 8 = leBytes 8 y := by
    intro a x y e
    rw [show (16 : Nat) = 8 + 8 from rfl, Mem.rd_append] at e
    exact List.append_inj e (by simp)
  have d1 : leNat (u.mem.rd frame 8) = s.x 29 := by
    rw [hrd (by omega) (by omega) (split c1).1, a64_num (h.x 29)]
  have d2 : leNat (u.mem.rd (frame + 8) 8) = signed P mode (s.x 30) (s.x 1) := by
    rw [hrd (by omega) (by omega) (split c1).2, a64_num hs64]
  have d3 : leNat (u.mem.rd (frame + 16) 8) = rvalue := by
    rw [hrd (by omega) (by omega) (split c3).1, a64_num (h.x 3), h.x3]
  have d4 : leNat (u.mem.rd (frame + 24) 8) = flags := by
    rw [hrd (by omega) (by omega) (split c3).2, a64_num (h.x 4), h.x4]
  have d5 : leNat (u.mem.rd (frame + 32) 8) = s.x 31 := by
    rw [hrd (by omega) (by omega) c2, a64_num (h.x 31)]
  -- the table
  obtain ⟨m', hm'⟩ := a64_store_ok hret ⟨fun k => leBytes 8 (u.x k), u.v⟩ rvalue u.mem
  have hb : backX T u = upd (upd (upd (upd (upd (upd (upd (upd (upd (upd u.x 3 rvalue) 4 flags) 9 (s.x 31)) 31 (s.x 31)) 2 frame)
      29 (s.x 29)) 30 (signed P mode (s.x 30) (s.x 1))) 5 T) 4 (flags % 32)) 5 (T + 16 * (flags % 32)) := by
    unfold backX
    simp only [hu29, d1, d2, d3, d4, d5]
  have hst : storeRet (flags % 32) ⟨fun k => leBytes 8 (backX T u k), u.v⟩ rvalue u.mem = .ok m' := by
    rw [← hm']
    have : ∀ R R' : RetRegs, R.x 0 = R'.x 0 → R.x 1 = R'.x 1 → R.v = R'.v → storeRet (flags % 32) R rvalue u.mem =
        storeRet (flags % 32) R' rvalue u.mem := by
      intro R R' h0 h1 h2
      unfold storeRet
      rw [h0, h1, h2]
    exact this _ _ (by rw [hb]; rfl) (by rw [hb]; rfl) rfl
  obtain ⟨q, hq, q1, q2, q3⟩ := callTable_run (P := P) (T := T) (s := { u with x := backX T u })
    (show backX T u 3 = rvalue by rw [hb]; rfl) hst
  have hrun : run P T (callBack ++ callTable) 0 u = some q := by
    rw [callBack_run, hu29, d4]
    exact hq
  obtain ⟨w, hw, w1, w2, w3, w4⟩ := a64_auth (P := P) (T := T) hP (mode := mode) (s := q) (r := 2) h.lr (by
    rw [q2 30 (by decide), q2 2 (by decide)]
    show backX T u 30 = signed P mode (s.x 30) (backX T u 2)
    rw [hb, h.x1]
    rfl) (by decide)
  refine ⟨w, ?_, w1, ⟨?_, ?_, ?_⟩, ?_⟩
  · unfold callOut
    rw [hrun]
    exact hw
  · intro r hr
    rw [w4 r (by omega) (by omega), q2 r (by omega)]
    show backX T u r = _
    by_cases h31 : r = 31
    · subst h31; rw [hb]; rfl
    · by_cases h29 : r = 29
      · subst h29; rw [hb]; rfl
      · rw [hb]
        simp only [upd]
        repeat rw [if_neg (by omega)]
        rw [hu.1 r hr, t4 r (by omega) h31, f9 r (by omega) (by omega)]
  · intro k h1 h2
    rw [w3, q3]
    rw [show ({ u with x := backX T u } : AState).v = u.v from rfl, hu.2.1 k h1 h2, t6 k (by omega), f2]
  · intro k
    rw [w3, q3]
    exact hu.2.2 k
  · rw [w2, q1, hm']

theorem a64_code_argV {f : Flags} (h : f.ret < 32) : f.code.testBit 7 = f.argV := by
  obtain ⟨r, a, b, c⟩ := f
  have : r < 32 := h
  rw [Nat.testBit_eq_decide_div_mod_eq]
  simp only [Flags.code]
  cases a <;> cases b <;> cases c <;> simp <;> omega

/-- C61: after the C code has filled the context, `ffi_call_SYSV` puts the machine into the
entry state that `callEntry` (C51) describes. -/
theorem C61_call_refines {P : Pac} {T : Nat} {mode : Mode} {go : Bool} {s : AState} {c : Cfg} {f : Flags} {bytes : Nat} {rt : FType}
    {ats : List FType} {I : CallIn} {fn clo : Nat} {st : St} (hret : f.ret < 32)
    (h : let ctx := alloca I.sp (192 + bytes + 40 + callRsize f rt I.rvalue)
      A64CallAsm s ctx (ctx + 192 + bytes) fn
        (if callRsize f rt I.rvalue ≠ 0 then ctx + 192 + bytes + 40 else I.rvalue.getD 0) (callFlags f I.rvalue).code clo)
    (hl : callLoop c (alloca I.sp (192 + bytes + 40 + callRsize f rt I.rvalue)) ats I.avalue 0 (argInit bytes) I.mem =
      .ok (st, s.mem)) :
    ∃ x30 O t, run P T (callIn mode go) 0 s = some t ∧
      callEntry c f bytes rt ats { I with x29 := s.x 29, x30 := x30, v := s.v, asp := s.x 31 } = .ok O ∧
      O.entry.mem = t.mem ∧ O.entry.sp = t.x 31 ∧ O.entry.x8 = t.x 8 ∧
      ∀ k, k < 8 → O.entry.x k = leBytes 8 (t.x k) ∧ O.entry.v k = t.v k := by
  generalize hctx : alloca I.sp (192 + bytes + 40 + callRsize f rt I.rvalue) = ctx at h hl
  dsimp only at h
  obtain ⟨u, hu, u1, u2, u3, u4, u5, u6, u7, u8, u9⟩ := callFrame_run (P := P) (T := T) mode go s
  obtain ⟨t, ht, t1, t2, t3, t4, t5, t6⟩ := callLoads_run (P := P) (T := T) u
  have hm : callMemory P mode s = ((s.mem.wr (ctx + 192 + bytes) (leBytes 8 (s.x 29) ++
      leBytes 8 (signed P mode (s.x 30) (ctx + 192 + bytes)))).wr (ctx + 192 + bytes + 32) (leBytes 8 (s.x 31))).wr
      (ctx + 192 + bytes + 16) (leBytes 8 (if callRsize f rt I.rvalue ≠ 0 then ctx + 192 + bytes + 40 else I.rvalue.getD 0) ++
        leBytes 8 (callFlags f I.rvalue).code) := by
    unfold callMemory
    rw [h.x1, h.x3, h.x4]
  have hfr : (callFlags f I.rvalue).ret < 32 := by
    unfold callFlags
    split
    · exact hret
    · split
      · exact (by decide : 0 < 32)
      · exact hret
  refine ⟨signed P mode (s.x 30) (ctx + 192 + bytes), _, t, hu.trans ht, by
    unfold callEntry
    dsimp only
    rw [hctx, hl]
    rfl, ?_, ?_, ?_, ?_⟩
  · rw [t1, u1, hm]
  · rw [t2, u3, h.x0]
  · rw [t4 8 (by decide) (by decide), u6, h.x3]
  · intro k hk
    refine ⟨?_, ?_⟩
    · rw [t3 k hk, a64_rd8, u3, h.x0, u1, hm]
      rfl
    · rw [t5 k hk, u7, h.x4, a64_code_argV hfr, u2, u3, h.x0, u1, hm]
      dsimp only
      cases (callFlags f I.rvalue).argV <;> rfl

/-! ## Closures -/

theorem a64_frame_out {vec : Bool} {lr : Nat} {s : AState} (hv : ∀ k, (s.v k).length = 16) (hs : 272 ≤ s.x 31) {a : Nat}
    (h : a < s.x 31 - 272 ∨ s.x 31 - 64 ≤ a) : frameMem vec lr s a = s.mem a := by
  have l16 : ∀ k, ((s.v k).take 16).length = 16 := fun k => by simp [hv]
  unfold frameMem
  rw [savePairs_eq (fun k => leBytes_length _ _), saveRegs_out (fun k _ => leBytes_length _ _) (by omega)]
  cases vec
  · rw [if_neg (by decide), Mem.wr_out _ _ _ _ (by simp; omega)]
  · rw [if_pos rfl, savePairs_eq l16, saveRegs_out (fun k _ => l16 k) (by omega), Mem.wr_out _ _ _ _ (by simp; omega)]

theorem a64_frame_record {vec : Bool} {lr : Nat} {s : AState} (hv : ∀ k, (s.v k).length = 16) :
    (frameMem vec lr s).rd (s.x 31 - 272) 16 = leBytes 8 (s.x 29) ++ leBytes 8 lr := by
  have l16 : ∀ k, ((s.v k).take 16).length = 16 := fun k => by simp [hv]
  refine (Mem.rd_congr fun i hi => ?_).trans (Mem.rd_wr_same s.mem (s.x 31 - 272) (leBytes 8 (s.x 29) ++ leBytes 8 lr))
  unfold frameMem
  rw [savePairs_eq (fun k => leBytes_length _ _), saveRegs_out (fun k _ => leBytes_length _ _) (by omega)]
  cases vec
  · rw [if_neg (by decide)]
  · rw [if_pos rfl, savePairs_eq l16, saveRegs_out (fun k _ => l16 k) (by omega)]

theorem a64_frame_x {vec : Bool} {lr : Nat} {s : AState} {k : Nat} (hk : k < 8) :
    (frameMem vec lr s).rd (s.x 31 - 272 + 16 + 128 + 8 * k) 8 = leBytes 8 (s.x k) := by
  unfold frameMem
  rw [savePairs_eq (fun k => leBytes_length _ _), Nat.add_assoc _ 16 128]
  exact saveRegs_rd (fun k _ => leBytes_length _ _) hk

theorem a64_frame_v {lr : Nat} {s : AState} (hv : ∀ k, (s.v k).length = 16) {k : Nat} (hk : k < 8) :
    (frameMem true lr s).rd (s.x 31 - 272 + 16 + 16 * k) 16 = s.v k := by
  have l16 : ∀ k, ((s.v k).take 16).length = 16 := fun k => by simp [hv]
  unfold frameMem
  rw [savePairs_eq (fun k => leBytes_length _ _), if_pos (by decide), savePairs_eq l16]
  refine (Mem.rd_congr fun i hi => saveRegs_out (fun k _ => leBytes_length _ _) (.inl (by omega))).trans ?_
  rw [saveRegs_rd (fun k _ => l16 k) hk, List.take_of_length_le (by rw [hv])]

/-- What `ffi_closure_SYSV_inner` is called with, src/aarch64/ffi.c:981-986. -/
structure A64Inner (vec : Bool) (cif fn ud : Nat) (s t : AState) : Prop where
  cif : t.x 0 = cif
  fn : t.x 1 = fn
  ud : t.x 2 = ud
  stack : t.x 4 = s.x 31
  rvalue : t.x 3 + 192 = t.x 5 ∧ t.x 5 + 64 = s.x 31
  struct_rvalue : t.x 6 = s.x 8
  x : ∀ k, k < 8 → t.mem.rd (t.x 3 + 128 + 8 * k) 8 = leBytes 8 (s.x k)
  v : vec = true → ∀ k, k < 8 → t.mem.rd (t.x 3 + 16 * k) 16 = s.v k
  sp : t.x 31 + 16 = t.x 3
  out : ∀ a, a < t.x 31 ∨ t.x 5 ≤ a → t.mem a = s.mem a

theorem a64_inner {vec : Bool} {lr : Nat} {s t : AState} (h : A64State s) (hs : 272 ≤ s.x 31) {x : Nat → Nat} {cif fn ud : Nat}
    (hx : t.x = innerX s x cif fn ud) (h31 : x 31 = s.x 31 - 272) (hm : t.mem = frameMem vec lr s) :
    A64Inner vec cif fn ud s t := by
  have e31 : t.x 31 = s.x 31 - 272 := by rw [hx]; exact h31
  have e3 : t.x 3 = s.x 31 - 272 + 16 := by rw [hx]; rfl
  have e4 : t.x 4 = s.x 31 - 272 + 272 := by rw [hx]; rfl
  have e5 : t.x 5 = s.x 31 - 272 + 208 := by rw [hx]; rfl
  refine ⟨by rw [hx]; rfl, by rw [hx]; rfl, by rw [hx]; rfl, by omega, ⟨by omega, by omega⟩, by rw [hx]; rfl, fun k hk => ?_,
    fun hvec k hk => ?_, by omega, fun a ha => ?_⟩
  · rw [hm, e3]; exact a64_frame_x hk
  · subst hvec; rw [hm, e3]; exact a64_frame_v h.v hk
  · rw [hm]; exact a64_frame_out h.v hs (by omega)

/-- C61: a closure enters `ffi_closure_SYSV_inner` with its own description, function and
data and with the registers of its caller; its frame is all it writes. -/
theorem C61_closure_enter {P : Pac} {T : Nat} {mode : Mode} {vec : Bool} {s : AState} (h : A64State s) (hs : 272 ≤ s.x 31)
    {off cif fn ud : Nat} (hc : cif < 2 ^ 64 ∧ fn < 2 ^ 64 ∧ ud < 2 ^ 64)
    (hfield : s.mem.rd (s.x 17 + off) 24 = leBytes 8 cif ++ (leBytes 8 fn ++ leBytes 8 ud))
    (apart : s.x 17 + off + 24 ≤ s.x 31 - 272 ∨ s.x 31 ≤ s.x 17 + off) :
    ∃ t, run P T (closureIn mode vec off) 0 s = some t ∧ A64Inner vec cif fn ud s t := by
  obtain ⟨t, ht, t1, t2, t3⟩ := closureIn_run (P := P) (T := T) hs mode vec off
  refine ⟨t, ht, ?_⟩
  have hrd : t.mem.rd (s.x 17 + off) 24 = leBytes 8 cif ++ (leBytes 8 fn ++ leBytes 8 ud) := by
    rw [← hfield, t1]
    exact Mem.rd_congr fun i hi => a64_frame_out h.v hs (by omega)
  rw [show (24 : Nat) = 8 + (8 + 8) from rfl, Mem.rd_append, Mem.rd_append] at hrd
  obtain ⟨r1, r2⟩ := List.append_inj hrd (by simp)
  obtain ⟨r2, r3⟩ := List.append_inj r2 (by simp)
  rw [Nat.add_assoc, Nat.add_assoc, show off + (8 + 8) = off + 16 from rfl] at r3
  rw [r1, r2, r3, a64_num hc.1, a64_num hc.2.1, a64_num hc.2.2] at t3
  exact a64_inner h hs t3 rfl t1

theorem a64_load_ok {r : Nat} (h : A64Ret r) (R : RetRegs) (a : Nat) (m : Mem) :
    ∃ R', loadRet r a m R = .ok R' ∧ ∀ k, 4 ≤ k → R'.v k = R.v k := by
  simp only [A64Ret, List.mem_cons, List.not_mem_nil, or_false] at h
  rcases h with h | h | h | h | h | h | h | h | h | h | h | h | h | h | h | h | h | h | h | h | h <;> subst h <;>
    refine ⟨_, rfl, fun k hk => ?_⟩ <;> first | rfl | exact if_neg (by omega)

theorem a64_load_len {r a : Nat} {m : Mem} {R R' : RetRegs} (h : loadRet r a m R = .ok R') (hv : ∀ k, (R.v k).length = 16) :
    ∀ k, (R'.v k).length = 16 := by
  intro k
  unfold loadRet at h
  split at h <;> cases h <;> first | exact hv k | skip
  all_goals
    simp only
    split
    · simp [ldv]
    · exact hv k

theorem a64_authRet {P : Pac} {T : Nat} {mode : Mode} {s : AState} {p : Nat}
    (h : if mode = .plain then s.x 30 = p else P.auth (s.x 30) (s.x 31) = some p) :
    ∃ t, run P T (authRet mode) 0 s = some t ∧ t.x = upd s.x 30 p ∧ t.mem = s.mem ∧ t.v = s.v := by
  have hm : ∀ m, m ≠ Mode.plain → P.auth (s.x 30) (s.x 31) = some p →
      run P T [.aut 31] 0 s = some ⟨upd s.x 30 p, s.v, s.mem⟩ := by
    intro m _ ha
    show (match (P.auth (s.x 30) (s.x 31)).map (fun p => (some 0, AState.set s 30 p)) with
        | none => none | some (none, s') => some s' | some (some k, s') => run P T [] k s') = _
    rw [ha]
    rfl
  cases mode
  · refine ⟨s, rfl, ?_, rfl, rfl⟩
    funext i
    unfold upd
    split
    · subst i; exact h
    · rfl
  · exact ⟨_, hm .linux (by decide) h, rfl, rfl, rfl⟩
  · exact ⟨_, hm .arm64e (by decide) h, rfl, rfl, rfl⟩

/-- The way back, up to the authentication. -/
theorem a64_back {P : Pac} {T : Nat} {mode : Mode} {vec : Bool} {s t u : AState} (h : A64State s) (hs : 272 ≤ s.x 31) {lr : Nat}
    (hlr : lr < 2 ^ 64) (hm : t.mem = frameMem vec lr s) (h31 : t.x 31 = s.x 31 - 272)
    (htx : ∀ r, 19 ≤ r → r < 29 → t.x r = s.x r) (htv : t.v = s.v) (hret : A64Ret (u.x 0 % 32)) (hu : A64Returns t u)
    (hf : ∀ a, t.x 31 ≤ a → a < t.x 31 + 16 → u.mem a = t.mem a) :
    ∃ w, closureOut P T mode u = run P T (authRet mode) 0 w ∧ w.x 30 = lr ∧ A64Returns s w ∧ w.mem = u.mem ∧
      ∃ R R', R.v = u.v ∧ loadRet (u.x 0 % 32) (t.x 31 + 208) u.mem R = .ok R' ∧ (∀ k, k < 2 → leBytes 8 (w.x k) = R'.x k) ∧
        w.v = R'.v := by
  have hu31 : u.x 31 = s.x 31 - 272 := (hu.1 31 (by decide)).trans h31
  obtain ⟨R', hR, hR4⟩ := a64_load_ok hret ⟨fun k => leBytes 8 (cbackX T u k), u.v⟩ (u.x 31 + 208) u.mem
  obtain ⟨q, hq, q1, q2, q3, q4⟩ := closureTable_run (P := P) (T := T) (s := { u with x := cbackX T u }) hR
  have q31 : q.x 31 = s.x 31 - 272 := (q2 31 (by decide)).trans hu31
  have rec16 : u.mem.rd (s.x 31 - 272) 16 = leBytes 8 (s.x 29) ++ leBytes 8 lr := by
    rw [← a64_frame_record (vec := vec) h.v, ← hm]
    exact Mem.rd_congr fun i hi => hf _ (by omega) (by omega)
  rw [show (16 : Nat) = 8 + 8 from rfl, Mem.rd_append] at rec16
  obtain ⟨r1, r2⟩ := List.append_inj rec16 (by simp)
  have e1 : leNat (q.mem.rd (q.x 31) 8) = s.x 29 := by
    rw [q31, q1]
    show leNat (u.mem.rd _ 8) = _
    rw [r1, a64_num (h.x 29)]
  have e2 : leNat (q.mem.rd (q.x 31 + 8) 8) = lr := by
    rw [q31, q1]
    show leNat (u.mem.rd _ 8) = _
    rw [r2, a64_num hlr]
  refine ⟨⟨upd (upd (upd q.x 29 (s.x 29)) 30 lr) 31 (q.x 31 + 272), q.v, q.mem⟩, ?_, rfl, ⟨?_, ?_, ?_⟩, q1,
    ⟨fun k => leBytes 8 (cbackX T u k), u.v⟩, R', rfl, ?_, ?_, q4⟩
  · unfold closureOut
    rw [closureBack_run, hq]
    show run P T (authRet mode) 0 ⟨upd (upd (upd q.x 29 (leNat (q.mem.rd (q.x 31) 8))) 30 (leNat (q.mem.rd (q.x 31 + 8) 8))) 31 (q.x 31 + 272),
      q.v, q.mem⟩ = _
    rw [e1, e2]
  · intro r hr
    by_cases h31 : r = 31
    · subst h31
      show q.x 31 + 272 = _
      omega
    · by_cases h29 : r = 29
      · subst h29; rfl
      · simp only [upd]
        rw [if_neg h31, if_neg (by omega), if_neg h29, q2 r (by omega)]
        show cbackX T u r = _
        simp only [cbackX, upd]
        repeat rw [if_neg (by omega)]
        rw [hu.1 r hr, htx r (by omega) (by omega)]
  · intro k h1 h2
    show (q.v k).take 8 = _
    rw [q4, hR4 k (by omega)]
    show (u.v k).take 8 = _
    rw [hu.2.1 k h1 h2, htv]
  · intro k
    show (q.v k).length = 16
    rw [q4]
    exact a64_load_len hR hu.2.2 k
  · rw [h31, ← hu31]; exact hR
  · intro k hk
    rw [← q3 k]
    show leBytes 8 (upd _ 31 _ k) = _
    simp only [upd]
    rw [if_neg (by omega), if_neg (by omega), if_neg (by omega)]

/-- C61: when `ffi_closure_SYSV_inner` returns with the frame record untouched, the closure
returns to its caller, with the result registers loaded as `loadRet` says (C41) and every
preserved register as it was. -/
theorem C61_closure {P : Pac} {T : Nat} (hP : A64Pac P) {mode : Mode} {vec : Bool} {off : Nat} {s t u : AState} (h : A64State s)
    (hs : 272 ≤ s.x 31) (ht : run P T (closureIn mode vec off) 0 s = some t) (hret : A64Ret (u.x 0 % 32)) (hu : A64Returns t u)
    (hf : ∀ a, t.x 31 ≤ a → a < t.x 31 + 16 → u.mem a = t.mem a) :
    ∃ w, closureOut P T mode u = some w ∧ w.x 30 = s.x 30 ∧ A64Returns s w ∧ w.mem = u.mem ∧
      ∃ R R', R.v = u.v ∧ loadRet (u.x 0 % 32) (t.x 31 + 208) u.mem R = .ok R' ∧ (∀ k, k < 2 → leBytes 8 (w.x k) = R'.x k) ∧
        w.v = R'.v := by
  obtain ⟨t', ht', t1, t2, t3⟩ := closureIn_run (P := P) (T := T) hs mode vec off
  obtain rfl : t' = t := by simpa using ht'.symm.trans ht
  have hs64 : signed P mode (s.x 30) (s.x 31) < 2 ^ 64 := by
    unfold signed
    split
    · exact h.x 30
    · exact (hP _ _ h.lr).1
  obtain ⟨q, hq, q1, q2, q3, R, R', r1, r2, r3, r4⟩ := a64_back (P := P) (T := T) (mode := mode) h hs hs64 t1 (by rw [t3]; rfl) (by
    intro r h1 h2
    rw [t3]
    simp only [innerX, upd]
    repeat rw [if_neg (by omega)]) t2 hret hu hf
  obtain ⟨w, hw, w1, w2, w3⟩ := a64_authRet (P := P) (T := T) (mode := mode) (s := q) (p := s.x 30) (by
    rw [q1, q2.1 31 (by decide)]
    unfold signed
    split
    · rfl
    · exact (hP _ _ h.lr).2)
  refine ⟨w, hq.trans hw, by rw [w1]; rfl, ⟨?_, ?_, ?_⟩, w2.trans q3, R, R', r1, r2, ?_, w3.trans r4⟩
  · intro r hr
    rw [w1, ← q2.1 r hr]
    exact if_neg (by omega)
  · rw [w3]; exact q2.2.1
  · rw [w3]; exact q2.2.2
  · intro k hk
    rw [← r3 k hk, w1]
    congr 1
    exact if_neg (by omega)

/-- C61: what the C code then does is what `closureEntry` (C39) says of the caller's
registers and stack. -/
theorem C61_closure_refines {P : Pac} {T : Nat} {mode : Mode} {off : Nat} {s t : AState} (h : A64State s) (hs : 272 ≤ s.x 31)
    {c : Cfg} {f : Flags} (ht : run P T (closureIn mode f.argV off) 0 s = some t) (ats : List FType) (bytes : Nat) :
    ∃ x30, closureEntry c f ats bytes (s.x 29) x30 ⟨s.mem, s.x 31, fun k => leBytes 8 (s.x k), s.v, s.x 8⟩ =
      (closureLoop c (t.x 3) (t.x 4) ats 0 (argInit bytes) t.mem).map
        fun r => ⟨r.2, if f.inMem then t.x 6 else t.x 5, r.1⟩ := by
  obtain ⟨t', ht', t1, t2, t3⟩ := closureIn_run (P := P) (T := T) hs mode f.argV off
  obtain rfl : t' = t := by simpa using ht'.symm.trans ht
  refine ⟨signed P mode (s.x 30) (s.x 31), ?_⟩
  have hv : (fun k => (s.v k).take 16) = s.v := funext fun k => List.take_of_length_le (by rw [h.v])
  have e3 : t'.x 3 = s.x 31 - 272 + 16 := by rw [t3]; rfl
  have e4 : t'.x 4 = s.x 31 := by
    have : t'.x 4 = s.x 31 - 272 + 272 := by rw [t3]; rfl
    omega
  have e5 : t'.x 5 = s.x 31 - 272 + 208 := by rw [t3]; rfl
  have e6 : t'.x 6 = s.x 8 := by rw [t3]; rfl
  have hm : t'.mem = saveRegs (xAddr (s.x 31 - 272 + 16) 0) 8 (fun k => leBytes 8 (s.x k)) 8
      (if f.argV then saveRegs (vAddr (s.x 31 - 272 + 16) 0) 16 s.v 8
        (s.mem.wr (s.x 31 - 272) (leBytes 8 (s.x 29) ++ leBytes 8 (signed P mode (s.x 30) (s.x 31))))
        else s.mem.wr (s.x 31 - 272) (leBytes 8 (s.x 29) ++ leBytes 8 (signed P mode (s.x 30) (s.x 31)))) := by
    rw [t1]
    unfold frameMem
    rw [savePairs_eq (fun k => leBytes_length _ _), hv, savePairs_eq h.v]
    rfl
  rw [e3, e4, e5, e6, hm]
  unfold closureEntry
  dsimp only
  cases closureLoop c (s.x 31 - 272 + 16) (s.x 31) ats 0 (argInit bytes) _ <;> rfl

/-- C61: a Go closure enters `ffi_closure_SYSV_inner` with the description and function of
the object in x18 and with that object as data. -/
theorem C61_go_enter {P : Pac} {T : Nat} {mode : Mode} {vec : Bool} {s : AState} (h : A64State s) (hs : 272 ≤ s.x 31)
    {cif fn : Nat} (hc : cif < 2 ^ 64 ∧ fn < 2 ^ 64) (hfield : s.mem.rd (s.x 18 + 8) 16 = leBytes 8 cif ++ leBytes 8 fn)
    (apart : s.x 18 + 24 ≤ s.x 31 - 272 ∨ s.x 31 ≤ s.x 18 + 8) :
    ∃ t, run P T (goIn mode vec) 0 s = some t ∧ A64Inner vec cif fn (s.x 18) s t := by
  obtain ⟨t, lr, ht, -, t1, t2, t3⟩ := goIn_run (P := P) (T := T) hs mode vec
  refine ⟨t, ht, ?_⟩
  have hrd : t.mem.rd (s.x 18 + 8) 16 = leBytes 8 cif ++ leBytes 8 fn := by
    rw [← hfield, t1]
    exact Mem.rd_congr fun i hi => a64_frame_out h.v hs (by omega)
  rw [show (16 : Nat) = 8 + 8 from rfl, Mem.rd_append] at hrd
  obtain ⟨r1, r2⟩ := List.append_inj hrd (by simp)
  rw [r1, r2, a64_num hc.1, a64_num hc.2] at t3
  exact a64_inner h hs t3 rfl t1

theorem a64_go_back {P : Pac} {T : Nat} (hP : A64Pac P) {mode : Mode} {vec : Bool} {s t u : AState} (h : A64State s)
    (hs : 272 ≤ s.x 31) (ht : run P T (goIn mode vec) 0 s = some t) (hret : A64Ret (u.x 0 % 32)) (hu : A64Returns t u)
    (hf : ∀ a, t.x 31 ≤ a → a < t.x 31 + 16 → u.mem a = t.mem a) :
    ∃ w, closureOut P T mode u = run P T (authRet mode) 0 w ∧
      w.x 30 = (if vec = false ∧ mode = .linux then P.sign (s.x 30) (s.x 31) else s.x 30) ∧ A64Returns s w ∧ w.mem = u.mem ∧
      ∃ R R', R.v = u.v ∧ loadRet (u.x 0 % 32) (t.x 31 + 208) u.mem R = .ok R' ∧ (∀ k, k < 2 → leBytes 8 (w.x k) = R'.x k) ∧
        w.v = R'.v := by
  obtain ⟨t', lr, ht', hlr, t1, t2, t3⟩ := goIn_run (P := P) (T := T) hs mode vec
  obtain rfl : t' = t := by simpa using ht'.symm.trans ht
  rw [← hlr]
  have h64 : lr < 2 ^ 64 := by
    rw [hlr]
    split
    · exact (hP _ _ h.lr).1
    · exact h.x 30
  exact a64_back (P := P) (T := T) (mode := mode) h hs h64 t1 (by rw [t3]; rfl) (by
    intro r h1 h2
    rw [t3]
    simp only [innerX, upd]
    repeat rw [if_neg (by omega)]) t2 hret hu hf

/-- C61 for Go closures: without pointer authentication, and with it for signatures
without vector arguments.  Missing: vector arguments with pointer authentication,
see `C61_go_unsigned`. -/
theorem C61_go_partial {P : Pac} {T : Nat} (hP : A64Pac P) {mode : Mode} {vec : Bool} {s t u : AState} (h : A64State s)
    (hmode : mode = .plain ∨ mode = .linux ∧ vec = false)
    (hs : 272 ≤ s.x 31) (ht : run P T (goIn mode vec) 0 s = some t) (hret : A64Ret (u.x 0 % 32)) (hu : A64Returns t u)
    (hf : ∀ a, t.x 31 ≤ a → a < t.x 31 + 16 → u.mem a = t.mem a) :
    ∃ w, closureOut P T mode u = some w ∧ w.x 30 = s.x 30 ∧ A64Returns s w ∧ w.mem = u.mem ∧
      ∃ R R', R.v = u.v ∧ loadRet (u.x 0 % 32) (t.x 31 + 208) u.mem R = .ok R' ∧ (∀ k, k < 2 → leBytes 8 (w.x k) = R'.x k) ∧
        w.v = R'.v := by
  obtain ⟨q, hq, q1, q2, q3, R, R', r1, r2, r3, r4⟩ := a64_go_back hP h hs ht hret hu hf
  obtain ⟨w, hw, w1, w2, w3⟩ := a64_authRet (P := P) (T := T) (mode := mode) (s := q) (p := s.x 30) (by
    rw [q1, q2.1 31 (by decide)]
    rcases hmode with rfl | ⟨rfl, rfl⟩
    · rw [if_pos rfl, if_neg (by simp)]
    · exact (hP _ _ h.lr).2)
  refine ⟨w, hq.trans hw, by rw [w1]; rfl, ⟨?_, ?_, ?_⟩, w2.trans q3, R, R', r1, r2, ?_, w3.trans r4⟩
  · intro r hr
    rw [w1, ← q2.1 r hr]
    exact if_neg (by omega)
  · rw [w3]; exact q2.2.1
  · rw [w3]; exact q2.2.2
  · intro k hk
    rw [← r3 k hk, w1]
    congr 1
    exact if_neg (by omega)

/-- C61 violated: with pointer authentication, a Go closure whose signature has vector
arguments never returns: `ffi_go_closure_SYSV_V` (src/aarch64/sysv.S:620-640) does not
sign the return address that the shared way out authenticates.  It fails for every
caller whose plain return address does not authenticate as a signed one. -/
theorem C61_go_unsigned {P : Pac} {T : Nat} (hP : A64Pac P) {s t u : AState} (h : A64State s)
    (hs : 272 ≤ s.x 31) (ht : run P T (goIn .linux true) 0 s = some t) (hret : A64Ret (u.x 0 % 32)) (hu : A64Returns t u)
    (hf : ∀ a, t.x 31 ≤ a → a < t.x 31 + 16 → u.mem a = t.mem a) (hplain : P.auth (s.x 30) (s.x 31) = none) :
    closureOut P T .linux u = none := by
  obtain ⟨q, hq, q1, q2, -⟩ := a64_go_back hP h hs ht hret hu hf
  rw [hq]
  have e1 : q.x 30 = s.x 30 := q1
  have e2 : q.x 31 = s.x 31 := q2.1 31 (by decide)
  show (match (P.auth (q.x 30) (q.x 31)).map (fun p => (some 0, AState.set q 30 p)) with
        | none => none | some (none, s') => some s' | some (some k, s') => run P T [] k s') = _
  rw [e1, e2, hplain]
  rfl

/-- A pointer authentication with the modifier, reduced to 15 bits, above the 48 address
bits. -/
def a64Pac : Pac where
  sign p m := p + 2 ^ 48 * (1 + m % 2 ^ 15)
  auth v m := if v / 2 ^ 48 = 1 + m % 2 ^ 15 then some (v % 2 ^ 48) else none

theorem a64Pac_ok : A64Pac a64Pac := by
  intro p m hp
  have hm := Nat.mod_lt m (show 0 < 2 ^ 15 by decide)
  have h1 : (p + 2 ^ 48 * (1 + m % 2 ^ 15)) / 2 ^ 48 = 1 + m % 2 ^ 15 := by
    rw [Nat.add_mul_div_left _ _ (by decide), Nat.div_eq_of_lt hp, Nat.zero_add]
  have h2 : (p + 2 ^ 48 * (1 + m % 2 ^ 15)) % 2 ^ 48 = p := by
    rw [Nat.add_mul_mod_self_left, Nat.mod_eq_of_lt hp]
  refine ⟨?_, ?_⟩
  · show p + 2 ^ 48 * (1 + m % 2 ^ 15) < 2 ^ 64
    omega
  · simp only [a64Pac]
    rw [if_pos h1, h2]

theorem a64Pac_plain {p m : Nat} (hp : p < 2 ^ 48) : a64Pac.auth p m = none := by
  show (if p / 2 ^ 48 = 1 + m % 2 ^ 15 then some (p % 2 ^ 48) else none) = none
  rw [Nat.div_eq_of_lt hp, if_neg (by omega)]

/-! ## Examples -/

/-- A state at the entry of `ffi_call_SYSV`: context at 4096, frame at 4304 (16 bytes of
stacked arguments), result at 9000, code 1 with vector arguments. -/
def a64CallS : AState where
  x r := if r = 0 then 4096 else if r = 1 then 4304 else if r = 2 then 65536 else if r = 3 then 9000 else if r = 4 then 129 else
    if r = 30 then 77777 else if r = 31 then 4096 else 5
  v k := List.replicate 16 (BitVec.ofNat 8 k)
  mem a := BitVec.ofNat 8 a

theorem a64CallS_ok : A64CallAsm a64CallS 4096 4304 65536 9000 129 5 where
  x r := by
    simp only [a64CallS]
    repeat' split
    all_goals decide
  v k := by simp [a64CallS]
  lr := by decide
  x0 := rfl
  x1 := rfl
  x2 := rfl
  x3 := rfl
  x4 := rfl
  x5 := rfl
  order := by decide
  top := by decide

/-- A call of a function that returns at once; with pointer authentication. -/
example : ∃ t w, run a64Pac 0 (callIn .linux true) 0 a64CallS = some t ∧ t.x 9 = 65536 ∧ t.x 18 = 5 ∧
    callOut a64Pac 0 .linux t = some w ∧ w.x 30 = 77777 ∧ w.x 31 = 4096 := by
  obtain ⟨t, ht, h1, h2, h3, h4, h5, h6, h7, h8, h9⟩ := C61_call_enter (P := a64Pac) (T := 0) (mode := .linux) (go := true) a64CallS_ok
  have hl : ∀ k, (t.v k).length = 16 := by
    intro k
    by_cases hk : k < 8
    · rw [h6 k hk]; split <;> simp [a64CallS]
    · rw [h7 k (by omega)]; simp [a64CallS]
  obtain ⟨w, hw, w1, w2, -⟩ := C61_call a64Pac_ok a64CallS_ok ht (by unfold A64Ret; decide) (u := t) ⟨fun _ _ => rfl, fun _ _ _ => rfl, hl⟩
    fun _ _ _ => rfl
  exact ⟨t, w, ht, h1, h4 rfl, hw, w1, w2.1 31 (by decide)⟩

/-- The flags above are those of a signature with vector arguments and a one-word result. -/
example : Flags.code ⟨1, false, false, true⟩ = 129 ∧ A64Ret 1 := ⟨rfl, by unfold A64Ret; decide⟩

/-- A state at the entry of a closure: closure object at 20000, Go closure object at 20016,
stack at 8192. -/
def a64CloS : AState where
  x r := if r = 17 then 20000 else if r = 18 then 20016 else if r = 31 then 8192 else if r = 30 then 77777 else 3
  v k := List.replicate 16 (BitVec.ofNat 8 k)
  mem := Mem.wr (fun _ => 0) 20024 (leBytes 8 111 ++ (leBytes 8 222 ++ leBytes 8 333))

theorem a64CloS_ok : A64State a64CloS where
  x r := by
    simp only [a64CloS]
    repeat' split
    all_goals decide
  v k := by simp [a64CloS]
  lr := by decide

theorem a64CloS_fields : a64CloS.mem.rd 20024 24 = leBytes 8 111 ++ (leBytes 8 222 ++ leBytes 8 333) :=
  Mem.rd_wr_same _ _ _

/-- After the C code: result code 1. -/
def a64Inner1 (t : AState) : AState := { t with x := upd t.x 0 1 }

theorem a64Inner1_ok {t : AState} (h : ∀ k, (t.v k).length = 16) : A64Returns t (a64Inner1 t) :=
  ⟨fun r hr => if_neg (by omega), fun _ _ _ => rfl, h⟩

example : ∃ t w, run a64Pac 0 (closureIn .linux true 24) 0 a64CloS = some t ∧ t.x 0 = 111 ∧ t.x 1 = 222 ∧ t.x 2 = 333 ∧
    closureOut a64Pac 0 .linux (a64Inner1 t) = some w ∧ w.x 30 = 77777 := by
  obtain ⟨t, ht, hi⟩ := C61_closure_enter (P := a64Pac) (T := 0) (mode := .linux) (vec := true) a64CloS_ok (by decide) (off := 24)
    ⟨by decide, by decide, by decide⟩ a64CloS_fields (.inr (by decide))
  obtain ⟨t', ht', t1, t2, t3⟩ := closureIn_run (P := a64Pac) (T := 0) (s := a64CloS) (by decide) .linux true 24
  obtain rfl : t' = t := by simpa using ht'.symm.trans ht
  obtain ⟨w, hw, w1, -⟩ := C61_closure a64Pac_ok a64CloS_ok (by decide) ht (u := a64Inner1 t') (show A64Ret (1 % 32) by unfold A64Ret; decide)
    (a64Inner1_ok (by rw [t2]; exact a64CloS_ok.v)) fun _ _ _ => rfl
  exact ⟨t', w, ht, hi.cif, hi.fn, hi.ud, hw, w1⟩

/-- The Go closure returns without pointer authentication and not with it. -/
example : ∃ t t' w, run a64Pac 0 (goIn .plain true) 0 a64CloS = some t ∧ t.x 0 = 111 ∧
    closureOut a64Pac 0 .plain (a64Inner1 t) = some w ∧ w.x 30 = 77777 ∧
    run a64Pac 0 (goIn .linux true) 0 a64CloS = some t' ∧ closureOut a64Pac 0 .linux (a64Inner1 t') = none := by
  have hfield : a64CloS.mem.rd (a64CloS.x 18 + 8) 16 = leBytes 8 111 ++ leBytes 8 222 := by
    have := a64CloS_fields
    rw [show (24 : Nat) = 16 + 8 from rfl, Mem.rd_append, ← List.append_assoc] at this
    exact (List.append_inj this (by simp)).1
  have hlen : ∀ {mode t}, run a64Pac 0 (goIn mode true) 0 a64CloS = some t → ∀ k, (t.v k).length = 16 := by
    intro mode t ht
    obtain ⟨t', lr, ht', -, -, t2, -⟩ := goIn_run (P := a64Pac) (T := 0) (s := a64CloS) (by decide) mode true
    obtain rfl : t' = t := by simpa using ht'.symm.trans ht
    rw [t2]; exact a64CloS_ok.v
  obtain ⟨t, ht, hi⟩ := C61_go_enter (P := a64Pac) (T := 0) (mode := .plain) (vec := true) a64CloS_ok (by decide)
    ⟨by decide, by decide⟩ hfield (.inr (by decide))
  obtain ⟨t', ht', -⟩ := C61_go_enter (P := a64Pac) (T := 0) (mode := .linux) (vec := true) a64CloS_ok (by decide)
    ⟨by decide, by decide⟩ hfield (.inr (by decide))
  obtain ⟨w, hw, w1, -⟩ := C61_go_partial a64Pac_ok a64CloS_ok (.inl rfl) (by decide) ht (u := a64Inner1 t)
    (show A64Ret (1 % 32) by unfold A64Ret; decide) (a64Inner1_ok (hlen ht)) fun _ _ _ => rfl
  exact ⟨t, t', w, ht, hi.cif, hw, w1, ht', C61_go_unsigned a64Pac_ok a64CloS_ok (by decide) ht' (u := a64Inner1 t')
    (show A64Ret (1 % 32) by unfold A64Ret; decide) (a64Inner1_ok (hlen ht')) (fun _ _ _ => rfl) (a64Pac_plain (by decide))⟩

end Verif.Props
