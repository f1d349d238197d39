import Verif.RiscV.AsmCfi
import Verif.Props.RiscVAsm

/-!
RISC-V: the assembly code under interruptions (C95) and the unwind tables (C96).  A signal handler may run
before any instruction and overwrite the stack from `lo` up to the stack pointer.
-/
namespace Verif.Props
open Verif Verif.RV Verif.RV.Asm

/-- The registers whose values in its caller the unwinder needs; the stack pointer is the frame address. -/
def RvUnwound (r : Nat) : Prop := RvKept r ∧ r ≠ 2

theorem rv_keptOk : KeptOk RvUnwound := by
  rintro r ⟨h, h2⟩
  unfold RvKept at h
  simp only [Asm.tc, Asm.sp, Asm.t1, Asm.t2, Asm.a0]
  omega

/-- C95: when `ffi_call_asm` enters the function, interruptions have made no difference to anything but the
memory below the stacked arguments. -/
theorem C95_call_enter {c : Cfg} (hc : RvBuild c) {lo : Nat} {s t : AState} {stk ctx fn clo : Nat} (h : RvCallAsm c s stk ctx fn clo)
    (hsp : s.x 2 ≤ stk) (hstk : stk ≤ ctx) (hv : Visits c lo 2 (callIn c) s [] t) :
    t.x 6 = fn ∧ t.x 7 = clo ∧ t.x 2 = stk ∧
      (∀ k, k < 8 → leBytes c.w (t.x (10 + k)) = s.mem.rd (ctx + 8 * c.fl + c.w * k) c.w) ∧
      (c.fl ≠ 0 → ∀ k, k < 8 → t.f (10 + k) = s.mem.rd (ctx + c.fl * k) c.fl) ∧
      (∀ r, RvKept r → r ≠ 2 → r ≠ 8 → t.x r = s.x r) ∧ t.x 8 = ctx + ctxSize c ∧ (∀ r, RvKeptF r → t.f r = s.f r) ∧
      leNat (t.mem.rd (ctx + ctxSize c - 2 * c.w) c.w) = s.x 8 ∧ leNat (t.mem.rd (ctx + ctxSize c - c.w) c.w) = s.x 1 ∧
      ∀ x, x < lo ∨ stk ≤ x → x < ctx + ctxSize c - 2 * c.w ∨ ctx + ctxSize c ≤ x → t.mem x = s.mem x := by
  obtain ⟨u, -⟩ := callIn_good hc.1 (lo := lo) rv_keptOk h.x h.f h.a0 h.a1 h.top hsp hstk
  have hh := (visits_ok hv Havoc.refl u).1 rfl
  obtain ⟨m1, m2, m3, m4, m5, m6⟩ := C60_call_enter hc h
  obtain ⟨t', ht', k1, k2, k3, k4, k5, k6, k7, k8, k9⟩ := callIn_run hc.1 h.a0 h.a1 h.a2 h.a3 (h.a0 ▸ h.x 10) (h.a2 ▸ h.x 12)
    (h.a3 ▸ h.x 13) h.top
  have hw := hc.1
  have hF : ctxSize c = 8 * c.fl + 8 * c.w + 16 := rfl
  have hrd : ∀ {a v}, stk ≤ a → v < 256 ^ c.w → Code t'.mem a (leBytes c.w v) → leNat (t.mem.rd a c.w) = v := by
    intro a v ha hv hcode
    refine rd_word (hcode.congr fun i hi => ?_) hv
    rw [← ht'] at *
    exact hh.mem _ (.inr (by rw [show (run c (callIn c) s).x 2 = stk from m3]; omega))
  have hcode : Code t'.mem (ctx + ctxSize c - 2 * c.w) (leBytes c.w (s.x 8) ++ leBytes c.w (s.x 1)) := by
    rw [k1]; exact Code.same
  obtain ⟨c1, c2⟩ := hcode.append
  rw [leBytes_length, show ctx + ctxSize c - 2 * c.w + c.w = ctx + ctxSize c - c.w by omega] at c2
  refine ⟨by rw [hh.x]; exact m1, by rw [hh.x]; exact m2, by rw [hh.x]; exact m3, by rw [hh.x]; exact m4, by rw [hh.f]; exact m5,
    fun r hr n2 n8 => ?_, ?_, fun r hr => ?_, hrd (by omega) (h.x 8) c1, hrd (by omega) (h.x 1) c2, fun x hx hx' => ?_⟩
  · rw [hh.x, ht']
    exact k8 r n2 (by unfold Asm.t1 RvKept at *; omega) (by unfold Asm.t2 RvKept at *; omega) n8 (by unfold RvKept at hr; omega)
  · rw [hh.x, ht']; exact k5
  · rw [hh.f, ht', k9 r (by unfold RvKeptF at hr; omega)]
  · rw [hh.mem x (by rw [show (run c (callIn c) s).x 2 = stk from m3]; exact hx)]
    exact m6 x hx'

/-- C95: when the function has returned in state `u`, with the frame record and the registers it has to
preserve as they were, `ffi_call_asm` puts the results in the image and returns with the preserved registers and
the return address, whatever interruptions there are. -/
theorem C95_call_return {c : Cfg} (hc : RvBuild c) {lo : Nat} {s u v : AState} {stk ctx : Nat}
    (top : ctx + ctxSize c < 256 ^ c.w) (hstk : stk ≤ ctx)
    (u2 : u.x 2 = stk) (u8 : u.x 8 = ctx + ctxSize c) (ur : ∀ r, RvKept r → r ≠ 2 → r ≠ 8 → u.x r = s.x r) (uf : ∀ r, RvKeptF r → u.f r = s.f r)
    (ul : ∀ r, (u.f r).length = c.fl) (r1 : leNat (u.mem.rd (ctx + ctxSize c - 2 * c.w) c.w) = s.x 8)
    (r2 : leNat (u.mem.rd (ctx + ctxSize c - c.w) c.w) = s.x 1) (hv : Visits c lo 2 (callOut c) u [] v) :
    (∀ r, RvKept r → r ≠ 2 → v.x r = s.x r) ∧ (∀ r, RvKeptF r → v.f r = s.f r) ∧ v.x 1 = s.x 1 ∧ v.x 2 = ctx ∧
      ∀ x, x < lo ∨ ctx ≤ x →
        v.mem x = ((u.mem.wr ctx (u.f 10 ++ u.f 11)).wr (ctx + 8 * c.fl) (leBytes c.w (u.x 10) ++ leBytes c.w (u.x 11))) x := by
  obtain ⟨up, -⟩ := callOut_good hc.1 (lo := lo) rv_keptOk (g := s.x) ul u8 top (by show u.x 2 ≤ _; omega) (fun r h n => ur r h.1 h.2 n) r1 r2
  have hh := (visits_ok hv Havoc.refl up).1 rfl
  obtain ⟨v', hv', v1, v2, v3, v4, v5, v6⟩ := callOut_run hc.1 u8 ul top
  rw [hv'] at hh
  refine ⟨fun r hr n => ?_, fun r hr => by rw [hh.f, v6, uf r hr], by rw [hh.x]; exact v3.trans r2, by rw [hh.x]; exact v2, fun x hx => ?_⟩
  · rw [hh.x]
    by_cases n8 : r = 8
    · rw [n8]; exact v4.trans r1
    · rw [v5 r (by unfold Asm.ra RvKept at *; omega) n n8, ur r hr n n8]
  · rw [hh.mem x (by rw [show v'.x 2 = ctx from v2]; exact hx), v1]
    simp only [faAddr, aAddr, Nat.mul_zero, Nat.add_zero]
    rfl

/-- The closure object, or the Go closure, is not in the part of the stack that handlers use. -/
def RvObject (c : Cfg) (lo : Nat) (s : AState) (args : List Ins) : Prop :=
  (args = closureArgs c ∧ s.x 6 + 24 + 3 * c.w < 256 ^ c.w ∧ (s.x 6 + 24 + 3 * c.w ≤ lo ∨ s.x 2 ≤ s.x 6 + 24)) ∨
    (args = goArgs c ∧ s.x 7 + 3 * c.w < 256 ^ c.w ∧ (s.x 7 + 3 * c.w ≤ lo ∨ s.x 2 ≤ s.x 7))

theorem rv_argsQuiet {c : Cfg} (hc : RvBuild c) {lo : Nat} {s : AState} {args : List Ins} (h : RvState c s) (ho : RvObject c lo s args) :
    ∀ x m, x 2 = s.x 2 - ctxSize c → x 6 = s.x 6 → x 7 = s.x 7 → ∀ i ∈ args,
      Quiet c lo 2 (fun r => RvUnwound r ∨ r = 2 ∨ r = 8 ∨ r = 6 ∨ r = 7) (s.x 2 - 2 * c.w) (s.x 2) ⟨x, s.f, m⟩ i := by
  intro x m h2 h6 h7 i hi
  have hn : ∀ k, k < 5 → ¬(RvUnwound (10 + k) ∨ 10 + k = 2 ∨ 10 + k = 8 ∨ 10 + k = 6 ∨ 10 + k = 7) := by
    unfold RvUnwound RvKept
    omega
  have hw := hc.1
  have hr := h.room
  have ld : ∀ {b : Nat} {v : Nat} {k : Int} {d : Nat}, x b = v → b = 6 ∨ b = 7 → d < 5 → (∃ n : Nat, (v : Int) + k = n ∧ n < 256 ^ c.w ∧ (n + c.w ≤ lo ∨ s.x 2 ≤ n)) →
      Quiet c lo 2 (fun r => RvUnwound r ∨ r = 2 ∨ r = 8 ∨ r = 6 ∨ r = 7) (s.x 2 - 2 * c.w) (s.x 2) ⟨x, s.f, m⟩ (.larg (10 + d) k b) := by
    rintro b v k d rfl hb hd ⟨n, e, hn', hlo⟩
    refine ⟨hn d hd, by omega, ?_⟩
    show ea c (x b) k + c.w ≤ lo ∨ x 2 ≤ ea c (x b) k
    rw [ea_eq e hn', h2]
    omega
  rcases ho with ⟨rfl, h1, h2'⟩ | ⟨rfl, h1, h2'⟩
  · simp only [closureArgs, List.mem_cons, List.not_mem_nil, or_false] at hi
    rcases hi with rfl | rfl | rfl | rfl | rfl
    · exact ld (d := 0) h6 (.inl rfl) (by omega) ⟨s.x 6 + 24, by push_cast; omega, by omega, by omega⟩
    · exact ld (d := 1) h6 (.inl rfl) (by omega) ⟨s.x 6 + 24 + c.w, by push_cast; omega, by omega, by omega⟩
    · exact ld (d := 2) h6 (.inl rfl) (by omega) ⟨s.x 6 + 24 + 2 * c.w, by push_cast; omega, by omega, by omega⟩
    · exact hn 3 (by omega)
    · exact hn 4 (by omega)
  · simp only [goArgs, List.mem_cons, List.not_mem_nil, or_false] at hi
    rcases hi with rfl | rfl | rfl | rfl | rfl
    · exact ld (d := 0) h7 (.inr rfl) (by omega) ⟨s.x 7 + c.w, by push_cast; omega, by omega, by omega⟩
    · exact ld (d := 1) h7 (.inr rfl) (by omega) ⟨s.x 7 + 2 * c.w, by push_cast; omega, by omega, by omega⟩
    · exact hn 2 (by omega)
    · exact hn 3 (by omega)
    · exact hn 4 (by omega)

theorem rv_saveCons (c : Cfg) (args : List Ins) : closureSave c ++ args = .addi sp sp (-(ctxSize c : Int)) ::
    ([.sarg fp (ctxSize c - 2 * c.w) sp, .sarg ra (ctxSize c - 1 * c.w) sp, .addi fp sp (ctxSize c)] ++ (closureStores c ++ args)) := by
  unfold closureSave closureStores
  simp

/-- The first part of a closure's entry point: what is left of interruptions. -/
theorem rv_closureVisits {c : Cfg} (hc : RvBuild c) {lo : Nat} {s t : AState} {Q args : List Ins} (h : RvState c s) (ho : RvObject c lo s args)
    (hv : Visits c lo 2 (closureSave c ++ args) s Q t) :
    (Q = [] → ∃ s', Havoc lo 2 s s' ∧ Havoc lo 2 (run c (closureSave c ++ args) s') t) ∧ Q.length ≤ (closureSave c ++ args).length ∧
    ∃ w, (closureRowsIn c args)[(closureSave c ++ args).length - Q.length]? = some w ∧ Unw c RvUnwound w t (s.x 2) (s.x 1) s.x := by
  rw [rv_saveCons] at hv ⊢
  cases hv with
  | here hh =>
    refine ⟨fun e => (nomatch e), Nat.le_refl _, entryRow, ?_, ?_⟩
    · rw [Nat.sub_self]; rfl
    · refine (unw_none (c := c) (kept := RvUnwound) (w := entryRow) (s := t) (C := s.x 2) (p := s.x 1) (spr := 2) (g := s.x) (fun _ => rfl)
        (fun h => (rv_keptOk 1 h).1 rfl) ?_ (by rw [hh.x]) (fun r _ => by rw [hh.x])).1
      show ea c (t.x 2) 0 = s.x 2
      rw [hh.x]
      exact ea_eq (by omega) (h.x 2)
  | next hh hv =>
    rename_i s'
    have h' : RvState c s' := ⟨by rw [hh.x]; exact h.x, by rw [hh.f]; exact h.f, by rw [hh.x]; exact h.room⟩
    have ho' : RvObject c lo s' args := by unfold RvObject at ho ⊢; rw [hh.x]; exact ho
    obtain ⟨e, up, good⟩ := closureIn_good hc.1 (lo := lo) rv_keptOk h'.x h'.f h'.room (rv_argsQuiet hc h' ho')
    rw [e] at hv
    obtain ⟨k1, k2, k3⟩ := visits_ok hv Havoc.refl up
    refine ⟨fun hq => ⟨s', hh, ?_⟩, by rw [List.length_cons]; omega, ?_⟩
    · rw [run_cons, e]; exact k1 hq
    · obtain ⟨w, w1, w2⟩ := k3 good
      rw [hh.x] at w2
      refine ⟨w, ?_, w2⟩
      rw [List.length_cons, Nat.succ_sub k2]
      exact w1

/-- C95: `ffi_closure_inner` is called with the fields of the closure, the caller's registers and its stack, whatever
interruptions there are. -/
theorem C95_closure_enter {c : Cfg} (hc : RvBuild c) {lo : Nat} {s t : AState} (h : RvState c s) {a cif fn ud : Nat} {args : List Ins}
    (hargs : (args = closureArgs c ∧ s.x 6 = a ∧ a + 24 + 3 * c.w < 256 ^ c.w ∧ (a + 24 + 3 * c.w ≤ lo ∨ s.x 2 ≤ a + 24) ∧
        Code s.mem (a + 24) (leBytes c.w cif) ∧ Code s.mem (a + 24 + c.w) (leBytes c.w fn) ∧ Code s.mem (a + 24 + 2 * c.w) (leBytes c.w ud)) ∨
      (args = goArgs c ∧ s.x 7 = a ∧ a + 3 * c.w < 256 ^ c.w ∧ (a + 3 * c.w ≤ lo ∨ s.x 2 ≤ a) ∧
        Code s.mem (a + c.w) (leBytes c.w cif) ∧ Code s.mem (a + 2 * c.w) (leBytes c.w fn) ∧ ud = a))
    (hlo : lo ≤ s.x 2 - ctxSize c) (hvs : cif < 256 ^ c.w ∧ fn < 256 ^ c.w ∧ ud < 256 ^ c.w) (hv : Visits c lo 2 (closureSave c ++ args) s [] t) :
    t.x 10 = cif ∧ t.x 11 = fn ∧ t.x 12 = ud ∧ t.x 13 = s.x 2 ∧ t.x 14 + ctxSize c = s.x 2 ∧ t.x 2 = t.x 14 ∧ t.x 8 = s.x 2 ∧
      (∀ k, k < 8 → t.mem.rd (t.x 14 + 8 * c.fl + c.w * k) c.w = leBytes c.w (s.x (10 + k))) ∧
      (∀ k, k < 8 → t.mem.rd (t.x 14 + c.fl * k) c.fl = s.f (10 + k)) ∧
      (∀ x, x < lo ∨ s.x 2 ≤ x → t.mem x = s.mem x) ∧ (∀ r, RvKept r → r ≠ 2 → r ≠ 8 → t.x r = s.x r) ∧ t.f = s.f ∧
      leNat (t.mem.rd (s.x 2 - 2 * c.w) c.w) = s.x 8 ∧ leNat (t.mem.rd (s.x 2 - c.w) c.w) = s.x 1 := by
  have hw := hc.1
  have hF : ctxSize c = 8 * c.fl + 8 * c.w + 16 := rfl
  have hr := h.room
  have hx2 := h.x 2
  have ho : RvObject c lo s args := by
    rcases hargs with ⟨e, e1, e2, e3, -⟩ | ⟨e, e1, e2, e3, -⟩
    · exact .inl ⟨e, e1 ▸ e2, e1 ▸ e3⟩
    · exact .inr ⟨e, e1 ▸ e2, e1 ▸ e3⟩
  obtain ⟨s', hs, ht⟩ := (rv_closureVisits hc h ho hv).1 rfl
  have h' : RvState c s' := ⟨by rw [hs.x]; exact h.x, by rw [hs.f]; exact h.f, by rw [hs.x]; exact h.room⟩
  have code : ∀ {b v : Nat}, b + c.w ≤ lo ∨ s.x 2 ≤ b → Code s.mem b (leBytes c.w v) → Code s'.mem b (leBytes c.w v) := by
    intro b v hb hcode
    refine hcode.congr fun i hi => hs.mem _ ?_
    rw [leBytes_length] at hi
    omega
  have hrun : run c (closureSave c ++ args) s' =
      ⟨upd (upd (upd (upd (upd (upd (upd s'.x 2 (s'.x 2 - ctxSize c)) 8 (s'.x 2)) 10 cif) 11 fn) 12 ud) 13 (s'.x 2)) 14
        (s'.x 2 - ctxSize c), s'.f, frameMem c s'⟩ := by
    rcases hargs with ⟨rfl, e1, e2, e3, e4, e5, e6⟩ | ⟨rfl, e1, e2, e3, e4, e5, e6⟩
    · exact rv_closure_run hc h' (a := a) (by rw [hs.x]; exact e1) e2 (by rw [hs.x]; omega) (code (by omega) e4) (code (by omega) e5) (code (by omega) e6) hvs
    · have hk : ∀ {b v : Nat}, b + c.w ≤ lo ∨ s.x 2 ≤ b → v < 256 ^ c.w → Code s.mem b (leBytes c.w v) → leNat ((frameMem c s').rd b c.w) = v := by
        intro b v hb hv hcode
        refine rd_word ((code hb hcode).congr fun i hi => frameMem_out hc.1 h'.f h'.room ?_) hv
        rw [leBytes_length] at hi
        show _ < s'.x 2 - _ ∨ s'.x 2 ≤ _
        rw [hs.x]
        omega
      rw [run_append, rv_save hc h']
      rw [goArgs_run (s := ⟨upd (upd s'.x 2 (s'.x 2 - ctxSize c)) 8 (s'.x 2), s'.f, frameMem c s'⟩)
        (P := s'.x 2 - ctxSize c) (a := a) (cif := cif) (fn := fn) (by omega) rfl (by rw [hs.x]; omega)
        (by show s'.x 7 = a; rw [hs.x]; exact e1) e2 (hk (by omega) hvs.1 e4) (hk (by omega) hvs.2.1 e5)]
      dsimp only
      rw [Nat.sub_add_cancel h'.room, e6]
      rfl
  obtain ⟨f1, f2⟩ := rv_frame hc h'
  obtain ⟨q1, q2⟩ := frameMem_record hc.1 h'.f h'.room
  rw [hrun] at ht
  have tx2 : (AState.mk (upd (upd (upd (upd (upd (upd (upd s'.x 2 (s'.x 2 - ctxSize c)) 8 (s'.x 2)) 10 cif) 11 fn) 12 ud) 13 (s'.x 2)) 14
        (s'.x 2 - ctxSize c)) s'.f (frameMem c s')).x 2 = s.x 2 - ctxSize c := by
    show s'.x 2 - _ = _
    rw [hs.x]
  have tmem : ∀ b, s.x 2 - ctxSize c ≤ b → t.mem b = frameMem c s' b := fun b hb => ht.mem b (.inr (by rw [tx2]; exact hb))
  have t14 : t.x 14 = s.x 2 - ctxSize c := by rw [ht.x]; show s'.x 2 - _ = _; rw [hs.x]
  rw [hs.x] at f1 f2
  have q1' : (frameMem c s').rd (s.x 2 - 2 * c.w) c.w = leBytes c.w (s.x 8) := by
    rw [show s.x = s'.x from hs.x.symm]; exact q1
  have q2' : (frameMem c s').rd (s.x 2 - c.w) c.w = leBytes c.w (s.x 1) := by
    rw [show s.x = s'.x from hs.x.symm]; exact q2
  have hkx : ∀ r, RvKept r → r ≠ 2 → r ≠ 8 → t.x r = s.x r := by
    intro r hr n2 n8
    rw [ht.x]
    unfold RvKept at hr
    dsimp only
    rw [upd_ne (by omega), upd_ne (by omega), upd_ne (by omega), upd_ne (by omega), upd_ne (by omega), upd_ne (by omega), upd_ne (by omega), hs.x]
  refine ⟨by rw [ht.x]; rfl, by rw [ht.x]; rfl, by rw [ht.x]; rfl, by rw [ht.x]; show s'.x 2 = _; rw [hs.x], by omega, by rw [ht.x]; rfl,
    by rw [ht.x]; show s'.x 2 = _; rw [hs.x], fun k hk => ?_, fun k hk => ?_, fun x hx => ?_, hkx, by rw [ht.f]; exact hs.f, ?_, ?_⟩
  · rw [t14, ← f1 k hk]
    exact Mem.rd_congr fun i _ => tmem _ (by omega)
  · rw [t14, ← hs.f, ← f2 k hk]
    exact Mem.rd_congr fun i _ => tmem _ (by omega)
  · have hx' : x < s.x 2 - ctxSize c ∨ s.x 2 ≤ x := by omega
    have e1 : t.mem x = frameMem c s' x := by
      rcases hx with hx | hx
      · exact ht.mem x (.inl hx)
      · exact tmem x (by omega)
    rw [e1, frameMem_out hc.1 h'.f h'.room (by show _ < s'.x 2 - _ ∨ s'.x 2 ≤ _; rw [hs.x]; exact hx')]
    exact hs.mem x hx
  · exact rd_word (Code.congr (show Code (frameMem c s') _ _ by unfold Code; rw [leBytes_length]; exact q1') fun i _ => tmem _ (by omega)) (h.x 8)
  · exact rd_word (Code.congr (show Code (frameMem c s') _ _ by unfold Code; rw [leBytes_length]; exact q2') fun i _ => tmem _ (by omega)) (h.x 1)

/-- C95: when `ffi_closure_inner` has returned in state `u`, with the frame record and the registers it has to preserve
as they were, the entry point returns to its caller with all preserved registers, and the results that were stored in
the frame, whatever interruptions there are. -/
theorem C95_closure_return {c : Cfg} (hc : RvBuild c) {lo : Nat} {s u v : AState} (h : RvState c s)
    (u2 : u.x 2 = s.x 2 - ctxSize c) (ur : ∀ r, RvKept r → r ≠ 2 → r ≠ 8 → u.x r = s.x r) (uf : ∀ r, RvKeptF r → u.f r = s.f r)
    (ul : ∀ r, (u.f r).length = c.fl) (r1 : leNat (u.mem.rd (s.x 2 - 2 * c.w) c.w) = s.x 8) (r2 : leNat (u.mem.rd (s.x 2 - c.w) c.w) = s.x 1)
    (hv : Visits c lo 2 (closureOut c) u [] v) :
    RvReturns s v ∧ v.x 1 = s.x 1 ∧ (∀ x, x < lo ∨ s.x 2 ≤ x → v.mem x = u.mem x) ∧
      (∀ k, k < 2 → leBytes c.w (v.x (10 + k)) = u.mem.rd (u.x 2 + 8 * c.fl + c.w * k) c.w) ∧
      (c.fl ≠ 0 → ∀ k, k < 2 → v.f (10 + k) = u.mem.rd (u.x 2 + c.fl * k) c.fl) := by
  have hr := h.room
  have hx := h.x 2
  obtain ⟨up, -⟩ := closureOut_good hc.1 (lo := lo) rv_keptOk (g := s.x) ul u2 h.room (h.x 2) (fun r hk n => ur r hk.1 hk.2 n) r1 r2
  have hh := (visits_ok hv Havoc.refl up).1 rfl
  obtain ⟨v', hv', v1, v2, v3, v4, v5, v6, v7, v8⟩ := closureOut_run (c := c) hc.1 (s := u) (ctx := s.x 2 - ctxSize c) u2 (by omega)
  rw [hv'] at hh
  have e : s.x 2 - ctxSize c + ctxSize c = s.x 2 := by omega
  rw [e] at v2 v3 v4
  refine ⟨⟨fun r hk => ?_, fun r hk => ?_⟩, by rw [hh.x]; exact v3.trans r2, fun x hx => ?_, fun k hk => ?_, fun h0 k hk => ?_⟩
  · rw [hh.x]
    by_cases n2 : r = 2
    · rw [n2]; exact v2
    · by_cases n8 : r = 8
      · rw [n8]; exact v4.trans r1
      · unfold RvKept at hk
        rw [v7 r (by unfold Asm.ra; omega) n2 n8 (by omega), ur r (by unfold RvKept; omega) n2 n8]
  · rw [hh.f, v8 r (by unfold RvKeptF at hk; omega), uf r hk]
  · rw [hh.mem x (by rw [show v'.x 2 = s.x 2 from v2]; exact hx), v1]
  · rw [hh.x, u2]
    have := v5 k hk
    unfold Asm.a0 at this
    rw [this]
    have hl : (u.mem.rd (aAddr c (s.x 2 - ctxSize c) k) c.w).length = c.w := Mem.rd_length _ _ _
    have e2 := leBytes_leNat (u.mem.rd (aAddr c (s.x 2 - ctxSize c) k) c.w)
    rw [hl] at e2
    exact e2
  · rw [hh.f, u2]
    exact v6 h0 k hk

/-! ## Unwinding -/

theorem getElem?_left {α : Type} {l k : List α} {i : Nat} {w : α} (h : l[i]? = some w) : (l ++ k)[i]? = some w := by
  obtain ⟨hi, -⟩ := List.getElem?_eq_some_iff.1 h
  rw [List.getElem?_append_left hi, h]

/-- C96: at every instruction of `ffi_call_asm` up to the call, the row that the directives give for it leads to
the caller: return address, saved registers and a frame address that is the same everywhere (the end of the register image,
not the caller's stack pointer). -/
theorem C96_call_in {c : Cfg} (hc : RvBuild c) {lo : Nat} {s t : AState} {stk ctx fn clo : Nat} (h : RvCallAsm c s stk ctx fn clo)
    (hsp : s.x 2 ≤ stk) (hstk : stk ≤ ctx) {Q : List Ins} (hv : Visits c lo 2 (callIn c) s Q t) :
    ∃ w, (rows (callItems c) entryRow)[(callIn c).length - Q.length]? = some w ∧ Unw c RvUnwound w t (ctx + ctxSize c) (s.x 1) s.x := by
  obtain ⟨u, g⟩ := callIn_good hc.1 (lo := lo) rv_keptOk h.x h.f h.a0 h.a1 h.top hsp hstk
  obtain ⟨w, w1, w2⟩ := (visits_ok hv Havoc.refl u).2.2 g
  exact ⟨w, by rw [callItems_rows]; exact getElem?_left w1, w2⟩

/-- C96: so does the row of the call, as long as the function runs: it suffices that the registers which it has to preserve
have been recovered and that the frame record has not changed. -/
theorem C96_call_inside {c : Cfg} (hc : RvBuild c) {s u : AState} {stk ctx fn clo : Nat} (h : RvCallAsm c s stk ctx fn clo)
    (u8 : u.x 8 = ctx + ctxSize c) (ur : ∀ r, RvKept r → r ≠ 2 → r ≠ 8 → u.x r = s.x r)
    (r1 : leNat (u.mem.rd (ctx + ctxSize c - 2 * c.w) c.w) = s.x 8) (r2 : leNat (u.mem.rd (ctx + ctxSize c - c.w) c.w) = s.x 1) :
    ∃ w, (rows (callItems c) entryRow)[(callIn c).length]? = some w ∧ Unw c RvUnwound w u (ctx + ctxSize c) (s.x 1) s.x := by
  have hF : ctxSize c = 8 * c.fl + 8 * c.w + 16 := rfl
  have hw := hc.1
  have top := h.top
  refine ⟨⟨fp, 0, both c fp⟩, ?_, ?_⟩
  · rw [callItems_rows]
    refine getElem?_left ?_
    unfold callRowsIn
    have hl : (callIn c).length = 6 + (callLoads c).length := by
      have := callRowsIn_length c
      unfold callRowsIn at this
      rw [List.length_append, List.length_replicate] at this
      simp only [List.length_cons, List.length_nil] at this
      omega
    rw [hl, List.getElem?_append_right (by simp)]
    simp
  · exact unw_both0 hc.1 (kept := RvUnwound) (w := ⟨fp, 0, both c fp⟩) (C := ctx + ctxSize c) rfl (fun h => (rv_keptOk 1 h).1 rfl)
      (by simp only [Row.cfa]; rw [show u.x fp = ctx + ctxSize c from u8]; exact ea_eq (by omega) (by omega)) (by omega) (by omega) r1 r2
      (fun r hk n => ur r hk.1 hk.2 n)

/-- C96: and so do the rows of the instructions after the call, including the return. -/
theorem C96_call_out {c : Cfg} (hc : RvBuild c) {lo : Nat} {s u v : AState} {stk ctx : Nat}
    (top : ctx + ctxSize c < 256 ^ c.w) (hstk : stk ≤ ctx) (u2 : u.x 2 = stk) (u8 : u.x 8 = ctx + ctxSize c)
    (ur : ∀ r, RvKept r → r ≠ 2 → r ≠ 8 → u.x r = s.x r) (ul : ∀ r, (u.f r).length = c.fl)
    (r1 : leNat (u.mem.rd (ctx + ctxSize c - 2 * c.w) c.w) = s.x 8) (r2 : leNat (u.mem.rd (ctx + ctxSize c - c.w) c.w) = s.x 1)
    {Q : List Ins} (hv : Visits c lo 2 (callOut c) u Q v) :
    ∃ w, (rows (callItems c) entryRow)[(callIn c).length + 1 + ((callOut c).length - Q.length)]? = some w ∧
      Unw c RvUnwound w v (ctx + ctxSize c) (s.x 1) s.x := by
  obtain ⟨up, g⟩ := callOut_good hc.1 (lo := lo) rv_keptOk (g := s.x) ul u8 top (by show u.x 2 ≤ _; omega) (fun r h n => ur r h.1 h.2 n) r1 r2
  obtain ⟨w, w1, w2⟩ := (visits_ok hv Havoc.refl up).2.2 g
  refine ⟨w, ?_, w2⟩
  rw [callItems_rows, ← callRowsIn_length, List.getElem?_append_right (by omega), Nat.add_sub_cancel_left]
  exact w1

/-- C96: at every instruction of `ffi_closure_asm` and `ffi_go_closure_asm` up to the call, the row leads to the caller,
with its stack pointer as the frame address. -/
theorem C96_closure_in {c : Cfg} (hc : RvBuild c) {lo : Nat} {s t : AState} {Q args : List Ins} (h : RvState c s) (ho : RvObject c lo s args)
    (hv : Visits c lo 2 (closureSave c ++ args) s Q t) :
    ∃ w, (rows (closureItems c args) entryRow)[(closureSave c ++ args).length - Q.length]? = some w ∧ Unw c RvUnwound w t (s.x 2) (s.x 1) s.x := by
  obtain ⟨w, w1, w2⟩ := (rv_closureVisits hc h ho hv).2.2
  exact ⟨w, by rw [closureItems_rows]; exact getElem?_left w1, w2⟩

/-- C96: so does the row of the call, as long as `ffi_closure_inner` runs. -/
theorem C96_closure_inside {c : Cfg} (hc : RvBuild c) {s u : AState} (args : List Ins) (h : RvState c s)
    (u2 : u.x 2 = s.x 2 - ctxSize c) (ur : ∀ r, RvKept r → r ≠ 2 → r ≠ 8 → u.x r = s.x r)
    (r1 : leNat (u.mem.rd (s.x 2 - 2 * c.w) c.w) = s.x 8) (r2 : leNat (u.mem.rd (s.x 2 - c.w) c.w) = s.x 1) :
    ∃ w, (rows (closureItems c args) entryRow)[(closureSave c ++ args).length]? = some w ∧ Unw c RvUnwound w u (s.x 2) (s.x 1) s.x := by
  have hF : ctxSize c = 8 * c.fl + 8 * c.w + 16 := rfl
  have hw := hc.1
  have hr := h.room
  have hx := h.x 2
  refine ⟨⟨sp, ctxSize c, both c fp⟩, ?_, ?_⟩
  · rw [closureItems_rows]
    refine getElem?_left ?_
    have hl : (closureSave c ++ args).length = 4 + (closureStores c ++ args).length := by
      have := closureRowsIn_length c args
      unfold closureRowsIn at this
      rw [List.length_append, List.length_replicate] at this
      simp only [List.length_cons, List.length_nil] at this
      omega
    unfold closureRowsIn
    rw [hl, List.getElem?_append_right (by simp)]
    simp
  · exact unw_both0 hc.1 (kept := RvUnwound) (w := ⟨sp, ctxSize c, both c fp⟩) (C := s.x 2) rfl (fun h => (rv_keptOk 1 h).1 rfl)
      (by simp only [Row.cfa]; rw [show u.x sp = s.x 2 - ctxSize c from u2]; exact ea_eq (by omega) (by omega)) (by omega) (by omega) r1 r2
      (fun r hk n => ur r hk.1 hk.2 n)

/-- C96: and so do the rows of the instructions after the call, including the return. -/
theorem C96_closure_out {c : Cfg} (hc : RvBuild c) {lo : Nat} {s u v : AState} (args : List Ins) (h : RvState c s)
    (u2 : u.x 2 = s.x 2 - ctxSize c) (ur : ∀ r, RvKept r → r ≠ 2 → r ≠ 8 → u.x r = s.x r) (ul : ∀ r, (u.f r).length = c.fl)
    (r1 : leNat (u.mem.rd (s.x 2 - 2 * c.w) c.w) = s.x 8) (r2 : leNat (u.mem.rd (s.x 2 - c.w) c.w) = s.x 1)
    {Q : List Ins} (hv : Visits c lo 2 (closureOut c) u Q v) :
    ∃ w, (rows (closureItems c args) entryRow)[(closureSave c ++ args).length + 1 + ((closureOut c).length - Q.length)]? = some w ∧
      Unw c RvUnwound w v (s.x 2) (s.x 1) s.x := by
  obtain ⟨up, g⟩ := closureOut_good hc.1 (lo := lo) rv_keptOk (g := s.x) ul u2 h.room (h.x 2) (fun r hk n => ur r hk.1 hk.2 n) r1 r2
  obtain ⟨w, w1, w2⟩ := (visits_ok hv Havoc.refl up).2.2 g
  refine ⟨w, ?_, w2⟩
  rw [closureItems_rows, ← closureRowsIn_length, List.getElem?_append_right (by omega), Nat.add_sub_cancel_left]
  exact w1

/-- C96: the instructions that the rows are counted by are those of the code: `none` stands for the call and the return. -/
theorem C96_code (c : Cfg) (args : List Ins) :
    code (callItems c) = (callIn c).map some ++ none :: ((callOut c).map some ++ [none]) ∧
      code (closureItems c args) = (closureSave c ++ args).map some ++ none :: ((closureOut c).map some ++ [none]) :=
  ⟨callItems_code c, closureItems_code c args⟩

/-! Concrete executions: an interruption before every instruction clears the stack. -/

/-- The handler. -/
def intr (lo spr : Nat) (s : AState) : AState := { s with mem := fun a => if lo ≤ a ∧ a < s.x spr then 0 else s.mem a }

theorem intr_havoc (lo spr : Nat) (s : AState) : Havoc lo spr s (intr lo spr s) :=
  ⟨rfl, rfl, fun a ha => if_neg (by omega)⟩

/-- Run with the handler before every instruction and at the end. -/
def intrRun (c : Cfg) (lo spr : Nat) : List Ins → AState → AState
  | [], s => intr lo spr s
  | i :: is, s => intrRun c lo spr is (exec c (intr lo spr s) i)

theorem intrRun_visits (c : Cfg) (lo spr : Nat) : ∀ (P : List Ins) (s : AState), Visits c lo spr P s [] (intrRun c lo spr P s)
  | [], s => .here (intr_havoc lo spr s)
  | _ :: P, _ => .next (intr_havoc lo spr _) (intrRun_visits c lo spr P _)

example {c : Cfg} (h : c ∈ rvBuilds) (m : Mem) := C95_call_enter (rvBuilds_ok h) (lo := 0x4000) (rvCState_ex h m) (Nat.le_refl 0x8000) (by decide)
  (intrRun_visits c 0x4000 2 (callIn c) _)
example {c : Cfg} (h : c ∈ rvBuilds) (m : Mem) := C96_call_in (rvBuilds_ok h) (lo := 0x4000) (rvCState_ex h m) (Nat.le_refl 0x8000) (by decide)
  (intrRun_visits c 0x4000 2 (callIn c) _)

theorem run_flen {c : Cfg} : ∀ {P Q : List Ins} {s t : AState} {lo spr : Nat}, Visits c lo spr P s Q t → (∀ r, (s.f r).length = c.fl) →
    ∀ r, (t.f r).length = c.fl := by
  intro P Q s t lo spr hv
  induction hv with
  | here h => intro hs r; rw [h.f]; exact hs r
  | next h _ ih =>
    rename_i i _ s s' _ _ _
    intro hs
    refine ih fun r => ?_
    have hs' : ∀ r, (s'.f r).length = c.fl := fun r => by rw [h.f]; exact hs r
    cases i <;> simp only [exec] <;> first | exact hs' r | skip
    unfold upd
    split
    · exact Mem.rd_length _ _ _
    · exact hs' r

/-- From the entry of the function on, the function doing nothing. -/
example {c : Cfg} (h : c ∈ rvBuilds) (m : Mem) :=
  let e := C95_call_enter (rvBuilds_ok h) (lo := 0x4000) (rvCState_ex h m) (Nat.le_refl 0x8000) (by decide) (intrRun_visits c 0x4000 2 (callIn c) _)
  let l := run_flen (intrRun_visits c 0x4000 2 (callIn c) _) (rvCState_ex h m).f
  And.intro (C95_call_return (rvBuilds_ok h) (lo := 0x4000) (rvCState_ex h m).top (by decide) e.2.2.1 e.2.2.2.2.2.2.1 e.2.2.2.2.2.1
    e.2.2.2.2.2.2.2.1 l e.2.2.2.2.2.2.2.2.1 e.2.2.2.2.2.2.2.2.2.1 (intrRun_visits c 0x4000 2 (callOut c) _))
    (And.intro (C96_call_out (rvBuilds_ok h) (lo := 0x4000) (rvCState_ex h m).top (by decide) e.2.2.1 e.2.2.2.2.2.2.1 e.2.2.2.2.2.1
      l e.2.2.2.2.2.2.2.2.1 e.2.2.2.2.2.2.2.2.2.1 (intrRun_visits c 0x4000 2 (callOut c) _))
      (C96_call_inside (rvBuilds_ok h) (rvCState_ex h m) e.2.2.2.2.2.2.1 e.2.2.2.2.2.1 e.2.2.2.2.2.2.2.2.1 e.2.2.2.2.2.2.2.2.2.1))

/-- A closure at 0x20000 with the fields 5, 6, 7. -/
def rvClo (c : Cfg) (m : Mem) : Mem :=
  ((m.wr 0x20018 (leBytes c.w 5)).wr (0x20018 + c.w) (leBytes c.w 6)).wr (0x20018 + 2 * c.w) (leBytes c.w 7)

theorem rvClo_fields {c : Cfg} (hc : c ∈ rvBuilds) (m : Mem) : Code (rvClo c m) (0x20000 + 24) (leBytes c.w 5) ∧
    Code (rvClo c m) (0x20000 + 24 + c.w) (leBytes c.w 6) ∧ Code (rvClo c m) (0x20000 + 24 + 2 * c.w) (leBytes c.w 7) := by
  refine ⟨Code.wr (Code.wr Code.same ?_) ?_, Code.wr Code.same ?_, Code.same⟩ <;> simp <;> omega

theorem rvClo_nums {c : Cfg} (hc : c ∈ rvBuilds) : 0x20000 + 24 + 3 * c.w < 256 ^ c.w ∧ 0x20000 + 24 + 3 * c.w ≤ 0x40000 ∧
    (5 < 256 ^ c.w ∧ 6 < 256 ^ c.w ∧ 7 < 256 ^ c.w) ∧ 0x40000 ≤ 0x80000 - ctxSize c := by
  revert c; decide

/-- A closure's entry point, and its way back when `ffi_closure_inner` does nothing. -/
example {c : Cfg} (h : c ∈ rvBuilds) (m : Mem) :=
  let hs := rvAState'_ok h (rvClo c m)
  let f := rvClo_fields h m
  let n := rvClo_nums h
  have ho : RvObject c 0x40000 (rvAState' c (rvClo c m)) (closureArgs c) := .inl ⟨rfl, n.1, .inl n.2.1⟩
  let e := C95_closure_enter (rvBuilds_ok h) (lo := 0x40000) hs (a := 0x20000) (cif := 5) (fn := 6) (ud := 7)
    (.inl ⟨rfl, rfl, n.1, .inl n.2.1, f.1, f.2.1, f.2.2⟩) n.2.2.2 n.2.2.1 (intrRun_visits c 0x40000 2 (closureSave c ++ closureArgs c) (rvAState' c (rvClo c m)))
  let l := run_flen (intrRun_visits c 0x40000 2 (closureSave c ++ closureArgs c) (rvAState' c (rvClo c m))) hs.f
  have u2 : (intrRun c 0x40000 2 (closureSave c ++ closureArgs c) (rvAState' c (rvClo c m))).x 2 = (rvAState' c (rvClo c m)).x 2 - ctxSize c := by
    have := e.2.2.2.2.1; have := e.2.2.2.2.2.1; omega
  And.intro (C95_closure_return (rvBuilds_ok h) (lo := 0x40000) hs u2 e.2.2.2.2.2.2.2.2.2.2.1 (fun r _ => by rw [e.2.2.2.2.2.2.2.2.2.2.2.1]) l
      e.2.2.2.2.2.2.2.2.2.2.2.2.1 e.2.2.2.2.2.2.2.2.2.2.2.2.2 (intrRun_visits c 0x40000 2 (closureOut c) _))
    (And.intro (C96_closure_in (rvBuilds_ok h) hs ho (intrRun_visits c 0x40000 2 (closureSave c ++ closureArgs c) (rvAState' c (rvClo c m))))
    (And.intro (C96_closure_inside (rvBuilds_ok h) (closureArgs c) hs u2 e.2.2.2.2.2.2.2.2.2.2.1 e.2.2.2.2.2.2.2.2.2.2.2.2.1 e.2.2.2.2.2.2.2.2.2.2.2.2.2)
      (C96_closure_out (rvBuilds_ok h) (lo := 0x40000) (closureArgs c) hs u2 e.2.2.2.2.2.2.2.2.2.2.1 l
        e.2.2.2.2.2.2.2.2.2.2.2.2.1 e.2.2.2.2.2.2.2.2.2.2.2.2.2 (intrRun_visits c 0x40000 2 (closureOut c) _))))

end Verif.Props
