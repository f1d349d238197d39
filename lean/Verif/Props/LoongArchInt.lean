import Verif.LoongArch.AsmCfi
import Verif.Props.LoongArchAsm
import Verif.Props.RiscVInt

/-!
LoongArch: the assembly code under interruptions (C95) and the unwind tables (C96).  A signal handler may run
before any instruction and overwrite the stack from `lo` up to the stack pointer.
-/
namespace Verif.Props
open Verif Verif.LA.Asm
open Verif.RV hiding callEntry callMem
open Verif.RV.Asm hiding frameMem closureSave closureArgs goArgs closureOut callIn callOut closureSave_run closureOut_run callIn_run callOut_run
  sp fp ra a0 t1 t2 tc closureArgs_run goArgs_run frameMem_out frameMem_record run_larg run_flarg run_sarg run_fsarg callLoads callStores callItems
  callItems_code entryRow callRowsIn callRowsOut callItems_rows callRowsIn_length KeptOk callIn_good callOut_good closureStores closureLoads closureItems
  closureItems_code closureRowsIn closureRowsOut closureItems_rows closureRowsIn_length closureIn_good closureOut_good

/-- The registers whose values in its caller the unwinder needs; the stack pointer is the frame address. -/
def LaUnwound (r : Nat) : Prop := LaKept r ∧ r ≠ 3

theorem la_keptOk : KeptOk LaUnwound := by
  rintro r ⟨h, h2⟩
  unfold LaKept at h
  simp only [Verif.LA.Asm.tc, Verif.LA.Asm.t0, Verif.LA.Asm.sp, Verif.LA.Asm.t1, Verif.LA.Asm.t2, Verif.LA.Asm.a0]
  omega

/-- C95: when `ffi_call_asm` enters the function, interruptions have made no difference to anything but the
memory below the stacked arguments. -/
theorem C95_la_call_enter {c : Cfg} (hc : LaBuild c) {lo : Nat} {s t : AState} {stk ctx fn clo : Nat} (h : LaCallAsm c s stk ctx fn clo)
    (hsp : s.x 3 ≤ stk) (hstk : stk ≤ ctx) (hv : Visits c lo 3 (callIn c) s [] t) :
    t.x 13 = fn ∧ t.x 14 = clo ∧ t.x 3 = stk ∧
      (∀ k, k < 8 → leBytes c.w (t.x (4 + k)) = s.mem.rd (ctx + 8 * c.fl + c.w * k) c.w) ∧
      (c.fl ≠ 0 → ∀ k, k < 8 → t.f k = s.mem.rd (ctx + c.fl * k) c.fl) ∧
      (∀ r, LaKept r → r ≠ 3 → r ≠ 22 → t.x r = s.x r) ∧ t.x 22 = ctx + ctxSize c ∧ (∀ r, LaKeptF r → t.f r = s.f r) ∧
      leNat (t.mem.rd (ctx + ctxSize c - 2 * c.w) c.w) = s.x 22 ∧ leNat (t.mem.rd (ctx + ctxSize c - c.w) c.w) = s.x 1 ∧
      ∀ x, x < lo ∨ stk ≤ x → x < ctx + ctxSize c - 2 * c.w ∨ ctx + ctxSize c ≤ x → t.mem x = s.mem x := by
  obtain ⟨u, -⟩ := callIn_good hc.or (lo := lo) la_keptOk h.x h.f h.a0 h.a1 h.top hsp hstk
  have hh := (visits_ok hv Havoc.refl u).1 rfl
  obtain ⟨m1, m2, m3, m4, m5, m6⟩ := C94_call_enter hc h
  obtain ⟨t', ht', k1, k2, k3, k4, k5, k6, k7, k8, k9⟩ := callIn_run hc.or h.a0 h.a1 h.a2 h.a3 (h.a0 ▸ h.x 4) (h.a2 ▸ h.x 6)
    (h.a3 ▸ h.x 7) h.top
  have hw := hc.or
  have hF : ctxSize c = 8 * c.fl + 8 * c.w + 16 := rfl
  have hrd : ∀ {a v}, stk ≤ a → v < 256 ^ c.w → Code t'.mem a (leBytes c.w v) → leNat (t.mem.rd a c.w) = v := by
    intro a v ha hv hcode
    refine rd_word (hcode.congr fun i hi => ?_) hv
    rw [← ht'] at *
    exact hh.mem _ (.inr (by rw [show (run c (callIn c) s).x 3 = stk from m3]; omega))
  have hcode : Code t'.mem (ctx + ctxSize c - 2 * c.w) (leBytes c.w (s.x 22) ++ leBytes c.w (s.x 1)) := by
    rw [k1]; exact Code.same
  obtain ⟨c1, c2⟩ := hcode.append
  rw [leBytes_length, show ctx + ctxSize c - 2 * c.w + c.w = ctx + ctxSize c - c.w by omega] at c2
  refine ⟨by rw [hh.x]; exact m1, by rw [hh.x]; exact m2, by rw [hh.x]; exact m3, by rw [hh.x]; exact m4, by rw [hh.f]; exact m5,
    fun r hr n2 n8 => ?_, ?_, fun r hr => ?_, hrd (by omega) (h.x 22) c1, hrd (by omega) (h.x 1) c2, fun x hx hx' => ?_⟩
  · rw [hh.x, ht']
    exact k8 r n2 (by unfold Verif.LA.Asm.t1 LaKept at *; omega) (by unfold Verif.LA.Asm.t2 LaKept at *; omega) n8 (by unfold LaKept at hr; omega)
  · rw [hh.x, ht']; exact k5
  · rw [hh.f, ht', k9 r (by unfold LaKeptF at hr; omega)]
  · rw [hh.mem x (by rw [show (run c (callIn c) s).x 3 = stk from m3]; exact hx)]
    exact m6 x hx'

/-- C95: when the function has returned in state `u`, with the frame record and the registers it has to
preserve as they were, `ffi_call_asm` puts the results in the image and returns with the preserved registers and
the return address, whatever interruptions there are. -/
theorem C95_la_call_return {c : Cfg} (hc : LaBuild c) {lo : Nat} {s u v : AState} {stk ctx : Nat}
    (top : ctx + ctxSize c < 256 ^ c.w) (hstk : stk ≤ ctx)
    (u2 : u.x 3 = stk) (u8 : u.x 22 = ctx + ctxSize c) (ur : ∀ r, LaKept r → r ≠ 3 → r ≠ 22 → u.x r = s.x r) (uf : ∀ r, LaKeptF r → u.f r = s.f r)
    (ul : ∀ r, (u.f r).length = c.fl) (r1 : leNat (u.mem.rd (ctx + ctxSize c - 2 * c.w) c.w) = s.x 22)
    (r2 : leNat (u.mem.rd (ctx + ctxSize c - c.w) c.w) = s.x 1) (hv : Visits c lo 3 (callOut c) u [] v) :
    (∀ r, LaKept r → r ≠ 3 → v.x r = s.x r) ∧ (∀ r, LaKeptF r → v.f r = s.f r) ∧ v.x 1 = s.x 1 ∧ v.x 3 = ctx ∧
      ∀ x, x < lo ∨ ctx ≤ x →
        v.mem x = ((u.mem.wr ctx (u.f 0 ++ u.f 1)).wr (ctx + 8 * c.fl) (leBytes c.w (u.x 4) ++ leBytes c.w (u.x 5))) x := by
  obtain ⟨up, -⟩ := callOut_good hc.or (lo := lo) la_keptOk (g := s.x) ul u8 top (by show u.x 3 ≤ _; omega) (fun r h n => ur r h.1 h.2 n) r1 r2
  have hh := (visits_ok hv Havoc.refl up).1 rfl
  obtain ⟨v', hv', v1, v2, v3, v4, v5, v6⟩ := callOut_run hc.or u8 ul top
  rw [hv'] at hh
  refine ⟨fun r hr n => ?_, fun r hr => by rw [hh.f, v6, uf r hr], by rw [hh.x]; exact v3.trans r2, by rw [hh.x]; exact v2, fun x hx => ?_⟩
  · rw [hh.x]
    by_cases n8 : r = 22
    · rw [n8]; exact v4.trans r1
    · rw [v5 r (by unfold Verif.LA.Asm.ra LaKept at *; omega) n n8, ur r hr n n8]
  · rw [hh.mem x (by rw [show v'.x 3 = ctx from v2]; exact hx), v1]
    simp only [faAddr, aAddr, Nat.mul_zero, Nat.add_zero]
    rfl

/-- The closure object, or the Go closure, is not in the part of the stack that handlers use. -/
def LaObject (c : Cfg) (lo : Nat) (s : AState) (args : List Ins) : Prop :=
  (args = closureArgs c ∧ s.x 12 + 24 + 3 * c.w < 256 ^ c.w ∧ (s.x 12 + 24 + 3 * c.w ≤ lo ∨ s.x 3 ≤ s.x 12 + 24)) ∨
    (args = goArgs c ∧ s.x 14 + 3 * c.w < 256 ^ c.w ∧ (s.x 14 + 3 * c.w ≤ lo ∨ s.x 3 ≤ s.x 14))

theorem la_argsQuiet {c : Cfg} (hc : LaBuild c) {lo : Nat} {s : AState} {args : List Ins} (h : LaState c s) (ho : LaObject c lo s args) :
    ∀ x m, x 3 = s.x 3 - ctxSize c → x 12 = s.x 12 → x 14 = s.x 14 → ∀ i ∈ args,
      Quiet c lo 3 (fun r => LaUnwound r ∨ r = 3 ∨ r = 22 ∨ r = 12 ∨ r = 14) (s.x 3 - 2 * c.w) (s.x 3) ⟨x, s.f, m⟩ i := by
  intro x m h2 h6 h7 i hi
  have hn : ∀ k, k < 5 → ¬(LaUnwound (4 + k) ∨ 4 + k = 3 ∨ 4 + k = 22 ∨ 4 + k = 12 ∨ 4 + k = 14) := by
    unfold LaUnwound LaKept
    omega
  have hw := hc.or
  have hr := h.room
  have ld : ∀ {b : Nat} {v : Nat} {k : Int} {d : Nat}, x b = v → b = 12 ∨ b = 14 → d < 5 → (∃ n : Nat, (v : Int) + k = n ∧ n < 256 ^ c.w ∧ (n + c.w ≤ lo ∨ s.x 3 ≤ n)) →
      Quiet c lo 3 (fun r => LaUnwound r ∨ r = 3 ∨ r = 22 ∨ r = 12 ∨ r = 14) (s.x 3 - 2 * c.w) (s.x 3) ⟨x, s.f, m⟩ (.larg (4 + d) k b) := by
    rintro b v k d rfl hb hd ⟨n, e, hn', hlo⟩
    refine ⟨hn d hd, by omega, ?_⟩
    show ea c (x b) k + c.w ≤ lo ∨ x 3 ≤ ea c (x b) k
    rw [ea_eq e hn', h2]
    omega
  rcases ho with ⟨rfl, h1, h2'⟩ | ⟨rfl, h1, h2'⟩
  · simp only [closureArgs, List.mem_cons, List.not_mem_nil, or_false] at hi
    rcases hi with rfl | rfl | rfl | rfl | rfl
    · exact ld (d := 0) h6 (.inl rfl) (by omega) ⟨s.x 12 + 24, by push_cast; omega, by omega, by omega⟩
    · exact ld (d := 1) h6 (.inl rfl) (by omega) ⟨s.x 12 + 24 + c.w, by push_cast; omega, by omega, by omega⟩
    · exact ld (d := 2) h6 (.inl rfl) (by omega) ⟨s.x 12 + 24 + 2 * c.w, by push_cast; omega, by omega, by omega⟩
    · exact hn 3 (by omega)
    · exact hn 4 (by omega)
  · simp only [goArgs, List.mem_cons, List.not_mem_nil, or_false] at hi
    rcases hi with rfl | rfl | rfl | rfl | rfl
    · exact ld (d := 0) h7 (.inr rfl) (by omega) ⟨s.x 14 + c.w, by push_cast; omega, by omega, by omega⟩
    · exact ld (d := 1) h7 (.inr rfl) (by omega) ⟨s.x 14 + 2 * c.w, by push_cast; omega, by omega, by omega⟩
    · exact hn 2 (by omega)
    · exact hn 3 (by omega)
    · exact hn 4 (by omega)

theorem la_saveCons (c : Cfg) (args : List Ins) : closureSave c ++ args = .addi sp sp (-(ctxSize c : Int)) ::
    ([.sarg fp (ctxSize c - 2 * c.w) sp, .sarg ra (ctxSize c - 1 * c.w) sp, .addi fp sp (ctxSize c)] ++ (closureStores c ++ args)) := by
  unfold closureSave closureStores
  simp

/-- The first part of a closure's entry point: what is left of interruptions. -/
theorem la_closureVisits {c : Cfg} (hc : LaBuild c) {lo : Nat} {s t : AState} {Q args : List Ins} (h : LaState c s) (ho : LaObject c lo s args)
    (hv : Visits c lo 3 (closureSave c ++ args) s Q t) :
    (Q = [] → ∃ s', Havoc lo 3 s s' ∧ Havoc lo 3 (run c (closureSave c ++ args) s') t) ∧ Q.length ≤ (closureSave c ++ args).length ∧
    ∃ w, (closureRowsIn c args)[(closureSave c ++ args).length - Q.length]? = some w ∧ Unw c LaUnwound w t (s.x 3) (s.x 1) s.x := by
  rw [la_saveCons] at hv ⊢
  cases hv with
  | here hh =>
    refine ⟨fun e => (nomatch e), Nat.le_refl _, entryRow, ?_, ?_⟩
    · rw [Nat.sub_self]; rfl
    · refine (unw_none (c := c) (kept := LaUnwound) (w := entryRow) (s := t) (C := s.x 3) (p := s.x 1) (spr := 3) (g := s.x) (fun _ => rfl)
        (fun h => (la_keptOk 1 h).1 rfl) ?_ (by rw [hh.x]) (fun r _ => by rw [hh.x])).1
      show ea c (t.x 3) 0 = s.x 3
      rw [hh.x]
      exact ea_eq (by omega) (h.x 3)
  | next hh hv =>
    rename_i s'
    have h' : LaState c s' := ⟨by rw [hh.x]; exact h.x, by rw [hh.f]; exact h.f, by rw [hh.x]; exact h.room⟩
    have ho' : LaObject c lo s' args := by unfold LaObject at ho ⊢; rw [hh.x]; exact ho
    obtain ⟨e, up, good⟩ := closureIn_good hc.or (lo := lo) la_keptOk h'.x h'.f h'.room (la_argsQuiet hc h' ho')
    rw [e] at hv
    obtain ⟨k1, k2, k3⟩ := visits_ok hv Havoc.refl up
    refine ⟨fun hq => ⟨s', hh, ?_⟩, by rw [List.length_cons]; omega, ?_⟩
    · rw [run_cons, e]; exact k1 hq
    · obtain ⟨w, w1, w2⟩ := k3 good
      rw [hh.x] at w2
      refine ⟨w, ?_, w2⟩
      rw [List.length_cons, Nat.succ_sub k2]
      exact w1

/-- C95: `ffi_closure_inner` is called with the fields of the closure, the caller's registers and its stack, whatever
interruptions there are. -/
theorem C95_la_closure_enter {c : Cfg} (hc : LaBuild c) {lo : Nat} {s t : AState} (h : LaState c s) {a cif fn ud : Nat} {args : List Ins}
    (hargs : (args = closureArgs c ∧ s.x 12 = a ∧ a + 24 + 3 * c.w < 256 ^ c.w ∧ (a + 24 + 3 * c.w ≤ lo ∨ s.x 3 ≤ a + 24) ∧
        Code s.mem (a + 24) (leBytes c.w cif) ∧ Code s.mem (a + 24 + c.w) (leBytes c.w fn) ∧ Code s.mem (a + 24 + 2 * c.w) (leBytes c.w ud)) ∨
      (args = goArgs c ∧ s.x 14 = a ∧ a + 3 * c.w < 256 ^ c.w ∧ (a + 3 * c.w ≤ lo ∨ s.x 3 ≤ a) ∧
        Code s.mem (a + c.w) (leBytes c.w cif) ∧ Code s.mem (a + 2 * c.w) (leBytes c.w fn) ∧ ud = a))
    (hlo : lo ≤ s.x 3 - ctxSize c) (hvs : cif < 256 ^ c.w ∧ fn < 256 ^ c.w ∧ ud < 256 ^ c.w) (hv : Visits c lo 3 (closureSave c ++ args) s [] t) :
    t.x 4 = cif ∧ t.x 5 = fn ∧ t.x 6 = ud ∧ t.x 7 = s.x 3 ∧ t.x 8 + ctxSize c = s.x 3 ∧ t.x 3 = t.x 8 ∧ t.x 22 = s.x 3 ∧
      (∀ k, k < 8 → t.mem.rd (t.x 8 + 8 * c.fl + c.w * k) c.w = leBytes c.w (s.x (4 + k))) ∧
      (∀ k, k < 8 → t.mem.rd (t.x 8 + c.fl * k) c.fl = s.f k) ∧
      (∀ x, x < lo ∨ s.x 3 ≤ x → t.mem x = s.mem x) ∧ (∀ r, LaKept r → r ≠ 3 → r ≠ 22 → t.x r = s.x r) ∧ t.f = s.f ∧
      leNat (t.mem.rd (s.x 3 - 2 * c.w) c.w) = s.x 22 ∧ leNat (t.mem.rd (s.x 3 - c.w) c.w) = s.x 1 := by
  have hw := hc.or
  have hF : ctxSize c = 8 * c.fl + 8 * c.w + 16 := rfl
  have hr := h.room
  have hx2 := h.x 3
  have ho : LaObject c lo s args := by
    rcases hargs with ⟨e, e1, e2, e3, -⟩ | ⟨e, e1, e2, e3, -⟩
    · exact .inl ⟨e, e1 ▸ e2, e1 ▸ e3⟩
    · exact .inr ⟨e, e1 ▸ e2, e1 ▸ e3⟩
  obtain ⟨s', hs, ht⟩ := (la_closureVisits hc h ho hv).1 rfl
  have h' : LaState c s' := ⟨by rw [hs.x]; exact h.x, by rw [hs.f]; exact h.f, by rw [hs.x]; exact h.room⟩
  have code : ∀ {b v : Nat}, b + c.w ≤ lo ∨ s.x 3 ≤ b → Code s.mem b (leBytes c.w v) → Code s'.mem b (leBytes c.w v) := by
    intro b v hb hcode
    refine hcode.congr fun i hi => hs.mem _ ?_
    rw [leBytes_length] at hi
    omega
  have hrun : run c (closureSave c ++ args) s' =
      ⟨upd (upd (upd (upd (upd (upd (upd s'.x 3 (s'.x 3 - ctxSize c)) 22 (s'.x 3)) 4 cif) 5 fn) 6 ud) 7 (s'.x 3)) 8
        (s'.x 3 - ctxSize c), s'.f, frameMem c s'⟩ := by
    rcases hargs with ⟨rfl, e1, e2, e3, e4, e5, e6⟩ | ⟨rfl, e1, e2, e3, e4, e5, e6⟩
    · exact la_closure_run hc h' (a := a) (by rw [hs.x]; exact e1) e2 (by rw [hs.x]; omega) (code (by omega) e4) (code (by omega) e5) (code (by omega) e6) hvs
    · have hk : ∀ {b v : Nat}, b + c.w ≤ lo ∨ s.x 3 ≤ b → v < 256 ^ c.w → Code s.mem b (leBytes c.w v) → leNat ((frameMem c s').rd b c.w) = v := by
        intro b v hb hv hcode
        refine rd_word ((code hb hcode).congr fun i hi => frameMem_out hc.or h'.f h'.room ?_) hv
        rw [leBytes_length] at hi
        show _ < s'.x 3 - _ ∨ s'.x 3 ≤ _
        rw [hs.x]
        omega
      rw [run_append, la_save hc h']
      rw [goArgs_run (s := ⟨upd (upd s'.x 3 (s'.x 3 - ctxSize c)) 22 (s'.x 3), s'.f, frameMem c s'⟩)
        (P := s'.x 3 - ctxSize c) (a := a) (cif := cif) (fn := fn) (by omega) rfl (by rw [hs.x]; omega)
        (by show s'.x 14 = a; rw [hs.x]; exact e1) e2 (hk (by omega) hvs.1 e4) (hk (by omega) hvs.2.1 e5)]
      dsimp only
      rw [Nat.sub_add_cancel h'.room, e6]
      rfl
  obtain ⟨f1, f2⟩ := la_frame hc h'
  obtain ⟨q1, q2⟩ := frameMem_record hc.or h'.f h'.room
  rw [hrun] at ht
  have tx2 : (AState.mk (upd (upd (upd (upd (upd (upd (upd s'.x 3 (s'.x 3 - ctxSize c)) 22 (s'.x 3)) 4 cif) 5 fn) 6 ud) 7 (s'.x 3)) 8
        (s'.x 3 - ctxSize c)) s'.f (frameMem c s')).x 3 = s.x 3 - ctxSize c := by
    show s'.x 3 - _ = _
    rw [hs.x]
  have tmem : ∀ b, s.x 3 - ctxSize c ≤ b → t.mem b = frameMem c s' b := fun b hb => ht.mem b (.inr (by rw [tx2]; exact hb))
  have t14 : t.x 8 = s.x 3 - ctxSize c := by rw [ht.x]; show s'.x 3 - _ = _; rw [hs.x]
  rw [hs.x] at f1 f2
  have q1' : (frameMem c s').rd (s.x 3 - 2 * c.w) c.w = leBytes c.w (s.x 22) := by
    rw [show s.x = s'.x from hs.x.symm]; exact q1
  have q2' : (frameMem c s').rd (s.x 3 - c.w) c.w = leBytes c.w (s.x 1) := by
    rw [show s.x = s'.x from hs.x.symm]; exact q2
  have hkx : ∀ r, LaKept r → r ≠ 3 → r ≠ 22 → t.x r = s.x r := by
    intro r hr n2 n8
    rw [ht.x]
    unfold LaKept at hr
    dsimp only
    rw [upd_ne (by omega), upd_ne (by omega), upd_ne (by omega), upd_ne (by omega), upd_ne (by omega), upd_ne (by omega), upd_ne (by omega), hs.x]
  refine ⟨by rw [ht.x]; rfl, by rw [ht.x]; rfl, by rw [ht.x]; rfl, by rw [ht.x]; show s'.x 3 = _; rw [hs.x], by omega, by rw [ht.x]; rfl,
    by rw [ht.x]; show s'.x 3 = _; rw [hs.x], fun k hk => ?_, fun k hk => ?_, fun x hx => ?_, hkx, by rw [ht.f]; exact hs.f, ?_, ?_⟩
  · rw [t14, ← f1 k hk]
    exact Mem.rd_congr fun i _ => tmem _ (by omega)
  · rw [t14, ← hs.f, ← f2 k hk]
    exact Mem.rd_congr fun i _ => tmem _ (by omega)
  · have hx' : x < s.x 3 - ctxSize c ∨ s.x 3 ≤ x := by omega
    have e1 : t.mem x = frameMem c s' x := by
      rcases hx with hx | hx
      · exact ht.mem x (.inl hx)
      · exact tmem x (by omega)
    rw [e1, frameMem_out hc.or h'.f h'.room (by show _ < s'.x 3 - _ ∨ s'.x 3 ≤ _; rw [hs.x]; exact hx')]
    exact hs.mem x hx
  · exact rd_word (Code.congr (show Code (frameMem c s') _ _ by unfold Code; rw [leBytes_length]; exact q1') fun i _ => tmem _ (by omega)) (h.x 22)
  · exact rd_word (Code.congr (show Code (frameMem c s') _ _ by unfold Code; rw [leBytes_length]; exact q2') fun i _ => tmem _ (by omega)) (h.x 1)

/-- C95: when `ffi_closure_inner` has returned in state `u`, with the frame record and the registers it has to preserve
as they were, the entry point returns to its caller with all preserved registers, and the results that were stored in
the frame, whatever interruptions there are. -/
theorem C95_la_closure_return {c : Cfg} (hc : LaBuild c) {lo : Nat} {s u v : AState} (h : LaState c s)
    (u2 : u.x 3 = s.x 3 - ctxSize c) (ur : ∀ r, LaKept r → r ≠ 3 → r ≠ 22 → u.x r = s.x r) (uf : ∀ r, LaKeptF r → u.f r = s.f r)
    (ul : ∀ r, (u.f r).length = c.fl) (r1 : leNat (u.mem.rd (s.x 3 - 2 * c.w) c.w) = s.x 22) (r2 : leNat (u.mem.rd (s.x 3 - c.w) c.w) = s.x 1)
    (hv : Visits c lo 3 (closureOut c) u [] v) :
    LaReturns s v ∧ v.x 1 = s.x 1 ∧ (∀ x, x < lo ∨ s.x 3 ≤ x → v.mem x = u.mem x) ∧
      (∀ k, k < 2 → leBytes c.w (v.x (4 + k)) = u.mem.rd (u.x 3 + 8 * c.fl + c.w * k) c.w) ∧
      (c.fl ≠ 0 → ∀ k, k < 2 → v.f k = u.mem.rd (u.x 3 + c.fl * k) c.fl) := by
  have hr := h.room
  have hx := h.x 3
  obtain ⟨up, -⟩ := closureOut_good hc.or (lo := lo) la_keptOk (g := s.x) ul u2 h.room (h.x 3) (fun r hk n => ur r hk.1 hk.2 n) r1 r2
  have hh := (visits_ok hv Havoc.refl up).1 rfl
  obtain ⟨v', hv', v1, v2, v3, v4, v5, v6, v7, v8⟩ := closureOut_run (c := c) hc.or (s := u) (ctx := s.x 3 - ctxSize c) u2 (by omega)
  rw [hv'] at hh
  have e : s.x 3 - ctxSize c + ctxSize c = s.x 3 := by omega
  rw [e] at v2 v3 v4
  refine ⟨⟨fun r hk => ?_, fun r hk => ?_⟩, by rw [hh.x]; exact v3.trans r2, fun x hx => ?_, fun k hk => ?_, fun h0 k hk => ?_⟩
  · rw [hh.x]
    by_cases n2 : r = 3
    · rw [n2]; exact v2
    · by_cases n8 : r = 22
      · rw [n8]; exact v4.trans r1
      · unfold LaKept at hk
        rw [v7 r (by unfold Verif.LA.Asm.ra; omega) n2 n8 (by omega), ur r (by unfold LaKept; omega) n2 n8]
  · rw [hh.f, v8 r (by unfold LaKeptF at hk; omega), uf r hk]
  · rw [hh.mem x (by rw [show v'.x 3 = s.x 3 from v2]; exact hx), v1]
  · rw [hh.x, u2]
    have := v5 k hk
    unfold Verif.LA.Asm.a0 at this
    rw [this]
    have hl : (u.mem.rd (aAddr c (s.x 3 - ctxSize c) k) c.w).length = c.w := Mem.rd_length _ _ _
    have e2 := leBytes_leNat (u.mem.rd (aAddr c (s.x 3 - ctxSize c) k) c.w)
    rw [hl] at e2
    exact e2
  · rw [hh.f, u2]
    have e := v6 h0 k hk
    rw [show fa0 + k = k from Nat.zero_add k] at e
    exact e

/-! ## Unwinding -/

/-- C96: at every instruction of `ffi_call_asm` up to the call, the row that the directives give for it leads to
the caller: return address, saved registers and a frame address that is the same everywhere (the end of the register image,
not the caller's stack pointer). -/
theorem C96_la_call_in {c : Cfg} (hc : LaBuild c) {lo : Nat} {s t : AState} {stk ctx fn clo : Nat} (h : LaCallAsm c s stk ctx fn clo)
    (hsp : s.x 3 ≤ stk) (hstk : stk ≤ ctx) {Q : List Ins} (hv : Visits c lo 3 (callIn c) s Q t) :
    ∃ w, (rows (callItems c) entryRow)[(callIn c).length - Q.length]? = some w ∧ Unw c LaUnwound w t (ctx + ctxSize c) (s.x 1) s.x := by
  obtain ⟨u, g⟩ := callIn_good hc.or (lo := lo) la_keptOk h.x h.f h.a0 h.a1 h.top hsp hstk
  obtain ⟨w, w1, w2⟩ := (visits_ok hv Havoc.refl u).2.2 g
  exact ⟨w, by rw [callItems_rows]; exact getElem?_left w1, w2⟩

/-- C96: so does the row of the call, as long as the function runs: it suffices that the registers which it has to preserve
have been recovered and that the frame record has not changed. -/
theorem C96_la_call_inside {c : Cfg} (hc : LaBuild c) {s u : AState} {stk ctx fn clo : Nat} (h : LaCallAsm c s stk ctx fn clo)
    (u8 : u.x 22 = ctx + ctxSize c) (ur : ∀ r, LaKept r → r ≠ 3 → r ≠ 22 → u.x r = s.x r)
    (r1 : leNat (u.mem.rd (ctx + ctxSize c - 2 * c.w) c.w) = s.x 22) (r2 : leNat (u.mem.rd (ctx + ctxSize c - c.w) c.w) = s.x 1) :
    ∃ w, (rows (callItems c) entryRow)[(callIn c).length]? = some w ∧ Unw c LaUnwound w u (ctx + ctxSize c) (s.x 1) s.x := by
  have hF : ctxSize c = 8 * c.fl + 8 * c.w + 16 := rfl
  have hw := hc.or
  have top := h.top
  refine ⟨⟨fp, 0, both c fp⟩, ?_, ?_⟩
  · rw [callItems_rows]
    refine getElem?_left ?_
    unfold callRowsIn
    have hl : (callIn c).length = 6 + (callLoads c).length := by
      have := callRowsIn_length c
      unfold callRowsIn at this
      rw [List.length_append, List.length_replicate] at this
      simp only [List.length_cons, List.length_nil] at this
      omega
    rw [hl, List.getElem?_append_right (by simp)]
    simp
  · exact unw_both0 hc.or (kept := LaUnwound) (w := ⟨fp, 0, both c fp⟩) (C := ctx + ctxSize c) rfl (fun h => (la_keptOk 1 h).1 rfl)
      (by simp only [Row.cfa]; rw [show u.x fp = ctx + ctxSize c from u8]; exact ea_eq (by omega) (by omega)) (by omega) (by omega) r1 r2
      (fun r hk n => ur r hk.1 hk.2 n)

/-- C96: and so do the rows of the instructions after the call, including the return. -/
theorem C96_la_call_out {c : Cfg} (hc : LaBuild c) {lo : Nat} {s u v : AState} {stk ctx : Nat}
    (top : ctx + ctxSize c < 256 ^ c.w) (hstk : stk ≤ ctx) (u2 : u.x 3 = stk) (u8 : u.x 22 = ctx + ctxSize c)
    (ur : ∀ r, LaKept r → r ≠ 3 → r ≠ 22 → u.x r = s.x r) (ul : ∀ r, (u.f r).length = c.fl)
    (r1 : leNat (u.mem.rd (ctx + ctxSize c - 2 * c.w) c.w) = s.x 22) (r2 : leNat (u.mem.rd (ctx + ctxSize c - c.w) c.w) = s.x 1)
    {Q : List Ins} (hv : Visits c lo 3 (callOut c) u Q v) :
    ∃ w, (rows (callItems c) entryRow)[(callIn c).length + 1 + ((callOut c).length - Q.length)]? = some w ∧
      Unw c LaUnwound w v (ctx + ctxSize c) (s.x 1) s.x := by
  obtain ⟨up, g⟩ := callOut_good hc.or (lo := lo) la_keptOk (g := s.x) ul u8 top (by show u.x 3 ≤ _; omega) (fun r h n => ur r h.1 h.2 n) r1 r2
  obtain ⟨w, w1, w2⟩ := (visits_ok hv Havoc.refl up).2.2 g
  refine ⟨w, ?_, w2⟩
  rw [callItems_rows, ← callRowsIn_length, List.getElem?_append_right (by omega), Nat.add_sub_cancel_left]
  exact w1

/-- C96: at every instruction of `ffi_closure_asm` and `ffi_go_closure_asm` up to the call, the row leads to the caller,
with its stack pointer as the frame address. -/
theorem C96_la_closure_in {c : Cfg} (hc : LaBuild c) {lo : Nat} {s t : AState} {Q args : List Ins} (h : LaState c s) (ho : LaObject c lo s args)
    (hv : Visits c lo 3 (closureSave c ++ args) s Q t) :
    ∃ w, (rows (closureItems c args) entryRow)[(closureSave c ++ args).length - Q.length]? = some w ∧ Unw c LaUnwound w t (s.x 3) (s.x 1) s.x := by
  obtain ⟨w, w1, w2⟩ := (la_closureVisits hc h ho hv).2.2
  exact ⟨w, by rw [closureItems_rows]; exact getElem?_left w1, w2⟩

/-- C96: so does the row of the call, as long as `ffi_closure_inner` runs. -/
theorem C96_la_closure_inside {c : Cfg} (hc : LaBuild c) {s u : AState} (args : List Ins) (h : LaState c s)
    (u2 : u.x 3 = s.x 3 - ctxSize c) (ur : ∀ r, LaKept r → r ≠ 3 → r ≠ 22 → u.x r = s.x r)
    (r1 : leNat (u.mem.rd (s.x 3 - 2 * c.w) c.w) = s.x 22) (r2 : leNat (u.mem.rd (s.x 3 - c.w) c.w) = s.x 1) :
    ∃ w, (rows (closureItems c args) entryRow)[(closureSave c ++ args).length]? = some w ∧ Unw c LaUnwound w u (s.x 3) (s.x 1) s.x := by
  have hF : ctxSize c = 8 * c.fl + 8 * c.w + 16 := rfl
  have hw := hc.or
  have hr := h.room
  have hx := h.x 3
  refine ⟨⟨sp, ctxSize c, both c fp⟩, ?_, ?_⟩
  · rw [closureItems_rows]
    refine getElem?_left ?_
    have hl : (closureSave c ++ args).length = 4 + (closureStores c ++ args).length := by
      have := closureRowsIn_length c args
      unfold closureRowsIn at this
      rw [List.length_append, List.length_replicate] at this
      simp only [List.length_cons, List.length_nil] at this
      omega
    unfold closureRowsIn
    rw [hl, List.getElem?_append_right (by simp)]
    simp
  · exact unw_both0 hc.or (kept := LaUnwound) (w := ⟨sp, ctxSize c, both c fp⟩) (C := s.x 3) rfl (fun h => (la_keptOk 1 h).1 rfl)
      (by simp only [Row.cfa]; rw [show u.x sp = s.x 3 - ctxSize c from u2]; exact ea_eq (by omega) (by omega)) (by omega) (by omega) r1 r2
      (fun r hk n => ur r hk.1 hk.2 n)

/-- C96: and so do the rows of the instructions after the call, including the return. -/
theorem C96_la_closure_out {c : Cfg} (hc : LaBuild c) {lo : Nat} {s u v : AState} (args : List Ins) (h : LaState c s)
    (u2 : u.x 3 = s.x 3 - ctxSize c) (ur : ∀ r, LaKept r → r ≠ 3 → r ≠ 22 → u.x r = s.x r) (ul : ∀ r, (u.f r).length = c.fl)
    (r1 : leNat (u.mem.rd (s.x 3 - 2 * c.w) c.w) = s.x 22) (r2 : leNat (u.mem.rd (s.x 3 - c.w) c.w) = s.x 1)
    {Q : List Ins} (hv : Visits c lo 3 (closureOut c) u Q v) :
    ∃ w, (rows (closureItems c args) entryRow)[(closureSave c ++ args).length + 1 + ((closureOut c).length - Q.length)]? = some w ∧
      Unw c LaUnwound w v (s.x 3) (s.x 1) s.x := by
  obtain ⟨up, g⟩ := closureOut_good hc.or (lo := lo) la_keptOk (g := s.x) ul u2 h.room (h.x 3) (fun r hk n => ur r hk.1 hk.2 n) r1 r2
  obtain ⟨w, w1, w2⟩ := (visits_ok hv Havoc.refl up).2.2 g
  refine ⟨w, ?_, w2⟩
  rw [closureItems_rows, ← closureRowsIn_length, List.getElem?_append_right (by omega), Nat.add_sub_cancel_left]
  exact w1

/-- C96: the instructions that the rows are counted by are those of the code: `none` stands for the call and the return. -/
theorem C96_la_code (c : Cfg) (args : List Ins) :
    code (callItems c) = (callIn c).map some ++ none :: ((callOut c).map some ++ [none]) ∧
      code (closureItems c args) = (closureSave c ++ args).map some ++ none :: ((closureOut c).map some ++ [none]) :=
  ⟨callItems_code c, closureItems_code c args⟩

/-! Concrete executions: an interruption before every instruction clears the stack. -/

example {c : Cfg} (h : c ∈ laBuilds) (m : Mem) := C95_la_call_enter (laBuilds_ok h) (lo := 0x4000) (laCState_ex h m) (Nat.le_refl 0x8000) (by decide)
  (intrRun_visits c 0x4000 3 (callIn c) _)
example {c : Cfg} (h : c ∈ laBuilds) (m : Mem) := C96_la_call_in (laBuilds_ok h) (lo := 0x4000) (laCState_ex h m) (Nat.le_refl 0x8000) (by decide)
  (intrRun_visits c 0x4000 3 (callIn c) _)

/-- From the entry of the function on, the function doing nothing. -/
example {c : Cfg} (h : c ∈ laBuilds) (m : Mem) :=
  let e := C95_la_call_enter (laBuilds_ok h) (lo := 0x4000) (laCState_ex h m) (Nat.le_refl 0x8000) (by decide) (intrRun_visits c 0x4000 3 (callIn c) _)
  let l := run_flen (intrRun_visits c 0x4000 3 (callIn c) _) (laCState_ex h m).f
  And.intro (C95_la_call_return (laBuilds_ok h) (lo := 0x4000) (laCState_ex h m).top (by decide) e.2.2.1 e.2.2.2.2.2.2.1 e.2.2.2.2.2.1
    e.2.2.2.2.2.2.2.1 l e.2.2.2.2.2.2.2.2.1 e.2.2.2.2.2.2.2.2.2.1 (intrRun_visits c 0x4000 3 (callOut c) _))
    (And.intro (C96_la_call_out (laBuilds_ok h) (lo := 0x4000) (laCState_ex h m).top (by decide) e.2.2.1 e.2.2.2.2.2.2.1 e.2.2.2.2.2.1
      l e.2.2.2.2.2.2.2.2.1 e.2.2.2.2.2.2.2.2.2.1 (intrRun_visits c 0x4000 3 (callOut c) _))
      (C96_la_call_inside (laBuilds_ok h) (laCState_ex h m) e.2.2.2.2.2.2.1 e.2.2.2.2.2.1 e.2.2.2.2.2.2.2.2.1 e.2.2.2.2.2.2.2.2.2.1))

/-- A closure at 0x20000 with the fields 5, 6, 7. -/
def laClo (c : Cfg) (m : Mem) : Mem :=
  ((m.wr 0x20018 (leBytes c.w 5)).wr (0x20018 + c.w) (leBytes c.w 6)).wr (0x20018 + 2 * c.w) (leBytes c.w 7)

theorem laClo_fields {c : Cfg} (hc : c ∈ laBuilds) (m : Mem) : Code (laClo c m) (0x20000 + 24) (leBytes c.w 5) ∧
    Code (laClo c m) (0x20000 + 24 + c.w) (leBytes c.w 6) ∧ Code (laClo c m) (0x20000 + 24 + 2 * c.w) (leBytes c.w 7) := by
  refine ⟨Code.wr (Code.wr Code.same ?_) ?_, Code.wr Code.same ?_, Code.same⟩ <;> simp <;> omega

theorem laClo_nums {c : Cfg} (hc : c ∈ laBuilds) : 0x20000 + 24 + 3 * c.w < 256 ^ c.w ∧ 0x20000 + 24 + 3 * c.w ≤ 0x40000 ∧
    (5 < 256 ^ c.w ∧ 6 < 256 ^ c.w ∧ 7 < 256 ^ c.w) ∧ 0x40000 ≤ 0x80000 - ctxSize c := by
  revert c; decide

/-- A closure's entry point, and its way back when `ffi_closure_inner` does nothing. -/
example {c : Cfg} (h : c ∈ laBuilds) (m : Mem) :=
  let hs := laAState_ok h (laClo c m)
  let f := laClo_fields h m
  let n := laClo_nums h
  have ho : LaObject c 0x40000 (laAState c (laClo c m)) (closureArgs c) := .inl ⟨rfl, n.1, .inl n.2.1⟩
  let e := C95_la_closure_enter (laBuilds_ok h) (lo := 0x40000) hs (a := 0x20000) (cif := 5) (fn := 6) (ud := 7)
    (.inl ⟨rfl, rfl, n.1, .inl n.2.1, f.1, f.2.1, f.2.2⟩) n.2.2.2 n.2.2.1 (intrRun_visits c 0x40000 3 (closureSave c ++ closureArgs c) (laAState c (laClo c m)))
  let l := run_flen (intrRun_visits c 0x40000 3 (closureSave c ++ closureArgs c) (laAState c (laClo c m))) hs.f
  have u2 : (intrRun c 0x40000 3 (closureSave c ++ closureArgs c) (laAState c (laClo c m))).x 3 = (laAState c (laClo c m)).x 3 - ctxSize c := by
    have := e.2.2.2.2.1; have := e.2.2.2.2.2.1; omega
  And.intro (C95_la_closure_return (laBuilds_ok h) (lo := 0x40000) hs u2 e.2.2.2.2.2.2.2.2.2.2.1 (fun r _ => by rw [e.2.2.2.2.2.2.2.2.2.2.2.1]) l
      e.2.2.2.2.2.2.2.2.2.2.2.2.1 e.2.2.2.2.2.2.2.2.2.2.2.2.2 (intrRun_visits c 0x40000 3 (closureOut c) _))
    (And.intro (C96_la_closure_in (laBuilds_ok h) hs ho (intrRun_visits c 0x40000 3 (closureSave c ++ closureArgs c) (laAState c (laClo c m))))
    (And.intro (C96_la_closure_inside (laBuilds_ok h) (closureArgs c) hs u2 e.2.2.2.2.2.2.2.2.2.2.1 e.2.2.2.2.2.2.2.2.2.2.2.2.1 e.2.2.2.2.2.2.2.2.2.2.2.2.2)
      (C96_la_closure_out (laBuilds_ok h) (lo := 0x40000) (closureArgs c) hs u2 e.2.2.2.2.2.2.2.2.2.2.1 l
        e.2.2.2.2.2.2.2.2.2.2.2.2.1 e.2.2.2.2.2.2.2.2.2.2.2.2.2 (intrRun_visits c 0x40000 3 (closureOut c) _))))

end Verif.Props
