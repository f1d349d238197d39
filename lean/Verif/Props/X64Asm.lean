import Verif.X64.AsmAlt
import Verif.X64.AsmRefine

/-! The x86-64 assembly entry points (C63, C64, C65). -/
namespace Verif.Props
open Verif Verif.X64 Verif.X64.Asm

/-! ## Conditions -/

/-- The state in which `ffi_call_int` has called `ffi_call_unix64` (src/x86/ffi64.c:672):
rdi is the block with the register values and `n` bytes of stack arguments, which lies
above the stack pointer; the stack extends down to `lo`; rsi is the size of the block less
the 32 bytes of the frame; rdx the flags; rcx the address of the result. -/
structure X64CallPre (s : St) (lo n ra : Nat) (ss : List Nat) : Prop where
  pc : s.pc = .at_ 0
  stack : lo ≤ s.r 4
  sp : s.r 4 + 8 ≤ s.r 7
  size : s.r 6 = n + 192
  align : s.r 7 % 16 = 0
  rbp : s.r 5 < 2 ^ 64
  flags : s.r 2 < 2 ^ 32
  result : s.r 1 < 2 ^ 64
  caller : leNat (s.mem.rd (s.r 4) 8) = ra
  shadow : s.ss = ra :: ss

/-- Where the frame of `ffi_call_unix64` lies. -/
def x64Frame (s : St) : Nat := s.r 7 + s.r 6

/-- A function entered in state `f` has returned, by the calling convention, in state `u`;
`A` are the addresses of its caller's data. -/
structure X64Returned (c : Ctx) (A : Nat → Prop) (f u : St) : Prop where
  pc : ∃ o, u.pc = .at_ o ∧ f.ss = (c.base + o) :: u.ss
  sp : u.r 4 = f.r 4 + 8
  saved : Saved u.r f.r
  mem : ∀ a, A a → u.mem a = f.mem a

/-- Widths of the result registers. -/
structure X64Wide (u : St) (k : Nat) : Prop where
  x0 : (u.x 0).length = 16
  x1 : (u.x 1).length = 16
  fp : ∀ v ∈ u.fp, v.length = 10
  st : k ≤ u.fp.length

/-- The return path of a call: what `ffi_call_unix64` does with the registers `R`. -/
structure X64Stored (lo : Nat) (s u : St) (ret : Ret) (R : RetRegs) (ss : List Nat) (t : St) : Prop where
  sp : t.r 4 = x64Frame s + 32
  saved : Saved t.r s.r
  ss : t.ss = ss
  fp : t.fp = u.fp.drop (pops ret)
  result : ∃ rv fr, storeRet ret (decodeSize (s.r 2)) R (objAt u.mem (x64Frame s) 32) (objAt u.mem (s.r 1) (need ret (decodeSize (s.r 2)))) = .ok (rv, fr) ∧
    ∀ i, i < need ret (decodeSize (s.r 2)) → t.mem (s.r 1 + i) = rv.at_ i
  rest : ∀ y, y < lo ∨ x64Frame s + 32 ≤ y → y < s.r 1 ∨ s.r 1 + need ret (decodeSize (s.r 2)) ≤ y → t.mem y = u.mem y

/-! ## Calls -/

section
variable {c : Ctx} {lo n ra : Nat} {ss : List Nat} {s : St}

theorem x64_word {m : Mem} {a v : Nat} (h : m.rd a 8 = leBytes 8 v) (hv : v < 2 ^ 64) : leNat (m.rd a 8) = v := by
  rw [h, leNat_leBytes]
  exact Nat.mod_eq_of_lt hv

/-- The execution of the first half. -/
theorem x64_call_safe (h : X64CallPre s lo n ra ss) :
    Safe c lo (Holds c ra s.r (fun p => p = s.r 4 + 8 ∨ p = x64Frame s + 32)
      fun a t => a = s.r 8 ∧ Agree (level lo (s.r 7 + 184)) (callState c s) t) (level lo (s.r 4)) s := by
  have := call_head (c := c) (lo := lo) (s := s) (post := fun a t => a = s.r 8 ∧ Agree (level lo (s.r 7 + 184)) (callState c s) t)
    h.pc h.sp (by rw [h.size]; omega) h.align h.rbp fun t ht => ⟨rfl, ht⟩
  rw [h.caller] at this
  exact this

theorem x64_called (h : X64CallPre s lo n ra ss) {f : St} (hr : Reach c lo s f) {a : Nat} (hf : f.pc = .out a) :
    a = s.r 8 ∧ Agree (level lo (s.r 7 + 184)) (callState c s) f := by
  have := (x64_call_safe (c := c) h).reach hr (Agree.self _ _)
  unfold Holds at this
  rw [hf] at this
  exact this

end

/-- C63: whatever interrupts it, `ffi_call_unix64` reaches the function, with all
registers and the arguments in memory as `enter` says, the stack pointer aligned, the
return address on the stack and on the shadow stack, and the caller's registers in
place but rbp. -/
theorem C63_call_enter {c : Ctx} {lo n ra : Nat} {ss : List Nat} {s : St} (h : X64CallPre s lo n ra ss) {f : St} (hr : Reach c lo s f) :
    (∃ a v, Reach c lo f v ∧ v.pc = .out a) ∧ ∀ a, f.pc = .out a →
      a = s.r 8 ∧ (f.r 4 + 8) % 16 = 0 ∧
      (∃ E, enter (objAt s.mem (s.r 7) (s.r 6 + 32)) n (savedWords s) (fun i j => (s.x i).getD j 0) = .ok E ∧ Shows E f.r f.x f.mem) ∧
      (f.r 3 = s.r 3 ∧ f.r 12 = s.r 12 ∧ f.r 13 = s.r 13 ∧ f.r 14 = s.r 14 ∧ f.r 15 = s.r 15) ∧ f.fp = s.fp ∧
      f.ss = (c.base + (eo c.cet + 82)) :: s.ss ∧
      f.mem.rd (f.r 4) 8 = leBytes 8 (c.base + (eo c.cet + 82)) ∧
      ∀ y, y < lo ∨ x64Frame s + 32 ≤ y → f.mem y = s.mem y := by
  refine ⟨(x64_call_safe h).leaves hr (Agree.self _ _), fun a ha => ?_⟩
  obtain ⟨rfl, hag⟩ := x64_called h hr ha
  have h4 : (callState c s).r 4 = s.r 7 + 184 := rfl
  refine ⟨rfl, ?_, ?_, ?_, hag.fp, hag.ss, ?_, ?_⟩
  · rw [hag.r, h4]
    have := h.align
    omega
  · obtain ⟨E, hE, hs⟩ := call_enter c s n h.size
    refine ⟨E, hE, ?_⟩
    rw [hag.r, hag.x]
    refine ⟨hs.gpr, hs.xmm, hs.eax, hs.r10, fun i hi => ?_⟩
    rw [← hs.stk i hi]
    exact hag.mem _ (.inr (by rw [h4]; omega))
  · rw [hag.r]
    exact ⟨rfl, rfl, rfl, rfl, rfl⟩
  · rw [hag.r, h4, hag.rd (fun b hb _ => .inr hb)]
    have := Mem.rd_wr_same (framed s) (s.r 7 + 184) (leBytes 8 (c.base + (eo c.cet + 82)))
    rw [leBytes_length] at this
    exact this
  · intro y hy
    have h1 := h.stack
    have h2 := h.sp
    have h3 := h.size
    unfold x64Frame at hy
    rw [hag.mem y (hy.imp_right fun _ => by omega)]
    show Mem.wr (framed s) (s.r 7 + 184) _ y = _
    rw [Mem.wr_out _ _ _ _ (by rw [leBytes_length]; omega), framed_out (by omega)]

theorem x64_code {w : Nat} {ret : Ret} (h : decodeRet w = some ret) : w % 256 = ret.code := by
  unfold decodeRet at h
  rw [show (255 : Nat) = 2 ^ 8 - 1 by rfl, Nat.and_two_pow_sub_one_eq_mod, show (2 : Nat) ^ 8 = 256 by rfl] at h
  revert h
  generalize w % 256 = k
  intro h
  unfold Ret.ofCode at h
  split at h <;> first | (cases h; rfl) | cases h

/-- What the second half of a call needs. -/
structure X64CallRet (c : Ctx) (lo : Nat) (s f u : St) (ret : Ret) : Prop where
  back : X64Returned c (fun a => x64Frame s ≤ a ∧ a < x64Frame s + 32) f u
  kind : decodeRet (s.r 2) = some ret
  size : decodeSize (s.r 2) ≤ 20
  wide : X64Wide u (pops ret)
  place : s.r 1 + need ret (decodeSize (s.r 2)) ≤ lo ∨ x64Frame s + 32 ≤ s.r 1

/-- The execution of the second half. -/
theorem x64_return_safe {c : Ctx} {lo n ra : Nat} {ss : List Nat} {s f u : St} {ret : Ret} {a : Nat} (h : X64CallPre s lo n ra ss)
    (hr : Reach c lo s f) (hf : f.pc = .out a) (hu : X64CallRet c lo s f u ret) :
    Safe c lo (Holds c ra s.r (fun p => p = x64Frame s + 32)
      fun b t => b = ra ∧ ∃ v, v.r 4 = x64Frame s + 32 ∧ Saved v.r s.r ∧ v.ss = ss ∧ v.fp = u.fp.drop (pops ret) ∧
        v.mem = stored ret (decodeSize (s.r 2)) (u.r 0) (u.r 2) u.x u.fp u.mem (x64Frame s) (s.r 1) ∧ Agree (level lo (x64Frame s)) v t)
      (level lo (x64Frame s)) u := by
  obtain ⟨-, hag⟩ := x64_called h hr hf
  have h1 := h.stack
  have h2 := h.sp
  have h3 := h.size
  have h4 : f.r 4 = s.r 7 + 184 := by rw [hag.r]; rfl
  have h5 : f.r 5 = x64Frame s := by rw [hag.r]; rfl
  have hu5 : u.r 5 = x64Frame s := hu.back.saved.2.1.trans h5
  have hF : x64Frame s = s.r 7 + s.r 6 := rfl
  have hmem : ∀ {o : Nat}, o + 8 ≤ 32 → u.mem.rd (x64Frame s + o) 8 = (framed s).rd (s.r 7 + s.r 6 + o) 8 := by
    intro o ho
    refine Mem.rd_congr fun i hi => ?_
    rw [hu.back.mem _ ⟨by omega, by omega⟩, hag.mem _ (.inr (by omega))]
    show Mem.wr (framed s) (s.r 7 + 184) _ _ = _
    rw [Mem.wr_out _ _ _ _ (by rw [leBytes_length]; omega)]
  obtain ⟨w1, w2, w3, w4⟩ := framed_words s
  obtain ⟨o, ho, hso⟩ := hu.back.pc
  have hss : (c.base + (eo c.cet + 82)) :: s.ss = (c.base + o) :: u.ss := by rw [← hso, hag.ss]; rfl
  have ho' : o = eo c.cet + 82 := by have := (List.cons.inj hss).1; omega
  have hus : u.ss = ra :: ss := by rw [← (List.cons.inj hss).2, h.shadow]
  have hsz : decodeSize (s.r 2) = s.r 2 % 2 ^ 32 / 2 ^ 12 := by
    unfold decodeSize
    rw [Nat.mod_eq_of_lt h.flags, Nat.shiftRight_eq_div_pow]
  obtain ⟨k1, k2, k3, k4, k5, k6⟩ := hu.back.saved
  have hfl := h.flags
  have key := call_exit (c := c) (lo := lo) (u := u) (w := s.r 2) (a := s.r 1) (ra := ra) (g := s.r) (sp := fun p => p = x64Frame s + 32)
    (ss := ss) (ret := ret) (post := fun b t => b = ra ∧ ∃ v, v.r 4 = x64Frame s + 32 ∧ Saved v.r s.r ∧ v.ss = ss ∧ v.fp = u.fp.drop (pops ret) ∧
        v.mem = stored ret (decodeSize (s.r 2)) (u.r 0) (u.r 2) u.x u.fp u.mem (x64Frame s) (s.r 1) ∧ Agree (level lo (x64Frame s)) v t)
    (by rw [ho, ho'])
    (by rw [hu.back.sp, h4, hu5]; omega)
    (by rw [hu5, hmem (by omega), w4, h.caller])
    (by rw [hu5, hmem (by omega)]; exact x64_word w3 h.rbp)
    (by rw [hu5]; have := hmem (o := 0) (by omega); rw [Nat.add_zero, Nat.add_zero] at this; rw [this]; exact x64_word w1 (by omega))
    (by rw [hu5, hmem (by omega)]; exact x64_word w2 h.result)
    (by rw [hu5])
    ⟨by show u.r 3 = s.r 3; rw [k1, hag.r]; rfl, rfl, by show u.r 12 = s.r 12; rw [k3, hag.r]; rfl,
      by show u.r 13 = s.r 13; rw [k4, hag.r]; rfl, by show u.r 14 = s.r 14; rw [k5, hag.r]; rfl,
      by show u.r 15 = s.r 15; rw [k6, hag.r]; rfl⟩
    hus (x64_code hu.kind) hu.wide.x0 hu.wide.x1 hu.wide.fp hu.wide.st (by rw [← hsz]; exact hu.size)
    (by rw [← hsz, hu5]; have := hu.place; omega)
    (by
      rw [hu5, ← hsz]
      intro v t v1 v2 v3 v4 v5 v6 v7
      exact ⟨rfl, v, v2, v3, v4, v5, v6, v7⟩)
  rw [hu5] at key
  exact key

/-- C63: after the function has returned by the convention, `ffi_call_unix64` returns to its
caller, with the result stored as `storeRet` says and no other byte of the caller's
memory changed, the registers as its caller left them, the shadow stack and the x87
stack balanced.  The stack pointer is then above the block (src/x86/unix64.S:57-60). -/
theorem C63_call_return {c : Ctx} {lo n ra : Nat} {ss : List Nat} {s f u : St} {ret : Ret} {R : RetRegs} {a : Nat}
    (h : X64CallPre s lo n ra ss) (hr : Reach c lo s f) (hf : f.pc = .out a) (hu : X64CallRet c lo s f u ret)
    (hR : RetShows R (u.r 0) (u.r 2) u.x u.fp (pops ret)) {t : St} (ht : Reach c lo u t) :
    (∃ b v, Reach c lo t v ∧ v.pc = .out b) ∧ ∀ b, t.pc = .out b → b = ra ∧ X64Stored lo s u ret R ss t := by
  have hS := x64_return_safe h hr hf hu
  refine ⟨hS.leaves ht (Agree.self _ _), fun b hb => ?_⟩
  have := hS.reach ht (Agree.self _ _)
  unfold Holds at this
  rw [hb] at this
  obtain ⟨rfl, v, v1, v2, v3, v4, v5, hv⟩ := this
  obtain ⟨rv, fr, e1, e2⟩ := stored_eq (F := x64Frame s) (a := s.r 1) (m := u.mem) hR hu.wide.x0 hu.wide.x1 hu.wide.fp hu.wide.st hu.size (Nat.le_refl _)
  refine ⟨rfl, ⟨by rw [hv.r, v1], by rw [hv.r]; exact v2, by rw [hv.ss, v3], by rw [hv.fp, v4], ⟨rv, fr, e1, fun i hi => ?_⟩, ?_⟩⟩
  · rw [← e2 i hi, ← v5]
    refine hv.mem _ ?_
    rcases hu.place with hp | hp
    · exact .inl (by omega)
    · exact .inr (by omega)
  · intro y hy hy'
    have h1 := h.stack
    have h2 := h.sp
    have hF : x64Frame s = s.r 7 + s.r 6 := rfl
    rw [hv.mem _ (hy.imp_right fun _ => by omega), v5]
    exact stored_out hu.wide.x0 hu.wide.x1 hu.wide.fp hu.wide.st hy' (by omega)

/-! ## Closures -/

/-- The state in which a closure is entered: r10 is the closure object, which lies outside
the unused stack, and the stack pointer is 8 modulo 16 as after every call. -/
structure X64ClosPre (c : Ctx) (go sse : Bool) (s : St) (lo b ra : Nat) (ss : List Nat) : Prop where
  pc : s.pc = .at_ (off c.cet (closLbl go sse))
  sp : s.r 4 = b + 216
  stack : lo + 8 ≤ b
  align : b % 16 = 0
  wide : ∀ i, i < 8 → (s.x i).length = 16
  obj : s.r 10 + 56 ≤ lo ∨ b + 216 ≤ s.r 10
  caller : leNat (s.mem.rd (b + 216) 8) = ra
  shadow : s.ss = ra :: ss

/-- cif, function and user data of a closure (include/ffi.h.in:324-345, 32 bytes of
trampoline) or of a Go closure (include/ffi.h.in:460-464; the data is the object). -/
def x64Fields (go : Bool) (m : Mem) (k : Nat) : Nat × Nat × Nat :=
  if go then (leNat (m.rd (k + 8) 8), leNat (m.rd (k + 16) 8), k)
  else (leNat (m.rd (k + 32) 8), leNat (m.rd (k + 40) 8), leNat (m.rd (k + 48) 8))

theorem x64_clos_safe {c : Ctx} {go sse : Bool} {s : St} {lo b ra : Nat} {ss : List Nat} (h : X64ClosPre c go sse s lo b ra ss) :
    Safe c lo (Holds c ra s.r (fun p => p = b + 224) fun a t => a = c.ext 1 ∧
      ∃ v, v.r = upd (upd (upd (upd (upd (upd (upd s.r 7 (x64Fields go s.mem (s.r 10)).1)
          6 (x64Fields go s.mem (s.r 10)).2.1) 2 (x64Fields go s.mem (s.r 10)).2.2) 1 (b + 176)) 8 b) 9 (b + 224)) 4 (b - 8) ∧
        v.fp = s.fp ∧
        v.mem = (closFrame sse s.r s.x s.mem b).wr (b - 8) (leBytes 8 (c.base + (off c.cet .doClosure + 24))) ∧
        v.ss = (c.base + (off c.cet .doClosure + 24)) :: s.ss ∧
        Agree (fun a => dom lo b 48 (if sse then 128 else 0) a ∨ b - 8 ≤ a ∧ a < b - 8 + 8) v t) (level lo (s.r 4)) s := by
  have hs := h.stack
  exact clos_enter h.pc h.sp (by omega) (by omega) h.align h.wide h.obj h.caller rfl
    fun f t f1 f2 f3 f4 f5 f6 f7 => ⟨rfl, f, f2, f4, f5, f6, f7⟩

theorem x64_closFrame_out {sse : Bool} {s : St} {b a : Nat} (hx : ∀ i, i < 8 → (s.x i).length = 16) (ha : a < b ∨ b + 176 ≤ a) :
    closFrame sse s.r s.x s.mem b a = s.mem a := by
  unfold closFrame
  rw [gprs_out (by omega)]
  split
  · exact xmms_out hx (by omega)
  · rfl

/-- C63: whatever interrupts it, a closure reaches `ffi_closure_unix64_inner` with the
object's cif, function and data, the result area, the registers spilled as `spill`
says, and the address of the stack arguments; the stack pointer is aligned and the
caller's registers and memory are in place. -/
theorem C63_closure_enter {c : Ctx} {go sse : Bool} {s : St} {lo b ra : Nat} {ss : List Nat} (h : X64ClosPre c go sse s lo b ra ss)
    {E : Entry} (hE : Shows E s.r s.x s.mem) {f0 : Buf} {f : St} (hr : Reach c lo s f) :
    (∃ a v, Reach c lo f v ∧ v.pc = .out a) ∧ ∀ a, f.pc = .out a →
      a = c.ext 1 ∧ (f.r 4 + 8) % 16 = 0 ∧ (f.r 7, f.r 6, f.r 2) = x64Fields go s.mem (s.r 10) ∧
      f.r 1 = b + 176 ∧ f.r 8 = b ∧ f.r 9 = s.r 4 + 8 ∧
      (∀ k, k < 48 ∨ k < 176 ∧ sse = true → f.mem (f.r 8 + k) = (spill E sse f0).at_ k) ∧
      (∀ i, i < E.stk.size → f.mem (f.r 9 + i) = E.stk.at_ i) ∧ Saved f.r s.r ∧ f.fp = s.fp ∧
      f.ss = (c.base + (off c.cet .doClosure + 24)) :: s.ss ∧
      f.mem.rd (f.r 4) 8 = leBytes 8 (c.base + (off c.cet .doClosure + 24)) ∧ ∀ y, y < lo ∨ s.r 4 ≤ y → f.mem y = s.mem y := by
  have hS := x64_clos_safe h
  refine ⟨hS.leaves hr (Agree.self _ _), fun a ha => ?_⟩
  have := hS.reach hr (Agree.self _ _)
  unfold Holds at this
  rw [ha] at this
  obtain ⟨rfl, v, v1, v2, v3, v4, hv⟩ := this
  have hst := h.stack
  have hsp := h.sp
  have hal := h.align
  have e4 : f.r 4 = b - 8 := by rw [hv.r, v1]; rfl
  have e8 : f.r 8 = b := by rw [hv.r, v1]; rfl
  have e9 : f.r 9 = b + 224 := by rw [hv.r, v1]; rfl
  have keep : ∀ y, y < lo ∨ s.r 4 ≤ y → f.mem y = s.mem y := by
    intro y hy
    rw [hv.mem y (.inl (by unfold dom; omega)), v3, Mem.wr_out _ _ _ _ (by rw [leBytes_length]; omega), x64_closFrame_out h.wide (by omega)]
  refine ⟨rfl, by rw [e4]; omega, by rw [hv.r, v1]; rfl, by rw [hv.r, v1]; rfl, e8, by rw [e9, hsp], ?_, ?_, ?_, by rw [hv.fp, v2], by rw [hv.ss, v4], ?_, keep⟩
  · intro k hk
    rw [e8, ← closFrame_eq (b := b) hE h.wide hk, hv.mem _ (.inl ?_), v3, Mem.wr_out _ _ _ _ (by rw [leBytes_length]; omega)]
    unfold dom
    rcases hk with hk | ⟨hk, rfl⟩
    · omega
    · rw [if_pos rfl]; omega
  · intro i hi
    rw [← hE.stk i hi, e9, keep _ (.inr (by omega)), hsp]
  · rw [hv.r, v1]
    exact ⟨rfl, rfl, rfl, rfl, rfl, rfl⟩
  · rw [e4, hv.rd (fun a h1 h2 => .inr ⟨h1, h2⟩), v3]
    have := Mem.rd_wr_same (closFrame sse s.r s.x s.mem b) (b - 8) (leBytes 8 (c.base + (off c.cet .doClosure + 24)))
    rw [leBytes_length] at this
    exact this

/-- What the second half of a closure needs: `ffi_closure_unix64_inner` has returned the kind
of the result in its low byte, and the x87 stack has room. -/
structure X64ClosRet (c : Ctx) (s f u : St) (ret : Ret) : Prop where
  back : X64Returned c (fun a => s.r 4 ≤ a ∧ a < s.r 4 + 8) f u
  kind : u.r 0 % 256 = ret.code
  room : u.fp.length + pops ret ≤ 8

theorem x64_closret_safe {c : Ctx} {go sse : Bool} {s f u : St} {lo b ra a : Nat} {ss : List Nat} {ret : Ret}
    (h : X64ClosPre c go sse s lo b ra ss) (hr : Reach c lo s f) (hf : f.pc = .out a) (hu : X64ClosRet c s f u ret) :
    Safe c lo (Holds c ra s.r (fun p => p = b + 224) fun d t => d = ra ∧ ∃ v, v.r 4 = b + 224 ∧ Saved v.r s.r ∧ v.ss = ss ∧ v.mem = u.mem ∧
      v.regs = resultRegs ret u.mem (b + 176) u.regs ∧ Agree (level lo (b + 176)) v t) (level lo (b + 176)) u := by
  have := (x64_clos_safe h).reach hr (Agree.self _ _)
  unfold Holds at this
  rw [hf] at this
  obtain ⟨rfl, v, v1, v2, v3, v4, hv⟩ := this
  have hst := h.stack
  have hsp := h.sp
  have e4 : f.r 4 = b - 8 := by rw [hv.r, v1]; rfl
  obtain ⟨o, ho, hso⟩ := hu.back.pc
  have hss : (c.base + (off c.cet .doClosure + 24)) :: s.ss = (c.base + o) :: u.ss := by rw [← hso, hv.ss, v4]
  have ho' : o = off c.cet .doClosure + 24 := by have := (List.cons.inj hss).1; omega
  have hus : u.ss = ra :: ss := by rw [← (List.cons.inj hss).2, h.shadow]
  have hm : u.mem.rd (b + 216) 8 = s.mem.rd (b + 216) 8 := by
    refine Mem.rd_congr fun i hi => ?_
    rw [hu.back.mem _ ⟨by omega, by omega⟩, hv.mem _ (.inl (by unfold dom; omega)), v3, Mem.wr_out _ _ _ _ (by rw [leBytes_length]; omega),
      x64_closFrame_out h.wide (by omega)]
  obtain ⟨k1, k2, k3, k4, k5, k6⟩ := hu.back.saved
  refine clos_exit (by rw [ho, ho']) (by rw [hu.back.sp, e4]; omega) (by rw [hm, h.caller]) rfl ?_ hus hu.kind hu.room
    fun f t f1 f2 f3 f4 f5 f6 f7 => ⟨rfl, f, f2, f3, f4, f5, f6, f7⟩
  rw [hv.r, v1] at k1 k2 k3 k4 k5 k6
  exact ⟨k1, k2, k3, k4, k5, k6⟩

/-- C63: after `ffi_closure_unix64_inner` has returned, the closure returns to its caller with
the result registers loaded from the result area as `loadRet` says, the stack pointer
above the return address, the registers as its caller left them and the shadow stack
balanced. -/
theorem C63_closure_return {c : Ctx} {go sse : Bool} {s f u : St} {lo b ra a : Nat} {ss : List Nat} {ret : Ret} {R : RetRegs}
    (h : X64ClosPre c go sse s lo b ra ss) (hr : Reach c lo s f) (hf : f.pc = .out a) (hu : X64ClosRet c s f u ret)
    (hR : RetShows R (u.r 0) (u.r 2) u.x u.fp 0) {t : St} (ht : Reach c lo u t) :
    (∃ d v, Reach c lo t v ∧ v.pc = .out d) ∧ ∀ d, t.pc = .out d →
      d = ra ∧ t.r 4 = s.r 4 + 8 ∧ Saved t.r s.r ∧ t.ss = ss ∧ (∀ y, y < lo ∨ s.r 4 ≤ y → t.mem y = u.mem y) ∧
      ∃ R', loadRet ret R (objAt u.mem (b + 176) 32) = .ok R' ∧ RetShows R' (t.r 0) (t.r 2) t.x t.fp (pops ret) ∧
        t.fp.drop (pops ret) = u.fp := by
  have hS := x64_closret_safe h hr hf hu
  refine ⟨hS.leaves ht (Agree.self _ _), fun d hd => ?_⟩
  have := hS.reach ht (Agree.self _ _)
  unfold Holds at this
  rw [hd] at this
  obtain ⟨rfl, v, v1, v2, v3, v4, v5, hv⟩ := this
  have hsp := h.sp
  obtain ⟨R', e1, e2⟩ := resultRegs_eq (ret := ret) (m := u.mem) (A := b + 176) (S := u.regs) (R := R) ⟨hR.rax, hR.rdx, hR.xmm0, hR.xmm1, hR.st0, hR.st1⟩
  rw [← v5] at e2
  refine ⟨rfl, by rw [hv.r, v1, hsp], by rw [hv.r]; exact v2, by rw [hv.ss, v3], fun y hy => ?_, R', e1, ?_, ?_⟩
  · rw [hv.mem y (hy.imp_right fun _ => by omega), v4]
  · rw [hv.r, hv.x, hv.fp]
    exact ⟨e2.rax, e2.rdx, e2.xmm0, e2.xmm1, e2.st0, e2.st1⟩
  · rw [hv.fp, show v.fp = v.regs.fp from rfl, v5]
    cases ret <;> rfl

/-! ## Unwinding -/

/-- C64: at every instruction of every execution of `ffi_call_unix64` before the call, an
unwinder that reads the tables of src/x86/unix64.S:550-680 finds the return address and the
registers of the caller; the CFA is the caller's stack pointer, or the end of the block.
Missing (here and in the next five): the entry points for static trampolines, see `C64_alt`. -/
theorem C64_call_enter_partial {c : Ctx} {lo n ra : Nat} {ss : List Nat} {s : St} (h : X64CallPre s lo n ra ss) {t : St} (hr : Reach c lo s t)
    {o : Nat} (ho : t.pc = .at_ o) : Unwinds c.cet o t.r t.mem ra s.r (fun p => p = s.r 4 + 8 ∨ p = x64Frame s + 32) := by
  have := (x64_call_safe h).reach hr (Agree.self _ _)
  unfold Holds at this
  rw [ho] at this
  exact this

/-- C64: the same after the call. -/
theorem C64_call_return_partial {c : Ctx} {lo n ra : Nat} {ss : List Nat} {s f u : St} {ret : Ret} {a : Nat}
    (h : X64CallPre s lo n ra ss) (hr : Reach c lo s f) (hf : f.pc = .out a) (hu : X64CallRet c lo s f u ret)
    {t : St} (ht : Reach c lo u t) {o : Nat} (ho : t.pc = .at_ o) :
    Unwinds c.cet o t.r t.mem ra s.r (fun p => p = x64Frame s + 32) := by
  have := (x64_return_safe h hr hf hu).reach ht (Agree.self _ _)
  unfold Holds at this
  rw [ho] at this
  exact this

/-- C64: and inside the called function: an unwinder that has found the registers `r` its
caller had, and looks the return address up (one byte before it), goes on to the caller
of `ffi_call_unix64`. -/
theorem C64_call_inside_partial {c : Ctx} {lo n ra : Nat} {ss : List Nat} {s f : St} {a : Nat}
    (h : X64CallPre s lo n ra ss) (hr : Reach c lo s f) (hf : f.pc = .out a) {r : Nat → Nat} {m : Mem} (hs : Saved r f.r)
    (hm : ∀ y, x64Frame s ≤ y → y < x64Frame s + 32 → m y = f.mem y) :
    ∃ o, f.ss = (c.base + o) :: s.ss ∧ Unwinds c.cet (o - 1) r m ra s.r (fun p => p = x64Frame s + 32) := by
  obtain ⟨-, hag⟩ := x64_called h hr hf
  have hsz := h.size
  have h5 : f.r 5 = x64Frame s := by rw [hag.r]; rfl
  have hF : x64Frame s = s.r 7 + s.r 6 := rfl
  have hmem : ∀ {o : Nat}, o + 8 ≤ 32 → m.rd (x64Frame s + o) 8 = (framed s).rd (s.r 7 + s.r 6 + o) 8 := by
    intro o ho
    refine Mem.rd_congr fun i hi => ?_
    rw [hm _ (by omega) (by omega), hag.mem _ (.inr (by omega))]
    show Mem.wr (framed s) (s.r 7 + 184) _ _ = _
    rw [Mem.wr_out _ _ _ _ (by rw [leBytes_length]; omega)]
  obtain ⟨w1, w2, w3, w4⟩ := framed_words s
  have hrow : rowAt c.cet (eo c.cet + 82 - 1) = some ⟨6, 32, [(6, 2), (16, 1)]⟩ := by
    have : ∀ b, rowAt b (eo b + 82 - 1) = some ⟨6, 32, [(6, 2), (16, 1)]⟩ := by decide +kernel
    exact this _
  obtain ⟨k1, k2, k3, k4, k5, k6⟩ := hs
  rw [h5] at k2
  refine ⟨eo c.cet + 82, hag.ss, unwinds_rbp hrow ?_ ?_ (by rw [k2]) ?_⟩
  · rw [k2, hmem (by omega), w4, h.caller]
  · rw [k2, hmem (by omega)]
    exact x64_word w3 h.rbp
  · rw [hag.r] at k1 k3 k4 k5 k6
    exact ⟨k1, rfl, k3, k4, k5, k6⟩

/-- C64: at every instruction of a closure, before and after the call of
`ffi_closure_unix64_inner`, unwinding leads to the closure's caller. -/
theorem C64_closure_enter_partial {c : Ctx} {go sse : Bool} {s : St} {lo b ra : Nat} {ss : List Nat} (h : X64ClosPre c go sse s lo b ra ss)
    {t : St} (hr : Reach c lo s t) {o : Nat} (ho : t.pc = .at_ o) : Unwinds c.cet o t.r t.mem ra s.r (fun p => p = s.r 4 + 8) := by
  have := (x64_clos_safe h).reach hr (Agree.self _ _)
  unfold Holds at this
  rw [ho] at this
  rw [h.sp]
  exact this

theorem C64_closure_return_partial {c : Ctx} {go sse : Bool} {s f u : St} {lo b ra a : Nat} {ss : List Nat} {ret : Ret}
    (h : X64ClosPre c go sse s lo b ra ss) (hr : Reach c lo s f) (hf : f.pc = .out a) (hu : X64ClosRet c s f u ret)
    {t : St} (ht : Reach c lo u t) {o : Nat} (ho : t.pc = .at_ o) :
    Unwinds c.cet o t.r t.mem ra s.r (fun p => p = s.r 4 + 8) := by
  have := (x64_closret_safe h hr hf hu).reach ht (Agree.self _ _)
  unfold Holds at this
  rw [ho] at this
  rw [h.sp]
  exact this

theorem C64_closure_inside_partial {c : Ctx} {go sse : Bool} {s f : St} {lo b ra a : Nat} {ss : List Nat} (h : X64ClosPre c go sse s lo b ra ss)
    (hr : Reach c lo s f) (hf : f.pc = .out a) {r : Nat → Nat} {m : Mem} (hs : Saved r f.r) (h4 : r 4 = f.r 4 + 8)
    (hm : ∀ y, s.r 4 ≤ y → y < s.r 4 + 8 → m y = f.mem y) :
    ∃ o, f.ss = (c.base + o) :: s.ss ∧ Unwinds c.cet (o - 1) r m ra s.r (fun p => p = s.r 4 + 8) := by
  have := (x64_clos_safe h).reach hr (Agree.self _ _)
  unfold Holds at this
  rw [hf] at this
  obtain ⟨rfl, v, v1, v2, v3, v4, hv⟩ := this
  have hst := h.stack
  have hsp := h.sp
  have e4 : f.r 4 = b - 8 := by rw [hv.r, v1]; rfl
  have hrow : rowAt c.cet (off c.cet .doClosure + 24 - 1) = some ⟨7, 224, [(16, 1)]⟩ := by
    have : ∀ b, rowAt b (off b .doClosure + 24 - 1) = some ⟨7, 224, [(16, 1)]⟩ := by decide +kernel
    exact this _
  have hr4 : r 4 = b := by omega
  refine ⟨off c.cet .doClosure + 24, by rw [hv.ss, v4], unwinds_rsp hrow ?_ (by rw [hr4, hsp]) ?_⟩
  · rw [hr4, show b + 224 - 8 = b + 216 by omega, ← h.caller]
    congr 1
    refine Mem.rd_congr fun i hi => ?_
    rw [hm _ (by omega) (by omega), hv.mem _ (.inl (by unfold dom; omega)), v3, Mem.wr_out _ _ _ _ (by rw [leBytes_length]; omega),
      x64_closFrame_out h.wide (by omega)]
  · obtain ⟨k1, k2, k3, k4, k5, k6⟩ := hs
    rw [hv.r, v1] at k1 k2 k3 k4 k5 k6
    exact ⟨k1, k2, k3, k4, k5, k6⟩

/-! ## Closures through static trampolines -/

/-- The state of a closure's entry after `ffi_closure_unix64_alt`, for a closure at `K`. -/
def x64AltState (c : Ctx) (sse : Bool) (K : Nat) (s : St) : St :=
  { s with pc := .at_ (off c.cet (closLbl false sse)), r := upd (upd s.r 10 K) 4 (s.r 4 + 16) }

theorem x64_alt_pre {c : Ctx} {sse : Bool} {s w : St} {lo b K ra : Nat} {ss : List Nat} (h : X64ClosPre c false sse (x64AltState c sse K s) lo b ra ss)
    (hw : AltTo c lo sse s (s.r 4) K w) : X64ClosPre c false sse w lo b ra ss := by
  obtain ⟨w1, w2, ⟨w3, -⟩, w4, w5⟩ := hw
  have hsp : s.r 4 + 16 = b + 216 := h.sp
  refine ⟨w1, by rw [w2]; exact h.sp, h.stack, h.align, by rw [w3]; exact h.wide, by rw [w2]; exact h.obj, ?_, by rw [w4]; exact h.shadow⟩
  rw [← h.caller]
  exact congrArg leNat (Mem.rd_congr fun i hi => w5 _ (.inr (by omega)))

theorem x64_alt_shows {c : Ctx} {sse : Bool} {s w : St} {lo K : Nat} {E : Entry}
    (h : Shows E (x64AltState c sse K s).r s.x s.mem) (hw : AltTo c lo sse s (s.r 4) K w) : Shows E w.r w.x w.mem := by
  obtain ⟨w1, w2, ⟨w3, -⟩, w4, w5⟩ := hw
  refine ⟨by rw [w2]; exact h.gpr, by rw [w3]; exact h.xmm, by rw [w2]; exact h.eax, by rw [w2]; exact h.r10, fun i hi => ?_⟩
  rw [← h.stk i hi, w2]
  refine w5 _ (.inr ?_)
  show s.r 4 + 16 ≤ s.r 4 + 16 + 8 + i
  omega

/-- C63, C65: through a static trampoline, which jumps to `ffi_closure_unix64_alt` or
`ffi_closure_unix64_sse_alt` with the closure's address above the stack pointer
(`C21_static_trampoline`): whatever interrupts it, no instruction faults, and
`ffi_closure_unix64_inner` is reached with that closure's cif, function and data, and
everything else as if the closure had been called without a trampoline. -/
theorem C63_alt_enter {c : Ctx} {sse : Bool} {s : St} {lo b K ra : Nat} {ss : List Nat} (hpc : s.pc = .at_ (off c.cet (altLbl sse)))
    (hK : leNat (s.mem.rd (s.r 4 + 8) 8) = K) (h : X64ClosPre c false sse (x64AltState c sse K s) lo b ra ss)
    {E : Entry} (hE : Shows E (x64AltState c sse K s).r s.x s.mem) (hobj : K + 56 ≤ lo ∨ s.r 4 + 16 ≤ K) {f0 : Buf} {f : St} (hr : Reach c lo s f) :
    (∃ a v, Reach c lo f v ∧ v.pc = .out a) ∧ (∀ o, f.pc = .at_ o → ∃ v, step c f = some v) ∧ ∀ a, f.pc = .out a →
      a = c.ext 1 ∧ (f.r 4 + 8) % 16 = 0 ∧ (f.r 7, f.r 6, f.r 2) = x64Fields false s.mem K ∧
      f.r 1 = b + 176 ∧ f.r 8 = b ∧ f.r 9 = s.r 4 + 24 ∧
      (∀ k, k < 48 ∨ k < 176 ∧ sse = true → f.mem (f.r 8 + k) = (spill E sse f0).at_ k) ∧
      (∀ i, i < E.stk.size → f.mem (f.r 9 + i) = E.stk.at_ i) ∧ Saved f.r s.r ∧ f.fp = s.fp ∧
      f.ss = (c.base + (off c.cet .doClosure + 24)) :: s.ss ∧
      f.mem.rd (f.r 4) 8 = leBytes 8 (c.base + (off c.cet .doClosure + 24)) ∧ (∀ y, y < lo ∨ s.r 4 + 16 ≤ y → f.mem y = s.mem y) ∧
      ∃ w, AltTo c lo sse s (s.r 4) K w ∧ X64ClosPre c false sse w lo b ra ss ∧ Reach c lo w f := by
  rcases alt_reach hr hpc rfl hK with ⟨o, v, w, h1, h2, h3, h4⟩ | ⟨w, h3, h4⟩
  · obtain ⟨a, u, hu, hua⟩ := (C63_closure_enter (x64_alt_pre h h4) (x64_alt_shows hE h4) (f0 := f0) .refl).1
    refine ⟨⟨a, u, h3.trans hu, hua⟩, fun _ _ => ⟨v, h2⟩, fun a ha => ?_⟩
    rw [h1] at ha
    cases ha
  · have hp := x64_alt_pre h h4
    have key := C63_closure_enter hp (x64_alt_shows hE h4) (f0 := f0) h3
    refine ⟨key.1, fun o ho => (x64_clos_safe hp).progress h3 (Agree.self _ _) ho, fun a ha => ?_⟩
    obtain ⟨k1, k2, k3, k4, k5, k6, k7, k8, k9, k10, k11, k12, k13⟩ := key.2 a ha
    obtain ⟨w1, w2, ⟨w3, w3'⟩, w4, w5⟩ := id h4
    have e10 : w.r 10 = K := by rw [w2]; rfl
    have e4 : w.r 4 = s.r 4 + 16 := by rw [w2]; rfl
    have hf : x64Fields false w.mem K = x64Fields false s.mem K := by
      have : ∀ d, d + 8 ≤ 56 → w.mem.rd (K + d) 8 = s.mem.rd (K + d) 8 := fun d hd => Mem.rd_congr fun i hi => w5 _ (by omega)
      unfold x64Fields
      rw [this 32 (by omega), this 40 (by omega), this 48 (by omega)]
      rfl
    refine ⟨k1, k2, by rw [k3, e10, hf], k4, k5, by rw [k6, e4], k7, k8, ?_, by rw [k10, w3'], by rw [k11, w4], k12, ?_, w, h4, hp, h3⟩
    · rw [w2] at k9
      exact k9
    · intro y hy
      rw [k13 y (by rw [e4]; exact hy), w5 y hy]

/-- C64 fails in `ffi_closure_unix64_alt` and `ffi_closure_unix64_sse_alt`: the unwind table has
nothing for their instructions. -/
theorem C64_alt (cet sse : Bool) {o : Nat} (ho : o ∈ altOffs cet sse) (r : Nat → Nat) (m : Mem) :
    rowAt cet o = none ∧ (∀ ra g sp, ¬Unwinds cet o r m ra g sp) ∧ (fetch cet o).isSome := by
  obtain ⟨hr, hf⟩ := altNone cet sse o ho
  refine ⟨hr, ?_, hf⟩
  rintro ra g sp ⟨row, g', h1, -⟩
  rw [hr] at h1
  cases h1

/-! ## Control-flow enforcement -/

/-- C65: no instruction of a call faults: with control-flow enforcement, every indirect jump
finds `endbr64` and every `ret` the address on the shadow stack. -/
theorem C65_call {c : Ctx} {lo n ra : Nat} {ss : List Nat} {s : St} (h : X64CallPre s lo n ra ss) {t : St} (hr : Reach c lo s t)
    {o : Nat} (ho : t.pc = .at_ o) : ∃ v, step c t = some v :=
  (x64_call_safe h).progress hr (Agree.self _ _) ho

theorem C65_call_return {c : Ctx} {lo n ra : Nat} {ss : List Nat} {s f u : St} {ret : Ret} {a : Nat}
    (h : X64CallPre s lo n ra ss) (hr : Reach c lo s f) (hf : f.pc = .out a) (hu : X64CallRet c lo s f u ret)
    {t : St} (ht : Reach c lo u t) {o : Nat} (ho : t.pc = .at_ o) : ∃ v, step c t = some v :=
  (x64_return_safe h hr hf hu).progress ht (Agree.self _ _) ho

theorem C65_closure {c : Ctx} {go sse : Bool} {s : St} {lo b ra : Nat} {ss : List Nat} (h : X64ClosPre c go sse s lo b ra ss)
    {t : St} (hr : Reach c lo s t) {o : Nat} (ho : t.pc = .at_ o) : ∃ v, step c t = some v :=
  (x64_clos_safe h).progress hr (Agree.self _ _) ho

theorem C65_closure_return {c : Ctx} {go sse : Bool} {s f u : St} {lo b ra a : Nat} {ss : List Nat} {ret : Ret}
    (h : X64ClosPre c go sse s lo b ra ss) (hr : Reach c lo s f) (hf : f.pc = .out a) (hu : X64ClosRet c s f u ret)
    {t : St} (ht : Reach c lo u t) {o : Nat} (ho : t.pc = .at_ o) : ∃ v, step c t = some v :=
  (x64_closret_safe h hr hf hu).progress ht (Agree.self _ _) ho

/-- C65: the entry points, which are reached through pointers, begin with `endbr64`; every
entry of the tables fits in its slot, with and without `.org`, and every offset of a
slot holds `endbr64` too. -/
theorem C65_entries : fetch true 0 = some (4, .endbr) ∧
    (∀ go sse, fetch true (off true (closLbl go sse)) = some (4, .endbr)) ∧ (∀ sse, fetch true (off true (altLbl sse)) = some (4, .endbr)) ∧
    (∀ k : Fin 16, fetch true (off true .storeTable + k * 16) = some (4, .endbr) ∧ fetch true (off true .loadTable + k * 16) = some (4, .endbr)) ∧
    ∀ cet, (assemble ⟨cet, false⟩ (source ⟨cet, false⟩) 0 [] []).isSome ∧
      assemble ⟨cet, false⟩ (source ⟨cet, false⟩) 0 [] [] = assemble ⟨cet, true⟩ (source ⟨cet, true⟩) 0 [] [] := by
  refine ⟨by decide +kernel, by decide +kernel, by decide +kernel, by decide +kernel, fun cet => ⟨?_, assemble_org cet⟩⟩
  cases cet <;> decide +kernel

/-! ## Concrete cases -/

/-- A stack with a return address at 4096. -/
def x64ExMem : Mem := Mem.wr (fun _ => 0) 4096 (leBytes 8 4242)

/-- A call with eight words of stack arguments of a function at 99 whose result is a
structure of 12 bytes in xmm0 and rax. -/
def x64ExCall : St :=
  { pc := .at_ 0, r := fun d => match d with | 4 => 4096 | 7 => 4112 | 6 => 256 | 2 => 12 + 12 * 4096 | 1 => 8192 | 8 => 99 | _ => 7
    x := fun _ => List.replicate 16 1, fp := [], zf := false, cf := false, mem := x64ExMem, ss := [4242] }

theorem x64ExCall_pre : X64CallPre x64ExCall 1024 64 4242 [] :=
  ⟨rfl, by decide, by decide, rfl, rfl, by decide, by decide, by decide, by decide +kernel, rfl⟩

/-- A closure entered with a stack aligned as after a call, its object at 16384. -/
def x64ExClos (c : Ctx) (go sse : Bool) : St :=
  { pc := .at_ (off c.cet (closLbl go sse)), r := fun d => match d with | 4 => 4088 + 16 | 10 => 16384 | _ => 7
    x := fun _ => List.replicate 16 1, fp := [], zf := false, cf := false
    mem := Mem.wr (fun _ => 0) 4104 (leBytes 8 4242), ss := [4242] }

theorem x64ExClos_pre (c : Ctx) (go sse : Bool) : X64ClosPre c go sse (x64ExClos c go sse) 1024 3888 4242 [] :=
  ⟨rfl, rfl, by decide, rfl, fun _ _ => rfl, .inr (show 3888 + 216 ≤ 16384 by decide),
    show leNat (Mem.rd (Mem.wr (fun _ => 0) 4104 (leBytes 8 4242)) (3888 + 216) 8) = 4242 by decide +kernel, rfl⟩

/-- Both halves of a call can be executed: the conditions of the theorems hold. -/
theorem x64ExCall_runs (c : Ctx) : ∃ f u a, Reach c 1024 x64ExCall f ∧ f.pc = .out a ∧ X64CallRet c 1024 x64ExCall f u .stXmm0Rax := by
  obtain ⟨⟨a, f, hf, ha⟩, -⟩ := C63_call_enter (c := c) x64ExCall_pre (f := x64ExCall) .refl
  refine ⟨f, { f with pc := .at_ (eo c.cet + 82), r := upd f.r 4 (f.r 4 + 8), ss := f.ss.tail, x := fun _ => List.replicate 16 0 }, a, hf, ha, ?_⟩
  have h := (C63_call_enter x64ExCall_pre hf).2 a ha
  refine ⟨⟨⟨_, rfl, ?_⟩, rfl, ⟨rfl, rfl, rfl, rfl, rfl, rfl⟩, fun _ _ => rfl⟩, rfl, by decide, ⟨rfl, rfl, ?_, Nat.zero_le _⟩, .inr (by decide)⟩
  · rw [h.2.2.2.2.2.1]
    rfl
  · intro v hv
    rw [h.2.2.2.2.1] at hv
    cases hv

theorem x64ExClos_runs (c : Ctx) (go sse : Bool) :
    ∃ f u a, Reach c 1024 (x64ExClos c go sse) f ∧ f.pc = .out a ∧ X64ClosRet c (x64ExClos c go sse) f u .x87_2 := by
  obtain ⟨a, f, hf, ha⟩ := (x64_clos_safe (x64ExClos_pre c go sse)).leaves .refl (Agree.self _ _)
  refine ⟨f, { f with pc := .at_ (off c.cet .doClosure + 24), r := upd (upd f.r 4 (f.r 4 + 8)) 0 11, ss := f.ss.tail }, a, hf, ha, ?_⟩
  have := (x64_clos_safe (x64ExClos_pre c go sse)).reach hf (Agree.self _ _)
  unfold Holds at this
  rw [ha] at this
  obtain ⟨rfl, v, v1, v2, v3, v4, hv⟩ := this
  refine ⟨⟨⟨_, rfl, ?_⟩, rfl, ⟨rfl, rfl, rfl, rfl, rfl, rfl⟩, fun _ _ => rfl⟩, rfl, ?_⟩
  · rw [hv.ss, v4]
    rfl
  · show f.fp.length + 2 ≤ 8
    rw [hv.fp, v2]
    show 0 + 2 ≤ 8
    decide

example (c : Ctx) := C63_call_enter (c := c) x64ExCall_pre (f := x64ExCall) .refl
example (c : Ctx) : ∃ f u, ∀ t, Reach c 1024 u t → ∀ b, t.pc = .out b → b = 4242 ∧ t.r 4 = 4112 + 256 + 32 ∧ Reach c 1024 x64ExCall f := by
  obtain ⟨f, u, a, hf, ha, hu⟩ := x64ExCall_runs c
  refine ⟨f, u, fun t ht b hb => ?_⟩
  obtain ⟨h1, h2⟩ := (C63_call_return (R := ⟨fun j => (leBytes 8 (u.r 0)).getD j 0, fun j => (leBytes 8 (u.r 2)).getD j 0, fun j => (u.x 0).getD j 0,
    fun j => (u.x 1).getD j 0, fun _ => 0, fun _ => 0⟩) x64ExCall_pre hf ha hu
    ⟨fun _ _ => rfl, fun _ _ => rfl, fun _ _ => rfl, fun _ _ => rfl, fun h => absurd h (by decide), fun h => absurd h (by decide)⟩ ht).2 b hb
  exact ⟨h1, h2.sp, hf⟩
example (c : Ctx) (go sse : Bool) := C64_closure_enter_partial (x64ExClos_pre c go sse) .refl rfl
example (c : Ctx) (go sse : Bool) : ∃ f u, ∀ t, Reach c 1024 u t → ∀ o, t.pc = .at_ o → (∃ v, step c t = some v) ∧
    Unwinds c.cet o t.r t.mem 4242 (x64ExClos c go sse).r (fun p => p = 4112) ∧ Reach c 1024 (x64ExClos c go sse) f := by
  obtain ⟨f, u, a, hf, ha, hu⟩ := x64ExClos_runs c go sse
  exact ⟨f, u, fun t ht o ho => ⟨C65_closure_return (x64ExClos_pre c go sse) hf ha hu ht ho,
    C64_closure_return_partial (x64ExClos_pre c go sse) hf ha hu ht ho, hf⟩⟩

/-- `ffi_closure_unix64_alt` entered by a static trampoline, for a closure at 16384. -/
def x64ExAlt (c : Ctx) (sse : Bool) : St :=
  { pc := .at_ (off c.cet (altLbl sse)), r := fun d => match d with | 4 => 4088 | _ => 7
    x := fun _ => List.replicate 16 1, fp := [], zf := false, cf := false
    mem := Mem.wr (Mem.wr (fun _ => 0) 4096 (leBytes 8 16384)) 4104 (leBytes 8 4242), ss := [4242] }

example (c : Ctx) (sse : Bool) := C63_alt_enter (c := c) (sse := sse) (s := x64ExAlt c sse) (lo := 1024) (b := 3888) (K := 16384) (ra := 4242) (ss := [])
  rfl (show leNat (Mem.rd (Mem.wr (Mem.wr (fun _ => 0) 4096 (leBytes 8 16384)) 4104 (leBytes 8 4242)) 4096 8) = 16384 by decide +kernel)
  ⟨rfl, rfl, by decide, rfl, fun _ _ => rfl, .inr (show 3888 + 216 ≤ 16384 by decide),
    show leNat (Mem.rd (Mem.wr (Mem.wr (fun _ => 0) 4096 (leBytes 8 16384)) 4104 (leBytes 8 4242)) (3888 + 216) 8) = 4242 by decide +kernel, rfl⟩
  (E := ⟨fun i j => (leBytes 8 ((x64AltState c sse 16384 (x64ExAlt c sse)).r (argReg i))).getD j 0, fun i j => ((x64ExAlt c sse).x i).getD j 0, 7, 16384,
    ⟨0, fun _ => 0⟩⟩)
  ⟨fun _ _ _ _ => rfl, fun _ _ _ _ => rfl, rfl, rfl, fun i hi => absurd hi (Nat.not_lt_zero i)⟩ (.inr (show 4088 + 16 ≤ 16384 by decide)) (f0 := ⟨0, fun _ => 0⟩) .refl
example (cet sse : Bool) := C64_alt cet sse (List.mem_cons_self ..) (fun _ => 4096) fun _ => 0

end Verif.Props
