import Verif.Arm.AsmClosure
import Verif.Base.Code

/-! C97 and C98: the instructions of src/arm/sysv.S refine the model of C69 and C70 under
any interruptions; the call frame table and the exception tables describe them. -/
namespace Verif.Props
open Verif Verif.Arm Verif.Arm.Asm

/-- Registers as bytes. -/
def armBytes (r : Nat → Nat) : Nat → List Byte := fun i => leBytes 4 (r i)

/-- How `ffi_call_int` calls `ffi_call_VFP` or `ffi_call_SYSV`: the space for the VFP registers
(if any), the arguments and the frame are at `vs`, `stack` and `frame`. -/
structure ArmCallPre (k : Arm.Cif) (vs stack frame : Nat) (I : CallIn) (s : St) : Prop where
  pc : s.pc = .at_ (off (if vfpSize k ≠ 0 then .callVfp else .call))
  r0 : s.r 0 = vs
  r1 : s.r 1 = frame
  r3 : vfpSize k ≠ 0 → s.r 3 = k.vfp.used ∧ k.vfp.used < 2 ^ 31
  space : stack = vs + vfpSize k
  room : stack + 16 ≤ frame
  sp : s.r 13 ≤ vs
  fp : s.r 11 < 2 ^ 32
  lr : s.r 14 < 2 ^ 32
  ifp : I.fp = leBytes 4 (s.r 11)
  ilr : I.lr = leBytes 4 (s.r 14)
  is : I.s = s.s

variable {c : Ctx} {lo : Nat}

theorem arm_bytes (m : Mem) (a : Nat) : leBytes 4 (leNat (m.rd a 4)) = m.rd a 4 := by
  have := leBytes_leNat (m.rd a 4)
  rwa [Mem.rd_length] at this

theorem arm_cat (f : Nat → List Byte) (n : Nat) : Spec.A32.cat f 0 n = singles f n := by
  unfold singles
  induction n with
  | zero => rfl
  | succ n ih => simp [Spec.A32.cat, ih, List.range_succ]

/-- The state in which the function is called. -/
def armCalled (k : Arm.Cif) (c : Ctx) (s : St) : St := callState c (if vfpSize k ≠ 0 then vfpState s else s)

theorem arm_call_safe {k : Arm.Cif} {vs stack frame : Nat} {I : CallIn} {s : St} (h : ArmCallPre k vs stack frame I s) :
    Safe c lo (Holds (fun _ => False) (s.r 14) s.r (fun p => p = s.r 13 ∨ p = frame + 8)
      (fun a t => a = s.r 2 ∧ Agree (level lo (stack + 16)) (armCalled k c s) t)) (level lo (s.r 0)) s := by
  obtain ⟨o1, o2⟩ := call_off
  have hroom := h.room
  have hst := h.space
  have h0 := h.r0
  have h1 := h.r1
  by_cases hv : vfpSize k ≠ 0
  · have hz : vfpSize k = 64 := by unfold vfpSize at *; split <;> simp_all
    have hpc := h.pc
    rw [if_pos hv, o1] at hpc
    obtain ⟨e3, l3⟩ := h.r3 hv
    refine vfp_head hpc (by rw [h.r0]; exact h.sp) (by omega) (by omega) h.fp h.lr rfl (fun _ _ _ => rfl) (.inl rfl) (.inr (by rw [h.r1]))
      fun t ht => ⟨rfl, ?_⟩
    unfold armCalled
    rw [if_pos hv, show stack + 16 = s.r 0 + 80 by omega]
    exact ht
  · have hz : vfpSize k = 0 := by omega
    have hpc := h.pc
    rw [if_neg hv, o2] at hpc
    refine sysv_head hpc (by rw [h.r0]; exact h.sp) (by omega) h.fp h.lr rfl (fun _ _ _ => rfl) (.inl rfl) (.inr (by rw [h.r1]))
      fun t ht => ⟨rfl, ?_⟩
    unfold armCalled
    rw [if_neg hv, show stack + 16 = s.r 0 + 16 by omega]
    exact ht

theorem arm_called {k : Arm.Cif} {vs stack frame : Nat} {I : CallIn} {s f : St} (h : ArmCallPre k vs stack frame I s) (hr : Reach c lo s f) {a : Nat}
    (ha : f.pc = .out a) : a = s.r 2 ∧ Agree (level lo (stack + 16)) (armCalled k c s) f := by
  have := (arm_call_safe (c := c) (lo := lo) h).reach hr (Agree.self _ _)
  unfold Holds at this
  rw [ha] at this
  exact this

/-- The registers in which the function is called. -/
theorem arm_called_regs {k : Arm.Cif} {vs stack frame : Nat} {I : CallIn} {s : St} (h : ArmCallPre k vs stack frame I s) :
    (∀ i, i < 4 → (armCalled k c s).r i = leNat ((s.mem.wr frame (words s.r [11, 14])).rd (stack + 4 * i) 4)) ∧
    (armCalled k c s).r 12 = leNat ((s.mem.wr frame (words s.r [11, 14])).rd (frame + 16) 4) ∧
    (armCalled k c s).r 13 = stack + 16 ∧ (armCalled k c s).r 14 = c.base + 44 ∧ (armCalled k c s).r 11 = frame ∧
    (∀ i, 4 ≤ i → i ≤ 10 → (armCalled k c s).r i = s.r i) ∧ (armCalled k c s).mem = s.mem.wr frame (words s.r [11, 14]) := by
  have hst := h.space
  have h0 := h.r0
  have h1 := h.r1
  obtain ⟨w, hw⟩ : ∃ w, (if vfpSize k ≠ 0 then vfpState s else s) = w := ⟨_, rfl⟩
  have e0 : w.r 0 = stack := by
    rw [← hw]
    split
    · have hz : vfpSize k = 64 := by rename_i hv; unfold vfpSize at *; split <;> simp_all
      show s.r 0 + 64 = _; omega
    · omega
  have ei : ∀ i, i ≠ 0 → w.r i = s.r i := by
    intro i hi
    rw [← hw]
    split
    · exact if_neg hi
    · rfl
  have em : w.mem = s.mem := by rw [← hw]; split <;> rfl
  have ef : framed w = s.mem.wr frame (words s.r [11, 14]) := by
    unfold framed
    rw [em, ei 1 (by omega), h1]
    simp only [words]
    rw [ei 11 (by omega), ei 14 (by omega)]
  unfold armCalled
  rw [hw]
  unfold callState
  dsimp only
  rw [ef, e0, ei 1 (by omega), h1]
  refine ⟨fun i hi => ?_, rfl, rfl, rfl, rfl, fun i h1 h2 => ?_, rfl⟩
  · match i, hi with
    | 0, _ => rfl
    | 1, _ => rfl
    | 2, _ => rfl
    | 3, _ => rfl
  · simp only [upd, loads]
    rw [if_neg (by omega), if_neg (by omega), if_neg (by omega), if_neg (by omega), if_neg (by omega), if_neg (by omega), if_neg (by omega),
      if_neg (by omega), if_neg (by omega), if_neg (by omega), ei i (by omega)]

/-- C97, calls: no execution of `ffi_call_VFP` or `ffi_call_SYSV`, however it is interrupted,
faults or is stuck; it calls the function with the registers, stack and memory that `enter`
says, r4 to r10 as they were, and the stack pointer aligned if the space was. -/
theorem C97_call_enter {k : Arm.Cif} {vs stack frame rv : Nat} {I : CallIn} {s f : St} (h : ArmCallPre k vs stack frame I s)
    (hr : Reach c lo s f) :
    (∃ a v, Reach c lo f v ∧ v.pc = .out a) ∧ (∀ o, f.pc = .at_ o → ∃ v, step c f = some v) ∧ ∀ a, f.pc = .out a →
      a = s.r 2 ∧ (∀ i, i < 4 → leBytes 4 (f.r i) = (enter k stack frame vs rv I s.mem).entry.r i) ∧
      (∀ i, i < 16 → f.s i = (enter k stack frame vs rv I s.mem).entry.s i) ∧ f.r 13 = (enter k stack frame vs rv I s.mem).entry.sp ∧
      leBytes 4 (f.r 12) = (enter k stack frame vs rv I s.mem).ip ∧ (vs % 8 = 0 → f.r 13 % 8 = 0) ∧ f.r 11 = frame ∧
      f.r 14 = c.base + 44 ∧ (∀ i, 4 ≤ i → i ≤ 10 → f.r i = s.r i) ∧
      ∀ y, y < lo ∨ stack + 16 ≤ y → f.mem y = (enter k stack frame vs rv I s.mem).entry.mem y := by
  have hS := arm_call_safe (c := c) (lo := lo) h
  refine ⟨hS.leaves hr (Agree.self _ _), fun o ho => hS.progress hr (Agree.self _ _) ho, fun a ha => ?_⟩
  obtain ⟨rfl, hag⟩ := arm_called h hr ha
  obtain ⟨e1, e2, e3, e4, e5, e6, e7⟩ := arm_called_regs (c := c) h
  have hm : (s.mem.wr frame I.fp).wr (frame + 4) I.lr = s.mem.wr frame (words s.r [11, 14]) := by
    rw [h.ifp, h.ilr, show words s.r [11, 14] = leBytes 4 (s.r 11) ++ leBytes 4 (s.r 14) by simp [words], wr_append, leBytes_length]
  have hst := h.space
  have h0 := h.r0
  refine ⟨rfl, fun i hi => ?_, fun i hi => ?_, ?_, ?_, fun h8 => ?_, ?_, ?_, fun i h1 h2 => ?_, fun y hy => ?_⟩
  · rw [hag.r, e1 i hi]
    show _ = ((s.mem.wr frame I.fp).wr (frame + 4) I.lr).rd (stack + 4 * i) 4
    rw [hm, arm_bytes]
  · rw [hag.v]
    show _ = (if vfpSize k ≠ 0 ∧ (i < 2 ∨ 3 < k.vfp.used ∧ i < 16) then s.mem.rd (vs + 4 * i) 4 else I.s i)
    rw [h.is]
    unfold armCalled
    by_cases hv : vfpSize k ≠ 0
    · obtain ⟨e, -⟩ := h.r3 hv
      rw [if_pos hv]
      show (if s.r 3 ≤ 3 then _ else _ : Nat → List Byte) i = _
      rw [e, h0]
      by_cases h3 : k.vfp.used ≤ 3
      · rw [if_pos h3]
        unfold loadS
        by_cases h2 : i < 2
        · rw [if_pos h2, if_pos ⟨hv, .inl h2⟩]
        · rw [if_neg h2, if_neg (by omega)]
      · rw [if_neg h3]
        unfold loadS
        rw [if_pos hi, if_pos ⟨hv, .inr ⟨by omega, hi⟩⟩]
    · rw [if_neg hv, if_neg (fun h => hv h.1)]
      rfl
  · rw [hag.r, e3]; rfl
  · rw [hag.r, e2]
    show _ = ((s.mem.wr frame I.fp).wr (frame + 4) I.lr).rd (frame + 16) 4
    rw [hm, arm_bytes]
  · rw [hag.r, e3]
    have : vfpSize k = 64 ∨ vfpSize k = 0 := by unfold vfpSize; split <;> simp
    omega
  · rw [hag.r, e5]
  · rw [hag.r, e4]
  · rw [hag.r, e6 i h1 h2]
  · rw [hag.mem y hy, e7]
    show _ = ((s.mem.wr frame I.fp).wr (frame + 4) I.lr) y
    rw [hm]

/-- What the called function, entered in state `f`, may do before it returns in state `u`: it
keeps r4 to r11, the stack pointer and the frame; the frame says that the result is of kind
`fl`, and it is not to be stored over fp and lr. -/
structure ArmCallRet (frame : Nat) (c : Ctx) (f u : St) (fl : Flag) : Prop where
  pc : ∃ o, f.r 14 = c.base + o ∧ u.pc = .at_ o
  sp : u.r 13 = f.r 13
  saved : Saved u.r f.r
  mem : ∀ y, frame ≤ y → y < frame + 8 → u.mem y = f.mem y
  flag : leNat (u.mem.rd (frame + 12) 4) = fl.num
  place : leNat (u.mem.rd (frame + 8) 4) + resLen fl ≤ frame ∨ frame + 8 ≤ leNat (u.mem.rd (frame + 8) 4)
  singles : ∀ i, i < 8 → (u.s i).length = 4

theorem arm_ofNum (f : Flag) : Flag.ofNum f.num = some f := by cases f <;> rfl

theorem arm_finish {frame : Nat} {fl : Flag} {u : St} (hf : leNat (u.mem.rd (frame + 12) 4) = fl.num) :
    finishAsm frame (armBytes u.r) u.s u.mem = some (resMem fl (upd u.r 2 (leNat (u.mem.rd (frame + 8) 4))) u.s u.mem) := by
  unfold finishAsm
  rw [hf, arm_ofNum]
  cases fl <;> simp [resMem, arm_cat, armBytes, upd, singles]

theorem arm_ret_safe {k : Arm.Cif} {vs stack frame : Nat} {I : CallIn} {s f u : St} {fl : Flag} {a : Nat} (h : ArmCallPre k vs stack frame I s)
    (hr : Reach c lo s f) (ha : f.pc = .out a) (hu : ArmCallRet frame c f u fl) :
    Safe c lo (Holds (fun _ => False) (s.r 14) s.r (fun p => p = frame + 8)
      (fun b t => b = s.r 14 ∧ t.r 13 = frame + 8 ∧ Saved t.r s.r ∧ (t.r 0 = u.r 0 ∧ t.r 1 = u.r 1) ∧ t.s = u.s ∧
        ∀ y, y < lo ∨ frame + 8 ≤ y → t.mem y = resMem fl (upd u.r 2 (leNat (u.mem.rd (frame + 8) 4))) u.s u.mem y)) (level lo frame) u := by
  obtain ⟨rfl, hag⟩ := arm_called h hr ha
  obtain ⟨e1, e2, e3, e4, e5, e6, e7⟩ := arm_called_regs (c := c) h
  obtain ⟨o, ho, hpc⟩ := hu.pc
  have ho : o = 44 := by rw [hag.r, e4] at ho; omega
  subst ho
  have hroom := h.room
  have h11 : u.r 11 = frame := by rw [hu.saved 11 (by omega) (by omega), hag.r, e5]
  have h13 : u.r 13 = stack + 16 := by rw [hu.sp, hag.r, e3]
  obtain ⟨w1, w2⟩ := rd_words2 (m := s.mem) (a := frame) h.fp h.lr
  have hm : ∀ j, j + 4 ≤ 8 → u.mem.rd (frame + j) 4 = (s.mem.wr frame (words s.r [11, 14])).rd (frame + j) 4 := by
    intro j hj
    refine Mem.rd_congr fun i hi => ?_
    rw [hu.mem _ (by omega) (by omega), hag.mem _ (.inr (by omega)), e7]
  have key := call_tail (c := c) (lo := lo) (X := fun _ => False) (ra := s.r 14) (g := s.r) (sp := fun p => p = frame + 8) (u := u) (f := fl)
    (post := fun b t => b = s.r 14 ∧ t.r 13 = frame + 8 ∧ Saved t.r s.r ∧ (t.r 0 = u.r 0 ∧ t.r 1 = u.r 1) ∧ t.s = u.s ∧
        ∀ y, y < lo ∨ frame + 8 ≤ y → t.mem y = resMem fl (upd u.r 2 (leNat (u.mem.rd (frame + 8) 4))) u.s u.mem y)
    hpc (by omega) (by rw [h11, hm 4 (by omega)]; exact w2) (by rw [h11]; have := hm 0 (by omega); rw [Nat.add_zero] at this; rw [this]; exact w1)
    (by rw [h11]; exact hu.flag) (by rw [h11]; exact hu.place) hu.singles
    (fun i h1 h2 => by rw [hu.saved i h1 (by omega), hag.r, e6 i h1 h2]) (by rw [h11])
    (fun t t1 t2 t3 t4 t5 t6 => ⟨rfl, by rw [t2, h11], t3, t4, t5, by rw [h11] at t6; exact t6⟩)
  rw [h11] at key
  exact key

/-- C97, return of calls: the result is stored as `finishAsm` says, no other memory of the
caller is changed, and the caller of `ffi_call_SYSV` gets its registers back.  Partial: the
stack pointer is not that of the call but `frame + 8`, as if the space had been pushed by the
caller (src/arm/sysv.S:139-155), so the caller must not depend on it. -/
theorem C97_call_return_partial {k : Arm.Cif} {vs stack frame : Nat} {I : CallIn} {s f u t : St} {fl : Flag} {a : Nat}
    (h : ArmCallPre k vs stack frame I s) (hr : Reach c lo s f) (ha : f.pc = .out a) (hu : ArmCallRet frame c f u fl) (ht : Reach c lo u t) :
    (∃ a v, Reach c lo t v ∧ v.pc = .out a) ∧ (∀ o, t.pc = .at_ o → ∃ v, step c t = some v) ∧ ∀ b, t.pc = .out b →
      b = s.r 14 ∧ t.r 13 = frame + 8 ∧ Saved t.r s.r ∧ ∃ M, finishAsm frame (armBytes u.r) u.s u.mem = some M ∧
        ∀ y, y < lo ∨ frame + 8 ≤ y → t.mem y = M y := by
  have hS := arm_ret_safe h hr ha hu
  refine ⟨hS.leaves ht (Agree.self _ _), fun o ho => hS.progress ht (Agree.self _ _) ho, fun b hb => ?_⟩
  have := hS.reach ht (Agree.self _ _)
  unfold Holds at this
  rw [hb] at this
  obtain ⟨t1, t2, t3, -, -, t6⟩ := this
  exact ⟨t1, t2, t3, _, arm_finish hu.flag, t6⟩

/-! ## Closures -/

/-- The ways a closure is entered. -/
inductive ArmEntry
  | closure | go | alt
  deriving DecidableEq

def ArmEntry.label (vfp : Bool) : ArmEntry → Lbl
  | .closure => .clos vfp
  | .go => .go vfp
  | .alt => .alt vfp

def ArmEntry.kind : ArmEntry → Kind
  | .go => .go
  | _ => .closure

/-- The address of the closure: in ip, or above what a static trampoline has saved. -/
def ArmEntry.obj (e : ArmEntry) (s : St) : Nat := match e with | .alt => leNat (s.mem.rd (s.r 13 + 4) 4) | _ => s.r 12

/-- The stack pointer of the caller. -/
def ArmEntry.top (e : ArmEntry) (s : St) : Nat := match e with | .alt => s.r 13 + 8 | _ => s.r 13

/-- A closure is entered: there are 120 bytes of stack, and the object is not in them. -/
structure ArmClosPre (e : ArmEntry) (vfp : Bool) (lo : Nat) (s : St) : Prop where
  pc : s.pc = .at_ (off (e.label vfp))
  room : lo + 120 ≤ e.top s
  top : e.top s < 2 ^ 32
  lr : s.r 14 < 2 ^ 32
  obj : e.obj s + 24 ≤ lo ∨ e.top s ≤ e.obj s
  singles : ∀ i, i < 16 → (s.s i).length = 4

/-- The state of the caller as `asmEntry` takes it. -/
def armRegs (e : ArmEntry) (s : St) : Spec.A32.Regs := ⟨armBytes s.r, s.s, s.mem, e.top s⟩

/-- What `asmEntry` says. -/
def armAsm (e : ArmEntry) (vfp : Bool) (s : St) : Arm.Asm := asmEntry vfp e.kind (e.obj s) (leBytes 4 (s.r 14)) (armRegs e s)

/-- The state in which the inner function is called. -/
def armInner (e : ArmEntry) (vfp : Bool) (c : Ctx) (s : St) : St :=
  closState c (decide (e = .go)) vfp (e.top s - 120) { s with r := upd (upd s.r 12 (e.obj s)) 13 (e.top s) }

theorem arm_clos_safe {e : ArmEntry} {vfp : Bool} {s : St} (h : ArmClosPre e vfp lo s) :
    ∃ D, Safe c lo (Holds (fun o => e = .alt ∧ o ∈ altOffs vfp) (s.r 14) s.r (fun p => p = e.top s)
      (fun a t => a = c.ext (if vfp then 1 else 0) ∧ Agree (dom lo (e.top s - 120) vfp) (armInner e vfp c s) t)) D s := by
  have h1 := h.room
  have h2 := h.top
  have h3 := h.obj
  have hpc := h.pc
  have same : ∀ e : ArmEntry, e ≠ .alt → ({ s with r := upd (upd s.r 12 (e.obj s)) 13 (e.top s) } : St) = s := by
    intro e he
    have hr : upd (upd s.r 12 (e.obj s)) 13 (e.top s) = s.r := by
      funext i
      have e1 : e.obj s = s.r 12 := by cases e <;> first | rfl | contradiction
      have e2 : e.top s = s.r 13 := by cases e <;> first | rfl | contradiction
      unfold upd
      rw [e1, e2]
      split
      · subst_vars; rfl
      · split
        · subst_vars; rfl
        · rfl
    rw [hr]
  obtain ⟨f, hf⟩ : ∃ f, e.top s = f + 120 := ⟨e.top s - 120, by omega⟩
  have hff : e.top s - 120 = f := by omega
  cases e with
  | alt =>
    have h13 : s.r 13 = f + 112 := by have : s.r 13 + 8 = f + 120 := hf; omega
    have ho : ArmEntry.alt.obj s = leNat (s.mem.rd (f + 116) 4) := by
      show leNat (s.mem.rd (s.r 13 + 4) 4) = _
      rw [h13]
    refine ⟨_, alt_head (f := f) hpc h13 h.lr (by omega) h.singles (by rw [← ho]; omega) (by omega) (by omega) (fun o ho => ⟨rfl, ho⟩) fun t ht => ⟨rfl, ?_⟩⟩
    rw [hff]
    unfold armInner
    rw [hff, hf, ho]
    exact ht
  | closure =>
    refine ⟨_, clos_head (f := f) (go := false) hpc hf h.lr (by omega) h.singles (by have : s.r 12 + 24 ≤ lo ∨ _ ≤ s.r 12 := h3; omega) (by omega) (by omega) fun t ht => ⟨rfl, ?_⟩⟩
    rw [hff]
    unfold armInner
    rw [hff, same _ (by decide)]
    exact ht
  | go =>
    refine ⟨_, clos_head (f := f) (go := true) hpc hf h.lr (by omega) h.singles (by have : s.r 12 + 24 ≤ lo ∨ _ ≤ s.r 12 := h3; omega) (by omega) (by omega) fun t ht => ⟨rfl, ?_⟩⟩
    rw [hff]
    unfold armInner
    rw [hff, same _ (by decide)]
    exact ht

theorem arm_entered {e : ArmEntry} {vfp : Bool} {s f : St} (h : ArmClosPre e vfp lo s) (hr : Reach c lo s f) {a : Nat} (ha : f.pc = .out a) :
    a = c.ext (if vfp then 1 else 0) ∧ Agree (dom lo (e.top s - 120) vfp) (armInner e vfp c s) f := by
  obtain ⟨D, hS⟩ := arm_clos_safe (c := c) h
  have := hS.reach hr (Agree.self _ _)
  unfold Holds at this
  rw [ha] at this
  exact this

/-- The registers in which the inner function is called. -/
theorem arm_inner_regs {e : ArmEntry} {vfp : Bool} {s : St} :
    (armInner e vfp c s).r 13 = e.top s - 120 ∧ (armInner e vfp c s).r 3 = e.top s - 120 + 8 ∧ (armInner e vfp c s).r 14 = c.base + site vfp ∧
    Saved (armInner e vfp c s).r s.r := by
  refine ⟨rfl, rfl, rfl, fun i h1 h2 => ?_⟩
  simp only [armInner, closState, upd]
  rw [if_neg (by omega), if_neg (by omega), if_neg (by omega), if_neg (by omega), if_neg (by omega), if_neg (by omega), if_neg (by omega),
    if_neg (by omega), if_neg (by omega), if_neg (by omega)]

/-- C97, closures: however it is interrupted, the entry point calls the inner function with
the fields, frame and memory that `asmEntry` says, r4 to r11 as they were, and the stack
pointer aligned if it was. -/
theorem C97_closure_enter {e : ArmEntry} {vfp : Bool} {s f : St} (h : ArmClosPre e vfp lo s) (hr : Reach c lo s f) :
    (∃ a v, Reach c lo f v ∧ v.pc = .out a) ∧ (∀ o, f.pc = .at_ o → ∃ v, step c f = some v) ∧ ∀ a, f.pc = .out a →
      a = c.ext (if vfp then 1 else 0) ∧ leBytes 4 (f.r 0) = (armAsm e vfp s).cif ∧ leBytes 4 (f.r 1) = (armAsm e vfp s).handler ∧
      leBytes 4 (f.r 2) = (armAsm e vfp s).userData ∧ f.r 3 = (armAsm e vfp s).frame ∧
      f.r 13 + 8 = (armAsm e vfp s).frame ∧ (e.top s % 8 = 0 → f.r 13 % 8 = 0) ∧ f.r 14 = c.base + site vfp ∧ Saved f.r s.r ∧
      ∀ y, y < lo ∨ e.top s - 16 ≤ y ∨ e.top s - 120 ≤ y ∧ y < e.top s - 112 ∨ vfp = true ∧ e.top s - 112 ≤ y ∧ y < e.top s - 48 →
        f.mem y = (armAsm e vfp s).mem y := by
  obtain ⟨D, hS⟩ := arm_clos_safe (c := c) h
  refine ⟨hS.leaves hr (Agree.self _ _), fun o ho => hS.progress hr (Agree.self _ _) ho, fun a ha => ?_⟩
  obtain ⟨rfl, hag⟩ := arm_entered h hr ha
  obtain ⟨e13, e3, e14, esv⟩ := arm_inner_regs (e := e) (vfp := vfp) (s := s) (c := c)
  have h1 := h.room
  have h2 := h.top
  have h3 := h.obj
  have hw : words (upd (upd s.r 12 (e.obj s)) 13 (e.top s)) [0, 1, 2, 3] = Spec.A32.cat (armBytes s.r) 0 4 := by
    simp [words, Spec.A32.cat, armBytes, upd]
  obtain ⟨M, hM⟩ : ∃ M, s.mem.wr (e.top s - 16) (Spec.A32.cat (armBytes s.r) 0 4) = M := ⟨_, rfl⟩
  have hcl : (Spec.A32.cat (armBytes s.r) 0 4).length = 16 := by simp [Spec.A32.cat, armBytes]
  have hrd : ∀ k, k ≤ 20 → M.rd (e.obj s + k) 4 = s.mem.rd (e.obj s + k) 4 := by
    intro k hk
    rw [← hM]
    exact Mem.rd_wr_disj _ _ _ _ _ (by rw [hcl]; omega)
  have e104 : e.top s - 120 + 104 = e.top s - 16 := by omega
  refine ⟨rfl, ?_, ?_, ?_, ?_, ?_, fun h8 => ?_, by rw [hag.r, e14], by rw [hag.r]; exact esv, fun y hy => ?_⟩
  · rw [hag.r]
    show leBytes 4 (leNat (s.mem.rd (e.obj s + cifAt (decide (e = .go))) 4)) = _
    rw [arm_bytes]
    unfold armAsm asmEntry
    dsimp only [armRegs]
    rw [hM]
    cases e
    · exact (hrd 12 (by omega)).symm
    · exact (hrd 4 (by omega)).symm
    · exact (hrd 12 (by omega)).symm
  · rw [hag.r]
    show leBytes 4 (leNat (s.mem.rd (e.obj s + cifAt (decide (e = .go)) + 4) 4)) = _
    rw [arm_bytes]
    unfold armAsm asmEntry
    dsimp only [armRegs]
    rw [hM]
    cases e
    · exact (hrd 16 (by omega)).symm
    · exact (hrd 8 (by omega)).symm
    · exact (hrd 16 (by omega)).symm
  · rw [hag.r]
    show leBytes 4 (udata (decide (e = .go)) s.mem (e.obj s)) = _
    unfold armAsm asmEntry
    dsimp only [armRegs]
    rw [hM]
    cases e
    · show leBytes 4 (leNat (s.mem.rd (_ + 20) 4)) = M.rd (_ + 20) 4
      rw [arm_bytes]; exact (hrd 20 (by omega)).symm
    · rfl
    · show leBytes 4 (leNat (s.mem.rd (_ + 20) 4)) = M.rd (_ + 20) 4
      rw [arm_bytes]; exact (hrd 20 (by omega)).symm
  · rw [hag.r, e3]; show _ = e.top s - 16 - 96; omega
  · rw [hag.r, e13]; show _ = e.top s - 16 - 96; omega
  · rw [hag.r, e13]; omega
  · have hd : dom lo (e.top s - 120) vfp y := by
      rcases hy with hy | hy | hy | ⟨hv, hy⟩
      · exact .inl hy
      · exact .inr (.inl (by omega))
      · exact .inr (.inr (.inl (by omega)))
      · exact .inr (.inr (.inr ⟨hv, by omega⟩))
    rw [hag.mem y hd]
    have hl : (armInner e vfp c s).mem = frameMem vfp (e.top s - 120) (s.r 14) s.s
        (s.mem.wr (e.top s - 120 + 104) (words (upd (upd s.r 12 (e.obj s)) 13 (e.top s)) [0, 1, 2, 3])) := by
      unfold armInner closState
      dsimp only
      rw [show upd (upd s.r 12 (e.obj s)) 13 (e.top s) 14 = s.r 14 from rfl]
    rw [hl, e104, hw, hM]
    obtain ⟨F, hF⟩ : ∃ F, e.top s = F + 120 := ⟨e.top s - 120, by omega⟩
    unfold armAsm asmEntry frameMem
    dsimp only [armRegs]
    rw [hM, arm_cat, hF, List.append_nil, wr_append, leBytes_length, show F + 120 - 16 - 96 - 8 = F by omega, show F + 120 - 16 - 96 - 4 = F + 4 by omega,
      show F + 120 - 16 - 96 = F + 8 by omega, show F + 120 - 120 = F by omega]

/-- What the inner function, entered in state `f`, may do before it returns in state `u`: it
keeps r4 to r11, the stack pointer and the two words there, and returns the kind of result. -/
structure ArmClosRet (c : Ctx) (f u : St) (fl : Flag) : Prop where
  pc : ∃ o, f.r 14 = c.base + o ∧ u.pc = .at_ o
  sp : u.r 13 = f.r 13
  saved : Saved u.r f.r
  mem : ∀ y, f.r 13 ≤ y → y < f.r 13 + 8 → u.mem y = f.mem y
  flag : u.r 0 = fl.num

theorem arm_closret_safe {e : ArmEntry} {vfp : Bool} {s f u : St} {fl : Flag} {a : Nat} (h : ArmClosPre e vfp lo s) (hr : Reach c lo s f)
    (ha : f.pc = .out a) (hu : ArmClosRet c f u fl) :
    u.mem.rd (e.top s - 120) 4 = leBytes 4 (e.top s) ∧ u.mem.rd (e.top s - 120 + 4) 4 = leBytes 4 (s.r 14) ∧
    Safe c lo (Holds (fun _ => False) (s.r 14) s.r (fun p => p = e.top s)
      (fun b t => b = s.r 14 ∧ t.r 13 = e.top s ∧ Saved t.r s.r ∧ t.r 0 = exR fl u.r u.mem (e.top s - 48) 0 ∧ t.r 1 = exR fl u.r u.mem (e.top s - 48) 1 ∧
        t.s = exS fl u.s u.mem (e.top s - 48) ∧ ∀ y, y < lo ∨ e.top s ≤ y → t.mem y = u.mem y)) (level lo (e.top s - 120)) u := by
  obtain ⟨rfl, hag⟩ := arm_entered h hr ha
  obtain ⟨e13, e3, e14, esv⟩ := arm_inner_regs (e := e) (vfp := vfp) (s := s) (c := c)
  have h1 := h.room
  have h2 := h.top
  obtain ⟨F, hF⟩ : ∃ F, e.top s = F + 120 := ⟨e.top s - 120, by omega⟩
  have hFF : e.top s - 120 = F := by omega
  obtain ⟨o, ho, hpc⟩ := hu.pc
  have ho : o = site vfp := by rw [hag.r, e14] at ho; omega
  subst ho
  have hm : ∀ y, F ≤ y → y < F + 8 → u.mem y = (armInner e vfp c s).mem y := by
    intro y y1 y2
    rw [hu.mem y (by rw [hag.r, e13]; omega) (by rw [hag.r, e13]; omega), hag.mem y]
    exact .inr (.inr (.inl (by omega)))
  obtain ⟨m1, hm1⟩ : ∃ m1, (armInner e vfp c s).mem = Mem.wr m1 F (leBytes 4 (F + 120) ++ (leBytes 4 (s.r 14) ++ [])) := by
    unfold armInner closState frameMem
    rw [hFF]
    exact ⟨_, rfl⟩
  have hc : Code (armInner e vfp c s).mem F (leBytes 4 (F + 120) ++ (leBytes 4 (s.r 14) ++ [])) := by rw [hm1]; exact Code.same
  obtain ⟨c1, hc⟩ := hc.append
  obtain ⟨c2, -⟩ := hc.append
  rw [leBytes_length] at c2
  have r1 : u.mem.rd F 4 = leBytes 4 (F + 120) := by
    rw [Mem.rd_congr (m := (armInner e vfp c s).mem) fun i hi => hm _ (by omega) (by omega)]; unfold Code at c1; rw [leBytes_length] at c1; exact c1
  have r2 : u.mem.rd (F + 4) 4 = leBytes 4 (s.r 14) := by
    rw [Mem.rd_congr (m := (armInner e vfp c s).mem) fun i hi => hm _ (by omega) (by omega)]; unfold Code at c2; rw [leBytes_length] at c2; exact c2
  have ln : ∀ n, n < 2 ^ 32 → leNat (leBytes 4 n) = n := fun n hn => by rw [leNat_leBytes, show 256 ^ 4 = 2 ^ 32 from rfl, Nat.mod_eq_of_lt hn]
  rw [hFF, hF, show F + 120 - 48 = F + 72 by omega]
  refine ⟨r1, r2, ?_⟩
  exact clos_tail (f := F) (sp0 := F + 120) hpc (by rw [hu.sp, hag.r, e13, hFF]) hu.flag (by rw [r2, ln _ h.lr]) (by rw [r1, ln _ (by omega)]) rfl rfl
    (fun i i1 i2 => by rw [hu.saved i i1 i2, hag.r, esv i i1 i2]) (fun t t1 t2 t3 t4 t5 t6 t7 => ⟨rfl, t2, t3, t4, t5, t6, t7⟩)

/-- C97, return of closures: the caller gets its registers and stack pointer back and the
result in the registers that `closureExit` says; all others are those of the inner function. -/
theorem C97_closure_return {e : ArmEntry} {vfp : Bool} {s f u t : St} {fl : Flag} {a : Nat} (h : ArmClosPre e vfp lo s) (hr : Reach c lo s f)
    (ha : f.pc = .out a) (hu : ArmClosRet c f u fl) (ht : Reach c lo u t) :
    (∃ a v, Reach c lo t v ∧ v.pc = .out a) ∧ (∀ o, t.pc = .at_ o → ∃ v, step c t = some v) ∧ ∀ b, t.pc = .out b →
      b = s.r 14 ∧ (closureExit fl (armAsm e vfp s).frame u.mem).pc = leBytes 4 b ∧
      t.r 13 = e.top s ∧ (closureExit fl (armAsm e vfp s).frame u.mem).sp = t.r 13 ∧ Saved t.r s.r ∧
      (∀ i, i < 2 → leBytes 4 (t.r i) = ((closureExit fl (armAsm e vfp s).frame u.mem).r i).getD (leBytes 4 (u.r i))) ∧
      (∀ i, t.s i = ((closureExit fl (armAsm e vfp s).frame u.mem).s i).getD (u.s i)) ∧
      ∀ y, y < lo ∨ e.top s ≤ y → t.mem y = u.mem y := by
  obtain ⟨r1, r2, hS⟩ := arm_closret_safe h hr ha hu
  refine ⟨hS.leaves ht (Agree.self _ _), fun o ho => hS.progress ht (Agree.self _ _) ho, fun b hb => ?_⟩
  have := hS.reach ht (Agree.self _ _)
  unfold Holds at this
  rw [hb] at this
  obtain ⟨t1, t2, t3, t4, t5, t6, t7⟩ := this
  have h1 := h.room
  have h2 := h.top
  have hfr : (armAsm e vfp s).frame = e.top s - 112 := by show e.top s - 16 - 96 = _; omega
  refine ⟨t1, ?_, t2, ?_, t3, fun i hi => ?_, fun i => ?_, t7⟩
  · show u.mem.rd ((armAsm e vfp s).frame - 4) 4 = _
    rw [hfr, show e.top s - 112 - 4 = e.top s - 120 + 4 by omega, r2, t1]
  · show leNat (u.mem.rd ((armAsm e vfp s).frame - 8) 4) = _
    rw [hfr, show e.top s - 112 - 8 = e.top s - 120 by omega, r1, t2, leNat_leBytes, show 256 ^ 4 = 2 ^ 32 from rfl, Nat.mod_eq_of_lt h2]
  · rw [hfr]
    have h0 : e.top s - 112 + 64 = e.top s - 48 := by omega
    unfold closureExit
    dsimp only
    rw [h0]
    match i, hi with
    | 0, _ =>
      rw [t4]
      cases fl <;> simp [exR, upd, arm_bytes]
    | 1, _ =>
      rw [t5]
      cases fl <;> simp [exR, upd, arm_bytes]
  · rw [hfr, t6]
    have h0 : e.top s - 112 + 64 = e.top s - 48 := by omega
    unfold closureExit
    dsimp only
    rw [h0]
    cases fl <;> simp only [exS, loadS] <;> first
      | rfl
      | split <;> rfl

/-! ## Unwinding -/

/-- C98, calls: at every instruction, however it is interrupted, the call frame table leads to
the caller: return address and r4 to r11.  Partial: the stack pointer is that of the caller
only before the frame is entered, then `frame + 8` ("a bit of a lie", src/arm/sysv.S:155). -/
theorem C98_call_enter_partial {k : Arm.Cif} {vs stack frame : Nat} {I : CallIn} {s t : St} (h : ArmCallPre k vs stack frame I s)
    (hr : Reach c lo s t) {o : Nat} (ho : t.pc = .at_ o) : Unwinds o t.r t.mem (s.r 14) s.r (fun p => p = s.r 13 ∨ p = frame + 8) := by
  have := (arm_call_safe (c := c) (lo := lo) h).reach hr (Agree.self _ _)
  unfold Holds at this
  rw [ho] at this
  exact this.resolve_left id

theorem C98_call_return_partial {k : Arm.Cif} {vs stack frame : Nat} {I : CallIn} {s f u t : St} {fl : Flag} {a : Nat}
    (h : ArmCallPre k vs stack frame I s) (hr : Reach c lo s f) (ha : f.pc = .out a) (hu : ArmCallRet frame c f u fl) (ht : Reach c lo u t)
    {o : Nat} (ho : t.pc = .at_ o) : Unwinds o t.r t.mem (s.r 14) s.r (fun p => p = frame + 8) := by
  have := (arm_ret_safe h hr ha hu).reach ht (Agree.self _ _)
  unfold Holds at this
  rw [ho] at this
  exact this.resolve_left id

/-- The words of the frame while the function runs. -/
theorem arm_frame_words {k : Arm.Cif} {vs stack frame : Nat} {I : CallIn} {s f : St} {a : Nat} (h : ArmCallPre k vs stack frame I s)
    (hr : Reach c lo s f) (ha : f.pc = .out a) {m : Mem} (hm : ∀ y, frame ≤ y → y < frame + 8 → m y = f.mem y) :
    leNat (m.rd frame 4) = s.r 11 ∧ leNat (m.rd (frame + 4) 4) = s.r 14 := by
  obtain ⟨rfl, hag⟩ := arm_called h hr ha
  obtain ⟨e1, e2, e3, e4, e5, e6, e7⟩ := arm_called_regs (c := c) h
  have hroom := h.room
  obtain ⟨w1, w2⟩ := rd_words2 (m := s.mem) (a := frame) h.fp h.lr
  have key : ∀ y, frame ≤ y → y < frame + 8 → m y = (s.mem.wr frame (words s.r [11, 14])) y := by
    intro y y1 y2
    rw [hm y y1 y2, hag.mem y (.inr (by omega)), e7]
  constructor
  · rw [Mem.rd_congr fun i hi => key _ (by omega) (by omega)]; exact w1
  · rw [Mem.rd_congr fun i hi => key _ (by omega) (by omega)]; exact w2

theorem arm_row_inside : rowAt (44 - 4) = some ⟨11, 8, [(14, -4), (11, -8)]⟩ := by decide +kernel

/-- C98, inside the function: an unwinder that has found the registers `r` its caller had, and
looks up the instruction before the return address, goes on to the caller of `ffi_call_SYSV`. -/
theorem C98_call_inside_partial {k : Arm.Cif} {vs stack frame : Nat} {I : CallIn} {s f : St} {a : Nat} (h : ArmCallPre k vs stack frame I s)
    (hr : Reach c lo s f) (ha : f.pc = .out a) {r : Nat → Nat} {m : Mem} (hs : Saved r f.r)
    (hm : ∀ y, frame ≤ y → y < frame + 8 → m y = f.mem y) :
    ∃ o, f.r 14 = c.base + o ∧ Unwinds (o - 4) r m (s.r 14) s.r (fun p => p = frame + 8) := by
  obtain ⟨w1, w2⟩ := arm_frame_words h hr ha hm
  obtain ⟨rfl, hag⟩ := arm_called h hr ha
  obtain ⟨e1, e2, e3, e4, e5, e6, e7⟩ := arm_called_regs (c := c) h
  have h11 : r 11 = frame := by rw [hs 11 (by omega) (by omega), hag.r, e5]
  refine ⟨44, by rw [hag.r, e4], _, arm_row_inside, ?_, ?_, fun i h1 h2 => ?_⟩
  · show leNat (m.rd (((r 11 + 8 : Nat) : Int) + (-4)).toNat 4) = _
    rw [h11, show (((frame + 8 : Nat) : Int) + (-4)).toNat = frame + 4 by omega, w2]
  · show r 11 + 8 = _; rw [h11]
  · by_cases h : i = 11
    · subst h
      show leNat (m.rd (((r 11 + 8 : Nat) : Int) + (-8)).toNat 4) = _
      rw [h11, show (((frame + 8 : Nat) : Int) + (-8)).toNat = frame by omega, w1]
    · have : List.lookup i [(14, (-4 : Int)), (11, -8)] = none := by
        simp only [List.lookup]
        rw [show (i == 14) = false by simp; omega, show (i == 11) = false by simpa using h]
      unfold unwind
      dsimp only
      rw [this]
      dsimp only
      rw [if_neg (by omega), hs i h1 h2, hag.r, e6 i h1 (by omega)]

/-- C98, the exception table of `ffi_call_SYSV` does the same. -/
theorem C98_call_ehabi_partial {k : Arm.Cif} {vs stack frame : Nat} {I : CallIn} {s f : St} {a : Nat} (h : ArmCallPre k vs stack frame I s)
    (hr : Reach c lo s f) (ha : f.pc = .out a) {r : Nat → Nat} {m : Mem} (hs : Saved r f.r)
    (hm : ∀ y, frame ≤ y → y < frame + 8 → m y = f.mem y) :
    ehabi m callOps r 14 = s.r 14 ∧ ehabi m callOps r 13 = frame + 8 ∧ Saved (ehabi m callOps r) s.r := by
  obtain ⟨w1, w2⟩ := arm_frame_words h hr ha hm
  obtain ⟨rfl, hag⟩ := arm_called h hr ha
  obtain ⟨e1, e2, e3, e4, e5, e6, e7⟩ := arm_called_regs (c := c) h
  have h11 : r 11 = frame := by rw [hs 11 (by omega) (by omega), hag.r, e5]
  have key : ehabi m callOps r = upd (upd (upd (upd r 13 frame) 11 (s.r 11)) 14 (s.r 14)) 13 (frame + 8) := by
    show (if 13 ∈ [11, 14] then upd (upd (upd r 13 (r 11)) 11 (leNat (m.rd (r 11) 4))) 14 (leNat (m.rd (r 11 + 4) 4)) else upd (upd (upd (upd r 13 (r 11)) 11 (leNat (m.rd (r 11) 4))) 14 (leNat (m.rd (r 11 + 4) 4))) 13 (r 11 + 8) : Nat → Nat) = _
    rw [if_neg (by simp), h11, w1, w2]
  rw [key]
  refine ⟨rfl, rfl, fun i h1 h2 => ?_⟩
  simp only [upd]
  rw [if_neg (by omega), if_neg (by omega)]
  split
  · subst_vars; rfl
  · rw [if_neg (by omega), hs i h1 h2, hag.r, e6 i h1 (by omega)]

/-- C98, closures: at every instruction of the entry points, the call frame table leads to the
caller with its stack pointer.  Partial: the entry points for static trampolines, before they
branch to the others, are excepted. -/
theorem C98_closure_enter_partial {e : ArmEntry} {vfp : Bool} {s t : St} (h : ArmClosPre e vfp lo s) (hr : Reach c lo s t) {o : Nat}
    (ho : t.pc = .at_ o) (hx : ¬ (e = .alt ∧ o ∈ altOffs vfp)) : Unwinds o t.r t.mem (s.r 14) s.r (fun p => p = e.top s) := by
  obtain ⟨D, hS⟩ := arm_clos_safe (c := c) h
  have := hS.reach hr (Agree.self _ _)
  unfold Holds at this
  rw [ho] at this
  exact this.resolve_left hx

theorem C98_closure_return {e : ArmEntry} {vfp : Bool} {s f u t : St} {fl : Flag} {a : Nat} (h : ArmClosPre e vfp lo s) (hr : Reach c lo s f)
    (ha : f.pc = .out a) (hu : ArmClosRet c f u fl) (ht : Reach c lo u t) {o : Nat} (ho : t.pc = .at_ o) :
    Unwinds o t.r t.mem (s.r 14) s.r (fun p => p = e.top s) := by
  obtain ⟨-, -, hS⟩ := arm_closret_safe h hr ha hu
  have := hS.reach ht (Agree.self _ _)
  unfold Holds at this
  rw [ho] at this
  exact this.resolve_left id

theorem arm_row_site (vfp : Bool) : rowAt (site vfp - 4) = some ⟨13, 120, [(14, -116)]⟩ := by cases vfp <;> decide +kernel

/-- C98, inside the inner function and the handler, by the call frame table and by the
exception table. -/
theorem C98_closure_inside {e : ArmEntry} {vfp : Bool} {s f : St} {a : Nat} (h : ArmClosPre e vfp lo s) (hr : Reach c lo s f)
    (ha : f.pc = .out a) {r : Nat → Nat} {m : Mem} (hs : Saved r f.r) (hsp : r 13 = f.r 13)
    (hm : ∀ y, f.r 13 ≤ y → y < f.r 13 + 8 → m y = f.mem y) :
    (∃ o, f.r 14 = c.base + o ∧ Unwinds (o - 4) r m (s.r 14) s.r (fun p => p = e.top s)) ∧
    ehabi m closOps r 14 = s.r 14 ∧ ehabi m closOps r 13 = e.top s ∧ Saved (ehabi m closOps r) s.r := by
  have ret : ArmClosRet c f ⟨.at_ (site vfp), upd r 0 0, f.s, f.le, m⟩ .vfpS := by
    obtain ⟨-, hag⟩ := arm_entered h hr ha
    exact ⟨⟨_, by rw [hag.r, arm_inner_regs.2.2.1], rfl⟩, hsp, Asm.up hs (.inl (by omega)), hm, rfl⟩
  obtain ⟨r1, r2, -⟩ := arm_closret_safe h hr ha ret
  dsimp only at r1 r2
  obtain ⟨-, hag⟩ := arm_entered h hr ha
  obtain ⟨e13, e3, e14, esv⟩ := arm_inner_regs (e := e) (vfp := vfp) (s := s) (c := c)
  have h1 := h.room
  have h2 := h.top
  have ln : ∀ n, n < 2 ^ 32 → leNat (leBytes 4 n) = n := fun n hn => by rw [leNat_leBytes, show 256 ^ 4 = 2 ^ 32 from rfl, Nat.mod_eq_of_lt hn]
  obtain ⟨F, hF⟩ : ∃ F, e.top s = F + 120 := ⟨e.top s - 120, by omega⟩
  have h13 : r 13 = F := by rw [hsp, hag.r, e13]; omega
  rw [show e.top s - 120 = F by omega] at r1 r2
  have hsv : Saved r s.r := fun i h1 h2 => by rw [hs i h1 h2, hag.r, esv i h1 h2]
  refine ⟨⟨site vfp, by rw [hag.r, e14], _, arm_row_site vfp, ?_, ?_, fun i h1 h2 => ?_⟩, ?_⟩
  · show leNat (m.rd (((r 13 + 120 : Nat) : Int) + (-116)).toNat 4) = _
    rw [h13, show (((F + 120 : Nat) : Int) + (-116)).toNat = F + 4 by omega, r2, ln _ h.lr]
  · show r 13 + 120 = _; omega
  · have : List.lookup i [(14, (-116 : Int))] = none := by
      simp only [List.lookup]
      rw [show (i == 14) = false by simp; omega]
    unfold unwind
    dsimp only
    rw [this]
    dsimp only
    rw [if_neg (by omega), hsv i h1 h2]
  · have key : ehabi m closOps r = upd (upd r 13 (e.top s)) 14 (s.r 14) := by
      show (if 13 ∈ [13, 14] then upd (upd r 13 (leNat (m.rd (r 13) 4))) 14 (leNat (m.rd (r 13 + 4) 4)) else upd (upd (upd r 13 (leNat (m.rd (r 13) 4))) 14 (leNat (m.rd (r 13 + 4) 4))) 13 (r 13 + 8)) = _
      rw [if_pos (by simp), h13, r1, r2, ln _ h2, ln _ h.lr]
    rw [key]
    exact ⟨rfl, rfl, Asm.up (Asm.up hsv (.inr (by omega))) (.inr (by omega))⟩

/-- C98 violated: at all three instructions of the entry points for static trampolines there
is no call frame information (`.cfi_startproc` is missing, src/arm/sysv.S:374-401). -/
theorem C98_alt_missing {vfp : Bool} {s : St} (h : ArmClosPre .alt vfp lo s) :
    (∃ o, s.pc = .at_ o ∧ ∀ ra g sp, ¬ Unwinds o s.r s.mem ra g sp) ∧ ∀ o ∈ altOffs vfp, rowAt o = none ∧ (fetch o).isSome := by
  refine ⟨⟨_, h.pc, fun ra g sp hu => ?_⟩, altNone vfp⟩
  obtain ⟨row, hr, -⟩ := hu
  have := (altNone vfp (off (.alt vfp)) (.head _)).1
  change rowAt (off (.alt vfp)) = some row at hr
  rw [this] at hr
  cases hr

/-! ## Cases -/

/-- A hard-float signature that uses s0 to s3. -/
def armAsmCif : Arm.Cif := ⟨true, .vfpD, 16, ⟨4, 4, [0, 2]⟩⟩

/-- `ffi_call_VFP` called with its space at 4096, and a frame for a `double` at 8192. -/
def armAsmCall : St := ⟨.at_ (off .callVfp), fun i => [4096, 4176, 65536, 4].getD i (if i = 13 then 4096 else 7), fun _ => [1, 2, 3, 4], false,
  fun y => if y = 4176 + 9 then 32 else if y = 4176 + 12 then 1 else 0⟩

def armAsmIn : CallIn := ⟨5000, fun _ => 0, [], none, [], [7, 0, 0, 0], [7, 0, 0, 0], fun _ => [1, 2, 3, 4]⟩

theorem armAsm_call : ArmCallPre armAsmCif 4096 4160 4176 armAsmIn armAsmCall :=
  ⟨rfl, rfl, rfl, fun _ => by decide, rfl, by decide, by decide, by decide, by decide, by decide, by decide, rfl⟩

example (hr : Reach c lo armAsmCall f) := C97_call_enter (rv := 8192) armAsm_call hr
example (hr : Reach c lo armAsmCall t) (o : Nat) (ho : t.pc = .at_ o) := C98_call_enter_partial armAsm_call hr ho

/-- The state after the function. -/
def armAsmRet (c : Ctx) : St := { armCalled armAsmCif c armAsmCall with pc := .at_ 44 }

theorem armAsm_ret {f : St} {a : Nat} (hr : Reach c 100 armAsmCall f) (ha : f.pc = .out a) : ArmCallRet 4176 c f (armAsmRet c) .vfpD := by
  obtain ⟨-, hag⟩ := arm_called armAsm_call hr ha
  obtain ⟨e1, e2, e3, e4, e5, e6, e7⟩ := arm_called_regs (c := c) armAsm_call
  refine ⟨⟨44, by rw [hag.r, e4], rfl⟩, by rw [hag.r]; rfl, fun i _ _ => by rw [hag.r]; rfl, fun y h1 h2 => (hag.mem y (.inr (by omega))).symm, ?_, ?_, ?_⟩
  · show leNat ((armCalled armAsmCif c armAsmCall).mem.rd (4176 + 12) 4) = 1
    rw [e7]; decide +kernel
  · refine .inr ?_
    show _ ≤ leNat ((armCalled armAsmCif c armAsmCall).mem.rd (4176 + 8) 4)
    rw [e7]; decide +kernel
  · intro i hi
    have : ∀ i, i < 8 → ((vfpState armAsmCall).s i).length = 4 := by decide +kernel
    exact this i hi

example (hr : Reach c 100 armAsmCall f) (ha : f.pc = .out a) (ht : Reach c 100 (armAsmRet c) t) :=
  C97_call_return_partial armAsm_call hr ha (armAsm_ret hr ha) ht
example (hr : Reach c 100 armAsmCall f) (ha : f.pc = .out a) (ht : Reach c 100 (armAsmRet c) t) (ho : t.pc = .at_ o) :=
  C98_call_return_partial armAsm_call hr ha (armAsm_ret hr ha) ht ho
example (hr : Reach c lo armAsmCall f) (ha : f.pc = .out a) :=
  C98_call_inside_partial armAsm_call hr ha (r := f.r) (m := f.mem) (fun _ _ _ => rfl) (fun _ _ _ => rfl)
example (hr : Reach c lo armAsmCall f) (ha : f.pc = .out a) :=
  C98_call_ehabi_partial armAsm_call hr ha (r := f.r) (m := f.mem) (fun _ _ _ => rfl) (fun _ _ _ => rfl)

/-- A closure at 65536 entered with the stack pointer at 4096 (less what a static trampoline
pushes). -/
def armAsmEntry (e : ArmEntry) (vfp : Bool) : St :=
  ⟨.at_ (off (e.label vfp)), fun i => if i = 13 then (if e = .alt then 4088 else 4096) else if i = 12 then 65536 else i, fun _ => [1, 2, 3, 4], false,
    fun y => if y = 4094 then 1 else if 65536 ≤ y ∧ y < 65560 then BitVec.ofNat 8 y else 0⟩

theorem armAsm_entry (e : ArmEntry) (vfp : Bool) : ArmClosPre e vfp 100 (armAsmEntry e vfp) := by
  refine ⟨rfl, ?_, ?_, ?_, .inr ?_, fun _ _ => rfl⟩ <;> cases e <;> cases vfp <;> decide +kernel

example (e : ArmEntry) (vfp : Bool) (hr : Reach c 100 (armAsmEntry e vfp) f) := C97_closure_enter (armAsm_entry e vfp) hr
example (e : ArmEntry) (vfp : Bool) (hr : Reach c 100 (armAsmEntry e vfp) t) (ho : t.pc = .at_ o) (hx : ¬ (e = .alt ∧ o ∈ altOffs vfp)) :=
  C98_closure_enter_partial (armAsm_entry e vfp) hr ho hx
example (vfp : Bool) := C98_alt_missing (armAsm_entry .alt vfp)

theorem armAsm_closret {e : ArmEntry} {vfp : Bool} {f : St} {a : Nat} (hr : Reach c 100 (armAsmEntry e vfp) f) (ha : f.pc = .out a) (fl : Flag) :
    ArmClosRet c f { f with pc := .at_ (site vfp), r := upd f.r 0 fl.num } fl := by
  obtain ⟨-, hag⟩ := arm_entered (armAsm_entry e vfp) hr ha
  exact ⟨⟨_, by rw [hag.r, arm_inner_regs.2.2.1], rfl⟩, rfl, Asm.up (fun _ _ _ => rfl) (.inl (by omega)), fun _ _ _ => rfl, rfl⟩

example (e : ArmEntry) (vfp : Bool) (fl : Flag) (hr : Reach c 100 (armAsmEntry e vfp) f) (ha : f.pc = .out a)
    (ht : Reach c 100 { f with pc := .at_ (site vfp), r := upd f.r 0 fl.num } t) :=
  C97_closure_return (armAsm_entry e vfp) hr ha (armAsm_closret hr ha fl) ht
example (e : ArmEntry) (vfp : Bool) (fl : Flag) (hr : Reach c 100 (armAsmEntry e vfp) f) (ha : f.pc = .out a)
    (ht : Reach c 100 { f with pc := .at_ (site vfp), r := upd f.r 0 fl.num } t) (ho : t.pc = .at_ o) :=
  C98_closure_return (armAsm_entry e vfp) hr ha (armAsm_closret hr ha fl) ht ho
example (e : ArmEntry) (vfp : Bool) (hr : Reach c 100 (armAsmEntry e vfp) f) (ha : f.pc = .out a) :=
  C98_closure_inside (armAsm_entry e vfp) hr ha (r := f.r) (m := f.mem) (fun _ _ _ => rfl) rfl (fun _ _ _ => rfl)

end Verif.Props
