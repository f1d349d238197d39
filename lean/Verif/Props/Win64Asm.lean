import Verif.Win64.AsmRefine
import Verif.X64.TrampLemmas
import Verif.Props.Win64

/-! The Windows x64 assembly entry points (C90, C91, C92). -/
namespace Verif.Props
open Verif Spec Spec.Win64 Verif.Win64 Verif.Win64.Asm

/-! ## Conditions -/

/-- The general register of slot `k`: rcx, rdx, r8, r9. -/
def w64Gpr : Nat → Nat
  | 0 => 1
  | 1 => 2
  | 2 => 8
  | _ => 9

/-- A machine state at the entry of a function, in terms of the convention. -/
def w64State (s : St) : Spec.Win64.Regs :=
  ⟨s.mem, s.r 4 + 8, fun k => leBytes 8 (s.r (w64Gpr k)), fun k => (s.x k).take 8⟩

/-- What `ffi_call_int` has prepared. -/
def w64Marshal (abi : Abi) (rt : FType) (ats : List FType) (I : CallIn) : Marshalled :=
  marshal (prep abi rt ats).1 (prep abi rt ats).2 rt ats I

/-- The state in which `ffi_call_int` has called `ffi_call_win64` (src/x86/ffiw64.c:196): the slots, the
frame and the static chain are the three arguments, in the registers of the C compiler's convention; memory
is as `ffi_call_int` left it, above its own stack; the stack extends down to `lo`. -/
structure W64AsmCall (c : Ctx) (abi : Abi) (rt : FType) (ats : List FType) (I : CallIn) (lo : Nat)
    (vs : List (List Byte)) (s : St) (ss : List Nat) : Prop where
  call : W64Call abi rt ats I lo vs
  pc : s.pc = .at_ 0
  a0 : s.r (arg0 c.cfg) = (w64Marshal abi rt ats I).stack
  a1 : s.r (arg1 c.cfg) = (w64Marshal abi rt ats I).frame
  a2 : s.r (arg2 c.cfg) = I.closure
  rbp : s.r 5 = I.rbp
  word : I.rbp < 2 ^ 64
  stack : lo ≤ s.r 4
  sp : s.r 4 + 8 ≤ (w64Marshal abi rt ats I).stack
  caller : leNat (s.mem.rd (s.r 4) 8) = I.raddr
  shadow : s.ss = I.raddr :: ss
  back : I.raddr2 = c.base + (eo c.cfg + 65)
  fn : I.fn < 2 ^ 64
  mem : ∀ a, a < lo ∨ (w64Marshal abi rt ats I).stack ≤ a → s.mem a = (w64Marshal abi rt ats I).mem a

/-- A function entered in state `f` has returned, by the calling convention, in state `u`;
`A` are the addresses of its caller's data. -/
structure W64Returned (c : Ctx) (A : Nat → Prop) (f u : St) : Prop where
  pc : ∃ o, u.pc = .at_ o ∧ f.ss = (c.base + o) :: u.ss
  sp : u.r 4 = f.r 4 + 8
  saved : Saved u.r f.r
  savedX : SavedX u.x f.x
  wide : (u.x 0).length = 16
  mem : ∀ a, A a → u.mem a = f.mem a

section
variable {c : Ctx} {abi : Abi} {rt : FType} {ats : List FType} {I : CallIn} {lo : Nat} {vs : List (List Byte)} {s : St} {ss : List Nat}

theorem w64_call_parts (abi : Abi) (rt : FType) (ats : List FType) (I : CallIn) :
    (w64Call abi rt ats I).entry.args = (w64Marshal abi rt ats I).stack ∧ (w64Call abi rt ats I).frame = (w64Marshal abi rt ats I).frame ∧
    (w64Call abi rt ats I).rvalue = (w64Marshal abi rt ats I).rvalue ∧ (w64Call abi rt ats I).flags = (w64Marshal abi rt ats I).flags ∧
    (w64Call abi rt ats I).entry.mem = (framed (w64Marshal abi rt ats I).mem (w64Marshal abi rt ats I).frame I.rbp I.raddr).wr
      ((w64Marshal abi rt ats I).stack - 8) (leBytes 8 I.raddr2) := by
  unfold w64Call w64Marshal
  rw [callEntry_marshal]
  exact ⟨rfl, rfl, rfl, rfl, rfl⟩

/-- Where the slots and the frame lie. -/
theorem w64_layout (h : W64Call abi rt ats I lo vs) :
    (w64Marshal abi rt ats I).stack % 16 = 0 ∧ lo + 96 ≤ (w64Marshal abi rt ats I).stack ∧
    (w64Marshal abi rt ats I).stack + 32 ≤ (w64Marshal abi rt ats I).frame ∧ (w64Marshal abi rt ats I).frame + 40 ≤ I.sp := by
  have hE := entrySpec h
  obtain ⟨e1, e2, -⟩ := w64_call_parts abi rt ats I
  have h1 := hE.align
  have h2 := hE.low
  have h3 := hE.frame
  have h4 := hE.top
  rw [prep_bytes abi rt ats h.nargs] at h3
  rw [e1] at h1 h2 h3
  rw [e2] at h3 h4
  omega

theorem w64_memory (h : W64AsmCall c abi rt ats I lo vs s ss) {f : St}
    (hf : Agree (level lo ((w64Marshal abi rt ats I).stack - 8))
      (callState c s (framed s.mem (w64Marshal abi rt ats I).frame (s.r 5) I.raddr) I.raddr) f) :
    ∀ y, y < lo ∨ (w64Marshal abi rt ats I).stack - 8 ≤ y → f.mem y = (w64Call abi rt ats I).entry.mem y := by
  obtain ⟨h1, h2, h3, h4⟩ := w64_layout h.call
  obtain ⟨e1, e2, e3, e4, e5⟩ := w64_call_parts abi rt ats I
  intro y hy
  rw [hf.mem y hy, e5]
  show Mem.wr (framed s.mem _ _ _) (s.r (arg0 c.cfg) - 8) (leBytes 8 (c.base + (eo c.cfg + 65))) y = _
  rw [h.a0, ← h.back, h.rbp]
  unfold framed
  have D : ∀ a, a < lo ∨ (w64Marshal abi rt ats I).stack ≤ a →
      Mem.wr (Mem.wr s.mem (w64Marshal abi rt ats I).frame (leBytes 8 I.rbp)) ((w64Marshal abi rt ats I).frame + 8) (leBytes 8 I.raddr) a =
      Mem.wr (Mem.wr (w64Marshal abi rt ats I).mem (w64Marshal abi rt ats I).frame (leBytes 8 I.rbp)) ((w64Marshal abi rt ats I).frame + 8) (leBytes 8 I.raddr) a := by
    intro a ha
    exact wr_agree (D := fun a => a < lo ∨ (w64Marshal abi rt ats I).stack ≤ a)
      (fun b hb => wr_agree (D := fun a => a < lo ∨ (w64Marshal abi rt ats I).stack ≤ a) h.mem (leBytes_length ..) (.inl hb)) (leBytes_length ..) (.inl ha)
  refine wr_agree D (leBytes_length ..) ?_
  omega

/-- The execution of the first half. -/
theorem w64_call_safe (h : W64AsmCall c abi rt ats I lo vs s ss) :
    Safe c lo (Holds c I.raddr s.r (fun p => p = s.r 4 + 8 ∨ p = (w64Marshal abi rt ats I).frame + 16)
      fun a t => a = I.fn ∧ Agree (level lo ((w64Marshal abi rt ats I).stack - 8))
        (callState c s (framed s.mem (w64Marshal abi rt ats I).frame (s.r 5) I.raddr) I.raddr) t) (level lo (s.r 4)) s := by
  obtain ⟨h1, h2, h3, h4⟩ := w64_layout h.call
  have key := call_head (c := c) (lo := lo) (s := s) (post := fun a t => a = I.fn ∧ Agree (level lo ((w64Marshal abi rt ats I).stack - 8))
        (callState c s (framed s.mem (w64Marshal abi rt ats I).frame (s.r 5) I.raddr) I.raddr) t)
    h.pc h.a0 h.a1 h.sp h3 (by rw [h.rbp]; exact h.word) h.caller rfl
  refine key fun t ht => ⟨?_, ht⟩
  have hm := w64_memory h ht
  have e := (entrySpec h.call).fn
  rw [(w64_call_parts abi rt ats I).2.1] at e
  have : (framed s.mem (w64Marshal abi rt ats I).frame (s.r 5) I.raddr).rd ((w64Marshal abi rt ats I).frame + 16) 8 = leBytes 8 I.fn := by
    rw [← e]
    refine Mem.rd_congr fun i hi => ?_
    rw [← hm _ (.inr (by omega)), ht.mem _ (.inr (by omega))]
    show _ = Mem.wr (framed s.mem _ _ _) (s.r (arg0 c.cfg) - 8) _ _
    rw [h.a0, Mem.wr_out _ _ _ _ (by rw [leBytes_length]; omega)]
  rw [this, leNat_leBytes]
  exact Nat.mod_eq_of_lt h.fn

theorem w64_called (h : W64AsmCall c abi rt ats I lo vs s ss) {f : St} (hr : Reach c lo s f) {a : Nat} (hf : f.pc = .out a) :
    a = I.fn ∧ Agree (level lo ((w64Marshal abi rt ats I).stack - 8))
        (callState c s (framed s.mem (w64Marshal abi rt ats I).frame (s.r 5) I.raddr) I.raddr) f := by
  have := (w64_call_safe h).reach hr (Agree.self _ _)
  unfold Holds at this
  rw [hf] at this
  exact this

/-- An argument passed by reference lies outside the free stack, the slots' first four included. -/
theorem w64_ref (h : W64Call abi rt ats I lo vs) {i : Nat} {t : FType} (h1 : ats[i]? = some t) (hby : ¬ByValue t.size) :
    Disj (leNat (slot (w64Regs (w64Call abi rt ats I).entry) false (firstSlot abi.gnu rt + i))) t.size lo ((w64Marshal abi rt ats I).stack + 32) := by
  obtain ⟨l1, l2, l3, l4⟩ := w64_layout h
  obtain ⟨e1, e2, e3, e4, e5⟩ := w64_call_parts abi rt ats I
  have hE := entrySpec h
  have hh := hid_eq h
  generalize w64Call abi rt ats I = O at *
  have haddr := h.addr
  have hi := (List.getElem?_eq_some_iff.1 h1).1
  obtain ⟨a, ha⟩ : ∃ a, I.avalue[i]? = some a := ⟨_, List.getElem?_eq_getElem (by rw [h.len]; exact hi)⟩
  obtain ⟨b, hb'⟩ : ∃ b, O.avalue[i]? = some b := ⟨_, List.getElem?_eq_getElem (by rw [hE.len]; exact hi)⟩
  have hs := hE.slots i t a b h1 ha hb'
  rw [hh] at hs
  have e : slot (w64Regs O.entry) false (firstSlot abi.gnu rt + i) = leBytes 8 b := by
    rw [← hs.ref hby, entry_slot hE]
  have hobj := h.obj i t a h1 ha
  have hlt : b < 2 ^ 64 ∧ (b + t.size ≤ lo ∨ (w64Marshal abi rt ats I).stack + 32 ≤ b) := by
    by_cases hc : t.tc = .struct ∧ intGt8 t.size = true
    · have := hs.copied hc.1 hc.2
      omega
    · rw [hs.same hc]
      refine ⟨hobj.2, ?_⟩
      rcases hobj.1 with h | h <;> omega
  rw [e, leNat_leBytes, show 256 ^ 8 = 2 ^ 64 from rfl, Nat.mod_eq_of_lt hlt.1]
  exact hlt.2

/-- The registers in which the function is entered, in terms of the model of C22. -/
theorem w64_entered (h : W64AsmCall c abi rt ats I lo vs s ss) {f : St}
    (hf : Agree (level lo ((w64Marshal abi rt ats I).stack - 8))
      (callState c s (framed s.mem (w64Marshal abi rt ats I).frame (s.r 5) I.raddr) I.raddr) f) :
    f.r 4 + 8 = (w64Marshal abi rt ats I).stack ∧
    (∀ k, k < 4 → (w64State f).gpr k = (w64Call abi rt ats I).entry.gpr k) ∧
    ∀ k, k < 4 → (w64State f).xmm k = (w64Call abi rt ats I).entry.xmm k := by
  obtain ⟨l1, l2, l3, l4⟩ := w64_layout h.call
  obtain ⟨e1, e2, e3, e4, e5⟩ := w64_call_parts abi rt ats I
  have hE := entrySpec h.call
  have hm := w64_memory h hf
  have h4 : f.r 4 = (w64Marshal abi rt ats I).stack - 8 := by
    rw [hf.r]
    show s.r (arg0 c.cfg) - 8 = _
    rw [h.a0]
  have hw : ∀ k, k < 4 → (framed s.mem (w64Marshal abi rt ats I).frame (s.r 5) I.raddr).rd ((w64Marshal abi rt ats I).stack + 8 * k) 8 =
      (w64Call abi rt ats I).entry.mem.rd ((w64Call abi rt ats I).entry.args + 8 * k) 8 := by
    intro k hk
    rw [e1]
    refine Mem.rd_congr fun i hi => ?_
    rw [← hm _ (.inr (by omega)), hf.mem _ (.inr (by omega))]
    show _ = Mem.wr (framed s.mem _ _ _) (s.r (arg0 c.cfg) - 8) _ _
    rw [h.a0, Mem.wr_out _ _ _ _ (by rw [leBytes_length]; omega)]
  have hb : ∀ l : List Byte, l.length = 8 → leBytes 8 (leNat l) = l := fun l hl => by rw [← hl]; exact leBytes_leNat l
  refine ⟨by omega, fun k hk => ?_, fun k hk => ?_⟩
  · rw [hE.gpr k hk, ← hw k hk]
    unfold w64State
    dsimp only
    rw [hf.r]
    show leBytes 8 (callRegs s.r _ (s.r (arg0 c.cfg)) _ _ _ (w64Gpr k)) = _
    rw [h.a0]
    rcases (by omega : k = 0 ∨ k = 1 ∨ k = 2 ∨ k = 3) with rfl | rfl | rfl | rfl <;> exact hb _ (Mem.rd_length ..)
  · rw [hE.xmm k hk, ← hw k hk]
    unfold w64State
    dsimp only
    rw [hf.x]
    show (callX s.x _ (s.r (arg0 c.cfg)) k).take 8 = _
    rw [h.a0]
    have ht : ∀ l : List Byte, l.length = 8 → (l ++ List.replicate 8 0).take 8 = l := fun l hl => List.take_left' hl
    rcases (by omega : k = 0 ∨ k = 1 ∨ k = 2 ∨ k = 3) with rfl | rfl | rfl | rfl <;> exact ht _ (Mem.rd_length ..)

end

/-- C90: whatever interrupts it, `ffi_call_win64` reaches the function with every argument passed by the
convention, in the slots' registers and memory, the address of a result in memory in rcx, the static chain in
r10, the stack pointer aligned, the return address on the stack and on the shadow stack, the registers
that belong to its caller unchanged but for rbp, and no byte of the caller's memory changed. -/
theorem C90_call_enter {c : Ctx} {abi : Abi} {rt : FType} {ats : List FType} {I : CallIn} {lo : Nat} {vs : List (List Byte)}
    {s : St} {ss : List Nat} (h : W64AsmCall c abi rt ats I lo vs s ss) {f : St} (hr : Reach c lo s f) :
    (∃ a v, Reach c lo f v ∧ v.pc = .out a) ∧ ∀ a, f.pc = .out a →
      a = I.fn ∧ (f.r 4 + 8) % 16 = 0 ∧
      (∀ (i : Nat) t v, ats[i]? = some t → vs[i]? = some v → PassedAt (w64State f) t v (firstSlot abi.gnu rt + i)) ∧
      (∀ b, retPlace abi.gnu rt = .mem → I.rvalue = some b → f.r 1 = b) ∧
      f.r 10 = I.closure ∧ Saved (upd f.r 5 (s.r 5)) s.r ∧ SavedX f.x s.x ∧
      f.ss = (c.base + (eo c.cfg + 65)) :: s.ss ∧ f.mem.rd (f.r 4) 8 = leBytes 8 (c.base + (eo c.cfg + 65)) ∧
      ∀ y, y < lo ∨ I.sp ≤ y → f.mem y = I.mem y := by
  refine ⟨(w64_call_safe h).leaves hr (Agree.self _ _), fun a ha => ?_⟩
  obtain ⟨rfl, hag⟩ := w64_called h hr ha
  obtain ⟨l1, l2, l3, l4⟩ := w64_layout h.call
  obtain ⟨e1, e2, e3, e4, e5⟩ := w64_call_parts abi rt ats I
  have hm := w64_memory h hag
  obtain ⟨g4, gg, gx⟩ := w64_entered h hag
  have hC := C22_call h.call
  refine ⟨rfl, by omega, ?_, ?_, ?_, ?_, ?_, hag.ss, ?_, ?_⟩
  · intro i t v h1 h2
    refine passed_congr (R := w64Regs (w64Call abi rt ats I).entry) ?_ gg gx ?_ ?_ (hC.1 i t v h1 h2)
    · show f.r 4 + 8 = (w64Call abi rt ats I).entry.args
      omega
    · intro y hy
      refine hm y (.inr ?_)
      have : (w64Call abi rt ats I).entry.args + 32 ≤ y := hy
      omega
    · intro hby y h3 h4
      have := w64_ref h.call h1 hby
      refine hm y ?_
      rcases this with h | h <;> omega
  · intro b hmm hb
    have := hC.2.1 hmm
    rw [hC.2.2.1 b hb] at this
    have e := gg 0 (by omega)
    rw [← this, ← e]
    show _ = leNat (leBytes 8 (f.r 1))
    rw [leNat_leBytes, Nat.mod_eq_of_lt]
    rw [hag.r]
    show leNat _ < _
    have := leNat_lt (Mem.rd (framed s.mem (w64Marshal abi rt ats I).frame (s.r 5) I.raddr) (s.r (arg0 c.cfg)) 8)
    rw [Mem.rd_length] at this
    exact this
  · rw [hag.r]
    exact h.a2
  · rw [hag.r]
    exact ⟨rfl, rfl, rfl, rfl, rfl, rfl, rfl, rfl⟩
  · intro i hi
    rw [hag.x]
    show callX s.x _ _ i = _
    unfold callX upd
    rw [if_neg (by omega), if_neg (by omega), if_neg (by omega), if_neg (by omega)]
  · rw [hag.rd (fun b hb _ => .inr (by omega)), show f.r 4 = s.r (arg0 c.cfg) - 8 by rw [h.a0]; omega]
    exact rd8 _ _ _
  · intro y hy
    rw [hm y (hy.imp_right fun _ => by omega), hC.2.2.2.2.2.1 y hy]

/-- What the second half of a call needs: the function has left the frame alone, and the object for the
result is not in the free stack. -/
structure W64CallRet (c : Ctx) (I : CallIn) (lo F : Nat) (f u : St) : Prop where
  back : W64Returned c (fun a => F ≤ a ∧ a < F + 40) f u
  place : ∀ a, I.rvalue = some a → a + 8 ≤ lo ∨ I.sp ≤ a

theorem w64_word {l : List Byte} {v : Nat} (h : l = leBytes 8 v) (hv : v < 2 ^ 64) : leNat l = v := by
  rw [h, leNat_leBytes]
  exact Nat.mod_eq_of_lt hv

/-- The execution of the second half. -/
theorem w64_return_safe {c : Ctx} {abi : Abi} {rt : FType} {ats : List FType} {I : CallIn} {lo : Nat} {vs : List (List Byte)}
    {s f u : St} {ss : List Nat} {a : Nat} (h : W64AsmCall c abi rt ats I lo vs s ss) (hr : Reach c lo s f) (hf : f.pc = .out a)
    (hu : W64CallRet c I lo (w64Marshal abi rt ats I).frame f u) :
    Safe c lo (Holds c I.raddr s.r (fun p => p = (w64Marshal abi rt ats I).frame + 16) fun b t =>
      (∃ m' v, storeRet (callFlags (retFlag abi rt) I.rvalue) (retRegs u) (w64Call abi rt ats I).rvalue u.mem = .ok m' ∧ b = I.raddr ∧
        v.r 4 = (w64Marshal abi rt ats I).frame + 16 ∧ Saved v.r s.r ∧ v.x = u.x ∧ v.ss = ss ∧ v.mem = m' ∧
        Agree (level lo ((w64Marshal abi rt ats I).frame + 16)) v t) ∨
      storeRet (callFlags (retFlag abi rt) I.rvalue) (retRegs u) (w64Call abi rt ats I).rvalue u.mem = .error .abort ∧ b = c.ext 0)
      (level lo (w64Marshal abi rt ats I).frame) u := by
  obtain ⟨-, hag⟩ := w64_called h hr hf
  obtain ⟨l1, l2, l3, l4⟩ := w64_layout h.call
  obtain ⟨e1, e2, e3, e4, e5⟩ := w64_call_parts abi rt ats I
  have hm := w64_memory h hag
  obtain ⟨g4, -, -⟩ := w64_entered h hag
  have hE := entrySpec h.call
  have haddr := h.call.addr
  generalize hF : (w64Marshal abi rt ats I).frame = F at *
  generalize hS : (w64Marshal abi rt ats I).stack = S at *
  have h5 : f.r 5 = F := by rw [hag.r]; show s.r (arg1 c.cfg) = _; rw [h.a1, hF]
  have hmem : ∀ {o n : Nat}, o + n ≤ 40 → u.mem.rd (F + o) n = (w64Call abi rt ats I).entry.mem.rd (F + o) n := by
    intro o n ho
    refine Mem.rd_congr fun i hi => ?_
    rw [hu.back.mem _ ⟨by omega, by omega⟩, hm _ (.inr (by omega))]
  have hfr : ∀ {o : Nat}, o + 8 ≤ 16 → u.mem.rd (F + o) 8 = (framed (w64Marshal abi rt ats I).mem F I.rbp I.raddr).rd (F + o) 8 := by
    intro o ho
    rw [hmem (by omega), e5]
    exact Mem.rd_wr_disj _ _ _ _ _ (.inr (by rw [leBytes_length]; omega))
  obtain ⟨w1, w2⟩ := framed_words (w64Marshal abi rt ats I).mem F I.rbp I.raddr
  have hra : I.raddr < 2 ^ 64 := by
    have := leNat_lt (s.mem.rd (s.r 4) 8)
    rw [h.caller, Mem.rd_length] at this
    exact this
  obtain ⟨o, ho, hso⟩ := hu.back.pc
  have hss : (c.base + (eo c.cfg + 65)) :: s.ss = (c.base + o) :: u.ss := by rw [← hso, hag.ss]; rfl
  have ho' : o = eo c.cfg + 65 := by have := (List.cons.inj hss).1; omega
  have hus : u.ss = I.raddr :: ss := by rw [← (List.cons.inj hss).2, h.shadow]
  obtain ⟨k1, k2, k3, k4, k5, k6, k7, k8⟩ := hu.back.saved
  have hcode : (callFlags (retFlag abi rt) I.rvalue).code < 256 ^ 4 := by
    have := code_le (callFlags (retFlag abi rt) I.rvalue)
    omega
  have hrv : (w64Call abi rt ats I).rvalue < 2 ^ 64 := by
    have ht := hE.top
    rw [hE.rvalue]
    split
    · omega
    · cases hr : I.rvalue with
      | none => decide
      | some a => exact h.call.ret a hr
  have key := call_exit (c := c) (lo := lo) (u := u) (fl := callFlags (retFlag abi rt) I.rvalue) (F := F) (a := (w64Call abi rt ats I).rvalue)
    (ra := I.raddr) (ss := ss) (g := s.r) (post := fun b t =>
      (∃ m' v, storeRet (callFlags (retFlag abi rt) I.rvalue) (retRegs u) (w64Call abi rt ats I).rvalue u.mem = .ok m' ∧ b = I.raddr ∧
        v.r 4 = F + 16 ∧ Saved v.r s.r ∧ v.x = u.x ∧ v.ss = ss ∧ v.mem = m' ∧ Agree (level lo (F + 16)) v t) ∨
      storeRet (callFlags (retFlag abi rt) I.rvalue) (retRegs u) (w64Call abi rt ats I).rvalue u.mem = .error .abort ∧ b = c.ext 0)
    (by rw [ho, ho']) (by rw [k2, h5]) (by rw [hu.back.sp]; omega) (by rw [hu.back.sp]; omega)
    (by rw [hfr (by omega)]; exact w64_word w2 hra)
    (by have := hfr (o := 0) (by omega); rw [Nat.add_zero] at this; rw [this, h.rbp]; exact w64_word w1 h.word)
    (by
      rw [hag.r] at k1 k3 k4 k5 k6 k7 k8
      exact ⟨k1, rfl, k3, k4, k5, k6, k7, k8⟩)
    hus
    (by
      have e : u.mem.rd (F + 24) 4 = (leBytes 8 (callFlags (retFlag abi rt) I.rvalue).code).take 4 := by
        rw [hmem (by omega), ← hE.flags, ← hE.fflags, e2, Mem.rd_take _ _ (by omega)]
      rw [e, leBytes_take _ (by omega), leNat_leBytes, Nat.mod_eq_of_lt hcode])
    (by
      have := hE.frvalue
      rw [e2] at this
      rw [hmem (by omega)]
      exact w64_word this hrv)
    (by omega)
    (by
      have hw := width_le (callFlags (retFlag abi rt) I.rvalue)
      cases hr : I.rvalue with
      | some a =>
        have e : (w64Call abi rt ats I).rvalue = a := (C22_call h.call).2.2.1 a hr
        have := hu.place a hr
        rw [hr] at hw
        rw [e]
        omega
      | none =>
        have hz : width (callFlags (retFlag abi rt) none) = 0 := by
          refine width_flags _ ?_
          unfold callFlags
          split
          · exact .inr rfl
          · rename_i hn
            by_contra hc
            exact hn ⟨rfl, fun e => hc (.inl e)⟩
        rw [hz, hE.rvalue]
        split
        · right; omega
        · left; rw [hr]; exact Nat.zero_le _)
    (fun m' v t v1 v2 v3 v4 v5 v6 v7 => .inl ⟨m', v, v1, rfl, v2, v3, v4, v5, v6, v7⟩)
    (fun t ht => .inr ⟨ht, rfl⟩)
  exact key

/-- C90: after the function has returned by the convention, `ffi_call_win64` stores the result as `storeRet`
says, changes no other byte of its caller's memory, and returns to its caller with the stack pointer above
the frame's first two words, the registers as its caller left them and the shadow stack balanced; or it calls
`abort`, exactly when `storeRet` does. -/
theorem C90_call_return {c : Ctx} {abi : Abi} {rt : FType} {ats : List FType} {I : CallIn} {lo : Nat} {vs : List (List Byte)}
    {s f u : St} {ss : List Nat} {a : Nat} (h : W64AsmCall c abi rt ats I lo vs s ss) (hr : Reach c lo s f) (hf : f.pc = .out a)
    (hu : W64CallRet c I lo (w64Marshal abi rt ats I).frame f u) {t : St} (ht : Reach c lo u t) :
    (∃ b v, Reach c lo t v ∧ v.pc = .out b) ∧ ∀ b, t.pc = .out b →
      match storeRet (callFlags (retFlag abi rt) I.rvalue) (retRegs u) (w64Call abi rt ats I).rvalue u.mem with
      | .ok m' => b = I.raddr ∧ t.r 4 = (w64Marshal abi rt ats I).frame + 16 ∧ Saved t.r s.r ∧ SavedX t.x s.x ∧ t.ss = ss ∧
          ∀ y, y < lo ∨ (w64Marshal abi rt ats I).frame + 16 ≤ y → t.mem y = m' y
      | .error e => e = .abort ∧ b = c.ext 0 := by
  have hS := w64_return_safe h hr hf hu
  refine ⟨hS.leaves ht (Agree.self _ _), fun b hb => ?_⟩
  have := hS.reach ht (Agree.self _ _)
  unfold Holds at this
  rw [hb] at this
  rcases this with ⟨m', v, v1, v2, v3, v4, v5, v6, v7, hv⟩ | ⟨v1, v2⟩
  · rw [v1]
    have hx := ((C90_call_enter h hr).2 a hf).2.2.2.2.2.2.1
    refine ⟨v2, by rw [hv.r, v3], by rw [hv.r]; exact v4, fun i hi => ?_, by rw [hv.ss, v6], fun y hy => by rw [hv.mem y hy, v7]⟩
    rw [hv.x, v5, hu.back.savedX i hi, hx i hi]
  · rw [v1]
    exact ⟨rfl, v2⟩

/-- C90: the result of a call in a register: after the return the object of the caller holds the value, widened if
it is an integer, and the caller's memory is otherwise as the function left it.  A result in memory, none, or one
that is not wanted, is not stored; a `long double` with the Microsoft ABI aborts. -/
theorem C90_call_result {c : Ctx} {abi : Abi} {rt : FType} {ats : List FType} {I : CallIn} {lo : Nat} {vs : List (List Byte)}
    {s f u : St} {ss : List Nat} {a : Nat} (h : W64AsmCall c abi rt ats I lo vs s ss) (hs : SizeOk rt) (hr : Reach c lo s f) (hf : f.pc = .out a)
    (hu : W64CallRet c I lo (w64Marshal abi rt ats I).frame f u) {t : St} (ht : Reach c lo u t) {b : Nat} (hb : t.pc = .out b) :
    (∀ o v, I.rvalue = some o → (retPlace abi.gnu rt = .rax ∨ retPlace abi.gnu rt = .xmm0) →
      ReturnedIn abi.gnu (leBytes 8 (u.r 0)) ((u.x 0).take 8) rt v →
      b = I.raddr ∧ t.mem.rd o (resultObj rt.tc v).length = resultObj rt.tc v ∧
      ∀ y, y < lo ∨ I.sp ≤ y → y < o ∨ o + (resultObj rt.tc v).length ≤ y → t.mem y = u.mem y) ∧
    (retPlace abi.gnu rt = .void ∨ retPlace abi.gnu rt = .mem ∨ I.rvalue = none →
      b = I.raddr ∧ ∀ y, y < lo ∨ I.sp ≤ y → t.mem y = u.mem y) ∧
    (retPlace abi.gnu rt = .unsupported → I.rvalue ≠ none → b = c.ext 0) := by
  have key := (C90_call_return h hr hf hu ht).2 b hb
  obtain ⟨l1, l2, l3, l4⟩ := w64_layout h.call
  have hfl : ∀ o, I.rvalue = some o → callFlags (retFlag abi rt) I.rvalue = retFlag abi rt := by
    intro o ho
    unfold callFlags
    rw [if_neg (by rw [ho]; exact fun h => nomatch h.1)]
  have hR := fun o m => C24_result (abi := abi) hs (R := retRegs u) (leBytes_length ..) (by show ((u.x 0).take 8).length = 8; rw [List.length_take, hu.back.wide]; rfl) o m
  refine ⟨fun o v ho hp hv => ?_, fun hcase => ?_, fun hp hn => ?_⟩
  · have e : (w64Call abi rt ats I).rvalue = o := (C22_call h.call).2.2.1 o ho
    rw [hfl o ho, e] at key
    obtain ⟨m', q1, q2, q3⟩ := (hR o u.mem).1 v hv hp
    rw [q1] at key
    obtain ⟨r1, r2, r3, r4, r5, r6⟩ := key
    have hl : (resultObj rt.tc v).length ≤ 8 := by
      have h8 : rt.size ≤ 8 := by
        unfold retPlace at hp
        cases h : rt.tc <;> simp only [h] at hp
        case void => simp at hp
        case longdouble => split_ifs at hp <;> simp at hp
        case struct | complex =>
          by_cases hb : ByValue rt.size
          · unfold ByValue at hb; omega
          · simp [hb] at hp
        all_goals
          have := hs _ (by rw [h]; rfl)
          omega
      unfold resultObj
      split
      · rw [leBytes_length]
      · rw [hv.1]; exact h8
    refine ⟨r1, ?_, fun y hy hy' => ?_⟩
    · refine (Mem.rd_congr fun i hi => r6 _ ?_).trans q2
      rcases hu.place o ho with h | h <;> omega
    · rw [r6 y (hy.imp_right fun _ => by omega), q3 y hy']
  · have e : storeRet (callFlags (retFlag abi rt) I.rvalue) (retRegs u) (w64Call abi rt ats I).rvalue u.mem = .ok u.mem := by
      cases hr : I.rvalue with
      | some o =>
        rw [← hr, hfl o hr]
        exact (hR _ u.mem).2.1 (by rw [hr] at hcase; rcases hcase with h | h | h; exacts [.inl h, .inr h, nomatch h])
      | none =>
        by_cases hm : retPlace abi.gnu rt = .mem
        · have : callFlags (retFlag abi rt) none = retFlag abi rt := by
            unfold callFlags
            rw [if_neg (fun h => h.2 (retFlag_struct.2 hm))]
          rw [this]
          exact (hR _ u.mem).2.1 (.inr hm)
        · exact C24_null hm _ _ _
    rw [e] at key
    exact ⟨key.1, fun y hy => key.2.2.2.2.2 y (hy.imp_right fun _ => by omega)⟩
  · obtain ⟨o, ho⟩ := Option.ne_none_iff_exists'.1 hn
    rw [hfl o ho, ((hR _ u.mem).2.2).1 hp] at key
    exact key.2

/-! ## Closures -/

/-- The state in which a closure is entered: r10 is the closure object, which lies outside the unused stack and
the caller's four slots, and the stack pointer is 8 modulo 16 as after every call. -/
structure W64ClosPre (c : Ctx) (go : Bool) (s : St) (lo ra : Nat) (ss : List Nat) : Prop where
  pc : s.pc = .at_ (off c.cfg (closLbl go))
  stack : lo + 96 ≤ s.r 4
  align : (s.r 4 + 8) % 16 = 0
  wide : ∀ i, i < 4 → (s.x i).length = 16
  first : s.r 1 < 2 ^ 64
  obj : s.r 10 + 56 ≤ lo ∨ s.r 4 + 40 ≤ s.r 10
  caller : leNat (s.mem.rd (s.r 4) 8) = ra
  shadow : s.ss = ra :: ss

/-- The arguments of a closure: passed by the convention; what is passed by reference lies outside the unused
stack and the four slots. -/
structure W64ClosArgs (abi : Abi) (rt : FType) (ats : List FType) (lo : Nat) (vs : List (List Byte)) (s : St) : Prop where
  types : ∀ t ∈ ats, SizeOk t
  passed : ∀ (i : Nat) t v, ats[i]? = some t → vs[i]? = some v → PassedAt (w64State s) t v (firstSlot abi.gnu rt + i)
  ref : ∀ (i : Nat) t, ats[i]? = some t → ¬ByValue t.size →
    Disj (leNat (slot (w64State s) false (firstSlot abi.gnu rt + i))) t.size lo (s.r 4 + 40)

/-- `ffi_closure_win64_inner` has been entered in state `f`, from a closure entered in state `s`: cif, function and data of
the object; the frame; the arguments that it finds there, and the address of the result. -/
structure W64Inner (c : Ctx) (go : Bool) (abi : Abi) (rt : FType) (ats : List FType) (lo : Nat) (vs : List (List Byte)) (s f : St) : Prop where
  align : (f.r 4 + 8) % 16 = 0
  fields : (f.r 1, f.r 2, f.r 8) = Asm.fields go s.mem (s.r 10)
  frame : f.r 9 + 56 = s.r 4 + 8
  len : (innerView (retFlag abi rt) ats f.mem (f.r 9 + 56)).avalue.length = ats.length
  args : ∀ (i : Nat) t v p, ats[i]? = some t → vs[i]? = some v → (innerView (retFlag abi rt) ats f.mem (f.r 9 + 56)).avalue[i]? = some p →
    (innerView (retFlag abi rt) ats f.mem (f.r 9 + 56)).mem.rd p t.size = v
  hidden : retPlace abi.gnu rt = .mem → (innerView (retFlag abi rt) ats f.mem (f.r 9 + 56)).rvalue = s.r 1 ∧
    (innerView (retFlag abi rt) ats f.mem (f.r 9 + 56)).mem.rd (f.r 9) 8 = leBytes 8 (s.r 1)
  result : retPlace abi.gnu rt ≠ .mem → (innerView (retFlag abi rt) ats f.mem (f.r 9 + 56)).rvalue = f.r 9
  saved : Saved f.r s.r
  x : f.x = s.x
  ss : f.ss = (c.base + (off c.cfg .doClos + 38)) :: s.ss
  top : f.mem.rd (f.r 4) 8 = leBytes 8 (c.base + (off c.cfg .doClos + 38))
  mem : ∀ y, y < lo ∨ s.r 4 ≤ y ∧ y < s.r 4 + 8 ∨ s.r 4 + 40 ≤ y → f.mem y = s.mem y

theorem w64_clos_safe {c : Ctx} {go : Bool} {s : St} {lo ra : Nat} {ss : List Nat} (h : W64ClosPre c go s lo ra ss) :
    Safe c lo (Holds c ra s.r (fun p => p = s.r 4 + 8) fun a t => a = c.ext 1 ∧
      ∃ v : St, v.r = upd (upd (upd (upd (upd s.r 1 (fields go s.mem (s.r 10)).1) 2 (fields go s.mem (s.r 10)).2.1) 8 (fields go s.mem (s.r 10)).2.2)
          9 (s.r 4 - 88 + 40)) 4 (s.r 4 - 88 - 8) ∧ v.x = s.x ∧
        v.mem = (spillX (spillG s.mem (s.r 4 - 88 + 96) s.r) (s.r 4 - 88 + 56) s.x).wr (s.r 4 - 88 - 8) (leBytes 8 (c.base + (off c.cfg .doClos + 38))) ∧
        v.ss = (c.base + (off c.cfg .doClos + 38)) :: s.ss ∧
        Agree (fun a => dom lo (s.r 4 - 88) 32 a ∨ s.r 4 - 88 - 8 ≤ a ∧ a < s.r 4 - 88 - 8 + 8) v t) (level lo (s.r 4)) s := by
  have hs := h.stack
  have key := clos_enter (c := c) (lo := lo) (s := s) (go := go) (b := s.r 4 - 88) (ra := ra) (post := fun a t => a = c.ext 1 ∧
      ∃ v : St, v.r = upd (upd (upd (upd (upd s.r 1 (fields go s.mem (s.r 10)).1) 2 (fields go s.mem (s.r 10)).2.1) 8 (fields go s.mem (s.r 10)).2.2)
          9 (s.r 4 - 88 + 40)) 4 (s.r 4 - 88 - 8) ∧ v.x = s.x ∧
        v.mem = (spillX (spillG s.mem (s.r 4 - 88 + 96) s.r) (s.r 4 - 88 + 56) s.x).wr (s.r 4 - 88 - 8) (leBytes 8 (c.base + (off c.cfg .doClos + 38))) ∧
        v.ss = (c.base + (off c.cfg .doClos + 38)) :: s.ss ∧
        Agree (fun a => dom lo (s.r 4 - 88) 32 a ∨ s.r 4 - 88 - 8 ≤ a ∧ a < s.r 4 - 88 - 8 + 8) v t)
    h.pc (by omega) (by omega) h.wide (by rw [show s.r 4 - 88 + 88 = s.r 4 by omega]; exact h.caller)
    (by have := h.obj; omega) (by omega) fun f t f2 f3 f5 f6 f7 => ⟨rfl, f, f2, f3, f5, f6, f7⟩
  rw [show s.r 4 - 88 + 96 = s.r 4 + 8 by omega] at key ⊢
  exact key

theorem w64_inner {c : Ctx} {go : Bool} {s : St} {lo ra : Nat} {ss : List Nat} (h : W64ClosPre c go s lo ra ss) {f : St} (hr : Reach c lo s f)
    {a : Nat} (ha : f.pc = .out a) {abi : Abi} {rt : FType} {ats : List FType} {vs : List (List Byte)} (hA : W64ClosArgs abi rt ats lo vs s) :
    a = c.ext 1 ∧ W64Inner c go abi rt ats lo vs s f := by
  have := (w64_clos_safe h).reach hr (Agree.self _ _)
  unfold Holds at this
  rw [ha] at this
  obtain ⟨rfl, v, v1, v2, v3, v4, hv⟩ := this
  have hst := h.stack
  have hal := h.align
  have hw := h.wide
  have e4 : f.r 4 = s.r 4 - 96 := by rw [hv.r, v1]; show s.r 4 - 88 - 8 = _; omega
  have e9 : f.r 9 = s.r 4 - 48 := by rw [hv.r, v1]; show s.r 4 - 88 + 40 = _; omega
  have e9' : f.r 9 + 56 = s.r 4 + 8 := by omega
  have keep : ∀ y, y < lo ∨ s.r 4 ≤ y ∧ y < s.r 4 + 8 ∨ s.r 4 + 40 ≤ y → f.mem y = s.mem y := by
    intro y hy
    rw [hv.mem y (.inl (by unfold dom; omega)), v3, Mem.wr_out _ _ _ _ (by rw [leBytes_length]; omega), spillX_out (by omega), spillG_out (by omega)]
  have hG : ∀ k, k < 4 → f.mem.rd (s.r 4 + 8 + 8 * k) 8 = leBytes 8 (s.r (w64Gpr k)) := by
    intro k hk
    have e : f.mem.rd (s.r 4 + 8 + 8 * k) 8 = (spillG s.mem (s.r 4 + 8) s.r).rd (s.r 4 + 8 + 8 * k) 8 := by
      refine Mem.rd_congr fun i hi => ?_
      rw [hv.mem _ (.inl (by unfold dom; omega)), v3, Mem.wr_out _ _ _ _ (by rw [leBytes_length]; omega), spillX_out (by omega),
        show s.r 4 - 88 + 96 = s.r 4 + 8 by omega]
    rw [e]
    exact (store4_spec s.mem (s.r 4 + 8) (fun k => leBytes 8 (s.r (w64Gpr k))) (fun k _ => leBytes_length ..)).2 k hk
  have hX : ∀ k, k < 4 → f.mem.rd (s.r 4 + 8 - 40 + 8 * k) 8 = (s.x k).take 8 := by
    intro k hk
    have e : f.mem.rd (s.r 4 + 8 - 40 + 8 * k) 8 = (spillX (spillG s.mem (s.r 4 + 8) s.r) (s.r 4 + 8 - 40) s.x).rd (s.r 4 + 8 - 40 + 8 * k) 8 := by
      refine Mem.rd_congr fun i hi => ?_
      rw [hv.mem _ (.inl (by unfold dom; omega)), v3, Mem.wr_out _ _ _ _ (by rw [leBytes_length]; omega),
        show s.r 4 - 88 + 96 = s.r 4 + 8 by omega, show s.r 4 - 88 + 56 = s.r 4 + 8 - 40 by omega]
    rw [e]
    exact (store4_spec (spillG s.mem (s.r 4 + 8) s.r) (s.r 4 + 8 - 40) (fun k => (s.x k).take 8)
      (fun k hk => by rw [List.length_take, hw k hk]; rfl)).2 k hk
  have hlg : ∀ k, k < 4 → (leBytes 8 (s.r (w64Gpr k))).length = 8 := fun k _ => leBytes_length ..
  have hlx : ∀ k, k < 4 → ((s.x k).take 8).length = 8 := fun k hk => by rw [List.length_take, hw k hk]; rfl
  have hV : innerView (retFlag abi rt) ats f.mem (f.r 9 + 56) = closureEntry (retFlag abi rt) ats
      ⟨f.mem, s.r 4 + 8, fun k => leBytes 8 (s.r (w64Gpr k)), fun k => (s.x k).take 8, 0⟩ := by
    rw [e9']
    exact innerView_entry hlg hlx hG hX
  have hsl : ∀ k, slot (w64Regs ⟨f.mem, s.r 4 + 8, fun k => leBytes 8 (s.r (w64Gpr k)), fun k => (s.x k).take 8, 0⟩) false k =
      slot (w64State s) false k := by
    intro k
    refine slot_congr rfl (fun _ _ => rfl) fun y hy => keep y (.inr (.inr ?_))
    have : s.r 4 + 8 + 32 ≤ y := hy
    omega
  have hC := C22_closure (abi := abi) (rt := rt) (ats := ats) (vs := vs)
    (E := ⟨f.mem, s.r 4 + 8, fun k => leBytes 8 (s.r (w64Gpr k)), fun k => (s.x k).take 8, 0⟩) hA.types (by show 56 ≤ s.r 4 + 8; omega) hlg hlx
    (by
      intro i t v h1 h2
      refine passed_congr (R := w64State s) rfl (fun _ _ => rfl) (fun _ _ => rfl) (fun y hy => keep y (.inr (.inr ?_))) ?_ (hA.passed i t v h1 h2)
      · have : s.r 4 + 8 + 32 ≤ y := hy
        omega
      · intro hby y h3 h4
        refine keep y ?_
        rcases hA.ref i t h1 hby with h | h <;> omega)
    (by
      intro i t h1 hby
      rw [hsl]
      show Disj _ _ (s.r 4 + 8 - 56) (s.r 4 + 8 + 32)
      rcases hA.ref i t h1 hby with h | h
      · left; omega
      · right; omega)
  have hS := closureEntry_spec (fl := retFlag abi rt) (ats := ats)
    (E := ⟨f.mem, s.r 4 + 8, fun k => leBytes 8 (s.r (w64Gpr k)), fun k => (s.x k).take 8, 0⟩) (by show 56 ≤ s.r 4 + 8; omega) hlg hlx
  rw [← hV] at hC hS
  refine ⟨rfl, by omega, by rw [hv.r, v1]; rfl, e9', hC.1, hC.2.1, fun hm => ⟨?_, ?_⟩, fun hm => ?_, ?_, by rw [hv.x, v2], by rw [hv.ss, v4], ?_, keep⟩
  · rw [hC.2.2 hm]
    exact w64_word rfl h.first
  · have := hS.rslot (retFlag_struct.2 hm)
    have e : s.r 4 + 8 - 56 = f.r 9 := by omega
    dsimp only at this
    rw [e] at this
    exact this
  · rw [hS.rvalue, if_neg (fun h => hm (retFlag_struct.1 h))]
    show s.r 4 + 8 - 56 = _
    omega
  · rw [hv.r, v1]
    exact ⟨rfl, rfl, rfl, rfl, rfl, rfl, rfl, rfl⟩
  · rw [show f.r 4 = s.r 4 - 88 - 8 by omega, hv.rd (fun a h1 h2 => .inr ⟨h1, h2⟩), v3]
    exact rd8 _ _ _

/-- C90: whatever interrupts it, a closure reaches `ffi_closure_win64_inner` with the object's cif, function and data and
the frame; the arguments that function finds in it are those its caller passed by the convention; the caller's
registers and memory are in place, but for the four slots. -/
theorem C90_closure_enter {c : Ctx} {go : Bool} {s : St} {lo ra : Nat} {ss : List Nat} (h : W64ClosPre c go s lo ra ss) {abi : Abi} {rt : FType}
    {ats : List FType} {vs : List (List Byte)} (hA : W64ClosArgs abi rt ats lo vs s) {f : St} (hr : Reach c lo s f) :
    (∃ a v, Reach c lo f v ∧ v.pc = .out a) ∧ ∀ a, f.pc = .out a → a = c.ext 1 ∧ W64Inner c go abi rt ats lo vs s f :=
  ⟨(w64_clos_safe h).leaves hr (Agree.self _ _), fun _ ha => w64_inner h hr ha hA⟩

/-- What `ffi_closure_win64_alt` leaves. -/
theorem w64_alt_pre {c : Ctx} {s w : St} {lo K ra : Nat} {ss : List Nat}
    (h : W64ClosPre c false { s with pc := .at_ (off c.cfg .clos), r := upd (upd s.r 10 K) 4 (s.r 4 + 16) } lo ra ss)
    (hw : AltTo c lo s (s.r 4) K w) : W64ClosPre c false w lo ra ss := by
  obtain ⟨w1, w2, w3, w4, w5⟩ := hw
  refine ⟨w1, by rw [w2]; exact h.stack, by rw [w2]; exact h.align, by rw [w3]; exact h.wide, by rw [w2]; exact h.first, by rw [w2]; exact h.obj, ?_,
    by rw [w4]; exact h.shadow⟩
  rw [← h.caller, w2]
  show leNat (w.mem.rd (s.r 4 + 16) 8) = leNat (s.mem.rd (s.r 4 + 16) 8)
  exact congrArg leNat (Mem.rd_congr fun i hi => w5 _ (.inr (by omega)))

theorem w64_alt_args {c : Ctx} {s w : St} {lo K : Nat} {abi : Abi} {rt : FType} {ats : List FType} {vs : List (List Byte)}
    (hA : W64ClosArgs abi rt ats lo vs { s with pc := .at_ (off c.cfg .clos), r := upd (upd s.r 10 K) 4 (s.r 4 + 16) })
    (hw : AltTo c lo s (s.r 4) K w) : W64ClosArgs abi rt ats lo vs w := by
  obtain ⟨w1, w2, w3, w4, w5⟩ := hw
  have hr4 : w.r 4 = s.r 4 + 16 := by rw [w2]; rfl
  have ha : (w64State w).args = (w64State { s with pc := .at_ (off c.cfg .clos), r := upd (upd s.r 10 K) 4 (s.r 4 + 16) }).args := by
    show w.r 4 + 8 = s.r 4 + 16 + 8
    omega
  have hg : ∀ k, k < 4 → (w64State w).gpr k = (w64State { s with pc := .at_ (off c.cfg .clos), r := upd (upd s.r 10 K) 4 (s.r 4 + 16) }).gpr k := by
    intro k _
    unfold w64State
    dsimp only
    rw [w2]
  have hx : ∀ k, k < 4 → (w64State w).xmm k = (w64State { s with pc := .at_ (off c.cfg .clos), r := upd (upd s.r 10 K) 4 (s.r 4 + 16) }).xmm k := by
    intro k _
    unfold w64State
    dsimp only
    rw [w3]
  have hm : ∀ y, (w64State { s with pc := .at_ (off c.cfg .clos), r := upd (upd s.r 10 K) 4 (s.r 4 + 16) }).args + 32 ≤ y → (w64State w).mem y = s.mem y := by
    intro y hy
    have : s.r 4 + 16 + 8 + 32 ≤ y := hy
    exact w5 y (.inr (by omega))
  refine ⟨hA.types, fun i t v h1 h2 => ?_, fun i t h1 hby => ?_⟩
  · refine passed_congr ha hg hx hm (fun hby y h3 h4 => ?_) (hA.passed i t v h1 h2)
    have := hA.ref i t h1 hby
    refine w5 y ?_
    have e : (upd (upd s.r 10 K) 4 (s.r 4 + 16)) 4 + 40 = s.r 4 + 16 + 40 := rfl
    rcases this with h | h
    · left; omega
    · right
      dsimp only at h
      omega
  · rw [slot_congr ha hg hm, hr4]
    exact hA.ref i t h1 hby

/-- C90: the same through a static trampoline, which jumps to `ffi_closure_win64_alt` with the object above the stack
pointer: no instruction faults, the execution reaches `ffi_closure_win64_inner`, and that finds the arguments. -/
theorem C90_alt_enter {c : Ctx} {s : St} {lo K ra : Nat} {ss : List Nat} (hpc : s.pc = .at_ (off c.cfg .alt))
    (hK : leNat (s.mem.rd (s.r 4 + 8) 8) = K)
    (h : W64ClosPre c false { s with pc := .at_ (off c.cfg .clos), r := upd (upd s.r 10 K) 4 (s.r 4 + 16) } lo ra ss) {abi : Abi} {rt : FType}
    {ats : List FType} {vs : List (List Byte)}
    (hA : W64ClosArgs abi rt ats lo vs { s with pc := .at_ (off c.cfg .clos), r := upd (upd s.r 10 K) 4 (s.r 4 + 16) })
    {f : St} (hr : Reach c lo s f) :
    (∃ a v, Reach c lo f v ∧ v.pc = .out a) ∧ (∀ o, f.pc = .at_ o → ∃ v, step c f = some v) ∧
    ∀ a, f.pc = .out a → a = c.ext 1 ∧ ∃ w, AltTo c lo s (s.r 4) K w ∧ Reach c lo w f ∧ W64Inner c false abi rt ats lo vs w f := by
  rcases alt_reach hr hpc rfl hK with ⟨o, v, w, h1, h2, h3, h4⟩ | ⟨w, h3, h4⟩
  · obtain ⟨a, u, hu, hua⟩ := (C90_closure_enter (w64_alt_pre h h4) (w64_alt_args hA h4) .refl).1
    refine ⟨⟨a, u, h3.trans hu, hua⟩, fun _ _ => ⟨v, h2⟩, fun a ha => ?_⟩
    rw [h1] at ha
    cases ha
  · have hp := w64_alt_pre h h4
    have key := C90_closure_enter hp (w64_alt_args hA h4) h3
    exact ⟨key.1, fun o ho => (w64_clos_safe hp).progress h3 (Agree.self _ _) ho, fun a ha => ⟨(key.2 a ha).1, w, h4, h3, (key.2 a ha).2⟩⟩

/-- C90: the trampoline that `ffi_prep_closure_loc` writes, executed wherever the closure lies, continues at its destination
with the closure in r10 and everything else unchanged, and the entry code finds cif, function and data. -/
theorem C90_trampoline {m : Mem} {K dest cif fn ud r sp : Nat} (hK : K + 56 ≤ 2 ^ 64) (hd : dest < 2 ^ 64) (h1 : cif < 2 ^ 64) (h2 : fn < 2 ^ 64)
    (h3 : ud < 2 ^ 64) (h : m.rd K 56 = closureObj dest cif fn ud) :
    X64.steps 3 ⟨K, r, sp, m⟩ = some ⟨dest, K, sp, m⟩ ∧ fields false m K = (cif, fn, ud) := by
  have hH : X64.Holds m K (X64.closureImage dest cif fn ud) := by
    rw [← closureObj_eq, ← h]
    intro i hi
    rw [Mem.rd_length] at hi
    rw [X64.w64_of_lt (by omega), Mem.rd]
    simp [hi]
  refine ⟨X64.dyn_run (by omega) hd hH, ?_⟩
  obtain ⟨f1, f2, f3⟩ := X64.dyn_fields h1 h2 h3 hH
  have e : ∀ o, o + 8 ≤ 56 → X64.load64 m (X64.w64 (K + o)) = leNat (m.rd (K + o) 8) := by
    intro o ho
    unfold X64.load64 X64.MState.bytes Mem.rd
    refine congrArg leNat (List.map_congr_left fun i hi => ?_)
    have := List.mem_range.1 hi
    unfold X64.w64
    rw [Nat.mod_eq_of_lt (a := K + o) (by omega), Nat.mod_eq_of_lt (by omega)]
  rw [e _ (by omega)] at f1 f2 f3
  unfold fields
  rw [f1, f2, f3]
  rfl

/-- What the second half of a closure needs: `ffi_closure_win64_inner` has returned by the convention and has left the
return address alone. -/
def W64ClosRet (c : Ctx) (s f u : St) : Prop := W64Returned c (fun a => s.r 4 ≤ a ∧ a < s.r 4 + 8) f u

/-- What a closure leaves its caller. -/
structure W64ClosDone (lo : Nat) (s u t : St) (ss : List Nat) : Prop where
  sp : t.r 4 = s.r 4 + 8
  saved : Saved t.r s.r
  savedX : SavedX t.x s.x
  wide : (t.x 0).length = 16
  ss : t.ss = ss
  regs : retRegs t = closureReturn u.mem (s.r 4 + 8)
  mem : ∀ y, y < lo ∨ s.r 4 + 8 ≤ y → t.mem y = u.mem y

theorem w64_closret_safe {c : Ctx} {go : Bool} {s f u : St} {lo ra a : Nat} {ss : List Nat} (h : W64ClosPre c go s lo ra ss) (hr : Reach c lo s f)
    (hf : f.pc = .out a) (hu : W64ClosRet c s f u) :
    Safe c lo (Holds c ra s.r (fun p => p = s.r 4 + 8) fun d t => d = ra ∧ W64ClosDone lo s u t ss) (level lo (s.r 4 - 88)) u := by
  have := (w64_clos_safe h).reach hr (Agree.self _ _)
  unfold Holds at this
  rw [hf] at this
  obtain ⟨rfl, v, v1, v2, v3, v4, hv⟩ := this
  have hst := h.stack
  have e4 : f.r 4 = s.r 4 - 88 - 8 := by rw [hv.r, v1]; rfl
  obtain ⟨o, ho, hso⟩ := hu.pc
  have hss : (c.base + (off c.cfg .doClos + 38)) :: s.ss = (c.base + o) :: u.ss := by rw [← hso, hv.ss, v4]
  have ho' : o = off c.cfg .doClos + 38 := by have := (List.cons.inj hss).1; omega
  have hus : u.ss = ra :: ss := by rw [← (List.cons.inj hss).2, h.shadow]
  have hm : u.mem.rd (s.r 4 - 88 + 88) 8 = s.mem.rd (s.r 4) 8 := by
    rw [show s.r 4 - 88 + 88 = s.r 4 by omega]
    refine Mem.rd_congr fun i hi => ?_
    rw [hu.mem _ ⟨by omega, by omega⟩, hv.mem _ (.inl (by unfold dom; omega)), v3, Mem.wr_out _ _ _ _ (by rw [leBytes_length]; omega),
      spillX_out (by omega), spillG_out (by omega)]
  obtain ⟨k1, k2, k3, k4, k5, k6, k7, k8⟩ := hu.saved
  rw [hv.r, v1] at k1 k2 k3 k4 k5 k6 k7 k8
  have key := clos_exit (c := c) (lo := lo) (u := u) (b := s.r 4 - 88) (ra := ra) (ss := ss) (g := s.r)
    (post := fun d t => d = ra ∧ W64ClosDone lo s u t ss) (by rw [ho, ho']) (by rw [hu.sp, e4]; omega) (by rw [hm, h.caller])
    ⟨k1, k2, k3, k4, k5, k6, k7, k8⟩ hus ?_
  · rw [show s.r 4 - 88 + 96 = s.r 4 + 8 by omega] at key
    exact key
  · intro w t w1 w2 w3 w4 w5 w6 w7
    have e40 : s.r 4 - 88 + 40 = s.r 4 + 8 - 56 := by omega
    refine ⟨rfl, by rw [w7.r, w1]; omega, by rw [w7.r]; exact w2, ?_, ?_, by rw [w7.ss, w5], ?_, ?_⟩
    · intro i hi
      rw [w7.x, w4]
      unfold upd
      rw [if_neg (by omega), hu.savedX i hi, hv.x, v2]
    · rw [w7.x, w4]
      show (u.mem.rd (s.r 4 - 88 + 40) 8 ++ List.replicate 8 0).length = 16
      rw [List.length_append, Mem.rd_length, List.length_replicate]
    · unfold retRegs closureReturn
      rw [w7.r, w7.x, w3, w4, e40]
      have hb : ∀ l : List Byte, l.length = 8 → leBytes 8 (leNat l) = l := fun l hl => by rw [← hl]; exact leBytes_leNat l
      rw [hb _ (Mem.rd_length ..)]
      show RetRegs.mk _ (List.take 8 (u.mem.rd (s.r 4 + 8 - 56) 8 ++ List.replicate 8 0)) = _
      rw [List.take_left' (Mem.rd_length ..)]
    · intro y hy
      rw [w7.mem y (hy.imp_right fun _ => by omega), w6]

/-- C90: after `ffi_closure_win64_inner` has returned, the closure returns to its caller with rax and xmm0 loaded from the
result area as `closureReturn` says, the stack pointer above the return address, the registers as its caller left
them and the shadow stack balanced. -/
theorem C90_closure_return {c : Ctx} {go : Bool} {s f u : St} {lo ra a : Nat} {ss : List Nat} (h : W64ClosPre c go s lo ra ss) (hr : Reach c lo s f)
    (hf : f.pc = .out a) (hu : W64ClosRet c s f u) {t : St} (ht : Reach c lo u t) :
    (∃ d v, Reach c lo t v ∧ v.pc = .out d) ∧ ∀ d, t.pc = .out d → d = ra ∧ W64ClosDone lo s u t ss := by
  have hS := w64_closret_safe h hr hf hu
  refine ⟨hS.leaves ht (Agree.self _ _), fun d hd => ?_⟩
  have := hS.reach ht (Agree.self _ _)
  unfold Holds at this
  rw [hd] at this
  exact this

theorem w64_size8 {abi : Abi} {rt : FType} (hs : SizeOk rt) (hp : retPlace abi.gnu rt = .rax ∨ retPlace abi.gnu rt = .xmm0) : rt.size ≤ 8 := by
  unfold retPlace at hp
  cases h : rt.tc <;> simp only [h] at hp
  case void => simp at hp
  case longdouble => split_ifs at hp <;> simp at hp
  case struct | complex =>
    by_cases hb : ByValue rt.size
    · unfold ByValue at hb; omega
    · simp [hb] at hp
  all_goals
    have := hs _ (by rw [h]; rfl)
    omega

/-- C90: the value that the handler leaves in the result area is returned by the convention; for a result in memory
rax is the address that the caller passed, if the handler leaves the first word of the area alone. -/
theorem C90_closure_result {c : Ctx} {go : Bool} {s f u : St} {lo ra a : Nat} {ss : List Nat} (h : W64ClosPre c go s lo ra ss) (hr : Reach c lo s f)
    (hf : f.pc = .out a) (hu : W64ClosRet c s f u) {abi : Abi} {rt : FType} {ats : List FType} {vs : List (List Byte)}
    (hA : W64ClosArgs abi rt ats lo vs s) (hs : SizeOk rt) {t : St} (ht : Reach c lo u t) {d : Nat} (hd : t.pc = .out d) :
    (∀ v, retPlace abi.gnu rt = .rax ∨ retPlace abi.gnu rt = .xmm0 → v.length = rt.size →
      u.mem.rd (innerView (retFlag abi rt) ats f.mem (f.r 9 + 56)).rvalue rt.size = v →
      ReturnedIn abi.gnu (leBytes 8 (t.r 0)) ((t.x 0).take 8) rt v) ∧
    (retPlace abi.gnu rt = .mem →
      u.mem.rd (f.r 9) 8 = (innerView (retFlag abi rt) ats f.mem (f.r 9 + 56)).mem.rd (f.r 9) 8 →
      leBytes 8 (t.r 0) = leBytes 8 (s.r 1)) := by
  obtain ⟨-, hD⟩ := (C90_closure_return h hr hf hu ht).2 d hd
  obtain ⟨-, hI⟩ := w64_inner h hr hf hA
  have hfr := hI.frame
  have e56 : s.r 4 + 8 - 56 = f.r 9 := by omega
  have e1 : leBytes 8 (t.r 0) = u.mem.rd (f.r 9) 8 := by
    have := congrArg RetRegs.rax hD.regs
    rw [← e56]
    exact this
  have e2 : (t.x 0).take 8 = u.mem.rd (f.r 9) 8 := by
    have := congrArg RetRegs.xmm0 hD.regs
    rw [← e56]
    exact this
  refine ⟨fun v hp hl hv => ?_, fun hm hk => ?_⟩
  · rw [hI.result (by rcases hp with h | h <;> rw [h] <;> decide)] at hv
    have e : (u.mem.rd (f.r 9) 8).take rt.size = v := by rw [Mem.rd_take _ _ (w64_size8 hs hp), hv]
    rw [e1, e2]
    exact ⟨hl, fun _ => e, fun _ => e⟩
  · rw [e1, hk]
    exact (hI.hidden hm).2

/-! ## A closure called through `ffi_call` -/

/-- The state in which the trampoline of the closure `K`, called in state `f`, enters `ffi_closure_win64`. -/
def w64Enter (c : Ctx) (K : Nat) (f : St) : St := { f with pc := .at_ (off c.cfg .clos), r := upd f.r 10 K }

theorem w64_chain {c : Ctx} {abi : Abi} {rt : FType} {ats : List FType} {I : CallIn} {lo : Nat} {vs : List (List Byte)}
    {s f : St} {ss : List Nat} {K a : Nat} (h : W64AsmCall c abi rt ats I lo vs s ss) (hb : I.raddr2 < 2 ^ 64) (hr : Reach c lo s f)
    (hf : f.pc = .out a) (hroom : lo + 96 ≤ f.r 4) (hK : K + 56 ≤ lo ∨ f.r 4 + 40 ≤ K) :
    W64ClosPre c false (w64Enter c K f) lo I.raddr2 s.ss ∧ W64ClosArgs abi rt ats lo vs (w64Enter c K f) := by
  obtain ⟨-, h2, h3, h4, h5, h6, h7, h8, h9, h10⟩ := (C90_call_enter h hr).2 a hf
  obtain ⟨-, hag⟩ := w64_called h hr hf
  obtain ⟨g4, gg, gx⟩ := w64_entered h hag
  have hm := w64_memory h hag
  obtain ⟨e1, e2, e3, e4, e5⟩ := w64_call_parts abi rt ats I
  have hx : ∀ i, i < 4 → (f.x i).length = 16 := by
    intro i hi
    rw [hag.x]
    show (callX s.x _ (s.r (arg0 c.cfg)) i).length = 16
    have hl : ∀ m a, (Mem.rd m a 8 ++ List.replicate 8 (0 : Byte)).length = 16 := fun m a => by rw [List.length_append, Mem.rd_length, List.length_replicate]
    rcases (by omega : i = 0 ∨ i = 1 ∨ i = 2 ∨ i = 3) with rfl | rfl | rfl | rfl <;> exact hl _ _
  refine ⟨⟨rfl, hroom, h2, hx, ?_, hK, ?_, ?_⟩, ⟨h.call.types, fun i t v q1 q2 => ?_, fun i t q1 hby => ?_⟩⟩
  · show f.r 1 < 2 ^ 64
    rw [hag.r]
    show leNat _ < _
    have := leNat_lt (Mem.rd (framed s.mem (w64Marshal abi rt ats I).frame (s.r 5) I.raddr) (s.r (arg0 c.cfg)) 8)
    rw [Mem.rd_length] at this
    exact this
  · show leNat (f.mem.rd (f.r 4) 8) = _
    rw [h9, ← h.back]
    exact w64_word rfl hb
  · show f.ss = _
    rw [h8, h.back]
  · refine passed_congr (R := w64State f) rfl (fun k hk => ?_) (fun _ _ => rfl) (fun _ _ => rfl) (fun _ _ _ _ => rfl) (h3 i t v q1 q2)
    unfold w64State w64Enter
    dsimp only
    rcases (by omega : k = 0 ∨ k = 1 ∨ k = 2 ∨ k = 3) with rfl | rfl | rfl | rfl <;> rfl
  · have := w64_ref h.call q1 hby
    have hs : slot (w64State (w64Enter c K f)) false (firstSlot abi.gnu rt + i) =
        slot (w64Regs (w64Call abi rt ats I).entry) false (firstSlot abi.gnu rt + i) := by
      refine slot_congr ?_ (fun k hk => ?_) fun y hy => ?_
      · show f.r 4 + 8 = (w64Call abi rt ats I).entry.args
        omega
      · show _ = (w64Call abi rt ats I).entry.gpr k
        rw [← gg k hk]
        unfold w64State w64Enter
        dsimp only
        rcases (by omega : k = 0 ∨ k = 1 ∨ k = 2 ∨ k = 3) with rfl | rfl | rfl | rfl <;> rfl
      · have : (w64Call abi rt ats I).entry.args + 32 ≤ y := hy
        exact hm y (.inr (by omega))
    rw [hs]
    show Disj _ _ lo (f.r 4 + 40)
    rwa [show f.r 4 + 40 = (w64Marshal abi rt ats I).stack + 32 by omega]

/-- C90: a closure called through `ffi_call`: whatever interrupts the instructions of both, the handler sees the values
that the caller of `ffi_call` supplied, and the caller's result address; after the handler has returned a value by
the convention, without touching the frame of `ffi_call`, the closure returns to `ffi_call_win64`, that returns to its caller, and
the caller's object holds the value, widened if it is an integer. -/
theorem C90_round_trip {c : Ctx} {abi : Abi} {rt : FType} {ats : List FType} {I : CallIn} {lo : Nat} {vs : List (List Byte)}
    {s f g u t u' t' : St} {ss : List Nat} {K a b d e : Nat} (h : W64AsmCall c abi rt ats I lo vs s ss) (hb : I.raddr2 < 2 ^ 64) (hs : SizeOk rt)
    -- the call
    (hr : Reach c lo s f) (hf : f.pc = .out a) (hroom : lo + 96 ≤ f.r 4) (hK : K + 56 ≤ lo ∨ f.r 4 + 40 ≤ K)
    -- the closure, up to the handler
    (hg : Reach c lo (w64Enter c K f) g) (hgo : g.pc = .out b) :
    W64Inner c false abi rt ats lo vs (w64Enter c K f) g ∧
    ((hu : W64ClosRet c (w64Enter c K f) g u) →
      -- the handler, and what follows it in the closure
      (hfr : ∀ y, (w64Marshal abi rt ats I).frame ≤ y → y < (w64Marshal abi rt ats I).frame + 40 → u.mem y = g.mem y) →
      Reach c lo u t → t.pc = .out d →
      d = c.base + (eo c.cfg + 65) ∧
      -- the rest of the call
      ((∀ o, I.rvalue = some o → o + 8 ≤ lo ∨ I.sp ≤ o) → u' = { t with pc := .at_ (eo c.cfg + 65) } → Reach c lo u' t' → t'.pc = .out e →
        ∀ o v, I.rvalue = some o → retPlace abi.gnu rt = .rax ∨ retPlace abi.gnu rt = .xmm0 → v.length = rt.size →
          u.mem.rd (innerView (retFlag abi rt) ats g.mem (g.r 9 + 56)).rvalue rt.size = v →
          e = I.raddr ∧ t'.mem.rd o (resultObj rt.tc v).length = resultObj rt.tc v ∧ Saved t'.r s.r ∧ SavedX t'.x s.x ∧ t'.ss = ss ∧
          ∀ y, y < lo ∨ I.sp ≤ y → y < o ∨ o + (resultObj rt.tc v).length ≤ y → t'.mem y = u.mem y)) := by
  obtain ⟨hP, hA⟩ := w64_chain h hb hr hf hroom hK
  obtain ⟨l1, l2, l3, l4⟩ := w64_layout h.call
  obtain ⟨-, hag⟩ := w64_called h hr hf
  obtain ⟨g4, -, -⟩ := w64_entered h hag
  have hI := (w64_inner hP hg hgo hA).2
  refine ⟨hI, fun hu hfr ht htd => ?_⟩
  obtain ⟨hd, hD⟩ := (C90_closure_return hP hg hgo hu ht).2 d htd
  have hss := ((C90_call_enter h hr).2 a hf).2.2.2.2.2.2.2.1
  refine ⟨by rw [hd, h.back], fun hplace hu' ht' hte o v ho hp hl hv => ?_⟩
  have hret := (C90_closure_result hP hg hgo hu hA hs ht htd).1 v hp hl hv
  have hsp : (w64Enter c K f).r 4 = f.r 4 := rfl
  have hCR : W64CallRet c I lo (w64Marshal abi rt ats I).frame f u' := by
    subst hu'
    refine ⟨⟨⟨_, rfl, ?_⟩, ?_, hD.saved, hD.savedX, hD.wide, fun y hy => ?_⟩, hplace⟩
    · show f.ss = _ :: t.ss
      rw [hss, hD.ss]
    · show t.r 4 = _
      rw [hD.sp]
      rfl
    · show t.mem y = _
      rw [hD.mem y (.inr (by rw [hsp]; omega)), hfr y hy.1 hy.2, hI.mem y (.inr (.inr (by rw [hsp]; omega)))]
      rfl
  have hres := (C90_call_result h hs hr hf hCR ht' hte).1 o v ho hp (by subst hu'; exact hret)
  have hback := (C90_call_return h hr hf hCR ht').2 e hte
  obtain ⟨m', q1, -, -⟩ := (C24_result (abi := abi) hs (R := retRegs u') (leBytes_length ..)
    (by show ((u'.x 0).take 8).length = 8; rw [List.length_take, hCR.back.wide]; rfl) (w64Call abi rt ats I).rvalue u'.mem).1 v (by subst hu'; exact hret) hp
  have hfl : callFlags (retFlag abi rt) I.rvalue = retFlag abi rt := by
    unfold callFlags
    rw [if_neg (by rw [ho]; exact fun h => nomatch h.1)]
  rw [hfl, q1] at hback
  obtain ⟨-, -, b3, b4, b5, -⟩ := hback
  refine ⟨hres.1, hres.2.1, b3, b4, b5, fun y hy hy' => ?_⟩
  rw [hres.2.2 y hy hy']
  subst hu'
  show t.mem y = _
  exact hD.mem y (hy.imp_right fun _ => by rw [hsp]; omega)

/-! ## Unwinding -/

/-- C91 (part): at every instruction of every execution of `ffi_call_win64` before the call, an unwinder that reads the call
frame information, or on Windows the unwind codes, finds the return address and the registers of the caller.
Missing: `ffi_closure_win64_alt`, see `C91_alt`. -/
theorem C91_call_enter_partial {c : Ctx} {abi : Abi} {rt : FType} {ats : List FType} {I : CallIn} {lo : Nat} {vs : List (List Byte)}
    {s : St} {ss : List Nat} (h : W64AsmCall c abi rt ats I lo vs s ss) {t : St} (hr : Reach c lo s t) {o : Nat} (ho : t.pc = .at_ o) :
    Unwinds c.cfg o t.r t.mem I.raddr s.r (fun p => p = s.r 4 + 8 ∨ p = (w64Marshal abi rt ats I).frame + 16) := by
  have := (w64_call_safe h).reach hr (Agree.self _ _)
  unfold Holds at this
  rw [ho] at this
  exact this

/-- C91 (part): the same after the call. -/
theorem C91_call_return_partial {c : Ctx} {abi : Abi} {rt : FType} {ats : List FType} {I : CallIn} {lo : Nat} {vs : List (List Byte)}
    {s f u : St} {ss : List Nat} {a : Nat} (h : W64AsmCall c abi rt ats I lo vs s ss) (hr : Reach c lo s f) (hf : f.pc = .out a)
    (hu : W64CallRet c I lo (w64Marshal abi rt ats I).frame f u) {t : St} (ht : Reach c lo u t) {o : Nat} (ho : t.pc = .at_ o) :
    Unwinds c.cfg o t.r t.mem I.raddr s.r (fun p => p = (w64Marshal abi rt ats I).frame + 16) := by
  have := (w64_return_safe h hr hf hu).reach ht (Agree.self _ _)
  unfold Holds at this
  rw [ho] at this
  exact this

/-- C91 (part): and inside the called function: an unwinder that has found the registers `r` its caller had, and looks the
call instruction up (call frame information) or the return address (unwind codes), goes on to the caller of `ffi_call_win64`. -/
theorem C91_call_inside_partial {c : Ctx} {abi : Abi} {rt : FType} {ats : List FType} {I : CallIn} {lo : Nat} {vs : List (List Byte)}
    {s f : St} {ss : List Nat} {a : Nat} (h : W64AsmCall c abi rt ats I lo vs s ss) (hr : Reach c lo s f) (hf : f.pc = .out a)
    {r : Nat → Nat} {m : Mem} (hs : Saved r f.r)
    (hm : ∀ y, (w64Marshal abi rt ats I).frame ≤ y → y < (w64Marshal abi rt ats I).frame + 16 → m y = f.mem y) :
    ∃ o n, f.ss = (c.base + (o + n)) :: s.ss ∧ fetch c.cfg o = some (n, .callm 5 16) ∧
      Unwinds c.cfg o r m I.raddr s.r (fun p => p = (w64Marshal abi rt ats I).frame + 16) ∧
      Unwinds c.cfg (o + n) r m I.raddr s.r (fun p => p = (w64Marshal abi rt ats I).frame + 16) := by
  obtain ⟨-, hag⟩ := w64_called h hr hf
  obtain ⟨l1, l2, l3, l4⟩ := w64_layout h.call
  obtain ⟨r1, r2, r3⟩ := row_call c.cfg
  have h5 : f.r 5 = (w64Marshal abi rt ats I).frame := by rw [hag.r]; exact h.a1
  have hra : I.raddr < 2 ^ 64 := by
    have := leNat_lt (s.mem.rd (s.r 4) 8)
    rw [h.caller, Mem.rd_length] at this
    exact this
  have hmem : ∀ {o : Nat}, o + 8 ≤ 16 → m.rd ((w64Marshal abi rt ats I).frame + o) 8 =
      (framed s.mem (w64Marshal abi rt ats I).frame (s.r 5) I.raddr).rd ((w64Marshal abi rt ats I).frame + o) 8 := by
    intro o ho
    refine Mem.rd_congr fun i hi => ?_
    rw [hm _ (by omega) (by omega), hag.mem _ (.inr (by omega))]
    show Mem.wr (framed s.mem _ _ _) (s.r (arg0 c.cfg) - 8) _ _ = _
    rw [h.a0, Mem.wr_out _ _ _ _ (by rw [leBytes_length]; omega)]
  obtain ⟨w1, w2⟩ := framed_words s.mem (w64Marshal abi rt ats I).frame (s.r 5) I.raddr
  obtain ⟨k1, k2, k3, k4, k5, k6, k7, k8⟩ := hs
  rw [h5] at k2
  have q1 : leNat (m.rd (r 5 + 8) 8) = I.raddr := by rw [k2, hmem (by omega)]; exact w64_word w2 hra
  have q2 : leNat (m.rd (r 5) 8) = s.r 5 := by
    have := hmem (o := 0) (by omega)
    rw [Nat.add_zero] at this
    rw [k2, this]
    exact w64_word w1 (by rw [h.rbp]; exact h.word)
  have q3 : Saved (upd r 5 (s.r 5)) s.r := by
    rw [hag.r] at k1 k3 k4 k5 k6 k7 k8
    exact ⟨k1, rfl, k3, k4, k5, k6, k7, k8⟩
  exact ⟨eo c.cfg + 62, 3, hag.ss, r1, unwinds_rbp r2 q1 q2 (by rw [k2]) q3, unwinds_rbp r3 q1 q2 (by rw [k2]) q3⟩

/-- C91 (part): at every instruction of a closure, before and after the call of `ffi_closure_win64_inner`, unwinding leads
to the closure's caller. -/
theorem C91_closure_enter_partial {c : Ctx} {go : Bool} {s : St} {lo ra : Nat} {ss : List Nat} (h : W64ClosPre c go s lo ra ss) {t : St}
    (hr : Reach c lo s t) {o : Nat} (ho : t.pc = .at_ o) : Unwinds c.cfg o t.r t.mem ra s.r (fun p => p = s.r 4 + 8) := by
  have := (w64_clos_safe h).reach hr (Agree.self _ _)
  unfold Holds at this
  rw [ho] at this
  exact this

theorem C91_closure_return_partial {c : Ctx} {go : Bool} {s f u : St} {lo ra a : Nat} {ss : List Nat} (h : W64ClosPre c go s lo ra ss)
    (hr : Reach c lo s f) (hf : f.pc = .out a) (hu : W64ClosRet c s f u) {t : St} (ht : Reach c lo u t) {o : Nat} (ho : t.pc = .at_ o) :
    Unwinds c.cfg o t.r t.mem ra s.r (fun p => p = s.r 4 + 8) := by
  have := (w64_closret_safe h hr hf hu).reach ht (Agree.self _ _)
  unfold Holds at this
  rw [ho] at this
  exact this

theorem C91_closure_inside_partial {c : Ctx} {go : Bool} {s f : St} {lo ra a : Nat} {ss : List Nat} (h : W64ClosPre c go s lo ra ss)
    (hr : Reach c lo s f) (hf : f.pc = .out a) {r : Nat → Nat} {m : Mem} (hs : Saved r f.r) (h4 : r 4 = f.r 4 + 8)
    (hm : ∀ y, s.r 4 ≤ y → y < s.r 4 + 8 → m y = f.mem y) :
    ∃ o n, f.ss = (c.base + (o + n)) :: s.ss ∧ fetch c.cfg o = some (n, .callx 1) ∧
      Unwinds c.cfg o r m ra s.r (fun p => p = s.r 4 + 8) ∧ Unwinds c.cfg (o + n) r m ra s.r (fun p => p = s.r 4 + 8) := by
  have := (w64_clos_safe h).reach hr (Agree.self _ _)
  unfold Holds at this
  rw [hf] at this
  obtain ⟨rfl, v, v1, v2, v3, v4, hv⟩ := this
  have hst := h.stack
  obtain ⟨r1, r2, r3⟩ := row_inner c.cfg
  have e4 : f.r 4 = s.r 4 - 88 - 8 := by rw [hv.r, v1]; rfl
  have q1 : leNat (m.rd (r 4 + 96 - 8) 8) = ra := by
    rw [show r 4 + 96 - 8 = s.r 4 by omega, ← h.caller]
    refine congrArg leNat (Mem.rd_congr fun i hi => ?_)
    rw [hm _ (by omega) (by omega), hv.mem _ (.inl (by unfold dom; omega)), v3, Mem.wr_out _ _ _ _ (by rw [leBytes_length]; omega),
      spillX_out (by omega), spillG_out (by omega)]
  have q3 : Saved r s.r := by
    obtain ⟨k1, k2, k3, k4, k5, k6, k7, k8⟩ := hs
    rw [hv.r, v1] at k1 k2 k3 k4 k5 k6 k7 k8
    exact ⟨k1, k2, k3, k4, k5, k6, k7, k8⟩
  exact ⟨_, _, by rw [hv.ss, v4], r1, unwinds_rsp r2 q1 (by omega) q3, unwinds_rsp r3 q1 (by omega) q3⟩

/-- C91 fails in `ffi_closure_win64_alt`: its instructions have no call frame information, and the unwind codes of the first do not
say that the trampoline has lowered the stack pointer by 16; so Windows takes the word at the stack pointer, which
is the r10 that the trampoline saved (`C21_static_trampoline`), for the return address. -/
theorem C91_alt (cfg : Cfg) {o : Nat} (ho : o = off cfg .alt ∨ o = off cfg .alt + eo cfg) (r : Nat → Nat) (m : Mem) :
    (∀ ra g sp, ¬Unwinds cfg o r m ra g sp) ∧ ∃ row, sehRow cfg o = some row ∧ (unwind row r m).1 = leNat (m.rd (r 4) 8) ∧
      (unwind row r m).2 4 = r 4 + 8 := by
  obtain ⟨r1, r2, r3, r4, r5, r6⟩ := row_alt cfg
  have hd : dwarf cfg o = none ∧ sehRow cfg o = some rowA := by rcases ho with rfl | rfl <;> exact ⟨‹_›, ‹_›⟩
  refine ⟨?_, rowA, hd.2, ?_, rfl⟩
  · rintro ra g sp ⟨row, h1, -⟩
    rw [hd.1] at h1
    cases h1
  · show leNat (m.rd (r 4 + 8 - 8) 8) = _
    rw [Nat.add_sub_cancel]

/-- A state entered by a static trampoline: the return address 4242 is at 4112, and the saved r10 is 77. -/
example : ∃ (r : Nat → Nat) (m : Mem), leNat (m.rd (r 4 + 16) 8) = 4242 ∧
    ∃ row, sehRow ⟨true, false, false⟩ (off ⟨true, false, false⟩ .alt) = some row ∧ (unwind row r m).1 = 77 := by
  refine ⟨fun _ => 4096, Mem.wr (Mem.wr (fun _ => 0) 4096 (leBytes 8 77)) 4112 (leBytes 8 4242), by decide +kernel, ?_⟩
  obtain ⟨row, h1, h2, -⟩ := (C91_alt ⟨true, false, false⟩ (.inl rfl) (fun _ => 4096)
    (Mem.wr (Mem.wr (fun _ => 0) 4096 (leBytes 8 77)) 4112 (leBytes 8 4242))).2
  exact ⟨row, h1, by rw [h2]; decide +kernel⟩

/-! ## No faults -/

/-- C92: no instruction of a call faults: every instruction is there, the jump into the table lands on an entry, and, with control-flow
enforcement, every `ret` goes to the address on the shadow stack. -/
theorem C92_call {c : Ctx} {abi : Abi} {rt : FType} {ats : List FType} {I : CallIn} {lo : Nat} {vs : List (List Byte)}
    {s : St} {ss : List Nat} (h : W64AsmCall c abi rt ats I lo vs s ss) {t : St} (hr : Reach c lo s t) {o : Nat} (ho : t.pc = .at_ o) :
    ∃ v, step c t = some v :=
  (w64_call_safe h).progress hr (Agree.self _ _) ho

theorem C92_call_return {c : Ctx} {abi : Abi} {rt : FType} {ats : List FType} {I : CallIn} {lo : Nat} {vs : List (List Byte)}
    {s f u : St} {ss : List Nat} {a : Nat} (h : W64AsmCall c abi rt ats I lo vs s ss) (hr : Reach c lo s f) (hf : f.pc = .out a)
    (hu : W64CallRet c I lo (w64Marshal abi rt ats I).frame f u) {t : St} (ht : Reach c lo u t) {o : Nat} (ho : t.pc = .at_ o) :
    ∃ v, step c t = some v :=
  (w64_return_safe h hr hf hu).progress ht (Agree.self _ _) ho

theorem C92_closure {c : Ctx} {go : Bool} {s : St} {lo ra : Nat} {ss : List Nat} (h : W64ClosPre c go s lo ra ss) {t : St}
    (hr : Reach c lo s t) {o : Nat} (ho : t.pc = .at_ o) : ∃ v, step c t = some v :=
  (w64_clos_safe h).progress hr (Agree.self _ _) ho

theorem C92_closure_return {c : Ctx} {go : Bool} {s f u : St} {lo ra a : Nat} {ss : List Nat} (h : W64ClosPre c go s lo ra ss)
    (hr : Reach c lo s f) (hf : f.pc = .out a) (hu : W64ClosRet c s f u) {t : St} (ht : Reach c lo u t) {o : Nat} (ho : t.pc = .at_ o) :
    ∃ v, step c t = some v :=
  (w64_closret_safe h hr hf hu).progress ht (Agree.self _ _) ho

/-- C92: the entry points, which are reached through pointers, begin with `endbr64`; the code can be assembled: every entry of the
table fits in its 8 bytes, with and without `.org`, which makes no difference. -/
theorem C92_entries : (∀ win org, fetch ⟨win, true, org⟩ 0 = some (4, .endbr) ∧
      (∀ l ∈ [Lbl.go, .clos, .alt], fetch ⟨win, true, org⟩ (off ⟨win, true, org⟩ l) = some (4, .endbr))) ∧
    (∀ cfg : Cfg, ∀ k, k < 19 → (fetch cfg (off cfg .table + 8 * k)).isSome) ∧
    ∀ win cet, (assemble ⟨win, cet, false⟩ (source ⟨win, cet, false⟩) 0 ⟨[], [], []⟩ none).isSome ∧
      (image ⟨win, cet, false⟩).code = (image ⟨win, cet, true⟩).code := by
  refine ⟨by decide +kernel, ?_, by decide +kernel⟩
  rintro ⟨_ | _, _ | _, _ | _⟩ <;> decide +kernel

/-! ## Concrete cases -/

/-- The machine when `ffi_call_int` calls `ffi_call_win64` for the call `wCall` of C22. -/
def w64ExIn (c : Ctx) : CallIn := { wCall with rvalue := some 200000, rbp := 7, raddr := 4242, raddr2 := c.base + (eo c.cfg + 65) }

def w64ExMem (m : Mem) : Mem := m.wr 95000 (leBytes 8 4242)

def w64ExCall (c : Ctx) : St :=
  { pc := .at_ 0
    r := fun d => if d = arg0 c.cfg then (w64Marshal .win64 w8 wSig (w64ExIn c)).stack else
      if d = arg1 c.cfg then (w64Marshal .win64 w8 wSig (w64ExIn c)).frame else if d = arg2 c.cfg then 77 else if d = 4 then 95000 else 7
    x := fun _ => List.replicate 16 1, zf := false, cf := false
    mem := w64ExMem (w64Marshal .win64 w8 wSig (w64ExIn c)).mem, ss := [4242] }

theorem w64ExCall_ok (c : Ctx) : W64Call .win64 w8 wSig (w64ExIn c) 90000
    ((wSig.zip wCall.avalue).map fun x => wCall.mem.rd x.2 x.1.size) :=
  ⟨wCall_ok.types, wCall_ok.nargs, wCall_ok.len, (by have e : (w64ExIn c).sp = 100000 := rfl; rw [e]; decide +kernel), wCall_ok.obj, wCall_ok.addr, wCall_ok.vals,
    fun a ha => by cases ha; decide⟩

theorem w64ExLayout (c : Ctx) : (w64Marshal .win64 w8 wSig (w64ExIn c)).stack = 99872 := by
  have : ∀ I : CallIn, I.sp = 100000 → I.avalue = wCall.avalue → I.rvalue = some 200000 → (w64Marshal .win64 w8 wSig I).stack = 99872 := by
    intro I h1 h2 h3
    have hc : (copyArgs wSig wCall.avalue 100000 I.mem).2.1 = 99968 := by
      have key : ∀ (ts : List FType) (as : List Nat) (sp : Nat) (m m' : Mem), (copyArgs ts as sp m).2.1 = (copyArgs ts as sp m').2.1 := by
        intro ts
        induction ts with
        | nil => intro as sp m m'; rfl
        | cons t ts ih =>
          intro as sp m m'
          cases as with
          | nil => rfl
          | cons a as =>
            unfold copyArgs
            split
            · exact ih _ _ _ _
            · exact ih _ _ _ _
      rw [key _ _ _ I.mem wCall.mem]
      decide +kernel
    unfold w64Marshal marshal
    rw [h1, h2, h3]
    show alloca (copyArgs wSig wCall.avalue 100000 I.mem).2.1 _ = _
    rw [hc]
    decide +kernel
  exact this _ rfl rfl rfl

theorem w64ExCall_pre (c : Ctx) : W64AsmCall c .win64 w8 wSig (w64ExIn c) 90000
    ((wSig.zip wCall.avalue).map fun x => wCall.mem.rd x.2 x.1.size) (w64ExCall c) [] := by
  have hst := w64ExLayout c
  have e4 : (w64ExCall c).r 4 = 95000 := by
    unfold w64ExCall arg0 arg1 arg2
    dsimp only
    split <;> rfl
  have hmem : (w64ExCall c).mem = w64ExMem (w64Marshal .win64 w8 wSig (w64ExIn c)).mem := rfl
  refine ⟨w64ExCall_ok c, rfl, ?_, ?_, ?_, ?_, (by decide : 7 < 2 ^ 64), by rw [e4]; omega, by rw [e4, hst]; omega, ?_, rfl, rfl, (by decide : 5000 < 2 ^ 64), ?_⟩
  · unfold w64ExCall
    exact if_pos rfl
  · unfold w64ExCall arg0 arg1
    dsimp only
    split <;> rfl
  · unfold w64ExCall arg0 arg1 arg2
    dsimp only
    split <;> rfl
  · unfold w64ExCall arg0 arg1 arg2
    dsimp only
    split <;> rfl
  · rw [e4, hmem]
    exact w64_word (rd8 _ _ _) (by decide : 4242 < 2 ^ 64)
  · intro a ha
    rw [hmem, w64ExMem, Mem.wr_out _ _ _ _ (by rw [leBytes_length, hst] at *; omega)]

/-- A closure entered with the stack aligned as after a call, its object at 16384. -/
def w64ExClos (c : Ctx) (go : Bool) : St :=
  { pc := .at_ (off c.cfg (closLbl go)), r := fun d => match d with | 4 => 4104 | 10 => 16384 | _ => 7
    x := fun _ => List.replicate 16 1, zf := false, cf := false, mem := Mem.wr (fun _ => 0) 4104 (leBytes 8 4242), ss := [4242] }

theorem w64ExClos_pre (c : Ctx) (go : Bool) : W64ClosPre c go (w64ExClos c go) 1024 4242 [] :=
  ⟨rfl, (by decide : 1024 + 96 ≤ 4104), (by decide : (4104 + 8) % 16 = 0), fun _ _ => rfl, (by decide : 7 < 2 ^ 64), .inr (by decide : 4104 + 40 ≤ 16384),
    show leNat (Mem.rd (Mem.wr (fun _ => 0) 4104 (leBytes 8 4242)) 4104 8) = 4242 by decide +kernel, rfl⟩

/-- Two arguments: an integer and a structure of three bytes at address 7. -/
theorem w64ExClos_args (c : Ctx) (go : Bool) : W64ClosArgs .win64 w8 [mkScalar lp64 .sint32, w3] 1024 [[7, 0, 0, 0], [0, 0, 0]] (w64ExClos c go) := by
  refine ⟨?_, ?_, ?_⟩
  · intro t ht n hn
    simp only [List.mem_cons, List.not_mem_nil, or_false] at ht
    rcases ht with rfl | rfl <;> simp_all [w3, mkStruct, mkScalar, stdSize, lp64]
  · intro i t v h1 h2
    match i, h1, h2 with
    | 0, h1, h2 => cases h1; cases h2; show PassedAt (w64State (w64ExClos ⟨⟨true, true, true⟩, 0, fun _ => 0⟩ go)) _ _ _; unfold PassedAt; decide +revert +kernel
    | 1, h1, h2 => cases h1; cases h2; show PassedAt (w64State (w64ExClos ⟨⟨true, true, true⟩, 0, fun _ => 0⟩ go)) _ _ _; unfold PassedAt; decide +revert +kernel
    | n + 2, h1, _ => cases h1
  · intro i t h1 hby
    match i, h1 with
    | 0, h1 => cases h1; exact absurd (by decide +kernel) hby
    | 1, h1 => cases h1; left; show leNat (slot (w64State (w64ExClos ⟨⟨true, true, true⟩, 0, fun _ => 0⟩ go)) _ _) + _ ≤ _; decide +revert +kernel
    | n + 2, h1 => cases h1

example (c : Ctx) := C90_call_enter (w64ExCall_pre c) .refl
example (c : Ctx) (go : Bool) := C90_closure_enter (w64ExClos_pre c go) (w64ExClos_args c go) .refl
example (c : Ctx) (go : Bool) := C91_closure_enter_partial (w64ExClos_pre c go) .refl rfl

/-- Both halves of a call can be executed. -/
theorem w64ExCall_runs (c : Ctx) : ∃ f u a, Reach c 90000 (w64ExCall c) f ∧ f.pc = .out a ∧
    W64CallRet c (w64ExIn c) 90000 (w64Marshal .win64 w8 wSig (w64ExIn c)).frame f u := by
  obtain ⟨⟨a, f, hf, ha⟩, -⟩ := C90_call_enter (w64ExCall_pre c) .refl
  obtain ⟨-, h2⟩ := C90_call_enter (w64ExCall_pre c) hf
  have hss := (h2 a ha).2.2.2.2.2.2.2.1
  have hx := (h2 a ha).2.2.2.2.2.2.1
  refine ⟨f, { f with pc := .at_ (eo c.cfg + 65), r := upd f.r 4 (f.r 4 + 8), x := upd f.x 0 (List.replicate 16 0), ss := f.ss.tail }, a, hf, ha,
    ⟨⟨_, rfl, ?_⟩, rfl, ⟨rfl, rfl, rfl, rfl, rfl, rfl, rfl, rfl⟩, fun i hi => ?_, rfl, fun _ _ => rfl⟩, fun o ho => ?_⟩
  · rw [hss]
    rfl
  · show upd f.x 0 _ i = _
    unfold upd
    rw [if_neg (by omega)]
  · cases ho
    right
    show 100000 ≤ 200000
    decide

example (c : Ctx) : ∃ f u, ∀ t, Reach c 90000 u t → ∀ b, t.pc = .out b →
    b = 4242 ∧ t.mem.rd 200000 8 = List.replicate 8 0 ∧ Reach c 90000 (w64ExCall c) f := by
  obtain ⟨f, u, a, hf, ha, hu⟩ := w64ExCall_runs c
  let u' : St := { u with r := upd u.r 0 0 }
  have hu' : W64CallRet c (w64ExIn c) 90000 (w64Marshal .win64 w8 wSig (w64ExIn c)).frame f u' :=
    ⟨⟨hu.back.pc, hu.back.sp, hu.back.saved, hu.back.savedX, hu.back.wide, hu.back.mem⟩, hu.place⟩
  refine ⟨f, u', fun t ht b hb => ?_⟩
  have key := (C90_call_result (w64ExCall_pre c) (by intro n hn; simp [w8, mkStruct, stdSize] at hn) hf ha hu' ht hb).1
    200000 (List.replicate 8 0) rfl (.inl (by decide +kernel)) ⟨by decide +kernel, fun _ => by show (leBytes 8 0).take w8.size = _; decide +kernel,
      fun h => absurd h (by decide +kernel)⟩
  exact ⟨key.1, by have := key.2.1; exact this, hf⟩

/-- The object of a closure with a dynamic trampoline. -/
example : X64.steps 3 ⟨4096, 0, 9000, Mem.wr (fun _ => 0) 4096 (closureObj 0x401000 5 6 7)⟩ =
    some ⟨0x401000, 4096, 9000, Mem.wr (fun _ => 0) 4096 (closureObj 0x401000 5 6 7)⟩ :=
  (C90_trampoline (dest := 0x401000) (cif := 5) (fn := 6) (ud := 7) (by decide) (by decide) (by decide) (by decide) (by decide) (by
    have := Mem.rd_wr_same (fun _ => 0) 4096 (closureObj 0x401000 5 6 7)
    rwa [show (closureObj 0x401000 5 6 7).length = 56 by decide] at this)).1

/-- Both halves of a closure can be executed. -/
theorem w64ExClos_runs (c : Ctx) (go : Bool) : ∃ f u a, Reach c 1024 (w64ExClos c go) f ∧ f.pc = .out a ∧ W64ClosRet c (w64ExClos c go) f u := by
  obtain ⟨⟨a, f, hf, ha⟩, -⟩ := C90_closure_enter (w64ExClos_pre c go) (w64ExClos_args c go) .refl
  have hI := ((C90_closure_enter (w64ExClos_pre c go) (w64ExClos_args c go) hf).2 a ha).2
  exact ⟨f, { f with pc := .at_ (off c.cfg .doClos + 38), r := upd f.r 4 (f.r 4 + 8), x := upd f.x 0 (List.replicate 16 0), ss := f.ss.tail }, a, hf, ha,
    ⟨_, rfl, by rw [hI.ss]; rfl⟩, rfl, ⟨rfl, rfl, rfl, rfl, rfl, rfl, rfl, rfl⟩, fun i hi => by show upd f.x 0 _ i = _; unfold upd; rw [if_neg (by omega)],
    rfl, fun _ _ => rfl⟩

example (c : Ctx) (go : Bool) : ∃ u, ∀ t, Reach c 1024 u t → (∃ d v, Reach c 1024 t v ∧ v.pc = .out d) ∧ ∀ d, t.pc = .out d → d = 4242 := by
  obtain ⟨f, u, a, hf, ha, hu⟩ := w64ExClos_runs c go
  exact ⟨u, fun t ht => ⟨(C90_closure_return (w64ExClos_pre c go) hf ha hu ht).1, fun d hd => ((C90_closure_return (w64ExClos_pre c go) hf ha hu ht).2 d hd).1⟩⟩

/-- A static trampoline has pushed r10 and the object, and has jumped to `ffi_closure_win64_alt`. -/
example (c : Ctx) : let s : St := { w64ExClos c false with pc := .at_ (off c.cfg .alt), r := fun d => if d = 4 then 4088 else 7
                                                           mem := Mem.wr (w64ExClos c false).mem 4096 (leBytes 8 16384) }
    ∃ f, Reach c 1024 s f ∧ f.pc = .out (c.ext 1) := by
  intro s
  have e : { s with pc := .at_ (off c.cfg .clos), r := upd (upd s.r 10 16384) 4 (s.r 4 + 16) } = { w64ExClos c false with mem := s.mem } := by
    have : upd (upd s.r 10 16384) 4 (s.r 4 + 16) = (w64ExClos c false).r := by
      funext d
      show (if d = 4 then 4104 else if d = 10 then 16384 else if d = 4 then 4088 else 7) = match d with | 4 => 4104 | 10 => 16384 | _ => 7
      split
      · subst d; rfl
      · split
        · subst d; rfl
        · split <;> simp_all
    rw [this]
    rfl
  have hp : W64ClosPre c false { w64ExClos c false with mem := s.mem } 1024 4242 [] := by
    have h := w64ExClos_pre c false
    exact ⟨h.pc, h.stack, h.align, h.wide, h.first, h.obj,
      show leNat (Mem.rd (Mem.wr (Mem.wr (fun _ => 0) 4104 (leBytes 8 4242)) 4096 (leBytes 8 16384)) 4104 8) = 4242 by decide +kernel, h.shadow⟩
  have hA : W64ClosArgs .win64 w8 [] 1024 [] { w64ExClos c false with mem := s.mem } :=
    ⟨fun _ h => (nomatch h), fun i _ _ h => (nomatch h), fun i _ h => (nomatch h)⟩
  have key := fun f hf => C90_alt_enter (c := c) (s := s) (lo := 1024) (K := 16384) (ra := 4242) (ss := []) (f := f) rfl
    (show leNat (Mem.rd (Mem.wr (Mem.wr (fun _ => 0) 4104 (leBytes 8 4242)) 4096 (leBytes 8 16384)) 4096 8) = 16384 by decide +kernel)
    (by rw [e]; exact hp) (by rw [e]; exact hA) hf
  obtain ⟨a, f, hf, ha⟩ := (key s .refl).1
  exact ⟨f, hf, by rw [ha, ((key f hf).2.2 a ha).1]⟩

/-- The closure at 16384 called by the call above. -/
example (c : Ctx) (hb : c.base + 100 < 2 ^ 64) : ∃ f g a b, Reach c 90000 (w64ExCall c) f ∧ f.pc = .out a ∧ Reach c 90000 (w64Enter c 16384 f) g ∧ g.pc = .out b ∧
    W64Inner c false .win64 w8 wSig 90000 ((wSig.zip wCall.avalue).map fun x => wCall.mem.rd x.2 x.1.size) (w64Enter c 16384 f) g := by
  have hb' : (w64ExIn c).raddr2 < 2 ^ 64 := by
    show c.base + (eo c.cfg + 65) < 2 ^ 64
    have : eo c.cfg ≤ 4 := by unfold eo; split <;> omega
    omega
  obtain ⟨⟨a, f, hf, ha⟩, -⟩ := C90_call_enter (w64ExCall_pre c) .refl
  obtain ⟨-, hag⟩ := w64_called (w64ExCall_pre c) hf ha
  obtain ⟨g4, -, -⟩ := w64_entered (w64ExCall_pre c) hag
  have hst := w64ExLayout c
  have hroom : 90000 + 96 ≤ f.r 4 := by omega
  obtain ⟨hP, hA⟩ := w64_chain (K := 16384) (w64ExCall_pre c) hb' hf ha hroom (.inl (by decide))
  obtain ⟨⟨b, g, hg, hgb⟩, -⟩ := C90_closure_enter hP hA .refl
  exact ⟨f, g, a, b, hf, ha, hg, hgb,
    (C90_round_trip (u := g) (t := g) (u' := g) (t' := g) (d := 0) (e := 0) (w64ExCall_pre c) hb' (by intro n hn; simp [w8, mkStruct, stdSize] at hn) hf ha hroom
      (.inl (by decide)) hg hgb).1⟩

end Verif.Props
