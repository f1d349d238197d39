import Verif.AArch64.RetLemmas
import Verif.AArch64.Room
import Verif.Spec.Build

/-
Properties C38-C41 and C51: AArch64.
-/
namespace Verif.Props
open Verif Spec Spec.A64 A64

/-! ## Types used in the examples -/

def aI64 := mkScalar lp64 .sint64
def aI32 := mkScalar lp64 .sint32
def aI8 := mkScalar lp64 .sint8
def aF32 := mkScalar lp64 .float
def aF64 := mkScalar lp64 .double
def aLD := mkScalar lp64 .longdouble
def aVoid : FType := .mk 1 1 .void []
/-- `struct { float x; struct { float y, z; } s; }` -/
def aHfa3 := mkStruct [aF32, mkStruct [aF32, aF32]]
/-- `struct { float x; int y; }` -/
def aMixed := mkStruct [aF32, aI32]
/-- `struct { double x, y; }` -/
def aD2 := mkStruct [aF64, aF64]
/-- `struct { float x, y; }` -/
def aF2 := mkStruct [aF32, aF32]
/-- `struct { float x, y, z, w; }` -/
def aF4 := mkStruct [aF32, aF32, aF32, aF32]
/-- `struct { long a, b, c; }` -/
def aS24 := mkStruct [aI64, aI64, aI64]
/-- `struct { int a, b, c, d, e; }` -/
def aS20 := mkStruct [aI32, aI32, aI32, aI32, aI32]
/-- `struct { long double a; int b; }` -/
def aS32 := mkStruct [aLD, aI32]
/-- `struct { int a, b, c; }` -/
def aS12 := mkStruct [aI32, aI32, aI32]

theorem wf_aI64 : WF lp64 aI64 := mkScalar_wf rfl
theorem wf_aI32 : WF lp64 aI32 := mkScalar_wf rfl
theorem wf_aI8 : WF lp64 aI8 := mkScalar_wf rfl
theorem wf_aF32 : WF lp64 aF32 := mkScalar_wf rfl
theorem wf_aF64 : WF lp64 aF64 := mkScalar_wf rfl
theorem wf_aLD : WF lp64 aLD := mkScalar_wf rfl
theorem wf_aHfa3 : WF lp64 aHfa3 :=
  mkStruct_wf lp64_ok (by simp) (by simpa using ⟨wf_aF32, mkStruct_wf lp64_ok (by simp) (by simpa using wf_aF32)⟩)
theorem wf_aD2 : WF lp64 aD2 := mkStruct_wf lp64_ok (by simp) (by simpa using wf_aF64)
theorem wf_aS24 : WF lp64 aS24 := mkStruct_wf lp64_ok (by simp) (by simpa using wf_aI64)
theorem wf_aS20 : WF lp64 aS20 := mkStruct_wf lp64_ok (by simp) (by simpa using wf_aI32)
theorem wf_aS12 : WF lp64 aS12 := mkStruct_wf lp64_ok (by simp) (by simpa using wf_aI32)
theorem wf_aS32 : WF lp64 aS32 := mkStruct_wf lp64_ok (by simp) (by simpa using ⟨wf_aLD, wf_aI32⟩)

def aLinux : Cfg := ⟨false, false, false, 0⟩
def aApple : Cfg := ⟨true, false, false, 0⟩
/-- Variadic call with `FFI_WIN64`. -/
def aWinVar : Cfg := ⟨false, true, true, 0⟩

/-- Distinct bytes in memory; `n` argument objects from 8192 on, 64 bytes apart. -/
def aIn (n : Nat) : CallIn :=
  ⟨4096, fun x => BitVec.ofNat 8 (x % 251), (List.range n).map fun i => 8192 + 64 * i, none, 0, 0,
    fun _ => List.replicate 16 0, 2048⟩

/-! ## C38 — homogeneous aggregates -/

theorem hfa_iff {t : FType} {n : Nat} : hfa t = some n ↔ ∃ k, IsHFA t k n := by
  unfold hfa IsHFA
  generalize (leaves t 0).map (·.tc) = l
  cases l with
  | nil =>
    constructor
    · intro h; cases h
    · rintro ⟨k, h1, _, h, _⟩
      cases n with
      | zero => omega
      | succ n => rw [List.replicate_succ] at h; cases h
  | cons k ks =>
    dsimp only
    constructor
    · intro h
      cases hk : fpSize k with
      | none => rw [hk] at h; cases h
      | some z =>
        rw [hk] at h
        dsimp only at h
        split at h
        · rename_i hc
          cases h
          refine ⟨k, by omega, by omega, ?_, z, hk, hc.2.2⟩
          rw [List.replicate_succ, ← hc.2.1]
        · cases h
    · rintro ⟨k', h1, h4, h, z, hz, hs⟩
      cases n with
      | zero => omega
      | succ n =>
        rw [List.replicate_succ] at h
        obtain ⟨rfl, rfl⟩ := List.cons.inj h
        rw [hz]
        simp only [List.length_replicate]
        rw [if_pos ⟨by omega, trivial, hs⟩]

/-- Number of the kind in the result codes (`AARCH64_RET_S4` … `AARCH64_RET_Q1`,
src/aarch64/internal.h:33-46). -/
def kindNo : TC → Nat
  | .float => 2
  | .double => 3
  | .longdouble => 4
  | _ => 0

/-- C38: a well-formed type is classified as `n` numbers of kind `k` exactly if its
scalar components are 1 to 4 numbers of that kind without padding, whatever the
nesting; the classification never fails. -/
theorem C38_hfa {t : FType} (h : WF lp64 t) :
    ∃ code, isVfp t = .ok code ∧ (code ≠ 0 ↔ ∃ k n, IsHFA t k n) ∧
      ∀ k n, IsHFA t k n → code = 4 * kindNo k + (4 - n) := by
  obtain ⟨c, hc, hm⟩ := isVfp_spec h
  refine ⟨c, hc, ?_, ?_⟩
  · cases hh : hfa t with
    | none =>
      rw [hh] at hm
      have h0 : c = 0 := hm
      constructor
      · intro h; exact absurd h0 h
      · rintro ⟨k, n, hk⟩
        rw [hfa_iff.2 ⟨k, hk⟩] at hh
        cases hh
    | some n =>
      rw [hh] at hm
      obtain ⟨k, z, hk, h1, h4, _, hs, _, rfl⟩ := hm
      obtain ⟨k', hk'⟩ := hfa_iff.1 hh
      refine ⟨fun _ => ⟨k', n, hk'⟩, fun _ => ?_⟩
      cases k <;> simp [fpSize] at hk <;> simp [fpCode]
  · intro k n hk
    rw [hfa_iff.2 ⟨k, hk⟩] at hm
    obtain ⟨k', z, hk', h1, h4, ht, _, _, rfl⟩ := hm
    have he : k' = k := by
      have h2 := hk.2.2.1
      rw [show (leaves t 0).map (·.tc) = tcs t from rfl, ht] at h2
      cases n with
      | zero => omega
      | succ n => rw [List.replicate_succ, List.replicate_succ] at h2; exact (List.cons.inj h2).1
    subst he
    cases k' <;> simp [fpSize] at hk' <;> simp [fpCode, kindNo]

example : WF lp64 aHfa3 ∧ isVfp aHfa3 = .ok 9 ∧ IsHFA aHfa3 .float 3 :=
  ⟨wf_aHfa3, by decide +kernel, by decide, by decide, by decide +kernel, 4, rfl, by decide +kernel⟩

example : isVfp aMixed = .ok 0 := by decide +kernel

/-- C38: a struct with preset size whose only members are empty structs is outside of
the well-formed types, and for a reason: the search for the first member runs past
the end of the list. -/
theorem C38_empty_members_fault : isVfp (.mk 8 8 .struct [.mk 0 1 .struct []]) = .error .fault := by
  decide +kernel

/-! ## C40, C51 — calls -/

/-- Signatures covered: `ffi_prep_cif` succeeded, the reserved area is large enough,
references on the stack get the slot of a pointer, and variadic `FFI_WIN64` calls have
no homogeneous aggregates. -/
structure A64Sig (c : Cfg) (rt : FType) (ats : List FType) (f : Flags) (bytes : Nat) : Prop where
  prep : A64.prep rt ats (coreBytes rt ats) = .ok (f, bytes)
  wf : ∀ t ∈ ats, WF lp64 t
  win : (c.win64 && c.vararg) = true → ∀ t ∈ ats, hfa t = none
  room : Room (rules c) ats bytes
  slots : ∀ q ∈ ats.zip (places (rules c) ats), ∀ off, q.2 = .refStack off →
    if c.apple then q.1.align = 8 else q.1.align ≤ 8

/-- The call: enough stack, and argument objects outside of the area to be used. -/
structure A64Env (f : Flags) (bytes : Nat) (rt : FType) (ats : List FType) (I : CallIn) : Prop where
  len : ats.length = I.avalue.length
  stack : 600 + bytes + rt.size ≤ I.sp
  top : I.sp < 2 ^ 64
  src : ∀ q ∈ ats.zip I.avalue, q.2 + q.1.size + 600 + bytes + rt.size ≤ I.sp ∨ I.sp ≤ q.2
  v : ∀ k, (I.v k).length = 16

theorem a64_rsize_le (f : Flags) (rt : FType) (o : Option Nat) : callRsize f rt o ≤ rt.size + 16 := by
  unfold callRsize
  split <;> split <;> first | omega | (split <;> omega)

theorem a64_alloca_ge (sp n : Nat) : sp - n < alloca sp n + 16 := by
  unfold alloca; omega

theorem a64_inv {rt : FType} {ats : List FType} {b : Nat} {f : Flags} {bytes : Nat}
    (h : A64.prep rt ats b = .ok (f, bytes)) (hw : ∀ t ∈ ats, WF lp64 t) :
    (∃ f0, retFlags rt = .ok f0 ∧ f = { f0 with argV := f.argV } ∧
      bytes = ffiAlign (if f0.inMem then b + 8 else b) 16 % 2 ^ 32) ∧
    (f.argV = false → ∀ t ∈ ats, hfa t = none) ∧ bytes < 2 ^ 32 := by
  obtain ⟨v, hv, hn⟩ := anyVfp_spec hw
  unfold A64.prep at h
  rw [hv] at h
  cases hr : retFlags rt with
  | error e => rw [hr] at h; cases h
  | ok f0 =>
    rw [hr] at h
    cases h
    exact ⟨⟨f0, rfl, rfl, rfl⟩, hn, Nat.mod_lt _ (by decide)⟩

/-- The entry state, for use below. -/
theorem a64_entry {c : Cfg} {rt : FType} {ats : List FType} {f : Flags} {bytes : Nat} {I : CallIn}
    (S : A64Sig c rt ats f bytes) (E : A64Env f bytes rt ats I) :
    ∃ O, callEntry c f bytes rt ats I = .ok O ∧
      O.entry.sp = O.ctx + 192 ∧ 16 ∣ O.entry.sp ∧ 272 ≤ O.entry.sp ∧ O.ctx + 232 + bytes ≤ I.sp ∧
      O.flags = callFlags f I.rvalue ∧
      O.rvalue = (if callRsize f rt I.rvalue ≠ 0 then O.ctx + 192 + bytes + 40 else I.rvalue.getD 0) ∧
      O.ctx + 232 + bytes + callRsize f rt I.rvalue ≤ I.sp ∧
      O.entry.x8 = O.rvalue ∧
      (∀ x, x < O.ctx ∨ O.ctx + 232 + bytes ≤ x → O.entry.mem x = I.mem x) ∧
      AllPassed O.entry.regs ats (argVals I.mem ats I.avalue) (places (rules c) ats) ∧
      AllWidened O.entry.regs ats (argVals I.mem ats I.avalue) (places (rules c) ats) ∧
      AllRefOut O.entry.regs 0 O.entry.sp ats (places (rules c) ats) ∧
      (∀ k, (O.entry.x k).length = 8) ∧ (∀ k, (O.entry.v k).length = 16) := by
  obtain ⟨_, hv, hlt⟩ := a64_inv S.prep S.wf
  have hrs := a64_rsize_le f rt I.rvalue
  have hst := E.stack
  have hal := a64_alloca_ge I.sp (192 + bytes + 40 + callRsize f rt I.rvalue)
  have hle := alloca_le I.sp (192 + bytes + 40 + callRsize f rt I.rvalue)
  obtain ⟨O, h1, hctx, h2, h3, h4, h5, h6, h7, h8, h9, h10, h11, h12⟩ := callEntry_spec (c := c) (f := f)
    (bytes := bytes) (rt := rt) (I := I) S.wf E.len hv S.win hlt S.room S.slots (by omega) E.top
    (fun q hq => by rcases E.src q hq with h | h <;> omega)
  exact ⟨O, h1, h2, h3, by omega, by omega, h4, h5, by omega, h6, h7, h8, h9, h10, h11, h12 E.v⟩

/-- C51 (part): on entry to the called function the stack pointer is 16-byte aligned
and every argument is where AAPCS64 (or Apple's variant) puts it, objects passed by
reference are aligned and intact, and integers in registers are extended to 64 bits.
Missing: the signatures outside `A64Sig`, see `C40_overlap`, `C39_reference_slot`,
`C39_apple_reference_slot` and `C39_win64_variadic`. -/
theorem C51_args_partial {c : Cfg} {rt : FType} {ats : List FType} {f : Flags} {bytes : Nat} {I : CallIn}
    (S : A64Sig c rt ats f bytes) (E : A64Env f bytes rt ats I) :
    ∃ O, callEntry c f bytes rt ats I = .ok O ∧ 16 ∣ O.entry.sp ∧
      AllPassed O.entry.regs ats (argVals I.mem ats I.avalue) (places (rules c) ats) ∧
      AllWidened O.entry.regs ats (argVals I.mem ats I.avalue) (places (rules c) ats) := by
  obtain ⟨O, h1, _, h3, _, _, _, _, _, _, _, h8, h9, _⟩ := a64_entry S E
  exact ⟨O, h1, h3, h8, h9⟩

/-- C40 (part): marshalling writes only to the block it allocated (register image,
`bytes` of argument area, 40 bytes of frame) and neither stack arguments nor copies
overlap: all are intact at once.  Missing: the reserved area may be too small, see
`C40_overlap`. -/
theorem C40_area_partial {c : Cfg} {rt : FType} {ats : List FType} {f : Flags} {bytes : Nat} {I : CallIn}
    (S : A64Sig c rt ats f bytes) (E : A64Env f bytes rt ats I) :
    ∃ O, callEntry c f bytes rt ats I = .ok O ∧ O.ctx + 232 + bytes ≤ I.sp ∧
      (∀ x, x < O.ctx ∨ O.ctx + 232 + bytes ≤ x → O.entry.mem x = I.mem x) ∧
      AllPassed O.entry.regs ats (argVals I.mem ats I.avalue) (places (rules c) ats) := by
  obtain ⟨O, h1, _, _, _, h5, _, _, _, _, h7, h8, _⟩ := a64_entry S E
  exact ⟨O, h1, h5, h7, h8⟩

/-- What `ffi_prep_cif` reserves. -/
theorem a64_bytes {rt : FType} {ats : List FType} {f : Flags} {bytes : Nat}
    (h : A64.prep rt ats (coreBytes rt ats) = .ok (f, bytes)) (hw : ∀ t ∈ ats, WF lp64 t)
    (hfit : reserve (if rt.tc = .struct then 8 else 0) ats + 24 < 2 ^ 32) :
    reserve (if rt.tc = .struct then 8 else 0) ats ≤ bytes := by
  obtain ⟨⟨f0, _, _, rfl⟩, _, _⟩ := a64_inv h hw
  have hc : coreBytes rt ats = reserve (if rt.tc = .struct then 8 else 0) ats :=
    foldl_addArgBytes (fun t ht => wf_al (hw t ht)) (by omega)
  rw [hc]
  generalize reserve (if rt.tc = .struct then 8 else 0) ats = r at *
  have key : ∀ v, v ≤ r + 8 → r ≤ v → r ≤ ffiAlign v 16 % 2 ^ 32 := by
    intro v h1 h2
    have h16 : Al 16 := by simp [Al]
    rw [ffiAlign_al h16 (by omega)]
    have h3 := roundUp_ge (v := v) (a := 16) (by decide)
    have h4 := roundUp_lt (v := v) (a := 16) (by decide)
    rw [Nat.mod_eq_of_lt (by omega)]
    omega
  split
  · exact key _ (by omega) (by omega)
  · exact key _ (by omega) (by omega)

/-- C40: if no argument is passed by reference, the reserved area is large enough for
every signature (that needs less than 4 GiB). -/
theorem C40_reserved_values {c : Cfg} {rt : FType} {ats : List FType} {f : Flags} {bytes : Nat}
    (h : A64.prep rt ats (coreBytes rt ats) = .ok (f, bytes)) (hw : ∀ t ∈ ats, WF lp64 t)
    (hfit : reserve (if rt.tc = .struct then 8 else 0) ats + 24 < 2 ^ 32) (hr : ∀ t ∈ ats, ¬ ByRef t) :
    Room (rules c) ats bytes :=
  room_noRef hw hr (b := if rt.tc = .struct then 8 else 0) (by split <;> decide) (a64_bytes h hw hfit)

/-- C40 (part): with arguments passed by reference the reserved area is large enough
if alignments are at most 8 and the references that go to the stack need no more
space than was set aside for arguments in registers.  Missing: `C40_overlap` (too many
references) and `C40_overlap_aligned` (16-byte alignment). -/
theorem C40_reserved_references_partial {c : Cfg} {rt : FType} {ats : List FType} {f : Flags} {bytes : Nat}
    (h : A64.prep rt ats (coreBytes rt ats) = .ok (f, bytes)) (hw : ∀ t ∈ ats, WF lp64 t)
    (hfit : reserve (if rt.tc = .struct then 8 else 0) ats + 24 < 2 ^ 32) (h8 : ∀ t ∈ ats, t.align ≤ 8)
    (hrefs : 8 * refsOnStack (places (rules c) ats) ≤ regBytes ats (places (rules c) ats)) :
    Room (rules c) ats bytes :=
  room_refs hw h8 (a64_bytes h hw hfit) (Nat.le_trans hrefs (Nat.le_add_right _ _))

theorem a64_refStack {R : Rules} {ts : List FType} {i : Nat} {p : Pos} :
    ∀ q ∈ ts.zip (placeFrom R ts i p), ∀ off, q.2 = .refStack off → ByRef q.1 := by
  induction ts generalizing i p with
  | nil => intro q hq; cases hq
  | cons t ts ih =>
    intro q hq off ho
    rw [placeFrom, List.zip_cons_cons] at hq
    rcases List.mem_cons.1 hq with rfl | hq
    · rcases placeArg_cases R t p with ⟨_, _, h, _⟩ | ⟨_, _, h, _⟩ | ⟨_, _, h, _⟩ | ⟨h, _⟩
      · rw [show (placeArg R t p).1 = _ from ho] at h; cases h
      · rw [show (placeArg R t p).1 = _ from ho] at h; cases h
      · rw [show (placeArg R t p).1 = _ from ho] at h; cases h
      · exact h
    · exact ih q hq off ho

/-- Every signature without arguments passed by reference is covered. -/
theorem a64Sig_values {c : Cfg} {rt : FType} {ats : List FType} {f : Flags} {bytes : Nat}
    (h : A64.prep rt ats (coreBytes rt ats) = .ok (f, bytes)) (hw : ∀ t ∈ ats, WF lp64 t)
    (hfit : reserve (if rt.tc = .struct then 8 else 0) ats + 24 < 2 ^ 32) (hr : ∀ t ∈ ats, ¬ ByRef t)
    (hwin : (c.win64 && c.vararg) = false) : A64Sig c rt ats f bytes where
  prep := h
  wf := hw
  win := fun hc => by rw [hwin] at hc; cases hc
  room := C40_reserved_values h hw hfit hr
  slots := fun q hq off ho => absurd (a64_refStack q hq off ho) (hr q.1 (List.of_mem_zip hq).1)

/-- Off Apple platforms, signatures with alignments of at most 8 whose references on
the stack are paid for by register arguments are covered. -/
theorem a64Sig_references {c : Cfg} {rt : FType} {ats : List FType} {f : Flags} {bytes : Nat}
    (h : A64.prep rt ats (coreBytes rt ats) = .ok (f, bytes)) (hw : ∀ t ∈ ats, WF lp64 t)
    (hfit : reserve (if rt.tc = .struct then 8 else 0) ats + 24 < 2 ^ 32) (h8 : ∀ t ∈ ats, t.align ≤ 8)
    (hrefs : 8 * refsOnStack (places (rules c) ats) ≤ regBytes ats (places (rules c) ats))
    (hap : c.apple = false) (hwin : (c.win64 && c.vararg) = false) : A64Sig c rt ats f bytes where
  prep := h
  wf := hw
  win := fun hc => by rw [hwin] at hc; cases hc
  room := C40_reserved_references_partial h hw hfit h8 hrefs
  slots := fun q hq off _ => by rw [hap]; exact h8 q.1 (List.of_mem_zip hq).1

/-- C51: on AAPCS64 platforms every call without arguments passed by reference enters
the called function as the standard says. -/
theorem C51_args_values {c : Cfg} {rt : FType} {ats : List FType} {f : Flags} {bytes : Nat} {I : CallIn}
    (h : A64.prep rt ats (coreBytes rt ats) = .ok (f, bytes)) (hw : ∀ t ∈ ats, WF lp64 t)
    (hfit : reserve (if rt.tc = .struct then 8 else 0) ats + 24 < 2 ^ 32) (hr : ∀ t ∈ ats, ¬ ByRef t)
    (hwin : (c.win64 && c.vararg) = false) (E : A64Env f bytes rt ats I) :
    ∃ O, callEntry c f bytes rt ats I = .ok O ∧ 16 ∣ O.entry.sp ∧
      AllPassed O.entry.regs ats (argVals I.mem ats I.avalue) (places (rules c) ats) ∧
      AllWidened O.entry.regs ats (argVals I.mem ats I.avalue) (places (rules c) ats) :=
  C51_args_partial (a64Sig_values h hw hfit hr hwin) E

/-! ## C39 — from call to closure -/

/-- C39 (part): a closure entered by anybody who passes the arguments as the standard
says hands its handler aligned pointers to the values, and changes no memory outside
its own frame.  Missing: variadic `FFI_WIN64` closures with homogeneous aggregates. -/
theorem C39_closure_partial {c : Cfg} {rt : FType} {ats : List FType} {f : Flags} {bytes : Nat} {x29 x30 : Nat}
    {E : Entry} {vals : List (List Byte)}
    (hprep : A64.prep rt ats (coreBytes rt ats) = .ok (f, bytes)) (hw : ∀ t ∈ ats, WF lp64 t)
    (hwin : (c.win64 && c.vararg) = true → ∀ t ∈ ats, hfa t = none)
    (hend : (endFrom (rules c) ats 0 start).nsaa < 2 ^ 60) (h16 : 16 ∣ E.sp) (hsp : 272 ≤ E.sp)
    (hx : ∀ k < 8, (E.x k).length = 8) (hv : ∀ k < 8, (E.v k).length = 16)
    (hl : ∀ q ∈ ats.zip vals, q.2.length = q.1.size)
    (hout : AllRefOut E.regs (E.sp - 272) E.sp ats (places (rules c) ats))
    (hp : AllPassed E.regs ats vals (places (rules c) ats)) :
    ∃ V, closureEntry c f ats bytes x29 x30 E = .ok V ∧ AllFound V.mem ats vals V.avalue ∧
      ∀ x, x < E.sp - 272 ∨ E.sp ≤ x → V.mem x = E.mem x := by
  obtain ⟨_, hav, _⟩ := a64_inv hprep hw
  obtain ⟨V, h1, h2, h3, _⟩ := closureEntry_spec (bytes := bytes) (x29 := x29) (x30 := x30) hw hav hwin hend h16 hsp
    hx hv hl hout hp
  exact ⟨V, h1, h2, fun x hx => h3 x (by omega)⟩

theorem a64_vals_length {m : Mem} {ts : List FType} {as : List Nat} :
    ∀ q ∈ ts.zip (argVals m ts as), q.2.length = q.1.size := by
  induction ts generalizing as with
  | nil => intro q hq; cases hq
  | cons t ts ih =>
    cases as with
    | nil => intro q hq; cases hq
    | cons a as =>
      intro q hq
      rw [argVals, List.zip_cons_cons] at hq
      rcases List.mem_cons.1 hq with rfl | hq
      · simp
      · exact ih q hq

/-- C39 (part): what `ffi_call` marshals, a closure with the same signature finds.
Missing: the signatures outside `A64Sig`; for those see `C39_reference_slot`,
`C39_apple_reference_slot`, `C39_win64_variadic`, `C39_win64_spill` and
`C40_overlap`. -/
theorem C39_call_closure_partial {c : Cfg} {rt : FType} {ats : List FType} {f : Flags} {bytes : Nat} {I : CallIn}
    (S : A64Sig c rt ats f bytes) (E : A64Env f bytes rt ats I) (x29 x30 : Nat) :
    ∃ O V, callEntry c f bytes rt ats I = .ok O ∧ closureEntry c f ats bytes x29 x30 O.entry = .ok V ∧
      AllFound V.mem ats (argVals I.mem ats I.avalue) V.avalue := by
  obtain ⟨O, h1, h2, h3, h4, _, _, _, _, _, _, h8, _, h10, h11, h12⟩ := a64_entry S E
  obtain ⟨low, hl1, hl2⟩ := S.room
  have hle := copyLow_le hl1
  have hlt := (a64_inv S.prep S.wf).2.2
  obtain ⟨V, hV, hF, _⟩ := C39_closure_partial (c := c) (rt := rt) (bytes := bytes) (x29 := x29) (x30 := x30) S.prep
    S.wf S.win (by omega) h3 h4 (fun k _ => h11 k) (fun k _ => h12 k) a64_vals_length
    (allRefOut_mono (Nat.zero_le _) h10) h8
  exact ⟨O, V, h1, hV, hF⟩

/-- Call followed by a closure with the same signature. -/
def a64RoundTrip (c : Cfg) (rt : FType) (ats : List FType) (I : CallIn) : Except Abn (CallOut × View) := do
  let (f, bytes) ← A64.prep rt ats (coreBytes rt ats)
  let O ← callEntry c f bytes rt ats I
  let V ← closureEntry c f ats bytes 0 0 O.entry
  .ok (O, V)

instance decFound (m : Mem) : ∀ ts vs as, Decidable (AllFound m ts vs as)
  | _ :: ts, _ :: vs, _ :: as =>
    @instDecidableAnd _ _ _ (@instDecidableAnd _ _ _ (decFound m ts vs as))
  | [], [], [] => .isTrue trivial
  | [], [], _ :: _ => .isFalse id
  | [], _ :: _, _ => .isFalse id
  | _ :: _, [], _ => .isFalse id
  | _ :: _, _ :: _, [] => .isFalse id

def a64Lost (c : Cfg) (ats : List FType) : Bool :=
  match a64RoundTrip c aVoid ats (aIn ats.length) with
  | .ok (_, V) => !decide (AllFound V.mem ats (argVals (aIn ats.length).mem ats (aIn ats.length).avalue) V.avalue)
  | .error _ => false

theorem a64Lost_spec {c : Cfg} {ats : List FType} (h : a64Lost c ats = true) :
    ∃ O V, a64RoundTrip c aVoid ats (aIn ats.length) = .ok (O, V) ∧
      ¬ AllFound V.mem ats (argVals (aIn ats.length).mem ats (aIn ats.length).avalue) V.avalue := by
  unfold a64Lost at h
  split at h
  · rename_i O V hr
    exact ⟨O, V, hr, by simpa using h⟩
  · cases h

/-- C39 violated: a reference to a 16-byte aligned object, put on the stack after one
8-byte argument.  `ffi_call` aligns the slot to 16 as if it held the object
(src/aarch64/ffi.c:730 uses `ty->alignment` of the struct); the standard, and
the closure, use the next 8-byte slot. -/
theorem C39_reference_slot :
    ∃ O V, a64RoundTrip aLinux aVoid (List.replicate 9 aI64 ++ [aS32]) (aIn 10) = .ok (O, V) ∧
      ¬ AllFound V.mem (List.replicate 9 aI64 ++ [aS32])
        (argVals (aIn 10).mem (List.replicate 9 aI64 ++ [aS32]) (aIn 10).avalue) V.avalue :=
  a64Lost_spec (c := aLinux) (ats := List.replicate 9 aI64 ++ [aS32]) (by decide +kernel)

/-- C39 violated on Apple platforms: a reference to an object aligned to 4, after a
4-byte stack argument, is put at offset 4. -/
theorem C39_apple_reference_slot :
    ∃ O V, a64RoundTrip aApple aVoid (List.replicate 8 aI64 ++ [aI32, aS20]) (aIn 10) = .ok (O, V) ∧
      ¬ AllFound V.mem (List.replicate 8 aI64 ++ [aI32, aS20])
        (argVals (aIn 10).mem (List.replicate 8 aI64 ++ [aI32, aS20]) (aIn 10).avalue) V.avalue :=
  a64Lost_spec (c := aApple) (ats := List.replicate 8 aI64 ++ [aI32, aS20]) (by decide +kernel)

/-- C39 violated in variadic `FFI_WIN64` calls: the elements of a homogeneous
aggregate are spread 16 bytes apart over 8-byte general registers; the next argument
overwrites the second element. -/
theorem C39_win64_variadic :
    ∃ O V, a64RoundTrip aWinVar aVoid [aD2, aI64] (aIn 2) = .ok (O, V) ∧
      ¬ AllFound V.mem [aD2, aI64] (argVals (aIn 2).mem [aD2, aI64] (aIn 2).avalue) V.avalue :=
  a64Lost_spec (c := aWinVar) (ats := [aD2, aI64]) (by decide +kernel)

/-- C39 violated in variadic `FFI_WIN64` calls: after an aggregate that did not fit in
the remaining registers the call goes on with general registers, the closure does not
(src/aarch64/ffi.c:763 sets `nsrn`, 1053-1054 set both). -/
theorem C39_win64_spill :
    ∃ O V, a64RoundTrip aWinVar aVoid (List.replicate 7 aI64 ++ [aF2, aF64]) (aIn 9) = .ok (O, V) ∧
      ¬ AllFound V.mem (List.replicate 7 aI64 ++ [aF2, aF64])
        (argVals (aIn 9).mem (List.replicate 7 aI64 ++ [aF2, aF64]) (aIn 9).avalue) V.avalue :=
  a64Lost_spec (c := aWinVar) (ats := List.replicate 7 aI64 ++ [aF2, aF64]) (by decide +kernel)

instance (R : Rules) (ts : List FType) (bytes : Nat) : Decidable (Room R ts bytes) :=
  match h : copyLow ts bytes with
  | none => .isFalse fun ⟨_, h1, _⟩ => by rw [h] at h1; cases h1
  | some low =>
    if h' : (endFrom R ts 0 start).nsaa ≤ low then .isTrue ⟨low, h, h'⟩
    else .isFalse fun ⟨_, h1, h2⟩ => by rw [h] at h1; cases h1; exact h' h2

/-- C40 violated: ten structs of 24 bytes.  240 bytes are reserved, exactly the sum of
the copies; the references to the last two need 16 bytes of stack as well and are
overwritten by the last copy. -/
theorem C40_overlap :
    ¬ Room (rules aLinux) (List.replicate 10 aS24) 240 ∧
    ∃ O V, a64RoundTrip aLinux aVoid (List.replicate 10 aS24) (aIn 10) = .ok (O, V) ∧
      ¬ AllFound V.mem (List.replicate 10 aS24)
        (argVals (aIn 10).mem (List.replicate 10 aS24) (aIn 10).avalue) V.avalue :=
  ⟨by decide +kernel,
    a64Lost_spec (c := aLinux) (ats := List.replicate 10 aS24) (by decide +kernel)⟩

/-- A signature with 16-byte aligned arguments, all references in registers. -/
def aAligned : List FType := [aF4, aF32, aF4] ++ (List.replicate 5 [aS24, aF32, aLD]).flatten

/-- C40 violated: even with all references in registers, padding before 16-byte
aligned stack arguments may use up more than was set aside. -/
theorem C40_overlap_aligned :
    refsOnStack (places (rules aLinux) aAligned) = 0 ∧
    (∃ f, A64.prep aVoid aAligned (coreBytes aVoid aAligned) = .ok (f, 288)) ∧
    ¬ Room (rules aLinux) aAligned 288 ∧
    ∃ O V, a64RoundTrip aLinux aVoid aAligned (aIn 18) = .ok (O, V) ∧
      ¬ AllFound V.mem aAligned (argVals (aIn 18).mem aAligned (aIn 18).avalue) V.avalue :=
  ⟨by decide +kernel, ⟨⟨0, false, false, true⟩, by decide +kernel⟩, by decide +kernel,
    a64Lost_spec (c := aLinux) (ats := aAligned) (by decide +kernel)⟩

/-- A signature of every kind of place. -/
def aSig : List FType :=
  [aI8, aF64, aHfa3, aS12, aS24, aI64, aI64, aI64, aI64, aS20, aLD, aF32, aF32, aD2, aI8]

theorem aSig_wf : ∀ t ∈ aSig, WF lp64 t := by
  simpa [aSig] using ⟨wf_aI8, wf_aF64, wf_aHfa3, wf_aS12, wf_aS24, wf_aI64, wf_aS20, wf_aLD, wf_aF32, wf_aD2, wf_aI8⟩

theorem aSig_ok : A64Sig aLinux aVoid aSig ⟨0, false, false, true⟩ 192 where
  prep := by decide +kernel
  wf := aSig_wf
  win := by simp [aLinux]
  room := by decide +kernel
  slots := by
    intro q hq off ho
    have : ∀ q ∈ aSig.zip (places (rules aLinux) aSig), q.2.stackRef = true → q.1.align ≤ 8 := by decide +kernel
    have := this q hq (by rw [ho]; rfl)
    simpa [aLinux] using this

example : places (rules aLinux) aSig =
    [.x 0 1, .v 0 1, .v 1 3, .x 1 2, .refX 3, .x 4 1, .x 5 1, .x 6 1, .x 7 1, .refStack 0, .v 4 1, .v 5 1, .v 6 1,
      .stack 8, .stack 24] := by decide +kernel

example : A64Env ⟨0, false, false, true⟩ 192 aVoid aSig (aIn 15) where
  len := by decide
  stack := by decide
  top := by decide
  src := by
    have : ∀ q ∈ aSig.zip (aIn 15).avalue, (aIn 15).sp ≤ q.2 := by decide +kernel
    exact fun q hq => Or.inr (this q hq)
  v := fun _ => rfl

/-! ## C41 — results -/

theorem a64_entry_inv {c : Cfg} {rt : FType} {ats : List FType} {f : Flags} {bytes : Nat} {I : CallIn} {O : CallOut}
    (h : callEntry c f bytes rt ats I = .ok O) :
    O.ctx = alloca I.sp (192 + bytes + 40 + callRsize f rt I.rvalue) ∧ O.flags = callFlags f I.rvalue ∧
    O.rvalue = (if callRsize f rt I.rvalue ≠ 0 then O.ctx + 192 + bytes + 40 else I.rvalue.getD 0) ∧
    O.entry.x8 = O.rvalue ∧ O.entry.sp = O.ctx + 192 := by
  unfold callEntry at h
  cases hl : callLoop c (alloca I.sp (192 + bytes + 40 + callRsize f rt I.rvalue)) ats I.avalue 0 (argInit bytes)
      I.mem with
  | error e => simp only [hl] at h; cases h
  | ok r => simp only [hl] at h; cases h; exact ⟨rfl, rfl, rfl, rfl, rfl⟩

/-- C41: the value a callee returned in registers is delivered by `ffi_call`: integers
as a full 64-bit object, extended by their signedness, everything else as it is; only
that object (and a 16-byte buffer of the call itself) is written.  Holds for every
signature whatever became of the arguments. -/
theorem C41_call {c : Cfg} {rt : FType} {ats : List FType} {f : Flags} {bytes b : Nat} {I : CallIn} {a : Nat}
    {O : CallOut} (hprep : A64.prep rt ats b = .ok (f, bytes)) (hats : ∀ t ∈ ats, WF lp64 t)
    (hO : callEntry c f bytes rt ats I = .ok O) (hw : WF lp64 rt) (hmem : retPlace rt ≠ .mem)
    (hsp : 264 + bytes ≤ I.sp) (ha : I.rvalue = some a) (hout : a + rt.size ≤ O.ctx ∨ I.sp ≤ a)
    {val : List Byte} {R : RetRegs} {m : Mem} (hx : ∀ k < 2, (R.x k).length = 8) (hv : ∀ k < 4, (R.v k).length = 16)
    (hr : ReturnedIn R.x R.v rt val) :
    ∃ m', finishCall O.flags rt O.rvalue I.rvalue R m = .ok m' ∧
      m'.rd a (resultObj rt val).length = resultObj rt val ∧
      ∀ x, (x < a ∨ a + (resultObj rt val).length ≤ x) → (x < O.ctx + 232 + bytes ∨ I.sp ≤ x) → m' x = m x := by
  obtain ⟨⟨f0, hf0, hff, _⟩, _, _⟩ := a64_inv hprep hats
  obtain ⟨hctx, h6, h7, _, _⟩ := a64_entry_inv hO
  have hin : f0.inMem = false := by
    rcases ret_cases hw with ⟨_, _, _, _, _, h⟩ | ⟨_, _, _, _, _, _, _, _, h⟩ | ⟨h, _⟩ | ⟨_, _, h⟩ | ⟨_, _, h⟩ | ⟨_, _, h⟩
    · rw [hf0] at h; cases h; rfl
    · rw [hf0] at h; cases h; rfl
    · exact absurd h hmem
    · rw [hf0] at h; cases h; rfl
    · rw [hf0] at h; cases h; rfl
    · rw [hf0] at h; cases h; rfl
  have hsz : callRsize f rt I.rvalue = if f0.needCopy then 16 else 0 := by
    unfold callRsize
    rw [hff, ha]
    simp only [hin]
    rfl
  have hle : f0.needCopy = true → O.ctx + 232 + bytes + 16 ≤ I.sp := by
    intro hn
    rw [hn] at hsz
    have := alloca_le I.sp (192 + bytes + 40 + callRsize f rt I.rvalue)
    simp only [if_true] at hsz
    omega
  have hbuf : f0.needCopy = true → O.rvalue = O.ctx + 192 + bytes + 40 := by
    intro hn
    rw [h7, hsz, hn]
    rfl
  obtain ⟨m', hm', hrd, hfr⟩ := finishCall_spec (m := m) (a := a) (buf := O.rvalue) hw hf0 hmem hx hv hr f.argV
    (by intro hn; rw [h7, hsz, hn, ha]; rfl)
    (by intro hn; have := hle hn; have := hbuf hn; omega)
  refine ⟨m', ?_, hrd, ?_⟩
  · rw [h6, ha]
    rw [← hff] at hm'
    exact hm'
  · intro x hx1 hx2
    apply hfr x hx1
    intro hn
    have := hle hn; have := hbuf hn; omega

/-- C41: a NULL result address is fine: nothing is stored. -/
theorem C41_null {rt : FType} {f : Flags} {R : RetRegs} {m : Mem} {buf : Nat} (hmem : f.inMem = false) :
    finishCall (callFlags f none) rt buf none R m = .ok m := finishCall_null hmem

/-- C41: what the handler of a closure stored is returned in the registers the standard
prescribes; integers fill the register. -/
theorem C41_closure {rt : FType} {f : Flags} {m : Mem} {a : Nat} {R : RetRegs}
    (hw : WF lp64 rt) (hf : retFlags rt = .ok f) (hmem : retPlace rt ≠ .mem)
    (hx : ∀ k < 2, (R.x k).length = 8) (hv : ∀ k < 4, (R.v k).length = 16) :
    ∃ R', loadRet f.ret a m R = .ok R' ∧ ReturnedIn R'.x R'.v rt (m.rd a rt.size) ∧
      (retPlace rt = .int → R'.x 0 = leBytes 8 (extend64 rt.tc (m.rd a rt.size))) := by
  obtain ⟨R', h1, h2, _, _, h5⟩ := loadRet_spec (m := m) (a := a) hw hf hmem hx hv
  exact ⟨R', h1, h2, h5⟩

/-- C41: large composites: the callee gets in `x8` the address of the caller's object,
or of a buffer that lies inside the stack of the call if the caller passed NULL; a
closure hands that address to its handler; and nothing is stored after the call. -/
theorem C41_memory {c : Cfg} {rt : FType} {ats : List FType} {f : Flags} {bytes b : Nat} {I : CallIn} {O : CallOut}
    (hprep : A64.prep rt ats b = .ok (f, bytes)) (hats : ∀ t ∈ ats, WF lp64 t)
    (hO : callEntry c f bytes rt ats I = .ok O) (hw : WF lp64 rt) (hmem : retPlace rt = .mem)
    (hsp : 248 + bytes + rt.size ≤ I.sp) :
    (∀ a, I.rvalue = some a → O.entry.x8 = a) ∧
    (I.rvalue = none → O.ctx + 232 + bytes ≤ O.entry.x8 ∧ O.entry.x8 + rt.size ≤ I.sp) ∧
    (∀ E x29 x30 V, closureEntry c f ats bytes x29 x30 E = .ok V →
      V.rvalue = E.x8 ∧ ∀ m R, loadRet f.ret V.rvalue m R = .ok R) ∧
    ∀ R m, finishCall O.flags rt O.rvalue I.rvalue R m = .ok m := by
  obtain ⟨⟨f0, hf0, hff, _⟩, hav, hlt⟩ := a64_inv hprep hats
  obtain ⟨hctx, h6, h7, hx8, _⟩ := a64_entry_inv hO
  have hf0' : f0 = ⟨0, true, false, false⟩ := by
    rcases ret_cases hw with ⟨_, _, hi, _, _, h⟩ | ⟨_, _, _, _, _, _, _, hp, h⟩ | ⟨_, h⟩ | ⟨hp, _, h⟩ | ⟨hp, _, h⟩ |
      ⟨hp, _, h⟩
    · obtain ⟨_, _, hp, _⟩ := ret_int hi
      rw [hp] at hmem; cases hmem
    · rw [hp] at hmem; cases hmem
    · rw [hf0] at h; cases h; rfl
    · rw [hp] at hmem; cases hmem
    · rw [hp] at hmem; cases hmem
    · rw [hp] at hmem; cases hmem
  have hin : f.inMem = true := by rw [hff, hf0']
  have hret : f.ret = 0 := by rw [hff, hf0']
  have hnc : f.needCopy = false := by rw [hff, hf0']
  have hsz := hw.size_pos lp64_ok
  refine ⟨?_, ?_, ?_, ?_⟩
  · intro a ha
    rw [hx8, h7]
    have : callRsize f rt I.rvalue = 0 := by unfold callRsize; rw [ha, hin]; rfl
    rw [this, ha]; rfl
  · intro ha
    have : callRsize f rt I.rvalue = rt.size := by unfold callRsize; rw [ha, hin]; rfl
    rw [hx8, h7]
    rw [this] at hctx ⊢
    have := alloca_le I.sp (192 + bytes + 40 + rt.size)
    rw [if_pos (by omega)]
    omega
  · intro E x29 x30 V hV
    constructor
    · unfold closureEntry at hV
      rw [hin] at hV
      simp only [bind, Except.bind] at hV
      split at hV
      · cases hV
      · cases hV; rfl
    · intro m R
      rw [hret]; rfl
  · intro R m
    rw [h6]
    exact finishCall_mem hret hnc

/-- C41: a value stored by a closure's handler comes back to the caller of `ffi_call`
with the same bytes, integers widened. -/
theorem C41_roundtrip {rt : FType} {f : Flags} {val : List Byte} {m m2 : Mem} {a b buf : Nat} {R : RetRegs}
    (hw : WF lp64 rt) (hf : retFlags rt = .ok f) (hmem : retPlace rt ≠ .mem)
    (hx : ∀ k < 2, (R.x k).length = 8) (hv : ∀ k < 4, (R.v k).length = 16)
    (hval : m.rd b rt.size = val) (av : Bool) (hbuf : f.needCopy = false → buf = a)
    (hd : f.needCopy = true → a + rt.size ≤ buf ∨ buf + 16 ≤ a) :
    ∃ R' m', loadRet f.ret b m R = .ok R' ∧
      finishCall (callFlags { f with argV := av } (some a)) rt buf (some a) R' m2 = .ok m' ∧
      m'.rd a (resultObj rt val).length = resultObj rt val := by
  obtain ⟨R', h1, h2, h3, h4, _⟩ := loadRet_spec (m := m) (a := b) hw hf hmem hx hv
  rw [hval] at h2
  obtain ⟨m', h5, h6, _⟩ := finishCall_spec (m := m2) (a := a) (buf := buf) hw hf hmem h3 h4 h2 av hbuf hd
  exact ⟨R', m', h1, h5, h6⟩

example : WF lp64 aS12 ∧ retPlace aS12 = .x ∧ retFlags aS12 = .ok ⟨2, false, true, false⟩ :=
  ⟨wf_aS12, by decide +kernel, by decide +kernel⟩
example : retPlace aI8 = .int ∧ resultObj aI8 [0x80#8] = [0x80, 0xff, 0xff, 0xff, 0xff, 0xff, 0xff, 0xff] := by
  decide +kernel
example : retPlace aHfa3 = .v 3 ∧ retPlace aS24 = .mem := by decide +kernel

/-- A call returning `struct { int a, b, c; }`, with its hypotheses. -/
example : ∃ O, A64.prep aS12 aSig (coreBytes aS12 aSig) = .ok (⟨2, false, true, true⟩, 208) ∧
    callEntry aLinux ⟨2, false, true, true⟩ 208 aS12 aSig (aIn 15) = .ok O ∧ retPlace aS12 ≠ .mem ∧
    264 + 208 ≤ (aIn 15).sp ∧ ReturnedIn (fun _ => List.replicate 8 7) (fun _ => []) aS12 (List.replicate 12 7) := by
  have hs : (callEntry aLinux ⟨2, false, true, true⟩ 208 aS12 aSig (aIn 15)).isOk = true := by decide +kernel
  cases h : callEntry aLinux ⟨2, false, true, true⟩ 208 aS12 aSig (aIn 15) with
  | error e => rw [h] at hs; cases hs
  | ok O =>
    have hp : retPlace aS12 = .x := by decide +kernel
    refine ⟨O, by decide +kernel, rfl, by rw [hp]; decide, by decide, rfl, ?_, ?_, ?_⟩
    · intro h; rw [hp] at h; cases h
    · intro _; decide +kernel
    · intro n h; rw [hp] at h; cases h

end Verif.Props
