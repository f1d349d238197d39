import Verif.Spec.I386
import Verif.Core.Model

/-
Model of src/x86/ffi.c and src/x86/sysv.S (32-bit x86): `ffi_prep_cif_machdep`,
`ffi_call_int` with `ffi_call_i386`, the closure entry points with `ffi_closure_inner`,
and `ffi_raw_call`.  Memory is flat; addresses are numbers, and arithmetic on them is
assumed not to wrap at 2^32.  src/x86/sysv_intel.S (the MSVC version of the same
assembly) is not modelled.
-/
namespace Verif.I386
open Verif

/-- `ffi_abi`, src/x86/ffitarget.h:112-133 (the same constants as in the specification). -/
abbrev Abi := Spec.X86.Conv

/-- Build configuration: `X86_WIN32`, `X86_DARWIN`, MSVC (src/x86/ffi.c:55-60), the
Portable C Compiler, which has no `fastcall` (src/x86/internal.h:25-29), and PIC without
hidden visibility, where %ebx is saved around `ffi_closure_inner` (src/x86/sysv.S:272-291). -/
structure Cfg where
  abi : Abi
  win32 : Bool
  darwin : Bool
  msvc : Bool
  pcc : Bool
  saveEbx : Bool
  deriving DecidableEq, Repr

/-- `X86_RET_*`, src/x86/internal.h:1-16. -/
inductive Flag
  | float | double | ldouble | sint8 | sint16 | uint8 | uint16 | int64 | int32 | void
  | structPop | structArg | struct1b | struct2b
  deriving DecidableEq, Repr

def Flag.code : Flag → Nat
  | .float => 0 | .double => 1 | .ldouble => 2 | .sint8 => 3 | .sint16 => 4 | .uint8 => 5
  | .uint16 => 6 | .int64 => 7 | .int32 => 8 | .void => 9 | .structPop => 10
  | .structArg => 11 | .struct1b => 12 | .struct2b => 13

/-- Entry of a jump table; the entries 14 and 15 are `ud2`. -/
def Flag.ofCode : Nat → Option Flag
  | 0 => some .float | 1 => some .double | 2 => some .ldouble | 3 => some .sint8
  | 4 => some .sint16 | 5 => some .uint8 | 6 => some .uint16 | 7 => some .int64
  | 8 => some .int32 | 9 => some .void | 10 => some .structPop | 11 => some .structArg
  | 12 => some .struct1b | 13 => some .struct2b | _ => none

/-- `STACK_ALIGN`, src/x86/ffi.c:55-60. -/
def stackAlign (c : Cfg) (bytes : Nat) : Nat := if c.msvc then bytes else ffiAlign bytes 16

/-! ## `ffi_prep_cif_machdep` -/

/-- `do_struct`, src/x86/ffi.c:131-142. -/
def structFlag (c : Cfg) : Flag :=
  match c.abi with
  | .thiscall | .fastcall | .stdcall | .msCdecl => .structArg
  | _ => .structPop

/-- `flags`, src/x86/ffi.c:83-179; `none` is `FFI_BAD_TYPEDEF`. -/
def retFlag (c : Cfg) (rt : FType) : Option Flag :=
  match rt.tc with
  | .void => some .void
  | .float => some .float
  | .double => some .double
  | .longdouble => some .ldouble
  | .uint8 => some .uint8
  | .uint16 => some .uint16
  | .sint8 => some .sint8
  | .sint16 => some .sint16
  | .int | .sint32 | .uint32 | .pointer => some .int32
  | .sint64 | .uint64 => some .int64
  | .struct =>
    some (if c.win32 || c.darwin then
      if rt.size = 1 then .struct1b
      else if rt.size = 2 then .struct2b
      else if rt.size = 4 then .int32
      else if rt.size = 8 then .int64
      else structFlag c
    else structFlag c)
  | .complex =>
    match rt.elems with
    | [] => none
    | e :: _ =>
      match e.tc with
      | .double | .longdouble | .sint64 | .uint64 => some (structFlag c)
      | .float | .int | .sint32 | .uint32 => some .int64
      | .sint16 | .uint16 => some .int32
      | .sint8 | .uint8 => some .struct2b
      | _ => none

/-- The loop body, src/x86/ffi.c:185-194 (`size_t` has 32 bits). -/
def addArg (c : Cfg) (bytes : Nat) (t : FType) : Nat :=
  ((if c.win32 ∧ c.abi = .stdcall then ffiAlign bytes 4 else ffiAlign bytes t.align) + ffiAlign t.size 4) % 2 ^ 32

/-- The space for the result pointer is added where `flags` is set to one of the two
codes for structs, src/x86/ffi.c:143-144. -/
def retBytes (fl : Flag) : Nat := if fl = .structPop ∨ fl = .structArg then 4 else 0

/-- `ffi_prep_cif_machdep`, src/x86/ffi.c:63-199: `cif->flags` and `cif->bytes`. -/
def prep (c : Cfg) (rt : FType) (ats : List FType) : Option (Flag × Nat) :=
  (retFlag c rt).map fun fl => (fl, ats.foldl (addArg c) (retBytes fl))

/-! ## Calls -/

/-- Conversion of an integer to `ffi_arg`. -/
def widen (sg : Bool) (bs : List Byte) : List Byte :=
  bs ++ List.replicate (4 - bs.length) (if sg && decide (0x80 ≤ (bs.getLastD 0).toNat) then 0xff else 0)

/-- `extend_basic_type`, src/x86/ffi.c:200-223; `none` is `abort`. -/
def extendBasic (m : Mem) (arg : Nat) : TC → Option (List Byte)
  | .sint8 => some (widen true (m.rd arg 1))
  | .uint8 => some (widen false (m.rd arg 1))
  | .sint16 => some (widen true (m.rd arg 2))
  | .uint16 => some (widen false (m.rd arg 2))
  | .sint32 | .uint32 | .pointer | .float => some (m.rd arg 4)
  | _ => none

/-- `struct abi_params`, src/x86/ffi.c:235-241: direction, static chain register and
argument registers, as indices into `regs` (`R_EAX` 0, `R_EDX` 1, `R_ECX` 2). -/
structure Params where
  up : Bool
  chain : Nat
  regs : List Nat

/-- The table, src/x86/ffi.c:243-252. -/
def params : Abi → Params
  | .sysv => ⟨true, 2, []⟩
  | .thiscall => ⟨true, 0, [2]⟩
  | .fastcall => ⟨true, 0, [2, 1]⟩
  | .stdcall => ⟨true, 2, []⟩
  | .pascal => ⟨false, 2, []⟩
  | .register => ⟨false, 2, [0, 1, 2]⟩
  | .msCdecl => ⟨true, 2, []⟩

/-- `narg_reg` and `argp`. -/
structure St where
  narg : Nat
  argp : Nat
  deriving DecidableEq, Repr

/-- One argument of `ffi_call_int`, src/x86/ffi.c:346-405; `rb` is `frame->regs`. -/
def callArg (c : Cfg) (rb : Nat) (t : FType) (valp : Nat) (st : St) (m : Mem) : Except Abn (St × Mem) :=
  if t.size ≤ 4 ∧ t.tc ≠ .struct then
    match extendBasic m valp t.tc with
    | none => .error .abort
    | some val =>
      if t.tc ≠ .float ∧ st.narg < (params c.abi).regs.length then
        .ok ({ st with narg := st.narg + 1 }, m.wr (rb + 4 * (params c.abi).regs.getD st.narg 0) val)
      else if (params c.abi).up then
        .ok ({ st with argp := st.argp + 4 }, m.wr st.argp val)
      else
        .ok ({ st with argp := st.argp - 4 }, m.wr (st.argp - 4) val)
  else
    let za := ffiAlign t.size 4
    let narg := if (c.abi = .thiscall ∨ c.abi = .fastcall) ∧ (t.tc = .sint64 ∨ t.tc = .uint64 ∨ t.tc = .struct)
      then 2 else st.narg
    let align := if t.tc = .struct ∧ 16 ≤ t.align then 16 else 4
    if (params c.abi).up then
      .ok (⟨narg, ffiAlign st.argp align + za⟩, m.wr (ffiAlign st.argp align) (m.rd valp t.size))
    else
      .ok (⟨narg, st.argp - za⟩, m.wr (st.argp - za) (m.rd valp t.size))

/-- The loop, src/x86/ffi.c:343-406. -/
def callLoop (c : Cfg) (rb : Nat) : List FType → List Nat → St → Mem → Except Abn (St × Mem)
  | t :: ts, a :: as, st, m =>
    match callArg c rb t a st m with
    | .error e => .error e
    | .ok (st, m) => callLoop c rb ts as st m
  | _, _, st, m => .ok (st, m)

/-- What `ffi_call_int` is given: the stack pointer, memory, its parameters, and the
registers and return addresses that end up in memory. -/
structure CallIn where
  sp : Nat
  mem : Mem
  fn : List Byte
  avalue : List Nat
  rvalue : Option Nat
  closure : List Byte
  ebp : List Byte
  ebx : List Byte
  retaddr : List Byte
  pc : List Byte

/-- Machine state when the function is entered: `sp` is above the return address. -/
structure Entry where
  eax : List Byte
  edx : List Byte
  ecx : List Byte
  ebx : List Byte
  mem : Mem
  sp : Nat

structure CallOut where
  frame : Nat
  rvalue : Nat
  fn : List Byte
  entry : Entry

/-- `rsize`, src/x86/ffi.c:292-310. -/
def rsize (fl : Flag) (rt : FType) (rvalue : Option Nat) : Nat :=
  match rvalue, fl with
  | none, .float | none, .double | none, .ldouble | none, .structPop | none, .structArg => rt.size
  | _, _ => 0

/-- `flags`, src/x86/ffi.c:304-308. -/
def callFlag (fl : Flag) (rvalue : Option Nat) : Flag :=
  match rvalue, fl with
  | none, .float => .float
  | none, .double => .double
  | none, .ldouble => .ldouble
  | none, .structPop => .structPop
  | none, .structArg => .structArg
  | none, _ => .void
  | some _, fl => fl

/-- `alloca` as compiled: 16-byte units, or words with MSVC. -/
def alloca (c : Cfg) (sp n : Nat) : Nat := if c.msvc then (sp - n) / 4 * 4 else (sp - n) / 16 * 16

/-- The pointer to the result, src/x86/ffi.c:325-341. -/
def passHidden (c : Cfg) (rb : Nat) (fl : Flag) (rv : Nat) (argp : Nat) (m : Mem) : St × Mem :=
  let push : St × Mem := (⟨0, argp + 4⟩, m.wr argp (leBytes 4 rv))
  match fl with
  | .structArg =>
    match (params c.abi).regs with
    | r :: _ => (⟨1, argp⟩, m.wr (rb + 4 * r) (leBytes 4 rv))
    | [] => push
  | .structPop => push
  | _ => (⟨0, argp⟩, m)

/-- `ffi_call_i386` up to and including the call, src/x86/sysv.S:92-125. -/
def enter (frame stack : Nat) (I : CallIn) (m : Mem) : Entry :=
  let m := (m.wr frame I.ebp).wr (frame + 4) I.retaddr
  { eax := m.rd (frame + 20) 4, edx := m.rd (frame + 24) 4, ecx := m.rd (frame + 28) 4, ebx := I.ebx,
    mem := m.wr (stack - 4) I.pc, sp := stack }

/-- `ffi_call_int` and `ffi_call_i386` up to the call, src/x86/ffi.c:276-410,
src/x86/sysv.S:92-125. -/
def callEntry (c : Cfg) (fl : Flag) (bytes : Nat) (rt : FType) (ats : List FType) (I : CallIn) :
    Except Abn CallOut :=
  let rs := rsize fl rt I.rvalue
  let fl' := callFlag fl I.rvalue
  let b := stackAlign c bytes
  let stack := alloca c I.sp (b + 32 + rs)
  let argp := if (params c.abi).up then stack else stack + b
  let frame := stack + b
  let rv := if rs ≠ 0 then frame + 32 else I.rvalue.getD 0
  let m := ((I.mem.wr (frame + 8) I.fn).wr (frame + 12) (leBytes 4 fl'.code)).wr (frame + 16) (leBytes 4 rv)
  let m := m.wr (frame + 20 + 4 * (params c.abi).chain) I.closure
  let h := passHidden c (frame + 20) fl' rv argp m
  match callLoop c (frame + 20) ats I.avalue h.1 h.2 with
  | .error e => .error e
  | .ok r =>
    .ok { frame := frame, rvalue := rv, fn := (enter frame stack I r.2).mem.rd (frame + 8) 4,
          entry := enter frame stack I r.2 }

/-- The top of the x87 stack: a number loaded or computed in a format of `w` bytes. -/
structure X87 where
  w : Nat
  bs : List Byte

/-- `fstp` in a format of `n` bytes; `cvt` stands for conversions between formats.
(Loading and storing in the same format changes signalling NaNs only.) -/
def X87.store (cvt : Nat → X87 → List Byte) (x : X87) (n : Nat) : List Byte :=
  if x.w = n then x.bs else cvt n x

/-- `ffi_call_i386` after the call, src/x86/sysv.S:127-203: memory, or `none` for
`ud2`.  The flags and the address of the result are read from the frame again.  (Saving
%ebx in `frame->fn` is included, restoring the registers is not.) -/
def finishCall (cvt : Nat → X87 → List Byte) (frame : Nat) (ebx eax edx : List Byte) (st0 : X87) (m : Mem) :
    Option Mem :=
  let m := m.wr (frame + 8) ebx
  let p := leNat (m.rd (frame + 16) 4)
  (Flag.ofCode (leNat (m.rd (frame + 12) 4) % 16)).map fun
    | .float => m.wr p (st0.store cvt 4)
    | .double => m.wr p (st0.store cvt 8)
    | .ldouble => m.wr p (st0.store cvt 10)
    | .sint8 => m.wr p (widen true (eax.take 1))
    | .sint16 => m.wr p (widen true (eax.take 2))
    | .uint8 => m.wr p (widen false (eax.take 1))
    | .uint16 => m.wr p (widen false (eax.take 2))
    | .int64 => (m.wr (p + 4) edx).wr p eax
    | .int32 => m.wr p eax
    | .void => m
    | .structPop => m
    | .structArg => m
    | .struct1b => m.wr p (eax.take 1)
    | .struct2b => m.wr p (eax.take 2)

/-! ## Closures -/

/-- Ordinary closures and Go closures. -/
inductive Kind
  | closure | go
  deriving DecidableEq, Repr

/-- `closure_FS` and `closure_CF`, src/x86/sysv.S:220-226. -/
def fs (c : Cfg) : Nat := if c.pcc then 60 else 44
def cf (c : Cfg) : Nat := if c.pcc then 8 else 0

/-- `FFI_CLOSURE_SAVE_REGS`, src/x86/sysv.S:228-231. -/
def saveRegs (frame : Nat) (eax edx ecx : List Byte) (m : Mem) : Mem :=
  ((m.wr (frame + 16) eax).wr (frame + 20) edx).wr (frame + 24) ecx

/-- The three words of the closure that the handler is called with: `cif`, `fun` and
`user_data`, src/x86/sysv.S:233-239 and, for Go closures, 302-306, 322-327, 431-436. -/
def copyData (kind : Kind) (frame self : Nat) (m : Mem) : Mem :=
  match kind with
  | .closure =>
    ((m.wr (frame + 28) (m.rd (self + 16) 4)).wr (frame + 32) (m.rd (self + 20) 4)).wr (frame + 36)
      (m.rd (self + 24) 4)
  | .go =>
    ((m.wr (frame + 28) (m.rd (self + 4) 4)).wr (frame + 32) (m.rd (self + 8) 4)).wr (frame + 36)
      (leBytes 4 self)

/-- Machine state before `ffi_closure_inner` is called. -/
structure Asm where
  esp : Nat
  self : Nat
  mem : Mem

/-- The trampoline (src/x86/ffi.c:592-603: `movl` or, for FFI_REGISTER, `pushl` of the
closure's address) and the entry points up to the call of `ffi_closure_inner`:
`ffi_closure_i386` and `ffi_closure_STDCALL`, src/x86/sysv.S:343-358, 476-495;
`ffi_closure_REGISTER`, src/x86/sysv.S:451-464; the Go closures, src/x86/sysv.S:297-331,
427-440, which find their own address in the static chain register.  The compiler's
thunk that loads the GOT pointer works below the stack pointer and is left out. -/
def asmEntry (c : Cfg) (kind : Kind) (closure : Nat) (E : Entry) : Asm :=
  let esp := E.sp - 4 - fs c
  let frame := esp + cf c
  let r : Nat × Mem :=
    match kind with
    | .closure =>
      if c.abi = .register then
        let m := saveRegs frame E.eax E.edx E.ecx (E.mem.wr (E.sp - 8) (leBytes 4 closure))
        let ecx := m.rd (esp + fs c - 4) 4
        let eax := m.rd (esp + fs c) 4
        (leNat eax, m.wr (esp + fs c) ecx)
      else (closure, saveRegs frame (leBytes 4 closure) E.edx E.ecx E.mem)
    | .go =>
      (leNat (if c.abi = .thiscall ∨ c.abi = .fastcall then E.eax else E.ecx),
        saveRegs frame E.eax E.edx E.ecx E.mem)
  let m := copyData kind frame r.1 r.2
  let m := if c.pcc then (m.wr esp (leBytes 4 frame)).wr (esp + 4) (leBytes 4 E.sp) else m
  let m := if c.saveEbx then m.wr (esp + 40) E.ebx else m
  ⟨esp, r.1, m⟩

/-- The pointer to the result, src/x86/ffi.c:469-485: `rvalue`, the state and memory. -/
def takeHidden (c : Cfg) (frame : Nat) (fl : Flag) (argp : Nat) (m : Mem) : Nat × St × Mem :=
  let pop : Nat × St × Mem := (leNat (m.rd argp 4), ⟨0, argp + 4⟩, m.wr frame (m.rd argp 4))
  match fl with
  | .structArg =>
    match (params c.abi).regs with
    | r :: _ => (leNat (m.rd (frame + 16 + 4 * r) 4), ⟨1, argp⟩, m.wr frame (m.rd (frame + 16 + 4 * r) 4))
    | [] => pop
  | .structPop => pop
  | _ => (frame, ⟨0, argp⟩, m)

/-- One argument of `ffi_closure_inner`, src/x86/ffi.c:493-545; `rb` is `frame->regs`. -/
def closureArg (c : Cfg) (rb : Nat) (t : FType) (st : St) : Nat × St :=
  if t.size ≤ 4 ∧ t.tc ≠ .struct then
    if t.tc ≠ .float ∧ st.narg < (params c.abi).regs.length then
      (rb + 4 * (params c.abi).regs.getD st.narg 0, { st with narg := st.narg + 1 })
    else if (params c.abi).up then (st.argp, { st with argp := st.argp + 4 })
    else (st.argp - 4, { st with argp := st.argp - 4 })
  else
    let za := ffiAlign t.size 4
    let align := if t.tc = .struct ∧ 16 ≤ t.align then 16 else 4
    let narg := if (c.abi = .thiscall ∨ c.abi = .fastcall) ∧ (t.tc = .sint64 ∨ t.tc = .uint64 ∨ t.tc = .struct)
      then 2 else st.narg
    if (params c.abi).up then (ffiAlign st.argp align, ⟨narg, ffiAlign st.argp align + za⟩)
    else (st.argp - za, ⟨narg, st.argp - za⟩)

/-- The loop, src/x86/ffi.c:490-548: `avalue` and the final state. -/
def closureLoop (c : Cfg) (rb : Nat) : List FType → St → List Nat × St
  | [], st => ([], st)
  | t :: ts, st =>
    let r := closureLoop c rb ts (closureArg c rb t st).2
    ((closureArg c rb t st).1 :: r.1, r.2)

/-- The value returned by `ffi_closure_inner`, src/x86/ffi.c:552-563 (an `int`). -/
def innerRet (c : Cfg) (fl : Flag) (bytes narg : Nat) : Nat :=
  match c.abi with
  | .stdcall => fl.code + bytes * 16 % 2 ^ 32
  | .thiscall | .fastcall => fl.code + (bytes + 2 ^ 32 - narg * 4) * 16 % 2 ^ 32
  | _ => fl.code

/-- What the handler is called with, and what `ffi_closure_inner` will return. -/
structure View where
  esp : Nat
  frame : Nat
  cif : List Byte
  handler : List Byte
  userData : List Byte
  rvalue : Nat
  args : List Nat
  ret : Nat
  mem : Mem

/-- A closure from its entry to the call of the handler, src/x86/ffi.c:449-550.  The
`cif` is taken to be the closure's own; see `View.cif` for the pointer that is used. -/
def closureEntry (c : Cfg) (kind : Kind) (fl : Flag) (bytes : Nat) (ats : List FType) (closure : Nat) (E : Entry) :
    View :=
  let A := asmEntry c kind closure E
  let frame := A.esp + cf c
  let stack := A.esp + fs c + 4
  let argp := if (params c.abi).up then stack else stack + stackAlign c bytes
  let h := takeHidden c frame fl argp A.mem
  let r := closureLoop c (frame + 16) ats h.2.1
  { esp := A.esp, frame := frame, cif := h.2.2.rd (frame + 28) 4, handler := h.2.2.rd (frame + 32) 4,
    userData := h.2.2.rd (frame + 36) 4, rvalue := h.1, args := r.1, ret := innerRet c fl bytes r.2.narg,
    mem := h.2.2 }

/-- Machine state when a closure has returned: `sp` is above the return address used.
`none` stands for a register or x87 stack that is not set. -/
structure Exit where
  eax : List Byte
  edx : Option (List Byte)
  st0 : Option X87
  sp : Nat
  retaddr : List Byte

/-- Which code follows `ffi_closure_inner`: that at `do_closure_i386` (`false`) or the
one at `do_closure_STDCALL` (`true`), src/x86/ffi.c:575-590, 621-639, src/x86/sysv.S:310, 331,
440. -/
def pops (c : Cfg) (kind : Kind) : Bool :=
  match c.abi, kind with
  | .sysv, _ | .msCdecl, _ => false
  | .thiscall, .go | .fastcall, .go => false
  | _, _ => true

/-- The result registers, src/x86/sysv.S:362-420 and, identically, 512-570. -/
def loadTable (frame : Nat) (m : Mem) (fl : Flag) : List Byte × Option (List Byte) × Option X87 :=
  let eax := m.rd frame 4
  match fl with
  | .float => (eax, none, some ⟨4, m.rd frame 4⟩)
  | .double => (eax, none, some ⟨8, m.rd frame 8⟩)
  | .ldouble => (eax, none, some ⟨10, m.rd frame 10⟩)
  | .sint8 => (widen true (eax.take 1), none, none)
  | .sint16 => (widen true (eax.take 2), none, none)
  | .uint8 => (widen false (eax.take 1), none, none)
  | .uint16 => (widen false (eax.take 2), none, none)
  | .int64 => (eax, some (m.rd (frame + 4) 4), none)
  | .int32 | .void | .structPop | .structArg => (eax, none, none)
  | .struct1b => (widen false (eax.take 1), none, none)
  | .struct2b => (widen false (eax.take 2), none, none)

/-- A closure after its handler has returned, leaving memory `m`: src/x86/sysv.S:359-425
or 497-575.  `none` is `ud2`. -/
def closureExit (c : Cfg) (kind : Kind) (esp frame ret : Nat) (m : Mem) : Option Exit :=
  (Flag.ofCode (ret % 16)).map fun fl =>
    if pops c kind then
      let ecx := esp + fs c + ret / 16
      let m := m.wr ecx (m.rd (esp + fs c) 4)
      let r := loadTable frame m fl
      ⟨r.1, r.2.1, r.2.2, ecx + 4, m.rd ecx 4⟩
    else
      let r := loadTable frame m fl
      ⟨r.1, r.2.1, r.2.2, esp + fs c + 4 + (if fl = .structPop then 4 else 0), m.rd (esp + fs c) 4⟩

/-! ## The native raw API -/

/-- `narg_reg`, `argp`, `avalue`, `bytes` and memory in the loop of `ffi_raw_call`. -/
structure RawSt where
  narg : Nat
  argp : Nat
  raw : Nat
  bytes : Nat
  mem : Mem

/-- The loop and the final copy, src/x86/ffi.c:794-818.  `avalue` is a pointer to
`ffi_raw`, a union of four bytes, include/ffi.h.in:265-271. -/
def rawLoop (c : Cfg) (rb : Nat) : List FType → RawSt → Except Abn RawSt
  | [], s => .ok s
  | t :: ts, s =>
    if s.narg < (params c.abi).regs.length then
      if t.size ≤ 4 ∧ t.tc ≠ .struct ∧ t.tc ≠ .float then
        match extendBasic s.mem s.raw t.tc with
        | none => .error .abort
        | some val =>
          rawLoop c rb ts
            { narg := s.narg + 1, argp := s.argp, raw := s.raw + 4 * 4, bytes := (s.bytes + 2 ^ 32 - 4) % 2 ^ 32,
              mem := s.mem.wr (rb + 4 * (params c.abi).regs.getD s.narg 0) val }
      else
        let z := ffiAlign t.size 4
        rawLoop c rb ts
          { narg := s.narg, argp := s.argp + z, raw := s.raw + 4 * z, bytes := (s.bytes + 2 ^ 32 - z) % 2 ^ 32,
            mem := s.mem.wr s.argp (s.mem.rd s.raw t.size) }
    else .ok { s with mem := s.mem.wr s.argp (s.mem.rd s.raw s.bytes) }

/-- `ffi_raw_call` and `ffi_call_i386` up to the call, src/x86/ffi.c:729-821; the single
element of `I.avalue` is the address of the raw arguments.  `frame->regs` is not
initialised otherwise. -/
def rawEntry (c : Cfg) (fl : Flag) (bytes : Nat) (rt : FType) (ats : List FType) (raw : Nat) (I : CallIn) :
    Except Abn CallOut :=
  let rs := rsize fl rt I.rvalue
  let fl' := callFlag fl I.rvalue
  let b := stackAlign c bytes
  let block := alloca c I.sp (b + 32 + rs + 15)
  let stack := block - block / 16 % 2 * 16
  let frame := stack + b
  let rv := if rs ≠ 0 then frame + 32 else I.rvalue.getD 0
  let m := ((I.mem.wr (frame + 8) I.fn).wr (frame + 12) (leBytes 4 fl'.code)).wr (frame + 16) (leBytes 4 rv)
  let h := passHidden c (frame + 20) fl' rv stack m
  let b' := if h.1.argp ≠ stack then b - 4 else b
  match rawLoop c (frame + 20) ats ⟨h.1.narg, h.1.argp, raw, b', h.2⟩ with
  | .error e => .error e
  | .ok r =>
    .ok { frame := frame, rvalue := rv, fn := (enter frame stack I r.mem).mem.rd (frame + 8) 4,
          entry := enter frame stack I r.mem }

end Verif.I386
