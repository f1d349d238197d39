import Verif.Base.Mem
import Verif.X64.Model

/-
Model of src/x86/ffiw64.c and src/x86/win64.S (Windows x64 convention; also
reachable on Unix as the `_efi64` variants).  Memory is flat because arguments are
passed by reference to memory that may be the caller's.
-/
namespace Verif.Win64
open Verif

/-- `cif->abi` values accepted by this file. -/
inductive Abi
  | win64 | gnuw64
  deriving DecidableEq, Repr

/-- `cif->flags`: a type code or one of `FFI_TYPE_SMALL_STRUCT_*`,
src/x86/ffitarget.h:135-137. -/
inductive Flag
  | tc (c : TC)
  | small1 | small2 | small4
  deriving DecidableEq, Repr

/-- The inner `switch (cif->rtype->size)`, src/x86/ffiw64.c:81-95. -/
def structFlag (size : Nat) : Flag :=
  if size = 8 then .tc .uint64
  else if size = 4 then .small4
  else if size = 2 then .small2
  else if size = 1 then .small1
  else .tc .struct

/-- `flags` as computed by `ffi_prep_cif_machdep`, src/x86/ffiw64.c:67-98. -/
def retFlag (abi : Abi) (rt : FType) : Flag :=
  match rt.tc with
  | .longdouble => if abi = .gnuw64 then .tc .struct else .tc .longdouble
  | .complex | .struct => structFlag rt.size
  | c => .tc c

/-- Number of 8-byte slots, src/x86/ffiw64.c:102-105. -/
def nSlots (fl : Flag) (nargs : Nat) : Nat :=
  let n := nargs + (if fl = .tc .struct then 1 else 0)
  if n < 4 then 4 else n

/-- `ffi_prep_cif_machdep`, src/x86/ffiw64.c:53-109: flags and `cif->bytes` (an
`unsigned`). -/
def prep (abi : Abi) (rt : FType) (ats : List FType) : Flag × Nat :=
  let fl := retFlag abi rt
  (fl, (nSlots fl ats.length * 8) % 2 ^ 32)

/-- `alloca`: the stack grows downwards in 16-byte units (what GCC and MSVC emit). -/
def alloca (sp n : Nat) : Nat := (sp - n) / 16 * 16

/-- `int size = at->size; ... size > 8` with `size` an `int`, src/x86/ffiw64.c:136-137. -/
def intGt8 (size : Nat) : Bool :=
  let v := size % 2 ^ 32
  decide (8 < v ∧ v < 2 ^ 31)

/-- The copy loop, src/x86/ffiw64.c:133-143: stack pointer, memory and the updated
`avalue`. -/
def copyArgs : List FType → List Nat → Nat → Mem → List Nat × Nat × Mem
  | t :: ts, a :: as, sp, m =>
    if t.tc = .struct ∧ intGt8 t.size then
      let c := alloca sp t.size
      let r := copyArgs ts as c (m.wr c (m.rd a t.size))
      (c :: r.1, r.2)
    else
      let r := copyArgs ts as sp m
      (a :: r.1, r.2)
  | _, as, sp, m => (as, sp, m)

/-- The 8 bytes stored in a slot, src/x86/ffiw64.c:176-193; little-endian, unsigned
loads. -/
def slotVal (m : Mem) (t : FType) (a : Nat) : List Byte :=
  if t.size = 8 then m.rd a 8
  else if t.size = 4 then m.rd a 4 ++ List.replicate 4 0
  else if t.size = 2 then m.rd a 2 ++ List.replicate 6 0
  else if t.size = 1 then m.rd a 1 ++ List.replicate 7 0
  else leBytes 8 a

/-- The slot loop, src/x86/ffiw64.c:174-194. -/
def fillSlots (stack : Nat) : List FType → List Nat → Nat → Mem → Mem
  | t :: ts, a :: as, j, m => fillSlots stack ts as (j + 1) (m.wr (stack + 8 * j) (slotVal m t a))
  | _, _, _, m => m

/-- State on entry to the called function: `args` is the address of the first slot,
i.e. `%rsp + 8`; `gpr` = `%rcx, %rdx, %r8, %r9`, `xmm` the low halves of
`%xmm0..3`. -/
structure Entry where
  mem : Mem
  args : Nat
  gpr : Nat → List Byte
  xmm : Nat → List Byte
  r10 : Nat

/-- Arguments of `ffi_call_int` besides the signature: `sp` is the stack pointer,
`mem` the memory, `avalue` the argument addresses, `rvalue` the result address
(`none` = NULL), `fn`, `closure`; `rbp`, `raddr`, `raddr2` are the saved frame
pointer and the two return addresses pushed on the way (any values). -/
structure CallIn where
  sp : Nat
  mem : Mem
  avalue : List Nat
  rvalue : Option Nat
  fn : Nat
  closure : Nat
  rbp : Nat
  raddr : Nat
  raddr2 : Nat

/-- Result of marshalling: entry state, address of the call frame, the flags and
result address stored in it, and the `avalue` array as left behind. -/
structure CallOut where
  entry : Entry
  frame : Nat
  flags : Flag
  rvalue : Nat
  avalue : List Nat

/-- `flags` after the `rvalue == NULL` case, src/x86/ffiw64.c:145-156. -/
def callFlags (fl : Flag) (rvalue : Option Nat) : Flag :=
  if rvalue = none ∧ fl ≠ .tc .struct then .tc .void else fl

/-- `rsize`, src/x86/ffiw64.c:146-156. -/
def callRsize (fl : Flag) (rt : FType) (rvalue : Option Nat) : Nat :=
  if rvalue = none ∧ fl = .tc .struct then rt.size else 0

/-- Code of a flag value as stored in the frame. -/
def Flag.code : Flag → Nat
  | .tc c => match c with
    | .void => 0 | .int => 1 | .float => 2 | .double => 3 | .longdouble => 4
    | .uint8 => 5 | .sint8 => 6 | .uint16 => 7 | .sint16 => 8 | .uint32 => 9 | .sint32 => 10
    | .uint64 => 11 | .sint64 => 12 | .struct => 13 | .pointer => 14 | .complex => 15
  | .small1 => 16
  | .small2 => 17
  | .small4 => 18

/-- `ffi_call_int`, src/x86/ffiw64.c:118-197, and `ffi_call_win64` up to the call,
src/x86/win64.S:49-76. -/
def callEntry (fl : Flag) (bytes : Nat) (rt : FType) (ats : List FType) (I : CallIn) : CallOut :=
  let (avalue, sp, m) := copyArgs ats I.avalue I.sp I.mem
  let flags := callFlags fl I.rvalue
  let rsize := callRsize fl rt I.rvalue
  let stack := alloca sp (bytes + 40 + rsize)
  let frame := stack + bytes
  let rvalue := if rsize ≠ 0 then frame + 40 else I.rvalue.getD 0
  let m := m.wr (frame + 16) (leBytes 8 I.fn)
  let m := m.wr (frame + 24) (leBytes 8 flags.code)
  let m := m.wr (frame + 32) (leBytes 8 rvalue)
  let m := if flags = .tc .struct then m.wr stack (leBytes 8 rvalue) else m
  let m := fillSlots stack ats avalue (if flags = .tc .struct then 1 else 0) m
  -- ffi_call_win64
  let m := m.wr frame (leBytes 8 I.rbp)
  let m := m.wr (frame + 8) (leBytes 8 I.raddr)
  let gpr := fun k => m.rd (stack + 8 * k) 8
  -- the call instruction
  let m := m.wr (stack - 8) (leBytes 8 I.raddr2)
  { entry := ⟨m, stack, gpr, gpr, I.closure⟩, frame := frame, flags := flags, rvalue := rvalue,
    avalue := avalue }

/-! ## Closures -/

/-- What the handler gets: memory, result address, argument pointers. -/
structure View where
  mem : Mem
  rvalue : Nat
  avalue : List Nat

/-- One element of `avalue`, src/x86/ffiw64.c:337-353; `args` and `fargs` are the
addresses of the arrays in `struct win64_closure_frame`. -/
def closureArg (m : Mem) (args fargs : Nat) (t : FType) (nreg : Nat) : Nat :=
  if t.tc = .double ∨ t.tc = .float then
    if nreg < 4 then fargs + 8 * nreg else args + 8 * nreg
  else if t.size = 1 ∨ t.size = 2 ∨ t.size = 4 ∨ t.size = 8 then args + 8 * nreg
  else leNat (m.rd (args + 8 * nreg) 8)

/-- The loop src/x86/ffiw64.c:335-354. -/
def closureArgs (m : Mem) (args fargs : Nat) : List FType → Nat → List Nat
  | [], _ => []
  | t :: ts, n => closureArg m args fargs t n :: closureArgs m args fargs ts (n + 1)

/-- Four consecutive 8-byte stores. -/
def store4 (m : Mem) (a : Nat) (v : Nat → List Byte) : Mem :=
  (((m.wr a (v 0)).wr (a + 8) (v 1)).wr (a + 16) (v 2)).wr (a + 24) (v 3)

/-- `ffi_closure_win64`, src/x86/win64.S:199-224, and `ffi_closure_win64_inner` up to
the user function, src/x86/ffiw64.c:311-354.  With `args` the address of the first
slot the `struct win64_closure_frame` (`rvalue[2]`, `fargs[4]`, `retaddr`, `args[]`)
starts at `args - 56`. -/
def closureEntry (fl : Flag) (ats : List FType) (E : Entry) : View :=
  let m := store4 E.mem E.args E.gpr
  let m := store4 m (E.args - 40) E.xmm
  let inMem := fl = .tc .struct
  let m' := if inMem then m.wr (E.args - 56) (m.rd E.args 8) else m
  { mem := m'
    rvalue := if inMem then leNat (m.rd E.args 8) else E.args - 56
    avalue := closureArgs m' E.args (E.args - 40) ats (if inMem then 1 else 0) }

/-! ## Results -/

/-- `%rax` and the low half of `%xmm0`. -/
structure RetRegs where
  rax : List Byte
  xmm0 : List Byte

/-- The store table of `ffi_call_win64`, src/x86/win64.S:78-160; `a` is the result
address in the frame. -/
def storeRet (fl : Flag) (R : RetRegs) (a : Nat) (m : Mem) : Except Abn Mem :=
  match fl with
  | .tc .void | .tc .struct => .ok m
  | .tc .int | .tc .sint32 => .ok (m.wr a (X64.sext64 (R.rax.take 4)))
  | .tc .float => .ok (m.wr a (R.xmm0.take 4))
  | .tc .double => .ok (m.wr a (R.xmm0.take 8))
  | .tc .longdouble | .tc .complex => .error .abort
  | .tc .uint8 => .ok (m.wr a (leBytes 8 (leNat (R.rax.take 1))))
  | .tc .sint8 => .ok (m.wr a (X64.sext64 (R.rax.take 1)))
  | .tc .uint16 => .ok (m.wr a (leBytes 8 (leNat (R.rax.take 2))))
  | .tc .sint16 => .ok (m.wr a (X64.sext64 (R.rax.take 2)))
  | .tc .uint32 => .ok (m.wr a (leBytes 8 (leNat (R.rax.take 4))))
  | .tc .uint64 | .tc .sint64 | .tc .pointer => .ok (m.wr a (R.rax.take 8))
  | .small1 => .ok (m.wr a (R.rax.take 1))
  | .small2 => .ok (m.wr a (R.rax.take 2))
  | .small4 => .ok (m.wr a (R.rax.take 4))

/-- Closure epilogue, src/x86/win64.S:226-228: both result registers are loaded from
`rvalue[0]` of the frame. -/
def closureReturn (m : Mem) (args : Nat) : RetRegs :=
  ⟨m.rd (args - 56) 8, m.rd (args - 56) 8⟩

end Verif.Win64
