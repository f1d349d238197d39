import Verif.Base.Code

/-
Trampolines of AArch64: `ffi_prep_closure_loc` (src/aarch64/ffi.c:864-935), the static
trampoline table, the `_alt` entry points and the Mach table page
(src/aarch64/sysv.S:523-612), on a machine that executes the instructions they consist
of.  Encodings follow the Arm ARM.  Pointer authentication and ILP32 are left out.
-/
namespace Verif.A64.Tr
open Verif

/-- 64-bit arithmetic. -/
def w64 (n : Nat) : Nat := n % 2 ^ 64

/-- Sign extension of an `n`-bit field to 64 bits. -/
def sext (n v : Nat) : Nat := if v < 2 ^ (n - 1) then v else v + 2 ^ 64 - 2 ^ n

/-- Registers (`x n` for n < 31; register 31 is the stack pointer) and memory. -/
structure MState where
  pc : Nat
  x : Nat → Nat
  sp : Nat
  mem : Mem

inductive Insn
  | ldrLit (t off : Nat)     -- ldr xt, pc+off
  | adr (d off : Nat)        -- adr xd, pc+off
  | br (n : Nat)             -- br xn
  | subImm (d n k : Nat)     -- sub xd, xn, #k
  | addImm (d n k : Nat)     -- add xd, xn, #k
  | str (t n k : Nat)        -- str xt, [xn, #k]
  | ldr (t n k : Nat)        -- ldr xt, [xn, #k]
  | ldp (t t2 n k : Nat)     -- ldp xt, xt2, [xn, #k]
  | b (off : Nat)            -- b pc+off
  | nop                      -- nop, bti c
  deriving DecidableEq, Repr

/-- The subset of the instruction set that occurs. -/
def decode (w : Nat) : Option Insn :=
  if w / 2 ^ 24 = 0x58 then some (.ldrLit (w % 32) (sext 21 (w / 32 % 2 ^ 19 * 4)))
  else if w / 2 ^ 31 = 0 ∧ w / 2 ^ 24 % 32 = 0x10 then
    some (.adr (w % 32) (sext 21 (w / 32 % 2 ^ 19 * 4 + w / 2 ^ 29 % 4)))
  else if w / 2 ^ 10 = 0xd61f0000 / 2 ^ 10 ∧ w % 32 = 0 then some (.br (w / 32 % 32))
  else if w / 2 ^ 22 = 0xd1000000 / 2 ^ 22 then some (.subImm (w % 32) (w / 32 % 32) (w / 2 ^ 10 % 2 ^ 12))
  else if w / 2 ^ 22 = 0x91000000 / 2 ^ 22 then some (.addImm (w % 32) (w / 32 % 32) (w / 2 ^ 10 % 2 ^ 12))
  else if w / 2 ^ 22 = 0xf9000000 / 2 ^ 22 then some (.str (w % 32) (w / 32 % 32) (w / 2 ^ 10 % 2 ^ 12 * 8))
  else if w / 2 ^ 22 = 0xf9400000 / 2 ^ 22 then some (.ldr (w % 32) (w / 32 % 32) (w / 2 ^ 10 % 2 ^ 12 * 8))
  else if w / 2 ^ 22 = 0xa9400000 / 2 ^ 22 then
    some (.ldp (w % 32) (w / 2 ^ 10 % 32) (w / 32 % 32) (sext 10 (w / 2 ^ 15 % 2 ^ 7 * 8)))
  else if w / 2 ^ 26 = 5 then some (.b (sext 28 (w % 2 ^ 26 * 4)))
  else if w = 0xd503245f ∨ w = 0xd503201f then some .nop
  else none

/-- A base register or an operand of `add` and `sub`: 31 is the stack pointer. -/
def MState.base (s : MState) (n : Nat) : Nat := if n = 31 then s.sp else s.x n

/-- Assignment to a register. -/
def upd (x : Nat → Nat) (n v : Nat) : Nat → Nat := fun i => if i = n then v else x i

/-- Assignment by an instruction; for loads 31 is the zero register. -/
def MState.set (s : MState) (n v : Nat) : MState := if n = 31 then s else { s with x := upd s.x n v }

/-- Assignment by `add` and `sub`. -/
def MState.setSp (s : MState) (n v : Nat) : MState := if n = 31 then { s with sp := v } else s.set n v

/-- A 64-bit load; `none` across the end of the address space. -/
def load (m : Mem) (a : Nat) : Option Nat := if a + 8 ≤ 2 ^ 64 then some (leNat (m.rd a 8)) else none

def store (m : Mem) (a v : Nat) : Option Mem := if a + 8 ≤ 2 ^ 64 then some (m.wr a (leBytes 8 v)) else none

/-- Effect of an instruction but for the program counter of those that do not branch. -/
def exec (s : MState) : Insn → Option MState
  | .ldrLit t off => (load s.mem (w64 (s.pc + off))).map fun v => { s.set t v with pc := w64 (s.pc + 4) }
  | .adr d off => some { s.set d (w64 (s.pc + off)) with pc := w64 (s.pc + 4) }
  | .br n => some { s with pc := s.x n }
  | .subImm d n k => some { s.setSp d (w64 (s.base n + 2 ^ 64 - k)) with pc := w64 (s.pc + 4) }
  | .addImm d n k => some { s.setSp d (w64 (s.base n + k)) with pc := w64 (s.pc + 4) }
  | .str t n k =>
    (store s.mem (w64 (s.base n + k)) (if t = 31 then 0 else s.x t)).map fun m => { s with pc := w64 (s.pc + 4), mem := m }
  | .ldr t n k => (load s.mem (w64 (s.base n + k))).map fun v => { s.set t v with pc := w64 (s.pc + 4) }
  | .ldp t t2 n k =>
    (load s.mem (w64 (s.base n + k))).bind fun v => (load s.mem (w64 (w64 (s.base n + k) + 8))).map fun v2 =>
      { (s.set t v).set t2 v2 with pc := w64 (s.pc + 4) }
  | .b off => some { s with pc := w64 (s.pc + off) }
  | .nop => some { s with pc := w64 (s.pc + 4) }

/-- One instruction; instructions are aligned and little-endian. -/
def step (s : MState) : Option MState :=
  if 4 ∣ s.pc then (decode (leNat (s.mem.rd s.pc 4))).bind (exec s) else none

def steps : Nat → MState → Option MState
  | 0, s => some s
  | n + 1, s => (step s).bind (steps n)

/-- `trampoline[16]`, src/aarch64/ffi.c:889-893 (the last four bytes are zero). -/
def trampoline : List Byte :=
  [0x90, 0x00, 0x00, 0x58, 0xf1, 0xff, 0xff, 0x10, 0x00, 0x02, 0x1f, 0xd6, 0, 0, 0, 0]

/-- The assignments of `ffi_prep_closure_loc` with a dynamic trampoline,
src/aarch64/ffi.c:908-932 (`FFI_TRAMPOLINE_SIZE` 24); `start` is the address of
`ffi_closure_SYSV` or `ffi_closure_SYSV_V`. -/
def prepClosure (start closure cif fn ud : Nat) (m : Mem) : Mem :=
  let m := (m.wr closure trampoline).wr (closure + 16) (leBytes 8 start)
  ((m.wr (closure + 24) (leBytes 8 cif)).wr (closure + 32) (leBytes 8 fn)).wr (closure + 40) (leBytes 8 ud)

/-- The same with a static trampoline, src/aarch64/ffi.c:896-906, 930-932;
`ffi_tramp_set_parms` stores data and code (src/tramp.c:642-651). -/
def prepClosureStatic (closure parm alt cif fn ud : Nat) (m : Mem) : Mem :=
  let m := (m.wr parm (leBytes 8 closure)).wr (parm + 8) (leBytes 8 alt)
  ((m.wr (closure + 24) (leBytes 8 cif)).wr (closure + 32) (leBytes 8 fn)).wr (closure + 40) (leBytes 8 ud)

/-- The same with Mach trampoline tables, src/aarch64/ffi.c:881-887, 930-932
(`FFI_TRAMPOLINE_SIZE` 16; `PAGE_MAX_SIZE` is 16384 on arm64). -/
def prepClosureMach (start closure codeloc cif fn ud : Nat) (m : Mem) : Mem :=
  let m := (m.wr (codeloc - 16384) (leBytes 8 closure)).wr (codeloc - 16384 + 8) (leBytes 8 start)
  ((m.wr (closure + 16) (leBytes 8 cif)).wr (closure + 24) (leBytes 8 fn)).wr (closure + 32) (leBytes 8 ud)

/-- A slot of the static trampoline table, src/aarch64/sysv.S:572-583, assembled. -/
def slotWords : List Nat :=
  [0xd10043ff,   -- sub sp, sp, #16
   0xf90003f1,   -- str x17, [sp]
   0x1001ffd1,   -- adr x17, #16376
   0xf9400231,   -- ldr x17, [x17]
   0xf90007f1,   -- str x17, [sp, #8]
   0x1001ffb1,   -- adr x17, #16372
   0xf9400231,   -- ldr x17, [x17]
   0xd61f0220]   -- br x17

/-- `AARCH64_TRAMP_SIZE` and `AARCH64_TRAMP_MAP_SIZE`, src/aarch64/internal.h:75-77. -/
def slotSize : Nat := 32
def mapSize : Nat := 16384

/-- An `_alt` entry point, src/aarch64/sysv.S:524-529, 539-544, assembled: `off` is the
distance from the branch to its target, `bti` whether BTI is enabled (line 67). -/
def altWords (bti : Bool) (off : Nat) : List Nat :=
  (if bti then [0xd503245f] else []) ++
  [0xf94007f1,                           -- ldr x17, [sp, #8]
   0x910043ff,                           -- add sp, sp, #16
   0x14000000 + off / 4 % 2 ^ 26]        -- b

/-- An entry of the Mach table page, src/aarch64/sysv.S:601-604, assembled. -/
def machWords : List Nat :=
  [0x10fe0010,   -- adr x16, -16384
   0xa9404211,   -- ldp x17, x16, [x16]
   0xd61f0200,   -- br x16
   0xd503201f]   -- nop

/-- Assembled words in memory. -/
def bytesOf (ws : List Nat) : List Byte := ws.flatMap (leBytes 4)

end Verif.A64.Tr
