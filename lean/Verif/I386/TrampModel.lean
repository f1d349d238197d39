import Verif.I386.Model
import Verif.Base.Code

/-
Trampolines of 32-bit x86: `ffi_prep_closure_loc` and `ffi_prep_raw_closure_loc`
(src/x86/ffi.c:564-630, 679-727), the static trampoline table and the `_alt` entry points
(src/x86/sysv.S:576-662), on a machine that executes the instructions they consist of.
Encodings follow the Intel SDM.
-/
namespace Verif.I386.Tr
open Verif

/-- 32-bit arithmetic. -/
def w32 (n : Nat) : Nat := n % 2 ^ 32

/-- The registers that trampolines use, and memory. -/
structure MState where
  eip : Nat
  eax : Nat
  esp : Nat
  mem : Mem

/-- The instructions that occur. -/
inductive Insn
  | endbr
  | movEax (v : Nat)   -- movl $v,%eax
  | push (v : Nat)     -- pushl $v
  | jmpRel (d : Nat)   -- jmp
  | call (d : Nat)     -- call
  | subEsp (k : Nat)   -- subl $k,%esp
  | addEsp (k : Nat)   -- addl $k,%esp
  | stEsp (k : Nat)    -- movl %eax,k(%esp)
  | ldEsp (k : Nat)    -- movl k(%esp),%eax
  | ldEax (d : Nat)    -- movl d(%eax),%eax
  | jmpEax             -- jmp *%eax
  | ret
  deriving DecidableEq, Repr

/-- A little-endian 32-bit immediate. -/
def imm (b : Nat → Byte) (i : Nat) : Nat := leNat [b i, b (i + 1), b (i + 2), b (i + 3)]

/-- Instruction and its length; `b i` is the `i`th byte.  `none`: not in the subset. -/
def decode (b : Nat → Byte) : Option (Insn × Nat) :=
  if b 0 = 0xf3 ∧ b 1 = 0x0f ∧ b 2 = 0x1e ∧ b 3 = 0xfb then some (.endbr, 4)
  else if b 0 = 0xb8 then some (.movEax (imm b 1), 5)
  else if b 0 = 0x68 then some (.push (imm b 1), 5)
  else if b 0 = 0xe9 then some (.jmpRel (imm b 1), 5)
  else if b 0 = 0xe8 then some (.call (imm b 1), 5)
  else if b 0 = 0x83 ∧ b 1 = 0xec ∧ (b 2).toNat < 128 then some (.subEsp (b 2).toNat, 3)
  else if b 0 = 0x83 ∧ b 1 = 0xc4 ∧ (b 2).toNat < 128 then some (.addEsp (b 2).toNat, 3)
  else if b 0 = 0x89 ∧ b 1 = 0x04 ∧ b 2 = 0x24 then some (.stEsp 0, 3)
  else if b 0 = 0x89 ∧ b 1 = 0x44 ∧ b 2 = 0x24 ∧ (b 3).toNat < 128 then some (.stEsp (b 3).toNat, 4)
  else if b 0 = 0x8b ∧ b 1 = 0x04 ∧ b 2 = 0x24 then some (.ldEsp 0, 3)
  else if b 0 = 0x8b ∧ b 1 = 0x44 ∧ b 2 = 0x24 ∧ (b 3).toNat < 128 then some (.ldEsp (b 3).toNat, 4)
  else if b 0 = 0x8b ∧ b 1 = 0x80 then some (.ldEax (imm b 2), 6)
  else if b 0 = 0xff ∧ b 1 = 0xe0 then some (.jmpEax, 2)
  else if b 0 = 0xc3 then some (.ret, 1)
  else none

/-- A 32-bit load; `none` across the end of the address space. -/
def load (m : Mem) (a : Nat) : Option Nat := if a + 4 ≤ 2 ^ 32 then some (leNat (m.rd a 4)) else none

/-- A 32-bit store. -/
def store (m : Mem) (a v : Nat) : Option Mem := if a + 4 ≤ 2 ^ 32 then some (m.wr a (leBytes 4 v)) else none

/-- Effect of an instruction of length `n`. -/
def exec (s : MState) (n : Nat) : Insn → Option MState
  | .endbr => some { s with eip := w32 (s.eip + n) }
  | .movEax v => some { s with eip := w32 (s.eip + n), eax := v }
  | .push v =>
    (store s.mem (w32 (s.esp + 2 ^ 32 - 4)) v).map fun m =>
      { s with eip := w32 (s.eip + n), esp := w32 (s.esp + 2 ^ 32 - 4), mem := m }
  | .jmpRel d => some { s with eip := w32 (s.eip + n + d) }
  | .call d =>
    (store s.mem (w32 (s.esp + 2 ^ 32 - 4)) (w32 (s.eip + n))).map fun m =>
      { s with eip := w32 (s.eip + n + d), esp := w32 (s.esp + 2 ^ 32 - 4), mem := m }
  | .subEsp k => some { s with eip := w32 (s.eip + n), esp := w32 (s.esp + 2 ^ 32 - k) }
  | .addEsp k => some { s with eip := w32 (s.eip + n), esp := w32 (s.esp + k) }
  | .stEsp k => (store s.mem (w32 (s.esp + k)) s.eax).map fun m => { s with eip := w32 (s.eip + n), mem := m }
  | .ldEsp k => (load s.mem (w32 (s.esp + k))).map fun v => { s with eip := w32 (s.eip + n), eax := v }
  | .ldEax d => (load s.mem (w32 (s.eax + d))).map fun v => { s with eip := w32 (s.eip + n), eax := v }
  | .jmpEax => some { s with eip := s.eax }
  | .ret => (load s.mem s.esp).map fun v => { s with eip := v, esp := w32 (s.esp + 4) }

/-- One instruction. -/
def step (s : MState) : Option MState :=
  (decode fun i => s.mem (w32 (s.eip + i))).bind fun r => exec s r.2 r.1

/-- Several instructions. -/
def steps : Nat → MState → Option MState
  | 0, s => some s
  | n + 1, s => (step s).bind (steps n)

/-- The entry points of closures, src/x86/ffi.c:575-593. -/
inductive Dest | i386 | stdcall | register
  deriving DecidableEq, Repr

def destOf : Abi → Dest
  | .sysv | .msCdecl => .i386
  | .stdcall | .thiscall | .fastcall | .pascal => .stdcall
  | .register => .register

/-- `op`, src/x86/ffi.c:573, 589. -/
def op : Abi → Byte
  | .register => 0x68
  | _ => 0xb8

/-- The assignments of `ffi_prep_closure_loc` in the dynamic case, src/x86/ffi.c:610-627;
`dest` is the address of the entry point, `closure` that of the object in the writable
mapping (layout: include/ffi.h.in:324-345, `FFI_TRAMPOLINE_SIZE` 16). -/
def prepClosure (abi : Abi) (dest closure codeloc cif fn ud : Nat) (m : Mem) : Mem :=
  let m := m.wr closure (leBytes 4 0xfb1e0ff3)
  let m := m.wr (closure + 4) [op abi]
  let m := m.wr (closure + 5) (leBytes 4 codeloc)
  let m := m.wr (closure + 9) [0xe9]
  let m := m.wr (closure + 10) (leBytes 4 (w32 (dest + 2 ^ 32 - w32 (codeloc + 14))))
  ((m.wr (closure + 16) (leBytes 4 cif)).wr (closure + 20) (leBytes 4 fn)).wr (closure + 24) (leBytes 4 ud)

/-- The same in the static case, src/x86/ffi.c:596-607, 625-627: only the three fields;
`ffi_tramp_set_parms` stores `closure` and the `_alt` entry point in the parameter block
(src/tramp.c). -/
def prepClosureStatic (closure parm alt cif fn ud : Nat) (m : Mem) : Mem :=
  let m := (m.wr parm (leBytes 4 closure)).wr (parm + 4) (leBytes 4 alt)
  ((m.wr (closure + 16) (leBytes 4 cif)).wr (closure + 20) (leBytes 4 fn)).wr (closure + 24) (leBytes 4 ud)

/-- The assignments of `ffi_prep_raw_closure_loc`, src/x86/ffi.c:714-724. -/
def prepRaw (dest closure codeloc cif fn ud : Nat) (m : Mem) : Mem :=
  let m := m.wr closure [0xb8]
  let m := m.wr (closure + 1) (leBytes 4 codeloc)
  let m := m.wr (closure + 5) [0xe9]
  let m := m.wr (closure + 6) (leBytes 4 (w32 (dest + 2 ^ 32 - w32 (codeloc + 10))))
  ((m.wr (closure + 16) (leBytes 4 cif)).wr (closure + 20) (leBytes 4 fn)).wr (closure + 24) (leBytes 4 ud)

/-- A slot of the static trampoline table, src/x86/sysv.S:646-657, with `X86_DATA_OFFSET`
and `X86_CODE_OFFSET` of lines 633-639 (the displacements of the two `call 1f` are 23 and
8).  The padding of `.align 4` is not executed. -/
def slotCode (endbr : Bool) : List Byte :=
  (if endbr then [0xf3, 0x0f, 0x1e, 0xfb] else []) ++
  [0x83, 0xec, 0x08] ++                                      -- subl $8,%esp
  [0x89, 0x04, 0x24] ++                                      -- movl %eax,(%esp)
  [0xe8] ++ leBytes 4 23 ++                                  -- call 1f
  [0x8b, 0x80] ++ leBytes 4 (if endbr then 4081 else 4085) ++ -- movl DATA(%eax),%eax
  [0x89, 0x44, 0x24, 0x04] ++                                -- movl %eax,4(%esp)
  [0xe8] ++ leBytes 4 8 ++                                   -- call 1f
  [0x8b, 0x80] ++ leBytes 4 (if endbr then 4070 else 4074) ++ -- movl CODE(%eax),%eax
  [0xff, 0xe0] ++                                            -- jmp *%eax
  [0x8b, 0x04, 0x24] ++                                      -- 1: movl (%esp),%eax
  [0xc3]                                                     -- ret

/-- `X86_TRAMP_SIZE`, src/x86/internal.h:39-43. -/
def slotSize (endbr : Bool) : Nat := if endbr then 44 else 40

/-- `X86_TRAMP_MAP_SIZE`, src/x86/internal.h:37-38. -/
def mapSize : Nat := 4096

/-- The two instructions of the `_alt` entry points, src/x86/sysv.S:583-584, 594-595, 605-606. -/
def altBody : Dest → List Byte
  | .register => [0x8b, 0x04, 0x24, 0x83, 0xc4, 0x04]       -- movl (%esp),%eax; addl $4,%esp
  | _ => [0x8b, 0x44, 0x24, 0x04, 0x83, 0xc4, 0x08]         -- movl 4(%esp),%eax; addl $8,%esp

/-- The `_alt` entry points, src/x86/sysv.S:576-608; `d` is the displacement of the jump. -/
def altCode (endbr : Bool) (e : Dest) (d : Nat) : List Byte :=
  (if endbr then [0xf3, 0x0f, 0x1e, 0xfb] else []) ++
  altBody e ++
  [0xe9] ++ leBytes 4 d

end Verif.I386.Tr
