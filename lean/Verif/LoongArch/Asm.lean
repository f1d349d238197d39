import Verif.LoongArch.Model
import Verif.RiscV.AsmLemmas

/-
The assembly code of src/loongarch64/sysv.S, instruction by instruction, and the trampolines
of `ffi_prep_closure_loc` (src/loongarch64/ffi.c:514-553) and of the table in sysv.S on a machine
that decodes their words.  `LARG`, `SARG`, `FLARG`, `FSARG` and `addi.d` do what they
do on RISC-V: the machine is that of `RiscV/Asm.lean`, with registers numbered r0…r31 and
f0…f31 as on LoongArch; `move` is `addi` with 0.
-/
namespace Verif.LA.Asm
open Verif RV RV.Asm

/-! Register numbers. -/
def ra : Nat := 1
def sp : Nat := 3
def a0 : Nat := 4
def t0 : Nat := 12
def t1 : Nat := 13
def t2 : Nat := 14
def fp : Nat := 22
def fa0 : Nat := 0

/-- `ffi_call_asm` up to the call, src/loongarch64/sysv.S:93-124. -/
def callIn (c : Cfg) : List Ins :=
  [.sarg fp (ctxSize c - 2 * c.w) (a0 + 1), .sarg ra (ctxSize c - 1 * c.w) (a0 + 1),
   .addi fp (a0 + 1) (ctxSize c), .addi sp a0 0, .addi t1 (a0 + 2) 0, .addi t2 (a0 + 3) 0] ++
  (if c.fl = 0 then [] else each 8 fun k => .flarg (fa0 + k) (-(ctxSize c : Int) + k * c.fl) fp) ++
  each 8 fun k => .larg (a0 + k) (-(ctxSize c : Int) + 8 * c.fl + k * c.w) fp

/-- The part after it, src/loongarch64/sysv.S:129-144, without the `jr`. -/
def callOut (c : Cfg) : List Ins :=
  (if c.fl = 0 then [] else each 2 fun k => .fsarg (fa0 + k) (-(ctxSize c : Int) + k * c.fl) fp) ++
  each 2 (fun k => .sarg (a0 + k) (-(ctxSize c : Int) + 8 * c.fl + k * c.w) fp) ++
  [.addi sp fp (-(ctxSize c : Int)), .larg ra (-1 * (c.w : Int)) fp, .larg fp (-2 * (c.w : Int)) fp]

/-- The beginning of `ffi_closure_asm` and `ffi_go_closure_asm`,
src/loongarch64/sysv.S:162-191, 265-294. -/
def closureSave (c : Cfg) : List Ins :=
  [.addi sp sp (-(ctxSize c : Int)), .sarg fp (ctxSize c - 2 * c.w) sp, .sarg ra (ctxSize c - 1 * c.w) sp,
   .addi fp sp (ctxSize c)] ++
  (if c.fl = 0 then [] else each 8 fun k => .fsarg (fa0 + k) (k * c.fl) sp) ++
  each 8 fun k => .sarg (a0 + k) (8 * c.fl + k * c.w) sp

/-- The arguments of `ffi_closure_inner`, src/loongarch64/sysv.S:194-198
(`FFI_TRAMPOLINE_SIZE` 24, src/loongarch64/ffitarget.h:76). -/
def closureArgs (c : Cfg) : List Ins :=
  [.larg a0 (24 + 0 * c.w) t0, .larg (a0 + 1) (24 + 1 * c.w) t0, .larg (a0 + 2) (24 + 2 * c.w) t0,
   .addi (a0 + 3) sp (ctxSize c), .addi (a0 + 4) sp 0]

/-- The same in `ffi_go_closure_asm`, src/loongarch64/sysv.S:297-301. -/
def goArgs (c : Cfg) : List Ins :=
  [.larg a0 (1 * c.w) t2, .larg (a0 + 1) (2 * c.w) t2, .addi (a0 + 2) t2 0,
   .addi (a0 + 3) sp (ctxSize c), .addi (a0 + 4) sp 0]

/-- The end of both, src/loongarch64/sysv.S:202-217, 305-320, without the `jr`. -/
def closureOut (c : Cfg) : List Ins :=
  (if c.fl = 0 then [] else each 2 fun k => .flarg (fa0 + k) (k * c.fl) sp) ++
  each 2 (fun k => .larg (a0 + k) (8 * c.fl + k * c.w) sp) ++
  [.larg ra (ctxSize c - 1 * c.w) sp, .larg fp (ctxSize c - 2 * c.w) sp, .addi sp sp (ctxSize c)]

/-! ## Trampolines -/

/-- The trampolines' instructions; immediates as in the word. -/
inductive TIns
  | pcaddi (d k : Nat)       -- d := pc + 4 * k, 20 bits
  | pcaddu12i (d k : Nat)    -- d := pc + 4096 * k, 20 bits
  | ldd (d b k : Nat)        -- 12 bits
  | jirl (d b k : Nat)       -- 16 bits, times 4
  deriving DecidableEq, Repr

/-- LoongArch encoding, formats 1RI20, 2RI12 and 2RI16. -/
def decode (w : Nat) : Option TIns :=
  let d := w % 32
  let b := w / 2 ^ 5 % 32
  if w / 2 ^ 25 = 0x0c then some (.pcaddi d (w / 2 ^ 5 % 2 ^ 20))
  else if w / 2 ^ 25 = 0x0e then some (.pcaddu12i d (w / 2 ^ 5 % 2 ^ 20))
  else if w / 2 ^ 22 = 0xa3 then some (.ldd d b (w / 2 ^ 10 % 2 ^ 12))
  else if w / 2 ^ 26 = 0x13 then some (.jirl d b (w / 2 ^ 10 % 2 ^ 16))
  else none

/-- Addition modulo 2^64. -/
def add (b : Nat) (k : Int) : Nat := (((b : Int) + k) % ((2 ^ 64 : Nat) : Int)).toNat

def texec (m : MState) : TIns → MState
  | .pcaddi d k => ⟨add m.pc 4, setX m.s d (add m.pc (sext 22 (k * 4)))⟩
  | .pcaddu12i d k => ⟨add m.pc 4, setX m.s d (add m.pc (sext 32 (k * 2 ^ 12)))⟩
  | .ldd d b k => ⟨add m.pc 4, setX m.s d (leNat (m.s.mem.rd (add (rdX m.s b) (sext 12 k)) 8))⟩
  | .jirl d b k => ⟨add (rdX m.s b) (sext 18 (k * 4)), setX m.s d (add m.pc 4)⟩

/-- One instruction; its address has to be a multiple of four. -/
def tstep (m : MState) : Option MState :=
  if m.pc % 4 = 0 then (decode (leNat (m.s.mem.rd m.pc 4))).map (texec m) else none

def tsteps : Nat → MState → Option MState
  | 0, m => some m
  | n + 1, m => (tstep m).bind (tsteps n)

/-- The words of the trampoline, src/loongarch64/ffi.c:535-540. -/
def trampWords : List Nat := [0x1800000c, 0x28c0418d, 0x4c0001a0, 0x03400000]

/-- `FFI_FIRST_ABI`, `FFI_LAST_ABI`, src/loongarch64/ffitarget.h:47-53. -/
def abiOk (abi : Nat) : Bool := !(decide (abi ≤ 0) || decide (4 ≤ abi))

/-- `ffi_prep_closure_loc`, src/loongarch64/ffi.c:514-553, without a static trampoline; `entry`
is the address of `ffi_closure_asm`; `none` is `FFI_BAD_ABI`. -/
def prepClosure (abi entry closure cif fn ud : Nat) (m : Mem) : Option Mem :=
  if abiOk abi then
    let m := m.wr closure (trampWords.flatMap (leBytes 4))
    let m := (m.wr (closure + 16) (leBytes 4 entry)).wr (closure + 20) (leBytes 4 (entry / 2 ^ 32))
    some (((m.wr (closure + 24) (leBytes 8 cif)).wr (closure + 32) (leBytes 8 fn)).wr (closure + 40) (leBytes 8 ud))
  else none

/-- The same with a static trampoline, whose parameter block is at `parm`
(`ffi_tramp_set_parms`, src/tramp.c: data, then code). -/
def prepStatic (abi entry closure parm cif fn ud : Nat) (m : Mem) : Option Mem :=
  if abiOk abi then
    let m := (m.wr parm (leBytes 8 closure)).wr (parm + 8) (leBytes 8 entry)
    some (((m.wr (closure + 24) (leBytes 8 cif)).wr (closure + 32) (leBytes 8 fn)).wr (closure + 40) (leBytes 8 ud))
  else none

/-- `ffi_prep_go_closure`, src/loongarch64/ffi.c:557-569. -/
def prepGo (abi entry closure cif fn : Nat) (m : Mem) : Option Mem :=
  if abiOk abi then
    some (((m.wr closure (leBytes 8 entry)).wr (closure + 8) (leBytes 8 cif)).wr (closure + 16) (leBytes 8 fn))
  else none

/-- The words of a slot of `trampoline_code_table`, src/loongarch64/sysv.S:243-246:
`pcaddu12i $t1, 16`, `ld.d $t0, $t1, 0`, `ld.d $t1, $t1, 8`, `jirl $zero, $t1, 0`. -/
def slotWords : List Nat := [0x1c00020d, 0x28c001ac, 0x28c021ad, 0x4c0001a0]

/-- `trampoline_code_table`, src/loongarch64/sysv.S:240-247: 65536 / 16 slots. -/
def codeTable : List Byte := (List.replicate (65536 / 16) (slotWords.flatMap (leBytes 4))).flatten

end Verif.LA.Asm
