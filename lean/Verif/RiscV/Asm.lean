import Verif.RiscV.Model
import Verif.Base.Code

/-
The assembly code of src/riscv/sysv.S, instruction by instruction, for all register
widths, and the trampolines of `ffi_prep_closure_loc` (src/riscv/ffi.c:425-456) on a
machine that decodes their words.  Loads and stores of misaligned addresses do not
trap here.  Integer registers hold numbers below 256^XLEN; floating-point registers hold
FLEN bytes.
-/
namespace Verif.RV.Asm
open Verif Verif.RV

/-- Integer registers x0…x31, floating-point registers f0…f31, memory. -/
structure AState where
  x : Nat → Nat
  f : Nat → List Byte
  mem : Mem

/-- Assignment to a register. -/
def upd {α : Type} (x : Nat → α) (n : Nat) (v : α) : Nat → α := fun i => if i = n then v else x i

/-- Addition of an immediate. -/
def ea (c : Cfg) (b : Nat) (k : Int) : Nat := (((b : Int) + k) % ((256 ^ c.w : Nat) : Int)).toNat

/-- The instructions of sysv.S; `LARG`, `SARG`, `FLARG`, `FSARG` as there (lines 35-55),
`mv` is `addi` with 0. -/
inductive Ins
  | addi (d b : Nat) (k : Int)
  | larg (d : Nat) (k : Int) (b : Nat)
  | sarg (r : Nat) (k : Int) (b : Nat)
  | flarg (d : Nat) (k : Int) (b : Nat)
  | fsarg (r : Nat) (k : Int) (b : Nat)
  deriving DecidableEq, Repr

def exec (c : Cfg) (s : AState) : Ins → AState
  | .addi d b k => { s with x := upd s.x d (ea c (s.x b) k) }
  | .larg d k b => { s with x := upd s.x d (leNat (s.mem.rd (ea c (s.x b) k) c.w)) }
  | .sarg r k b => { s with mem := s.mem.wr (ea c (s.x b) k) (leBytes c.w (s.x r)) }
  | .flarg d k b => { s with f := upd s.f d (s.mem.rd (ea c (s.x b) k) c.fl) }
  | .fsarg r k b => { s with mem := s.mem.wr (ea c (s.x b) k) (s.f r) }

def run (c : Cfg) (is : List Ins) (s : AState) : AState := is.foldl (exec c) s

/-! Register numbers. -/
def ra : Nat := 1
def sp : Nat := 2
def t1 : Nat := 6
def t2 : Nat := 7
def fp : Nat := 8
def a0 : Nat := 10

/-- Eight (or two) instructions with consecutive registers; nothing for `FLTS` = 0. -/
def each (n : Nat) (i : Nat → Ins) : List Ins := (List.range n).map i

/-- `ffi_call_asm` up to the call, src/riscv/sysv.S:90-121. -/
def callIn (c : Cfg) : List Ins :=
  [.sarg fp (ctxSize c - 2 * c.w) (a0 + 1), .sarg ra (ctxSize c - 1 * c.w) (a0 + 1),
   .addi fp (a0 + 1) (ctxSize c), .addi sp a0 0, .addi t1 (a0 + 2) 0, .addi t2 (a0 + 3) 0] ++
  (if c.fl = 0 then [] else each 8 fun k => .flarg (a0 + k) (-(ctxSize c : Int) + k * c.fl) fp) ++
  each 8 fun k => .larg (a0 + k) (-(ctxSize c : Int) + 8 * c.fl + k * c.w) fp

/-- The part after it, src/riscv/sysv.S:127-141, without the `ret`. -/
def callOut (c : Cfg) : List Ins :=
  (if c.fl = 0 then [] else each 2 fun k => .fsarg (a0 + k) (-(ctxSize c : Int) + k * c.fl) fp) ++
  each 2 (fun k => .sarg (a0 + k) (-(ctxSize c : Int) + 8 * c.fl + k * c.w) fp) ++
  [.addi sp fp (-(ctxSize c : Int)), .larg ra (-1 * (c.w : Int)) fp, .larg fp (-2 * (c.w : Int)) fp]

/-- The beginning of `ffi_closure_asm` and `ffi_go_closure_asm`,
src/riscv/sysv.S:161-190, 235-264. -/
def closureSave (c : Cfg) : List Ins :=
  [.addi sp sp (-(ctxSize c : Int)), .sarg fp (ctxSize c - 2 * c.w) sp, .sarg ra (ctxSize c - 1 * c.w) sp,
   .addi fp sp (ctxSize c)] ++
  (if c.fl = 0 then [] else each 8 fun k => .fsarg (a0 + k) (k * c.fl) sp) ++
  each 8 fun k => .sarg (a0 + k) (8 * c.fl + k * c.w) sp

/-- The arguments of `ffi_closure_inner`, src/riscv/sysv.S:193-197
(`FFI_TRAMPOLINE_SIZE` 24). -/
def closureArgs (c : Cfg) : List Ins :=
  [.larg a0 (24 + 0 * c.w) t1, .larg (a0 + 1) (24 + 1 * c.w) t1, .larg (a0 + 2) (24 + 2 * c.w) t1,
   .addi (a0 + 3) sp (ctxSize c), .addi (a0 + 4) sp 0]

/-- The same in `ffi_go_closure_asm`, src/riscv/sysv.S:267-271. -/
def goArgs (c : Cfg) : List Ins :=
  [.larg a0 (1 * c.w) t2, .larg (a0 + 1) (2 * c.w) t2, .addi (a0 + 2) t2 0,
   .addi (a0 + 3) sp (ctxSize c), .addi (a0 + 4) sp 0]

/-- The end of both, src/riscv/sysv.S:202-217, 276-291, without the `ret`. -/
def closureOut (c : Cfg) : List Ins :=
  (if c.fl = 0 then [] else each 2 fun k => .flarg (a0 + k) (k * c.fl) sp) ++
  each 2 (fun k => .larg (a0 + k) (8 * c.fl + k * c.w) sp) ++
  [.larg ra (ctxSize c - 1 * c.w) sp, .larg fp (ctxSize c - 2 * c.w) sp, .addi sp sp (ctxSize c)]

/-! ## Trampolines -/

/-- The trampoline's instructions. -/
inductive TIns
  | auipc (d imm : Nat)         -- imm: the upper twenty bits
  | load (d b k n : Nat)        -- n bytes, sign-extended; k: twelve bits
  | jalr (d b k : Nat)
  | addi (d b k : Nat)
  deriving DecidableEq, Repr

/-- RISC-V base encoding, I and U formats. -/
def decode (w : Nat) : Option TIns :=
  let d := w / 2 ^ 7 % 32
  let b := w / 2 ^ 15 % 32
  let k := w / 2 ^ 20
  let f3 := w / 2 ^ 12 % 8
  match w % 2 ^ 7 with
  | 0x17 => some (.auipc d (w / 2 ^ 12))
  | 0x03 => if f3 = 2 then some (.load d b k 4) else if f3 = 3 then some (.load d b k 8) else none
  | 0x67 => if f3 = 0 then some (.jalr d b k) else none
  | 0x13 => if f3 = 0 then some (.addi d b k) else none
  | _ => none

/-- Sign extension of `n` bits. -/
def sext (n v : Nat) : Int := if v < 2 ^ (n - 1) then v else (v : Int) - (2 ^ n : Nat)

/-- Program counter and state. -/
structure MState where
  pc : Nat
  s : AState

/-- x0 reads as zero and ignores assignments. -/
def rdX (s : AState) (n : Nat) : Nat := if n = 0 then 0 else s.x n
def setX (s : AState) (n v : Nat) : AState := if n = 0 then s else { s with x := upd s.x n v }

def texec (c : Cfg) (m : MState) : TIns → Option MState
  | .auipc d imm => some ⟨ea c m.pc 4, setX m.s d (ea c m.pc (sext 32 (imm * 2 ^ 12)))⟩
  | .load d b k n =>
    if n ≤ c.w then
      some ⟨ea c m.pc 4, setX m.s d (ea c 0 (sext (8 * n) (leNat (m.s.mem.rd (ea c (rdX m.s b) (sext 12 k)) n))))⟩
    else none
  | .jalr d b k => some ⟨ea c (rdX m.s b) (sext 12 k) / 2 * 2, setX m.s d (ea c m.pc 4)⟩
  | .addi d b k => some ⟨ea c m.pc 4, setX m.s d (ea c (rdX m.s b) (sext 12 k))⟩

/-- One instruction of four bytes. -/
def tstep (c : Cfg) (m : MState) : Option MState := (decode (leNat (m.s.mem.rd m.pc 4))).bind (texec c m)

def tsteps (c : Cfg) : Nat → MState → Option MState
  | 0, m => some m
  | n + 1, m => (tstep c m).bind (tsteps c n)

/-- The words of the trampoline, src/riscv/ffi.c:436-445. -/
def trampWords (c : Cfg) : List Nat :=
  [0x00000317, if c.w = 8 then 0x01033383 else 0x01032383, 0x00038067, 0x00000013]

/-- `FFI_FIRST_ABI`, `FFI_LAST_ABI`, src/riscv/ffitarget.h:47-52. -/
def abiOk (abi : Nat) : Bool := !(decide (abi ≤ 0) || decide (5 ≤ abi))

/-- `ffi_prep_closure_loc`, src/riscv/ffi.c:425-456; `entry` is the address of
`ffi_closure_asm`; `none` is `FFI_BAD_ABI`. -/
def prepClosure (c : Cfg) (abi entry closure cif fn ud : Nat) (m : Mem) : Option Mem :=
  if abiOk abi then
    let m := m.wr closure ((trampWords c).flatMap (leBytes 4))
    let m := (m.wr (closure + 16) (leBytes 4 entry)).wr (closure + 20) (leBytes 4 (entry / 2 ^ 32))
    some (((m.wr (closure + 24) (leBytes c.w cif)).wr (closure + 24 + c.w) (leBytes c.w fn)).wr
      (closure + 24 + 2 * c.w) (leBytes c.w ud))
  else none

/-- `ffi_prep_go_closure`, src/riscv/ffi.c:460-473; `entry` is the address of
`ffi_go_closure_asm`. -/
def prepGo (c : Cfg) (abi entry closure cif fn : Nat) (m : Mem) : Option Mem :=
  if abiOk abi then
    some (((m.wr closure (leBytes c.w entry)).wr (closure + c.w) (leBytes c.w cif)).wr (closure + 2 * c.w) (leBytes c.w fn))
  else none

end Verif.RV.Asm
