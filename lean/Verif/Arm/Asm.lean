import Verif.Base.Mem

/-
Instructions of src/arm/sysv.S (ARM mode, ELF, not Windows): `ffi_call_VFP`, `ffi_call_SYSV`,
`ffi_closure_SYSV`, `ffi_go_closure_SYSV`, `ffi_closure_VFP`, `ffi_go_closure_VFP`,
`ffi_closure_ret`, `ffi_closure_SYSV_alt`, `ffi_closure_VFP_alt` with their place in the code,
and the call frame and unwinding directives that go with them.  Sums of addresses beyond
2^32 do not occur under the theorems' hypotheses and are not wrapped.
-/
namespace Verif.Arm.Asm
open Verif

/-- Labels of sysv.S: `do` is the label `0` of the closure entry points, with and without
VFP registers. -/
inductive Lbl
  | callVfp | call | table
  | go (vfp : Bool) | clos (vfp : Bool) | do (vfp : Bool) | ret | epilogue | alt (vfp : Bool)
  deriving DecidableEq, Repr

/-- Instructions.  Register 11 is fp, 12 ip, 13 sp, 14 lr, 15 pc. -/
inductive Ins
  | nop
  | cmp3                       -- cmp r3, #3
  | vldrLe                     -- ldcle p11, cr0, [r0]: vldrle d0, [r0]
  | vldmGt                     -- ldcgt p11, cr0, [r0], {16}: vldmgt r0, {d0-d7}
  | addi (d a k : Nat)         -- add d, a, #k
  | subi (d a k : Nat)         -- sub d, a, #k
  | mov (d a : Nat)
  | ldr (d b k : Nat)          -- ldr d, [b, #k]
  | str (a b k : Nat)          -- str a, [b, #k]
  | stm (b : Nat) (rs : List Nat)   -- stm b, {rs}
  | stmdb (rs : List Nat)      -- stmdb sp!, {rs}
  | ldmia (rs : List Nat)      -- ldmia sp!, {rs}
  | popPc (d : Nat)            -- pop {d, pc}
  | ldmPc                      -- ldm sp, {sp, pc}
  | blx (a : Nat)
  | bl (f : Nat)               -- call of an external function, number f
  | b (l : Lbl)
  | addpc (a i : Nat)          -- add pc, a, i, lsl #3
  | adr (d : Nat) (l : Lbl)
  | vld (n b : Nat)            -- ldc: s0 to s(n-1) from [b]
  | vst (n b : Nat)            -- stc: s0 to s(n-1) to [b]
  deriving DecidableEq, Repr

/-- Call frame directives (include/ffi_cfi.h). -/
inductive Cfi
  | start                      -- cfi_startproc
  | adjust (n : Nat)           -- cfi_adjust_cfa_offset
  | defCfa (r k : Nat)         -- cfi_def_cfa
  | defReg (r : Nat)           -- cfi_def_cfa_register
  | relOff (r k : Nat)         -- cfi_rel_offset
  | stop                       -- cfi_endproc
  deriving DecidableEq, Repr

/-- Elements of the assembler's input. -/
inductive Item
  | i (ins : Ins)
  | align                      -- .align 3
  | e (base : Lbl) (k : Nat)   -- E(k)
  | l (l : Lbl)
  | cfi (d : Cfi)
  deriving DecidableEq, Repr

/-- A row of the call frame table: the CFA is register `reg` plus `off`; `saved` lists
registers and where they are stored, relative to the CFA. -/
structure Row where
  reg : Nat
  off : Nat
  saved : List (Nat × Int)
  deriving DecidableEq, Repr

/-- The effect of a directive; initially the CFA is the stack pointer. -/
def Cfi.apply : Cfi → Option Row → Option Row
  | .start, _ => some ⟨13, 0, []⟩
  | .stop, _ => none
  | .adjust n, some w => some { w with off := w.off + n }
  | .defCfa r k, some w => some { w with reg := r, off := k }
  | .defReg r, some w => some { w with reg := r }
  | .relOff r k, some w => some { w with saved := (r, (k : Int) - w.off) :: w.saved }
  | _, none => none

/-- The assembler's output. -/
structure Image where
  code : List (Nat × Ins)
  rows : List (Nat × Row)
  labels : List (Lbl × Nat)

/-- The assembler: every instruction has four bytes, padding is filled with `nop`, the
macro `E` checks the place (src/arm/sysv.S:108-120). -/
def assemble : List Item → Nat → Option Row → Image → Option Image
  | [], _, _, m => some ⟨m.code.reverse, m.rows.reverse, m.labels⟩
  | .i ins :: is, o, w, m =>
    assemble is (o + 4) w { m with code := (o, ins) :: m.code, rows := match w with | some w => (o, w) :: m.rows | none => m.rows }
  | .align :: is, o, w, m =>
    if o % 8 = 0 then assemble is o w m
    else assemble is (o + 4) w
      { m with code := (o, .nop) :: m.code, rows := match w with | some w => (o, w) :: m.rows | none => m.rows }
  | .l l :: is, o, w, m => assemble is o w { m with labels := (l, o) :: m.labels }
  | .e b k :: is, o, w, m => if m.labels.lookup b = some (o - 8 * k) ∧ 8 * k ≤ o then assemble is o w m else none
  | .cfi d :: is, o, w, m => assemble is o (d.apply w) m

/-- `ffi_call_VFP`, src/arm/sysv.S:139-149 (`ite` is no instruction in ARM mode). -/
def callVfp : List Item :=
  [.align, .l .callVfp, .cfi .start,
   .i .cmp3, .i .vldrLe, .i .vldmGt,
   .i (.addi 0 0 64)]

/-- `ffi_call_SYSV`, src/arm/sysv.S:151-213 (`ARM_TYPE_*` are 0 to 6 in this order,
src/arm/internal.h:1-7). -/
def callSysv : List Item :=
  [.align, .l .call,
   .i (.stm 1 [11, 14]),
   .i (.mov 11 1),
   .cfi (.defCfa 11 8), .cfi (.relOff 11 0), .cfi (.relOff 14 4),
   .i (.mov 13 0),
   .i (.mov 14 2),
   .i (.ldr 12 11 16),
   .i (.ldmia [0, 1, 2, 3]),
   .i (.blx 14),
   .i (.ldr 2 11 8),
   .i (.ldr 3 11 12),
   .i (.mov 13 11),
   .cfi (.defReg 13),
   .align,
   .i (.addpc 15 3),
   .i .nop,
   .l .table,
   .e .table 0, .i (.vst 1 2), .i (.popPc 11),
   .e .table 1, .i (.vst 2 2), .i (.popPc 11),
   .e .table 2, .i (.vst 8 2), .i (.popPc 11),
   .e .table 3, .i (.str 1 2 4), .i .nop,
   .e .table 4, .i (.str 0 2 0), .i (.popPc 11),
   .e .table 5, .i (.popPc 11), .i .nop,
   .e .table 6, .i (.popPc 11),
   .cfi .stop]

/-- `ffi_go_closure_SYSV`, `ffi_go_closure_VFP`, src/arm/sysv.S:221-230, 276-285. -/
def goHead (vfp : Bool) : List Item :=
  [.align, .l (.go vfp), .cfi .start,
   .i (.stmdb [0, 1, 2, 3]), .cfi (.adjust 16),
   .i (.ldr 0 12 4), .i (.ldr 1 12 8), .i (.mov 2 12),
   .i (.b (.do vfp)),
   .cfi .stop]

/-- `ffi_closure_SYSV`, `ffi_closure_VFP`, src/arm/sysv.S:232-274, 287-328;
`FFI_TRAMPOLINE_CLOSURE_OFFSET` is 12 (src/arm/ffitarget.h:84-86). -/
def closHead (vfp : Bool) : List Item :=
  [.align, .l (.clos vfp), .cfi .start,
   .i (.stmdb [0, 1, 2, 3]), .cfi (.adjust 16),
   .i (.ldr 0 12 12), .i (.ldr 1 12 16), .i (.ldr 2 12 20),
   .l (.do vfp),
   .i (.addi 12 13 16),
   .i (.subi 13 13 96), .cfi (.adjust 96)] ++
  (if vfp then [.i (.vst 16 13)] else []) ++
  [.i (.stmdb [12, 14]), .cfi (.adjust 8), .cfi (.relOff 14 4),
   .i (.addi 3 13 8),
   .i (.bl (if vfp then 1 else 0)),   -- bl ffi_closure_inner_VFP, ffi_closure_inner_SYSV
   .i (.addi 2 13 72),
   .i (.adr 3 .ret),
   .i (.addpc 3 0),
   .cfi .stop]

/-- `ffi_closure_ret`, src/arm/sysv.S:334-368. -/
def closRet : List Item :=
  [.align, .l .ret, .cfi .start, .cfi (.relOff 13 0), .cfi (.relOff 14 4),
   .e .ret 0, .i (.vld 1 2), .i (.b .epilogue),
   .e .ret 1, .i (.vld 2 2), .i (.b .epilogue),
   .e .ret 2, .i (.vld 8 2), .i (.b .epilogue),
   .e .ret 3, .i (.ldr 1 2 4), .i .nop,
   .e .ret 4, .i (.ldr 0 2 0), .i (.b .epilogue),
   .e .ret 5, .i (.b .epilogue), .i .nop,
   .e .ret 6, .i (.b .epilogue),
   .l .epilogue,
   .i .ldmPc,
   .cfi .stop]

/-- `ffi_closure_SYSV_alt`, `ffi_closure_VFP_alt`, src/arm/sysv.S:371-383. -/
def altHead (vfp : Bool) : List Item :=
  [.align, .l (.alt vfp), .i (.ldr 12 13 4), .i (.addi 13 13 8), .i (.b (.clos vfp))]

/-- The file up to the trampolines. -/
def source : List Item :=
  callVfp ++ callSysv ++ goHead false ++ closHead false ++ goHead true ++ closHead true ++ closRet ++ altHead false ++ altHead true

/-- The code. -/
def image : Image := (assemble source 0 none ⟨[], [], []⟩).getD ⟨[], [], []⟩

/-- The instruction at an offset. -/
def fetch (o : Nat) : Option Ins := image.code.lookup o

/-- The offset of a label. -/
def off (l : Lbl) : Nat := (image.labels.lookup l).getD 0

/-- The row of the call frame table at an offset. -/
def rowAt (o : Nat) : Option Row := image.rows.lookup o

/-! ## Execution -/

/-- Where execution continues: at an offset of the code, or outside. -/
inductive Pc
  | at_ (o : Nat)
  | out (a : Nat)
  deriving DecidableEq, Repr

/-- Core registers, VFP registers (as singles of four bytes; d(i) is s(2i), s(2i+1)), the
condition `le`, memory. -/
structure St where
  pc : Pc
  r : Nat → Nat
  s : Nat → List Byte
  le : Bool
  mem : Mem

/-- `base`: the address of the code; `ext`: the external functions, 0
`ffi_closure_inner_SYSV`, 1 `ffi_closure_inner_VFP`. -/
structure Ctx where
  base : Nat
  ext : Nat → Nat

def upd {α : Type} (x : Nat → α) (n : Nat) (v : α) : Nat → α := fun i => if i = n then v else x i

/-- Registers as they are stored. -/
def words (r : Nat → Nat) : List Nat → List Byte
  | [] => []
  | i :: is => leBytes 4 (r i) ++ words r is

/-- Registers loaded from consecutive words. -/
def loads (m : Mem) : List Nat → Nat → (Nat → Nat) → Nat → Nat
  | [], _, r => r
  | i :: is, a, r => loads m is (a + 4) (upd r i (leNat (m.rd a 4)))

/-- s0 to s(n-1) as they are stored. -/
def singles (s : Nat → List Byte) (n : Nat) : List Byte := (List.range n).flatMap s

/-- s0 to s(n-1) loaded from `a`. -/
def loadS (m : Mem) (n a : Nat) (s : Nat → List Byte) : Nat → List Byte := fun i => if i < n then m.rd (a + 4 * i) 4 else s i

/-- Execution at `a`; nothing if that is not an instruction of the code. -/
def St.goto (s : St) (c : Ctx) (a : Nat) : Option St :=
  if c.base ≤ a ∧ (fetch (a - c.base)).isSome then some { s with pc := .at_ (a - c.base) } else none

def St.set (s : St) (pc : Pc) (d v : Nat) : St := { s with pc := pc, r := upd s.r d v }

/-- An instruction at offset `o`; nothing if it faults. -/
def exec (c : Ctx) (o : Nat) (i : Ins) (s : St) : Option St :=
  let nx := Pc.at_ (o + 4)
  match i with
  | .nop => some { s with pc := nx }
  | .cmp3 => some { s with pc := nx, le := decide (s.r 3 ≤ 3 ∨ 2 ^ 31 ≤ s.r 3) }
  | .vldrLe => some { s with pc := nx, s := if s.le then loadS s.mem 2 (s.r 0) s.s else s.s }
  | .vldmGt => some { s with pc := nx, s := if s.le then s.s else loadS s.mem 16 (s.r 0) s.s }
  | .addi d a k => some (s.set nx d (s.r a + k))
  | .subi d a k => if k ≤ s.r a then some (s.set nx d (s.r a - k)) else none
  | .mov d a => some (s.set nx d (s.r a))
  | .ldr d b k => some (s.set nx d (leNat (s.mem.rd (s.r b + k) 4)))
  | .str a b k => some { s with pc := nx, mem := s.mem.wr (s.r b + k) (leBytes 4 (s.r a)) }
  | .stm b rs => some { s with pc := nx, mem := s.mem.wr (s.r b) (words s.r rs) }
  | .stmdb rs =>
    if 4 * rs.length ≤ s.r 13 then
      some { s with
        pc := nx, r := upd s.r 13 (s.r 13 - 4 * rs.length), mem := s.mem.wr (s.r 13 - 4 * rs.length) (words s.r rs) } else none
  | .ldmia rs => some { s with pc := nx, r := upd (loads s.mem rs (s.r 13) s.r) 13 (s.r 13 + 4 * rs.length) }
  | .popPc d =>
    some { s with
      pc := .out (leNat (s.mem.rd (s.r 13 + 4) 4)), r := upd (upd s.r d (leNat (s.mem.rd (s.r 13) 4))) 13 (s.r 13 + 8) }
  | .ldmPc => some { s with pc := .out (leNat (s.mem.rd (s.r 13 + 4) 4)), r := upd s.r 13 (leNat (s.mem.rd (s.r 13) 4)) }
  | .blx a => some { s with pc := .out (s.r a), r := upd s.r 14 (c.base + (o + 4)) }
  | .bl f => some { s with pc := .out (c.ext f), r := upd s.r 14 (c.base + (o + 4)) }
  | .b l => some { s with pc := .at_ (off l) }
  | .addpc a i => s.goto c ((if a = 15 then c.base + (o + 8) else s.r a) + s.r i * 8)
  | .adr d l => some (s.set nx d (c.base + off l))
  | .vld n b => some { s with pc := nx, s := loadS s.mem n (s.r b) s.s }
  | .vst n b => some { s with pc := nx, mem := s.mem.wr (s.r b) (singles s.s n) }

/-- One instruction.  Nothing outside the code. -/
def step (c : Ctx) (s : St) : Option St :=
  match s.pc with
  | .out _ => none
  | .at_ o =>
    match fetch o with
    | none => none
    | some i => exec c o i s

/-- Execution with interruptions: between any two instructions a signal handler may run
on the same stack, which extends down to `lo`, and change what is below the stack pointer. -/
inductive Reach (c : Ctx) (lo : Nat) : St → St → Prop
  | refl {s} : Reach c lo s s
  | step {s s' t} : step c s = some s' → Reach c lo s' t → Reach c lo s t
  | irq {s m t} : (∀ a, a < lo ∨ s.r 13 ≤ a → m a = s.mem a) → Reach c lo { s with mem := m } t → Reach c lo s t

/-! ## Unwinding -/

/-- What an unwinder makes of registers and memory by a row of the call frame table: the
registers of the caller, the return address in register 14. -/
def unwind (w : Row) (r : Nat → Nat) (m : Mem) : Nat → Nat := fun d =>
  let c := r w.reg + w.off
  match w.saved.lookup d with
  | some k => leNat (m.rd ((c : Int) + k).toNat 4)
  | none => if d = 13 then c else r d

/-- Instructions of the exception handling ABI (ARM IHI 0038, 10.3): `vsp` := register, and
pop registers, after which `vsp` is above them unless it is one of them. -/
inductive Op
  | vsp (r : Nat)
  | pop (rs : List Nat)
  deriving DecidableEq, Repr

/-- The table of `ffi_call_SYSV`: `.save {fp,lr}`, `.setfp fp, sp`, undone in reverse order
(src/arm/sysv.S:157-158). -/
def callOps : List Op := [.vsp 11, .pop [11, 14]]

/-- The table of the closure entry points: `.save {sp,lr}` (src/arm/sysv.S:256, 310). -/
def closOps : List Op := [.pop [13, 14]]

/-- What an unwinder makes of registers and memory by such instructions; register 13 is
`vsp`. -/
def ehabi (m : Mem) : List Op → (Nat → Nat) → Nat → Nat
  | [], r => r
  | .vsp a :: ops, r => ehabi m ops (upd r 13 (r a))
  | .pop rs :: ops, r =>
    ehabi m ops (if 13 ∈ rs then loads m rs (r 13) r else upd (loads m rs (r 13) r) 13 (r 13 + 4 * rs.length))

end Verif.Arm.Asm
