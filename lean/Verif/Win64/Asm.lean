import Verif.Win64.Model

/-
Instructions of src/x86/win64.S with their place in the code, the unwind information that goes
with them (DWARF call frame directives, and on Windows the unwind codes of `SEH`), and their
execution.  Lengths of instructions follow the Intel SDM; for branches to labels the length that the
distance requires.  Sums of addresses beyond 2^64 do not occur under the theorems' hypotheses and are
not wrapped.
-/
namespace Verif.Win64.Asm
open Verif

/-- Labels of win64.S. -/
inductive Lbl
  | call | table | l98 | l99 | go | clos | doClos | alt
  deriving DecidableEq, Repr

/-- Instructions.  Registers have their hardware numbers: 0 rax, 1 rcx, 2 rdx, 3 rbx, 4 rsp, 5 rbp,
6 rsi, 7 rdi, 8 to 15. -/
inductive Ins
  | endbr
  | mov (d a : Nat)            -- movq %a, %d
  | ld (z d b k : Nat)         -- movq, movl k(%b), %d
  | st (z a b k : Nat)         -- movq, movl, movw, movb %a, k(%b)
  | lea (d b k : Nat)          -- leaq k(%b), %d
  | leax (d b i sc : Nat)      -- leaq (%b, %i, sc), %d
  | leap (d : Nat) (l : Lbl)   -- leaq l(%rip), %d
  | cmpl (a k : Nat)           -- cmpl $k, %a
  | ja (l : Lbl)
  | jmp (l : Lbl)
  | jmpr (a : Nat)             -- (notrack) jmp *%a
  | callm (b k : Nat)          -- call *k(%b)
  | callx (f : Nat)            -- call of an external function, number f
  | leave
  | ret
  | subi (k : Nat)             -- subq $k, %rsp
  | addi (k : Nat)             -- addq $k, %rsp
  | ext (z : Nat) (sg : Bool) (d a : Nat)   -- movzbl, movzwl, movl, movsbq, movswq, movslq
  | ldx (n b k : Nat)          -- movsd k(%b), %xmmn
  | stx (z n b k : Nat)        -- movss, movsd %xmmn, k(%b)
  deriving DecidableEq, Repr

/-- Call frame directives; registers by hardware number. -/
inductive Cfi
  | start | stop
  | defCfa (r k : Nat)         -- .cfi_def_cfa r, k
  | relOffset (r k : Nat)      -- .cfi_rel_offset r, k
  | adjust (k : Nat)           -- .cfi_adjust_cfa_offset k
  | adjustBack (k : Nat)       -- .cfi_adjust_cfa_offset -k
  | remember | restoreState
  | restore (r : Nat)
  deriving DecidableEq, Repr

/-- Directives for unwind codes. -/
inductive Seh
  | start | stop
  | pushreg (r : Nat)
  | setframe (r k : Nat)
  | alloc (k : Nat)
  | endPrologue
  deriving DecidableEq, Repr

/-- Elements of the assembler's input. -/
inductive Item
  | i (len : Nat) (ins : Ins)
  | balign (n : Nat)
  | e (k : Nat)                -- E(0b, k)
  | l (l : Lbl)
  | cfi (d : Cfi)
  | seh (d : Seh)
  deriving DecidableEq, Repr

/-- How the file is compiled: `X86_WIN64`, `__CET__`, and whether the macro `E` uses `.org`
(src/x86/win64.S:26-34). -/
structure Cfg where
  win : Bool
  cet : Bool
  org : Bool
  deriving DecidableEq, Repr

/-- A row of an unwind table: the CFA is register `reg` plus `off`; `saved` lists registers stored at
CFA - n.  The return address is at CFA - 8. -/
structure Row where
  reg : Nat
  off : Nat
  saved : List (Nat × Nat)
  deriving DecidableEq, Repr

/-- The row that holds at the start of a function. -/
def Row.init : Row := ⟨4, 8, []⟩

/-- What a call frame directive does to the current row and the stack of rows; nothing outside of a
procedure. -/
def Cfi.apply : Cfi → Option (Row × List Row) → Option (Row × List Row)
  | .start, _ => some (Row.init, [])
  | .stop, _ => none
  | _, none => none
  | .defCfa r k, some (w, st) => some ({ w with reg := r, off := k }, st)
  | .relOffset r k, some (w, st) => some ({ w with saved := (r, w.off - k) :: w.saved.filter (·.1 ≠ r) }, st)
  | .adjust k, some (w, st) => some ({ w with off := w.off + k }, st)
  | .adjustBack k, some (w, st) => some ({ w with off := w.off - k }, st)
  | .remember, some (w, st) => some (w, w :: st)
  | .restoreState, some (_, v :: st) => some (v, st)
  | .restoreState, some (_, []) => none
  | .restore r, some (w, st) => some ({ w with saved := w.saved.filter (·.1 ≠ r) }, st)

/-- Next multiple of `n`. -/
def up (n o : Nat) : Nat := (o + n - 1) / n * n

/-- A procedure with unwind codes: first and last offset, and the codes with the offsets where they
take effect, the last one first. -/
structure Proc where
  first : Nat
  last : Nat
  codes : List (Nat × Seh)
  deriving DecidableEq, Repr

/-- What the assembler has produced: code with the rows of the call frame table, labels, procedures. -/
structure Image where
  code : List (Nat × Nat × Ins × Option Row)
  labels : List (Lbl × Nat)
  procs : List Proc
  deriving Repr

/-- The assembler.  `.org` backwards is an error. -/
def assemble (c : Cfg) : List Item → Nat → Image → Option (Row × List Row) → Option Image
  | [], _, im, _ => some { im with code := im.code.reverse }
  | .i n ins :: is, o, im, w => assemble c is (o + n) { im with code := (o, n, ins, w.map (·.1)) :: im.code } w
  | .balign n :: is, o, im, w => assemble c is (up n o) im w
  | .l l :: is, o, im, w => assemble c is o { im with labels := (l, o) :: im.labels } w
  | .e k :: is, o, im, w =>
    let o := up 8 o
    if c.org then
      match im.labels.lookup .table with
      | none => none
      | some b => if o ≤ b + k * 8 then assemble c is (b + k * 8) im w else none
    else assemble c is o im w
  | .cfi d :: is, o, im, w => assemble c is o im (d.apply w)
  | .seh d :: is, o, im, w =>
    if !c.win then assemble c is o im w
    else
      match d, im.procs with
      | .start, ps => assemble c is o { im with procs := ⟨o, o, []⟩ :: ps } w
      | .stop, p :: ps => assemble c is o { im with procs := { p with last := o } :: ps } w
      | .endPrologue, p :: ps => assemble c is o { im with procs := p :: ps } w
      | d, p :: ps => assemble c is o { im with procs := { p with codes := (o, d) :: p.codes } :: ps } w
      | _, [] => none

/-- `_CET_ENDBR` -/
def endbr (c : Cfg) : List Item := if c.cet then [.i 4 .endbr] else []

/-- `arg0`, `arg1`, `arg2`, src/x86/win64.S:12-24. -/
def arg0 (c : Cfg) : Nat := if c.win then 1 else 7
def arg1 (c : Cfg) : Nat := if c.win then 2 else 6
def arg2 (c : Cfg) : Nat := if c.win then 8 else 2

/-- `ffi_call_win64` up to the table, src/x86/win64.S:44-84. -/
def callHead (c : Cfg) : List Item :=
  [.balign 8, .seh .start, .l .call, .cfi .start] ++ endbr c ++
  [.i 4 (.ld 8 0 4 0),               -- movq (%rsp), %rax
   .i 3 (.st 8 5 (arg1 c) 0),        -- movq %rbp, (arg1)
   .i 4 (.st 8 0 (arg1 c) 8),        -- movq %rax, 8(arg1)
   .i 3 (.mov 5 (arg1 c)),           -- movq arg1, %rbp
   .cfi (.defCfa 5 16), .cfi (.relOffset 5 0), .seh (.pushreg 5), .seh (.setframe 5 0), .seh .endPrologue,
   .i 3 (.mov 4 (arg0 c)),           -- movq arg0, %rsp
   .i 3 (.mov 10 (arg2 c)),          -- movq arg2, %r10
   .i 4 (.ld 8 1 4 0), .i 5 (.ldx 0 4 0),
   .i 5 (.ld 8 2 4 8), .i 6 (.ldx 1 4 8),
   .i 5 (.ld 8 8 4 16), .i 6 (.ldx 2 4 16),
   .i 5 (.ld 8 9 4 24), .i 6 (.ldx 3 4 24),
   .i 3 (.callm 5 16),               -- call *16(%rbp)
   .i 3 (.ld 4 1 5 24),              -- movl 24(%rbp), %ecx
   .i 4 (.ld 8 8 5 32),              -- movq 32(%rbp), %r8
   .i 7 (.leap 10 .table),
   .i 3 (.cmpl 1 18),                -- cmpl $FFI_TYPE_SMALL_STRUCT_4B, %ecx
   .i 4 (.leax 10 10 1 8),
   .i 6 (.ja .l99),
   .i (if c.cet then 4 else 3) (.jmpr 10),
   .balign 8, .l .table]

/-- The macro `epilogue`, src/x86/win64.S:88-94. -/
def epilogue : List Item :=
  [.i 1 .leave, .cfi .remember, .cfi (.defCfa 4 8), .cfi (.restore 5), .i 1 .ret, .cfi .restoreState]

/-- The table, src/x86/win64.S:96-164. -/
def callTable : List Item :=
  (.e 0 :: epilogue) ++
  (.e 1 :: .i 3 (.ext 4 true 0 0) :: .i 3 (.st 8 0 8 0) :: epilogue) ++
  (.e 2 :: .i 5 (.stx 4 0 8 0) :: epilogue) ++
  (.e 3 :: .i 5 (.stx 8 0 8 0) :: epilogue) ++
  [.e 4, .i 5 (.callx 0)] ++
  (.e 5 :: .i 3 (.ext 1 false 0 0) :: .i 3 (.st 8 0 8 0) :: epilogue) ++
  [.e 6, .i 4 (.ext 1 true 0 0), .i 2 (.jmp .l98)] ++
  (.e 7 :: .i 3 (.ext 2 false 0 0) :: .i 3 (.st 8 0 8 0) :: epilogue) ++
  [.e 8, .i 4 (.ext 2 true 0 0), .i 2 (.jmp .l98)] ++
  (.e 9 :: .i 2 (.ext 4 false 0 0) :: .i 3 (.st 8 0 8 0) :: epilogue) ++
  (.e 10 :: .i 3 (.ext 4 true 0 0) :: .i 3 (.st 8 0 8 0) :: epilogue) ++
  (.e 11 :: .l .l98 :: .i 3 (.st 8 0 8 0) :: epilogue) ++
  (.e 12 :: .i 3 (.st 8 0 8 0) :: epilogue) ++
  (.e 13 :: epilogue) ++
  (.e 14 :: .i 3 (.st 8 0 8 0) :: epilogue) ++
  [.e 15, .i 5 (.callx 0)] ++
  (.e 16 :: .i 3 (.st 1 0 8 0) :: epilogue) ++
  (.e 17 :: .i 4 (.st 2 0 8 0) :: epilogue) ++
  (.e 18 :: .i 3 (.st 4 0 8 0) :: epilogue) ++
  [.balign 8, .l .l99, .i 5 (.callx 0)] ++ epilogue ++ [.cfi .stop, .seh .stop]

/-- src/x86/win64.S:182-185 and 203-206. -/
def saveGpr : List Item := [.i 5 (.st 8 1 4 8), .i 5 (.st 8 2 4 16), .i 5 (.st 8 8 4 24), .i 5 (.st 8 9 4 32)]

/-- `ffi_go_closure_win64`, src/x86/win64.S:173-192. -/
def goHead (c : Cfg) : List Item :=
  [.balign 8, .seh .start, .l .go, .cfi .start] ++ endbr c ++ saveGpr ++
  [.i 4 (.ld 8 1 10 8), .i 4 (.ld 8 2 10 16), .i 3 (.mov 8 10), .i 2 (.jmp .doClos), .cfi .stop, .seh .stop]

/-- `ffi_closure_win64`, src/x86/win64.S:167-171, 194-235; `ffi_clo_FS` = 88, `ffi_clo_OFF_R` = 40, `ffi_clo_OFF_X` = 56,
`FFI_TRAMPOLINE_SIZE` = 32 (src/x86/ffitarget.h:140-144). -/
def closure (c : Cfg) : List Item :=
  [.balign 8, .seh .start, .l .clos, .cfi .start] ++ endbr c ++ saveGpr ++
  [.i 4 (.ld 8 1 10 32), .i 4 (.ld 8 2 10 40), .i 4 (.ld 8 8 10 48),
   .l .doClos,
   .i 4 (.subi 88), .cfi (.adjust 88), .seh (.alloc 88), .seh .endPrologue,
   .i 6 (.stx 8 0 4 56), .i 6 (.stx 8 1 4 64), .i 6 (.stx 8 2 4 72), .i 6 (.stx 8 3 4 80),
   .i 5 (.lea 9 4 40),
   .i 5 (.callx 1),                  -- call ffi_closure_win64_inner
   .i 5 (.ld 8 0 4 40), .i 6 (.ldx 0 4 40),
   .i 4 (.addi 88), .cfi (.adjustBack 88), .i 1 .ret, .cfi .stop, .seh .stop]

/-- `ffi_closure_win64_alt`, src/x86/win64.S:237-249. -/
def altHead (c : Cfg) : List Item :=
  [.balign 8, .seh .start, .l .alt] ++ endbr c ++ [.i 5 (.ld 8 10 4 8), .i 4 (.addi 16), .i 5 (.jmp .clos), .seh .stop]

/-- The file. -/
def source (c : Cfg) : List Item := callHead c ++ callTable ++ goHead c ++ closure c ++ altHead c

/-- The code, the labels, and the unwind information. -/
def image (c : Cfg) : Image := (assemble c (source c) 0 ⟨[], [], []⟩ none).getD ⟨[], [], []⟩

/-- The instruction at an offset, with its length. -/
def fetch (c : Cfg) (o : Nat) : Option (Nat × Ins) := ((image c).code.lookup o).map fun p => (p.1, p.2.1)

/-- The offset of a label. -/
def off (c : Cfg) (l : Lbl) : Nat := ((image c).labels.lookup l).getD 0

/-- The row of the call frame table for an offset. -/
def dwarf (c : Cfg) (o : Nat) : Option Row := ((image c).code.lookup o).bind fun p => p.2.2

/-- Unwind codes undone one after another (Microsoft, "x64 exception handling"): the stack pointer is
`reg` plus `off`; registers are saved at `reg` plus some offset. -/
def undo : List (Nat × Seh) → Nat → Nat → List (Nat × Nat) → Row
  | [], reg, k, sv => ⟨reg, k + 8, sv.map fun p => (p.1, k + 8 - p.2)⟩
  | (_, .alloc n) :: cs, reg, k, sv => undo cs reg (k + n) sv
  | (_, .setframe r _) :: cs, _, _, sv => undo cs r 0 sv
  | (_, .pushreg r) :: cs, reg, k, sv => undo cs reg (k + 8) ((r, k) :: sv)
  | _ :: cs, reg, k, sv => undo cs reg k sv

/-- The last instruction of an epilogue: `ret`, or a jump out of the function. -/
def lastIns (c : Cfg) (o : Nat) : Option Ins → Bool
  | some .ret => true
  | some (.jmp l) =>
    match (image c).procs.find? fun p => decide (p.first ≤ o ∧ o < p.last) with
    | none => true
    | some p => !decide (p.first ≤ off c l ∧ off c l < p.last)
  | _ => false

/-- What Windows makes of an offset: in an epilogue (`addq $k, %rsp` and `ret` or a jump out of the function,
or the last of these alone) the rest of it is simulated; otherwise the unwind codes that have taken effect
are undone.  The frame register's offset is 0 in this file. -/
def sehRow (c : Cfg) (o : Nat) : Option Row :=
  match fetch c o with
  | some (n, .addi k) =>
    if lastIns c (o + n) ((fetch c (o + n)).map (·.2)) then some ⟨4, k + 8, []⟩ else codes
  | some (_, i) => if lastIns c o (some i) then some ⟨4, 8, []⟩ else codes
  | none => codes
where
  codes : Option Row :=
    match (image c).procs.find? fun p => decide (p.first ≤ o ∧ o < p.last) with
    | none => some ⟨4, 8, []⟩
    | some p => some (undo (p.codes.filter fun q => decide (q.1 ≤ o)) 4 0 [])

/-! ## Execution -/

/-- Where execution continues: at an offset of the code, or outside. -/
inductive Pc
  | at_ (o : Nat)
  | out (a : Nat)
  deriving DecidableEq, Repr

/-- Registers, vector registers (16 bytes), flags, memory, shadow stack. -/
structure St where
  pc : Pc
  r : Nat → Nat
  x : Nat → List Byte
  zf : Bool
  cf : Bool
  mem : Mem
  ss : List Nat

/-- `base`: the address of the code; `ext`: the external functions, 0 `abort`, 1
`ffi_closure_win64_inner`. -/
structure Ctx where
  cfg : Cfg
  base : Nat
  ext : Nat → Nat

def upd {α : Type} (x : Nat → α) (n : Nat) (v : α) : Nat → α := fun i => if i = n then v else x i

/-- Sign extension of the low `z` bytes. -/
def sext (z v : Nat) : Nat := (BitVec.signExtend 64 (BitVec.ofNat (8 * z) v)).toNat

def St.set (s : St) (pc : Pc) (d v : Nat) : St := { s with pc := pc, r := upd s.r d v }

/-- An instruction of length `n` at offset `o`; nothing if it faults.  With `cet`, `ret` must go to the
address on the shadow stack. -/
def exec (c : Ctx) (o n : Nat) (i : Ins) (s : St) : Option St :=
  let nx := Pc.at_ (o + n)
  match i with
  | .endbr => some { s with pc := nx }
  | .mov d a => some (s.set nx d (s.r a))
  | .ld z d b k => some (s.set nx d (leNat (s.mem.rd (s.r b + k) z)))
  | .st z a b k => some { s with pc := nx, mem := s.mem.wr (s.r b + k) (leBytes z (s.r a)) }
  | .lea d b k => some (s.set nx d (s.r b + k))
  | .leax d b i sc => some (s.set nx d (s.r b + s.r i * sc))
  | .leap d l => some (s.set nx d (c.base + off c.cfg l))
  | .cmpl a k => some { s with pc := nx, zf := decide (s.r a % 2 ^ 32 = k), cf := decide (s.r a % 2 ^ 32 < k) }
  | .ja l => some { s with pc := if s.zf || s.cf then nx else .at_ (off c.cfg l) }
  | .jmp l => some { s with pc := .at_ (off c.cfg l) }
  | .jmpr a => if c.base ≤ s.r a then some { s with pc := .at_ (s.r a - c.base) } else none
  | .callm b k => if 8 ≤ s.r 4 then some { s with
      pc := .out (leNat (s.mem.rd (s.r b + k) 8)), r := upd s.r 4 (s.r 4 - 8), mem := s.mem.wr (s.r 4 - 8) (leBytes 8 (c.base + (o + n))),
      ss := (c.base + (o + n)) :: s.ss } else none
  | .callx f => if 8 ≤ s.r 4 then some { s with
      pc := .out (c.ext f), r := upd s.r 4 (s.r 4 - 8), mem := s.mem.wr (s.r 4 - 8) (leBytes 8 (c.base + (o + n))),
      ss := (c.base + (o + n)) :: s.ss } else none
  | .leave => some { s with pc := nx, r := upd (upd s.r 4 (s.r 5 + 8)) 5 (leNat (s.mem.rd (s.r 5) 8)) }
  | .ret =>
    match s.ss with
    | [] => none
    | a :: ss =>
      if c.cfg.cet → leNat (s.mem.rd (s.r 4) 8) = a then
        some { s with pc := .out (leNat (s.mem.rd (s.r 4) 8)), r := upd s.r 4 (s.r 4 + 8), ss := ss } else none
  | .subi k => if k ≤ s.r 4 then some (s.set nx 4 (s.r 4 - k)) else none
  | .addi k => some (s.set nx 4 (s.r 4 + k))
  | .ext z sg d a => some (s.set nx d (if sg then sext z (s.r a) else s.r a % 2 ^ (8 * z)))
  | .ldx n b k => some { s with pc := nx, x := upd s.x n (s.mem.rd (s.r b + k) 8 ++ List.replicate 8 0) }
  | .stx z n b k => some { s with pc := nx, mem := s.mem.wr (s.r b + k) ((s.x n).take z) }

/-- One instruction.  Nothing outside the code. -/
def step (c : Ctx) (s : St) : Option St :=
  match s.pc with
  | .out _ => none
  | .at_ o =>
    match fetch c.cfg o with
    | none => none
    | some (n, i) => exec c o n i s

/-- Execution with interruptions: between any two instructions, the stack below the stack pointer
may change (there is no red zone), down to `lo`. -/
inductive Reach (c : Ctx) (lo : Nat) : St → St → Prop
  | refl {s} : Reach c lo s s
  | step {s s' t} : step c s = some s' → Reach c lo s' t → Reach c lo s t
  | irq {s m t} : (∀ a, a < lo ∨ s.r 4 ≤ a → m a = s.mem a) → Reach c lo { s with mem := m } t → Reach c lo s t

/-- What an unwinder makes of registers and memory: the return address and the registers of the
caller. -/
def unwind (row : Row) (r : Nat → Nat) (m : Mem) : Nat × (Nat → Nat) :=
  let c := r row.reg + row.off
  (leNat (m.rd (c - 8) 8), fun d => if d = 4 then c else
    match row.saved.lookup d with
    | some k => leNat (m.rd (c - k) 8)
    | none => r d)

end Verif.Win64.Asm
