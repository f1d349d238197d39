import Verif.Base.Mem

/-
Instructions of src/x86/unix64.S (LP64): `ffi_call_unix64`, `ffi_closure_unix64(_sse)`,
`ffi_go_closure_unix64(_sse)`, `ffi_closure_unix64(_sse)_alt` with their place in the code, and the unwind table that
goes with them.  Lengths of instructions follow the Intel SDM; for branches to labels
the length that the distance requires.  Sums of addresses beyond 2^64 do not occur under
the theorems' hypotheses and are not wrapped.  The direction flag is clear, as the
psABI demands at function entry.
-/
namespace Verif.X64.Asm
open Verif

/-- Labels of unix64.S. -/
inductive Lbl
  | uw (n : Nat)               -- UW0 ... UW17
  | loadSse | retLoadSse | storeTable | s2 | s3 | sa
  | sse1 | doClosure | loadTable | l2 | l3 | la | sse2
  | altSse | alt               -- ffi_closure_unix64_sse_alt, ffi_closure_unix64_alt
  deriving DecidableEq, Repr

/-- Instructions.  Registers have their hardware numbers: 0 rax, 1 rcx, 2 rdx, 3 rbx,
4 rsp, 5 rbp, 6 rsi, 7 rdi, 8 to 15. -/
inductive Ins
  | endbr
  | mov (d a : Nat)            -- movq %a, %d
  | ld (z d b k : Nat)         -- movq, movl, movzwl, movzbl k(%b), %d
  | lds (z d b k : Nat)        -- movsbl, movswl k(%b), %d
  | st (a b k : Nat)           -- movq %a, k(%b)
  | lea (d b k : Nat)          -- leaq k(%b), %d
  | leam (d b k : Nat)         -- leaq -k(%b), %d
  | leax (d b i sc : Nat)      -- leaq (%b, %i, sc), %d
  | leap (d : Nat) (l : Lbl)   -- leaq l(%rip), %d
  | test (a : Nat)             -- testl %a, %a
  | cmpb (a k : Nat)           -- cmpb $k, %a (low byte)
  | jnz (l : Lbl)
  | ja (l : Lbl)
  | jmp (l : Lbl)
  | jmpr (a : Nat)             -- jmp *%a
  | callr (a : Nat)            -- call *%a
  | callx (f : Nat)            -- call of an external function, number f
  | pop (d : Nat)
  | ret
  | addl (d a : Nat)           -- addl %a, %d (32 bits)
  | subi (k : Nat)             -- subq $k, %rsp
  | addi (k : Nat)             -- addq $k, %rsp
  | ext (z : Nat) (sg : Bool) (d a : Nat)   -- movzbl, movzwl, movl, movsbq, movswq, cltq
  | shr (a k : Nat)            -- shrl $k, %a
  | ldx (n b k : Nat)          -- movdqa k(%b), %xmmn
  | stx (n b k : Nat)          -- movdqa %xmmn, k(%b)
  | ldxl (z n b k : Nat)       -- movd, movq k(%b), %xmmn
  | stxl (z n b k : Nat)       -- movd, movq %xmmn, k(%b)
  | fld (b k : Nat)            -- fldt k(%b)
  | fstp (b k : Nat)           -- fstpt k(%b)
  | movsb                      -- rep movsb
  deriving DecidableEq, Repr

/-- Elements of the assembler's input. -/
inductive Item
  | i (len : Nat) (ins : Ins)
  | balign (n : Nat)
  | e (base : Lbl) (k : Nat)   -- E(base, k)
  | l (l : Lbl)
  deriving DecidableEq, Repr

/-- How the file is compiled: `__CET__`, and whether the macro `E` uses `.org`
(src/x86/unix64.S:40-48). -/
structure Cfg where
  cet : Bool
  org : Bool
  deriving DecidableEq, Repr

/-- Next multiple of `n`. -/
def up (n o : Nat) : Nat := (o + n - 1) / n * n

/-- The assembler: offsets of instructions (with their lengths) and of labels.  `.org`
backwards is an error. -/
def assemble (c : Cfg) : List Item → Nat → List (Nat × Nat × Ins) → List (Lbl × Nat) →
    Option (List (Nat × Nat × Ins) × List (Lbl × Nat))
  | [], _, code, ls => some (code.reverse, ls)
  | .i n ins :: is, o, code, ls => assemble c is (o + n) ((o, n, ins) :: code) ls
  | .balign n :: is, o, code, ls => assemble c is (up n o) code ls
  | .l l :: is, o, code, ls => assemble c is o code ((l, o) :: ls)
  | .e b k :: is, o, code, ls =>
    let o := up 8 o
    if c.org || c.cet then
      match ls.lookup b with
      | none => none
      | some base =>
        let p := base + k * (if c.cet then 16 else 8)
        if o ≤ p then assemble c is p code ls else none
    else assemble c is o code ls

/-- `_CET_ENDBR` -/
def cetEndbr (c : Cfg) : List Item := if c.cet then [.i 4 .endbr] else []

/-- An entry of a jump table. -/
def entry (c : Cfg) (b : Lbl) (k : Nat) (is : List Item) : List Item := .e b k :: cetEndbr c ++ is

/-- `ffi_call_unix64`, src/x86/unix64.S:61-113. -/
def callHead (c : Cfg) : List Item :=
  [.balign 8, .l (.uw 0)] ++ cetEndbr c ++
  [.i 4 (.ld 8 10 4 0),              -- movq (%rsp), %r10
   .i 4 (.leax 0 7 6 1),             -- leaq (%rdi, %rsi), %rax
   .i 3 (.st 2 0 0),                 -- movq %rdx, (%rax)
   .i 4 (.st 1 0 8),                 -- movq %rcx, 8(%rax)
   .i 4 (.st 5 0 16),                -- movq %rbp, 16(%rax)
   .i 4 (.st 10 0 24),               -- movq %r10, 24(%rax)
   .i 3 (.mov 5 0),                  -- movq %rax, %rbp
   .l (.uw 1),
   .i 3 (.mov 10 7),                 -- movq %rdi, %r10
   .i 3 (.mov 11 8),                 -- movq %r8, %r11
   .i 3 (.ld 8 7 10 0),              -- movq (%r10), %rdi
   .i 4 (.ld 8 6 10 0x08),
   .i 4 (.ld 8 2 10 0x10),
   .i 4 (.ld 8 1 10 0x18),
   .i 4 (.ld 8 8 10 0x20),
   .i 4 (.ld 8 9 10 0x28),
   .i 7 (.ld 4 0 10 0xb0),           -- movl 0xb0(%r10), %eax
   .i 2 (.test 0),
   .i 6 (.jnz .loadSse),
   .l .retLoadSse,
   .i 7 (.lea 4 10 0xb8),            -- leaq 0xb8(%r10), %rsp
   .i 2 (.pop 10),
   .i 3 (.callr 11),
   .i 4 (.lea 4 5 24),               -- leaq 24(%rbp), %rsp
   .i 4 (.ld 8 1 5 0),               -- movq 0(%rbp), %rcx
   .i 4 (.ld 8 7 5 8),
   .i 4 (.ld 8 5 5 16),
   .l (.uw 2),
   .i 3 (.cmpb 1 15),                -- cmpb $UNIX64_RET_LAST, %cl
   .i 4 (.ext 1 false 10 1),         -- movzbl %cl, %r10d
   .i 7 (.leap 11 .storeTable),
   .i 6 (.ja .sa)] ++
  (if c.cet then [.i 3 (.addl 10 10)] else []) ++
  [.i 4 (.leax 10 11 10 8),          -- leaq (%r11, %r10, 8), %r10
   .i 5 (.leam 6 4 20),              -- leaq -20(%rsp), %rsi
   .i 3 (.jmpr 10),
   .balign 8,
   .l .storeTable]

/-- The table, src/x86/unix64.S:134-216. -/
def callTable (c : Cfg) : List Item :=
  entry c .storeTable 0 [.i 1 .ret] ++
  entry c .storeTable 1 [.i 3 (.ext 1 false 0 0), .i 3 (.st 0 7 0), .i 1 .ret] ++
  entry c .storeTable 2 [.i 3 (.ext 2 false 0 0), .i 3 (.st 0 7 0), .i 1 .ret] ++
  entry c .storeTable 3 [.i 2 (.ext 4 false 0 0), .i 3 (.st 0 7 0), .i 1 .ret] ++
  entry c .storeTable 4 [.i 4 (.ext 1 true 0 0), .i 3 (.st 0 7 0), .i 1 .ret] ++
  entry c .storeTable 5 [.i 4 (.ext 2 true 0 0), .i 3 (.st 0 7 0), .i 1 .ret] ++
  entry c .storeTable 6 [.i 2 (.ext 4 true 0 0), .i 3 (.st 0 7 0), .i 1 .ret] ++
  entry c .storeTable 7 [.i 3 (.st 0 7 0), .i 1 .ret] ++
  entry c .storeTable 8 [.i 4 (.stxl 4 0 7 0), .i 1 .ret] ++
  entry c .storeTable 9 [.i 4 (.stxl 8 0 7 0), .i 1 .ret] ++
  entry c .storeTable 10 [.i 2 (.fstp 7 0), .i 1 .ret] ++
  entry c .storeTable 11 [.i 2 (.fstp 7 0), .i 3 (.fstp 7 16), .i 1 .ret] ++
  entry c .storeTable 12 [.i 4 (.st 0 6 8), .i 2 (.jmp .s3)] ++
  entry c .storeTable 13 [.i 5 (.stxl 8 0 6 8), .i 2 (.jmp .s2)] ++
  entry c .storeTable 14 [.i 5 (.stxl 8 1 6 8), .i 2 (.jmp .s3)] ++
  entry c .storeTable 15 [.i 4 (.st 2 6 8)] ++
  [.l .s2, .i 3 (.st 0 6 0), .i 3 (.shr 1 12), .i 2 .movsb, .i 1 .ret,
   .balign 8,
   .l .s3, .i 4 (.stxl 8 0 6 0), .i 3 (.shr 1 12), .i 2 .movsb, .i 1 .ret,
   .l .sa, .i 5 (.callx 0)]          -- call abort

/-- src/x86/unix64.S:218-236. -/
def callSse : List Item :=
  [.balign 2, .l (.uw 3), .l .loadSse,
   .i 6 (.ldx 0 10 0x30), .i 6 (.ldx 1 10 0x40), .i 6 (.ldx 2 10 0x50), .i 6 (.ldx 3 10 0x60), .i 6 (.ldx 4 10 0x70),
   .i 9 (.ldx 5 10 0x80), .i 9 (.ldx 6 10 0x90), .i 9 (.ldx 7 10 0xa0),
   .i 5 (.jmp .retLoadSse), .l (.uw 4)]

/-- `movdqa %xmmn, ffi_closure_OFS_V + 16 * n(%rsp)` with `ffi_closure_OFS_V` = 48,
src/x86/unix64.S:261-268. -/
def saveXmm : List Item :=
  [.i 6 (.stx 0 4 48), .i 6 (.stx 1 4 64), .i 6 (.stx 2 4 80), .i 6 (.stx 3 4 96), .i 6 (.stx 4 4 112),
   .i 9 (.stx 5 4 128), .i 9 (.stx 6 4 144), .i 9 (.stx 7 4 160)]

/-- src/x86/unix64.S:285-290. -/
def saveGpr : List Item :=
  [.i 4 (.st 7 4 0), .i 5 (.st 6 4 8), .i 5 (.st 2 4 16), .i 5 (.st 1 4 24), .i 5 (.st 8 4 32), .i 5 (.st 9 4 40)]

/-- `ffi_closure_unix64_sse`, `ffi_closure_unix64`, src/x86/unix64.S:248-327;
`ffi_closure_FS` = 216, `ffi_closure_OFS_RVALUE` = 176, `ffi_closure_RED_RVALUE` = -40,
`FFI_TRAMPOLINE_SIZE` = 32 (src/x86/ffitarget.h:143-146). -/
def closureHead (c : Cfg) : List Item :=
  [.balign 2, .l (.uw 5)] ++ cetEndbr c ++ [.i 7 (.subi 216), .l (.uw 6)] ++ saveXmm ++ [.i 2 (.jmp .sse1), .l (.uw 7)] ++
  [.balign 2, .l (.uw 8)] ++ cetEndbr c ++ [.i 7 (.subi 216), .l (.uw 9), .l .sse1] ++ saveGpr ++
  [.i 4 (.ld 8 7 10 32), .i 4 (.ld 8 6 10 40), .i 4 (.ld 8 2 10 48),
   .l .doClosure,
   .i 8 (.lea 1 4 176), .i 3 (.mov 8 4), .i 8 (.lea 9 4 224),
   .i 5 (.callx 1),                  -- call ffi_closure_unix64_inner
   .i 7 (.addi 216),
   .l (.uw 10),
   .i 2 (.cmpb 0 15), .i 4 (.ext 1 false 10 0), .i 7 (.leap 11 .loadTable), .i 6 (.ja .la)] ++
  (if c.cet then [.i 3 (.addl 10 10)] else []) ++
  [.i 4 (.leax 10 11 10 8), .i 5 (.leam 6 4 40), .i 3 (.jmpr 10),
   .balign 8, .l .loadTable]

/-- The table, src/x86/unix64.S:329-400. -/
def closureTable (c : Cfg) : List Item :=
  entry c .loadTable 0 [.i 1 .ret] ++
  entry c .loadTable 1 [.i 3 (.ld 1 0 6 0), .i 1 .ret] ++
  entry c .loadTable 2 [.i 3 (.ld 2 0 6 0), .i 1 .ret] ++
  entry c .loadTable 3 [.i 2 (.ld 4 0 6 0), .i 1 .ret] ++
  entry c .loadTable 4 [.i 3 (.lds 1 0 6 0), .i 1 .ret] ++
  entry c .loadTable 5 [.i 3 (.lds 2 0 6 0), .i 1 .ret] ++
  entry c .loadTable 6 [.i 2 (.ld 4 0 6 0), .i 1 .ret] ++
  entry c .loadTable 7 [.i 3 (.ld 8 0 6 0), .i 1 .ret] ++
  entry c .loadTable 8 [.i 4 (.ldxl 4 0 6 0), .i 1 .ret] ++
  entry c .loadTable 9 [.i 4 (.ldxl 8 0 6 0), .i 1 .ret] ++
  entry c .loadTable 10 [.i 2 (.fld 6 0), .i 1 .ret] ++
  entry c .loadTable 11 [.i 3 (.fld 6 16), .i 2 (.fld 6 0), .i 1 .ret] ++
  entry c .loadTable 12 [.i 4 (.ld 8 0 6 8), .i 2 (.jmp .l3)] ++
  entry c .loadTable 13 [.i 5 (.ldxl 8 0 6 8), .i 2 (.jmp .l2)] ++
  entry c .loadTable 14 [.i 5 (.ldxl 8 1 6 8), .i 2 (.jmp .l3)] ++
  entry c .loadTable 15 [.i 4 (.ld 8 2 6 8)] ++
  [.l .l2, .i 3 (.ld 8 0 6 0), .i 1 .ret,
   .balign 8,
   .l .l3, .i 4 (.ldxl 8 0 6 0), .i 1 .ret,
   .l .la, .i 5 (.callx 0), .l (.uw 11)]

/-- `ffi_go_closure_unix64_sse`, `ffi_go_closure_unix64`, src/x86/unix64.S:405-452. -/
def goHead (c : Cfg) : List Item :=
  [.balign 2, .l (.uw 12)] ++ cetEndbr c ++ [.i 7 (.subi 216), .l (.uw 13)] ++ saveXmm ++ [.i 2 (.jmp .sse2), .l (.uw 14)] ++
  [.balign 2, .l (.uw 15)] ++ cetEndbr c ++ [.i 7 (.subi 216), .l (.uw 16), .l .sse2] ++ saveGpr ++
  [.i 4 (.ld 8 7 10 8), .i 4 (.ld 8 6 10 16), .i 3 (.mov 2 10), .i 5 (.jmp .doClosure), .l (.uw 17)]

/-- `ffi_closure_unix64_sse_alt`, `ffi_closure_unix64_alt`, src/x86/unix64.S:459-482 (with
`FFI_EXEC_STATIC_TRAMP`): no labels of the unwind table. -/
def altHead (c : Cfg) : List Item :=
  [.balign 8, .l .altSse] ++ cetEndbr c ++ [.i 5 (.ld 8 10 4 8), .i 4 (.addi 16), .i 5 (.jmp (.uw 5))] ++
  [.balign 8, .l .alt] ++ cetEndbr c ++ [.i 5 (.ld 8 10 4 8), .i 4 (.addi 16), .i 5 (.jmp (.uw 8))]

/-- The file. -/
def source (c : Cfg) : List Item :=
  callHead c ++ callTable c ++ callSse ++ closureHead c ++ closureTable c ++ goHead c ++ altHead c

/-- The code and the labels.  That `.org` makes no difference is `assemble_org`. -/
def image (cet : Bool) : List (Nat × Nat × Ins) × List (Lbl × Nat) :=
  (assemble ⟨cet, true⟩ (source ⟨cet, true⟩) 0 [] []).getD ([], [])

/-- The instruction at an offset, with its length. -/
def fetch (cet : Bool) (o : Nat) : Option (Nat × Ins) := (image cet).1.lookup o

/-- The offset of a label. -/
def off (cet : Bool) (l : Lbl) : Nat := ((image cet).2.lookup l).getD 0

/-! ## Execution -/

/-- Where execution continues: at an offset of the code, or outside. -/
inductive Pc
  | at_ (o : Nat)
  | out (a : Nat)
  deriving DecidableEq, Repr

/-- Registers, vector registers (16 bytes), x87 stack (ten bytes each), flags, memory,
shadow stack. -/
structure St where
  pc : Pc
  r : Nat → Nat
  x : Nat → List Byte
  fp : List (List Byte)
  zf : Bool
  cf : Bool
  mem : Mem
  ss : List Nat

/-- `base`: the address of the code; `ext`: the external functions, 0 `abort`, 1
`ffi_closure_unix64_inner`. -/
structure Ctx where
  cet : Bool
  base : Nat
  ext : Nat → Nat

def upd {α : Type} (x : Nat → α) (n : Nat) (v : α) : Nat → α := fun i => if i = n then v else x i

/-- Sign extension of the low `z` bytes to `w` bytes. -/
def sext (z w v : Nat) : Nat := (BitVec.signExtend (8 * w) (BitVec.ofNat (8 * z) v)).toNat

def St.set (s : St) (pc : Pc) (d v : Nat) : St := { s with pc := pc, r := upd s.r d v }

/-- An instruction of length `n` at offset `o`; nothing if it faults.  With `cet`, an
indirect jump must lead to `endbr64`, and `ret` to the address on the shadow stack. -/
def exec (c : Ctx) (o n : Nat) (i : Ins) (s : St) : Option St :=
  let nx := Pc.at_ (o + n)
  match i with
  | .endbr => some { s with pc := nx }
  | .mov d a => some (s.set nx d (s.r a))
  | .ld z d b k => some (s.set nx d (leNat (s.mem.rd (s.r b + k) z)))
  | .lds z d b k => some (s.set nx d (sext z 4 (leNat (s.mem.rd (s.r b + k) z))))
  | .st a b k => some { s with pc := nx, mem := s.mem.wr (s.r b + k) (leBytes 8 (s.r a)) }
  | .lea d b k => some (s.set nx d (s.r b + k))
  | .leam d b k => if k ≤ s.r b then some (s.set nx d (s.r b - k)) else none
  | .leax d b i sc => some (s.set nx d (s.r b + s.r i * sc))
  | .leap d l => some (s.set nx d (c.base + off c.cet l))
  | .test a => some { s with pc := nx, zf := decide (s.r a % 2 ^ 32 = 0), cf := false }
  | .cmpb a k => some { s with pc := nx, zf := decide (s.r a % 256 = k), cf := decide (s.r a % 256 < k) }
  | .jnz l => some { s with pc := if s.zf then nx else .at_ (off c.cet l) }
  | .ja l => some { s with pc := if s.zf || s.cf then nx else .at_ (off c.cet l) }
  | .jmp l => some { s with pc := .at_ (off c.cet l) }
  | .jmpr a =>
    if c.base ≤ s.r a ∧ (c.cet → (fetch c.cet (s.r a - c.base)).map (·.2) = some .endbr) then
      some { s with pc := .at_ (s.r a - c.base) } else none
  | .callr a => if 8 ≤ s.r 4 then some { s with
      pc := .out (s.r a), r := upd s.r 4 (s.r 4 - 8), mem := s.mem.wr (s.r 4 - 8) (leBytes 8 (c.base + (o + n))),
      ss := (c.base + (o + n)) :: s.ss } else none
  | .callx f => if 8 ≤ s.r 4 then some { s with
      pc := .out (c.ext f), r := upd s.r 4 (s.r 4 - 8), mem := s.mem.wr (s.r 4 - 8) (leBytes 8 (c.base + (o + n))),
      ss := (c.base + (o + n)) :: s.ss } else none
  | .pop d => some { s with pc := nx, r := upd (upd s.r 4 (s.r 4 + 8)) d (leNat (s.mem.rd (s.r 4) 8)) }
  | .ret =>
    match s.ss with
    | [] => none
    | a :: ss =>
      if c.cet → leNat (s.mem.rd (s.r 4) 8) = a then
        some { s with pc := .out (leNat (s.mem.rd (s.r 4) 8)), r := upd s.r 4 (s.r 4 + 8), ss := ss } else none
  | .addl d a => some (s.set nx d ((s.r d + s.r a) % 2 ^ 32))
  | .subi k => if k ≤ s.r 4 then some (s.set nx 4 (s.r 4 - k)) else none
  | .addi k => some (s.set nx 4 (s.r 4 + k))
  | .ext z sg d a => some (s.set nx d (if sg then sext z 8 (s.r a) else s.r a % 2 ^ (8 * z)))
  | .shr a k => some (s.set nx a (s.r a % 2 ^ 32 / 2 ^ k))
  | .ldx n b k => if (s.r b + k) % 16 = 0 then some { s with pc := nx, x := upd s.x n (s.mem.rd (s.r b + k) 16) } else none
  | .stx n b k => if (s.r b + k) % 16 = 0 then some { s with pc := nx, mem := s.mem.wr (s.r b + k) (s.x n) } else none
  | .ldxl z n b k => some { s with pc := nx, x := upd s.x n (s.mem.rd (s.r b + k) z ++ List.replicate (16 - z) 0) }
  | .stxl z n b k => some { s with pc := nx, mem := s.mem.wr (s.r b + k) ((s.x n).take z) }
  | .fld b k => if s.fp.length < 8 then some { s with pc := nx, fp := s.mem.rd (s.r b + k) 10 :: s.fp } else none
  | .fstp b k =>
    match s.fp with
    | [] => none
    | v :: vs => some { s with pc := nx, fp := vs, mem := s.mem.wr (s.r b + k) v }
  | .movsb =>
    if s.r 1 = 0 then some { s with pc := nx }
    else some { s with
      pc := .at_ o, r := upd (upd (upd s.r 1 (s.r 1 - 1)) 6 (s.r 6 + 1)) 7 (s.r 7 + 1), mem := s.mem.wr (s.r 7) (s.mem.rd (s.r 6) 1) }

/-- One instruction; `rep movsb` copies one byte at a time.  Nothing outside the code. -/
def step (c : Ctx) (s : St) : Option St :=
  match s.pc with
  | .out _ => none
  | .at_ o =>
    match fetch c.cet o with
    | none => none
    | some (n, i) => exec c o n i s

/-- Execution with interruptions: between any two instructions a signal handler may run
on the same stack, which extends down to `lo`, and change what is below the red zone
(128 bytes below the stack pointer). -/
inductive Reach (c : Ctx) (lo : Nat) : St → St → Prop
  | refl {s} : Reach c lo s s
  | step {s s' t} : step c s = some s' → Reach c lo s' t → Reach c lo s t
  | irq {s m t} : (∀ a, a < lo ∨ s.r 4 ≤ a + 128 → m a = s.mem a) → Reach c lo { s with mem := m } t → Reach c lo s t

/-! ## Unwind table, src/x86/unix64.S:550-680 -/

/-- A row of the table: the CFA is register `reg` (DWARF number) plus `off`; `saved`
lists registers stored at CFA - 8 * n. -/
structure Row where
  reg : Nat
  off : Nat
  saved : List (Nat × Nat)
  deriving DecidableEq, Repr

/-- Unsigned LEB128. -/
def uleb : List Nat → Nat → Option (Nat × List Nat)
  | [], _ => none
  | b :: bs, sh =>
    if b < 128 then some (b * 2 ^ sh, bs)
    else (uleb bs (sh + 7)).map fun p => ((b - 128) * 2 ^ sh + p.1, p.2)

/-- Call frame instructions (DWARF 3, 6.4.2) up to location `loc`; code alignment 1, data
alignment -8; `cur` is the current location.  The first argument bounds the number of
instructions. -/
def cfa : Nat → List Nat → Nat → Nat → Row → Row → List Row → Option Row
  | 0, _, _, _, _, _, _ => none
  | _ + 1, [], _, _, row, _, _ => some row
  | f + 1, op :: bs, loc, cur, row, init, stk =>
    if op = 0x00 then cfa f bs loc cur row init stk                       -- DW_CFA_nop
    else if op = 0x02 then                                                -- DW_CFA_advance_loc1
      match bs with
      | d :: bs => if loc < cur + d then some row else cfa f bs loc (cur + d) row init stk
      | _ => none
    else if op = 0x03 then                                                -- DW_CFA_advance_loc2
      match bs with
      | d :: e :: bs => if loc < cur + (d + 256 * e) then some row else cfa f bs loc (cur + (d + 256 * e)) row init stk
      | _ => none
    else if op = 0x0a then cfa f bs loc cur row init (row :: stk)         -- DW_CFA_remember_state
    else if op = 0x0b then                                                -- DW_CFA_restore_state
      match stk with
      | r :: stk => cfa f bs loc cur r init stk
      | [] => none
    else if op = 0x0c then                                                -- DW_CFA_def_cfa
      match uleb bs 0 with
      | none => none
      | some (r, bs) =>
        match uleb bs 0 with
        | none => none
        | some (k, bs) => cfa f bs loc cur { row with reg := r, off := k } init stk
    else if op = 0x0e then                                                -- DW_CFA_def_cfa_offset
      match uleb bs 0 with
      | none => none
      | some (k, bs) => cfa f bs loc cur { row with off := k } init stk
    else if 0x80 ≤ op ∧ op < 0xc0 then                                    -- DW_CFA_offset
      match uleb bs 0 with
      | none => none
      | some (k, bs) => cfa f bs loc cur { row with saved := (op - 0x80, k) :: row.saved.filter (·.1 ≠ op - 0x80) } init stk
    else if 0xc0 ≤ op then                                                -- DW_CFA_restore
      cfa f bs loc cur { row with
        saved := init.saved.filter (·.1 = op - 0xc0) ++ row.saved.filter (·.1 ≠ op - 0xc0) } init stk
    else none

/-- Initial instructions of the CIE, src/x86/unix64.S:594-595. -/
def cie : List Nat := [0xc, 7, 8, 0x80 + 16, 1]

/-- `ADV`, src/x86/unix64.S:572-577: the assembler stores the low byte, or two bytes. -/
def adv (cet : Bool) (n p : Nat) : List Nat :=
  let d := off cet (.uw n) - off cet (.uw p)
  if cet then [3, d % 256, d / 256 % 256] else [2, d % 256]

/-- The entries of the table: first and last label and instructions,
src/x86/unix64.S:599-680 (the `.balign` fills with `DW_CFA_nop`). -/
def fdes (cet : Bool) : List (Nat × Nat × List Nat) :=
  [(0, 4, adv cet 1 0 ++ [0xc, 6, 32, 0x80 + 6, 2] ++ adv cet 2 1 ++ [0xa, 0xc, 7, 8, 0xc0 + 6] ++ adv cet 3 2 ++ [0xb]),
   (5, 7, adv cet 6 5 ++ [0xe, 216 + 8, 1]),
   (8, 11, adv cet 9 8 ++ [0xe, 216 + 8, 1] ++ adv cet 10 9 ++ [0xe, 8]),
   (12, 14, adv cet 13 12 ++ [0xe, 216 + 8, 1]),
   (15, 17, adv cet 16 15 ++ [0xe, 216 + 8, 1])]

/-- The row that holds at an offset. -/
def rowAt (cet : Bool) (o : Nat) : Option Row :=
  match (fdes cet).find? fun f => decide (off cet (.uw f.1) ≤ o ∧ o < off cet (.uw f.2.1)) with
  | none => none
  | some (a, _, is) =>
    match cfa 64 cie 0 0 ⟨0, 0, []⟩ ⟨0, 0, []⟩ [] with
    | none => none
    | some init => cfa 64 is (o - off cet (.uw a)) 0 init init []

/-- Hardware number of a DWARF register (psABI, figure 3.36). -/
def hw : Nat → Nat
  | 1 => 2 | 2 => 1 | 4 => 6 | 5 => 7 | 6 => 5 | 7 => 4
  | n => n

/-- What an unwinder makes of registers and memory: the return address and the registers
of the caller. -/
def unwind (row : Row) (r : Nat → Nat) (m : Mem) : Option (Nat × (Nat → Nat)) :=
  let c := r (hw row.reg) + row.off
  match row.saved.lookup 16 with
  | none => none
  | some k => some (leNat (m.rd (c - 8 * k) 8), fun d =>
      if d = 4 then c
      else
        match (row.saved.filter (·.1 < 16)).find? (fun p => decide (hw p.1 = d)) with
        | some p => leNat (m.rd (c - 8 * p.2) 8)
        | none => r d)

end Verif.X64.Asm
