import Verif.Alpha.Model

/-
Instructions of src/alpha/osf.S and their place in the code, with the extensions of BWX or
without (`__alpha_bwx__`).  All instructions have four bytes.  `ldgp` and `jsr $26,symbol` are macros
of the assembler: the former is `ldah` and `lda` of the displacement of the global pointer (`!gpdisp`), the latter
loads the address from the global offset table and jumps.  Alignment is filled with no-ops.

Simplified: code is not read from memory; addresses do not wrap around, except where
displacements can be negative (`!gpdisp`, the global offset table).
-/
namespace Verif.Alpha.Asm
open Verif Verif.Alpha Verif.Spec.Alpha

inductive Lbl
  | call | callRet | stTab | goClosure | closure | doClosure | innerRet | ldTab
  deriving DecidableEq, Repr

/-- Instructions, with operands in the order of the source. -/
inductive Ins
  | mov (a d : Nat)         -- mov $a,$d
  | stq (a k b : Nat)       -- stq $a,k($b)
  | ldq (a k b : Nat)
  | stt (f k b : Nat)       -- stt $ff,k($b)
  | ldt (f k b : Nat)
  | sts (f k b : Nat)
  | lds (f k b : Nat)
  | lda (d k b : Nat)       -- lda $d,k($b)
  | ldaTab (d : Nat) (t l : Lbl) (b : Nat)  -- lda $d,99f-0b($b)
  | gpHi (l : Lbl) (b : Nat)  -- ldah $29,0($b) !gpdisp, $b holding the address of the label
  | gpLo (l : Lbl)          -- lda $29,0($29) !gpdisp
  | ldInner                 -- ldq $27,ffi_closure_osf_inner($29) !literal
  | cmoveq (a v d : Nat)    -- cmoveq $a,v,$d
  | addq (a b d : Nat)
  | s8addq (a b d : Nat)
  | s4addi (a d : Nat)      -- s4addq $a,0,$d
  | s4addq (a b d : Nat)
  | subi (d k : Nat)        -- subq $d,k,$d
  | addi (d k : Nat)        -- addq $d,k,$d
  | sextl (d : Nat)         -- sextl $d,$d
  | sextw (d : Nat)
  | sextb (d : Nat)
  | zapnot3 (d : Nat)       -- zapnot $d,3,$d
  | andff (d : Nat)         -- and $d,0xff,$d
  | sll (d k : Nat)         -- sll $d,k,$d
  | sra (d k : Nat)
  | nop
  | br (l : Lbl)
  | jsr                     -- jsr $26,($27)
  | jmp (a : Nat)           -- jmp $31,($a)
  | ret                     -- ret $31,($26)
  deriving DecidableEq, Repr

/-- Call frame directives. -/
inductive Cfi
  | start                   -- cfi_startproc
  | stop                    -- cfi_endproc
  | defCfa (r k : Nat)
  | defReg (r : Nat)        -- cfi_def_cfa_register
  | adjust (k : Int)        -- cfi_adjust_cfa_offset
  | relOff (r k : Nat)      -- cfi_rel_offset
  | restore (r : Nat)
  deriving DecidableEq, Repr

inductive Item
  | i (ins : Ins)
  | l (l : Lbl)
  | align                   -- .align 4
  | e (l : Lbl) (k : Nat)   -- E index
  | cfi (c : Cfi)
  deriving DecidableEq, Repr

/-- `ffi_call_osf`, src/alpha/osf.S:37-40,50-128. -/
def callItems : List Item :=
  [.align, .l .call, .cfi .start, .cfi (.defCfa 17 32),
   .i (.mov 16 30), .i (.stq 26 0 17), .i (.stq 15 8 17), .i (.mov 17 15),
   .cfi (.defReg 15), .cfi (.relOff 26 0), .cfi (.relOff 15 8),
   .i (.stq 18 16 17), .i (.stq 19 24 17), .i (.mov 20 27), .i (.mov 21 1),
   .i (.ldq 16 0 30), .i (.ldt 16 0 30), .i (.ldt 17 8 30), .i (.ldq 17 8 30), .i (.ldt 18 16 30), .i (.ldq 18 16 30),
   .i (.ldt 19 24 30), .i (.ldq 19 24 30), .i (.ldt 20 32 30), .i (.ldq 20 32 30), .i (.ldt 21 40 30), .i (.ldq 21 40 30),
   .i (.lda 30 48 30), .i .jsr,
   .l .callRet,
   .i (.gpHi .callRet 26), .i (.ldq 2 24 15), .i (.gpLo .callRet), .i (.ldq 3 16 15), .i (.ldaTab 1 .stTab .callRet 26),
   .i (.ldq 26 0 15), .i (.ldq 15 8 15),
   .cfi (.restore 26), .cfi (.restore 15), .cfi (.defCfa 30 0),
   .i (.cmoveq 2 0 3), .i (.addq 3 3 3), .i (.s8addq 3 1 1), .i (.jmp 1),
   .align, .l .stTab,
   .e .stTab 0, .i .ret,
   .e .stTab 1, .i (.stq 0 0 2), .i .ret,
   .e .stTab 2, .i (.sts 0 0 2), .i .ret,
   .e .stTab 3, .i (.stt 0 0 2), .i .ret,
   .e .stTab 4, .i (.sts 0 0 2), .i (.sts 1 4 2), .i .ret,
   .e .stTab 5, .i (.stt 0 0 2), .i (.stt 1 8 2), .i .ret,
   .cfi .stop]

/-- The `epilogue` macro, src/alpha/osf.S:212-218. -/
def epilogue : List Item := [.i (.addi 30 128), .cfi (.adjust (-128)), .i .ret, .align, .cfi (.adjust 128)]

/-- `ffi_go_closure_osf` and `ffi_closure_osf`, src/alpha/osf.S:138-277. -/
def closureItems (bwx : Bool) : List Item :=
  [.align, .l .goClosure, .cfi .start,
   .i (.gpHi .goClosure 27), .i (.gpLo .goClosure), .i (.subi 30 128), .cfi (.adjust 128), .i (.stq 26 0 30), .cfi (.relOff 26 0),
   .i (.stq 16 80 30), .i (.stq 17 88 30), .i (.stq 18 96 30),
   .i (.ldq 16 8 1), .i (.ldq 17 16 1), .i (.mov 1 18), .i (.br .doClosure),
   .cfi .stop,
   .align, .l .closure, .cfi .start,
   .i (.gpHi .closure 27), .i (.gpLo .closure), .i (.subi 30 128), .cfi (.adjust 128), .i (.stq 26 0 30), .cfi (.relOff 26 0),
   .i (.stq 16 80 30), .i (.stq 17 88 30), .i (.stq 18 96 30),
   .i (.ldq 16 24 1), .i (.ldq 17 32 1), .i (.ldq 18 40 1),
   .l .doClosure,
   .i (.stq 19 104 30), .i (.stq 20 112 30), .i (.stq 21 120 30),
   .i (.stt 16 32 30), .i (.stt 17 40 30), .i (.stt 18 48 30), .i (.stt 19 56 30), .i (.stt 20 64 30), .i (.stt 21 72 30),
   .i (.lda 19 16 30), .i (.lda 20 80 30), .i .ldInner, .i .jsr,
   .l .innerRet,
   .i (.gpHi .innerRet 26), .i (.ldaTab 2 .ldTab .innerRet 26), .i (.s4addi 0 1), .i (.ldq 0 16 30), .i (.s4addq 1 2 1), .i (.gpLo .innerRet),
   .i (.ldq 26 0 30), .cfi (.restore 26), .i (.jmp 1),
   .align, .l .ldTab,
   .e .ldTab 0] ++ epilogue ++
  [.e .ldTab 1] ++ epilogue ++
  [.e .ldTab 2, .i (.sextl 0)] ++ epilogue ++
  [.e .ldTab 3, .i (.zapnot3 0)] ++ epilogue ++
  [.e .ldTab 4] ++ (if bwx then [.i (.sextw 0)] else [.i (.sll 0 48), .i (.sra 0 48)]) ++ epilogue ++
  [.e .ldTab 5, .i (.andff 0)] ++ epilogue ++
  [.e .ldTab 6] ++ (if bwx then [.i (.sextb 0)] else [.i (.sll 0 56), .i (.sra 0 56)]) ++ epilogue ++
  [.e .ldTab 7, .i (.lds 0 16 30)] ++ epilogue ++
  [.e .ldTab 8, .i (.ldt 0 16 30)] ++ epilogue ++
  [.e .ldTab 9, .i (.lds 0 16 30), .i (.lds 1 20 30)] ++ epilogue ++
  [.e .ldTab 10, .i (.ldt 0 16 30), .i (.ldt 1 24 30)] ++ epilogue ++
  [.cfi .stop]

def items (bwx : Bool) : List Item := callItems ++ closureItems bwx

/-- A row of the call frame table: the CFA is a register and an offset; where registers are saved,
relative to the CFA. -/
structure Row where
  reg : Nat
  off : Int
  saved : List (Nat × Int)
  deriving DecidableEq, Repr

def Row.apply (w : Row) : Cfi → Row
  | .defCfa r k => { w with reg := r, off := k }
  | .defReg r => { w with reg := r }
  | .adjust k => { w with off := w.off + k }
  | .relOff r k => { w with saved := (r, (k : Int) - w.off) :: w.saved }
  | .restore r => { w with saved := w.saved.filter (·.1 ≠ r) }
  | _ => w

/-- Offsets of instructions, of labels, and rows of the call frame table. -/
structure Image where
  code : List (Nat × Ins)
  labels : List (Lbl × Nat)
  rows : List (Nat × Row)

/-- No-ops from offset `o` to offset `p`. -/
def pad (o p : Nat) : List (Nat × Ins) := (List.range ((p - o) / 4)).map fun k => (o + 4 * k, .nop)

def up16 (o : Nat) : Nat := (o + 15) / 16 * 16

/-- The assembler; nothing if `.org` would move backwards.  `w` is the current row, if any. -/
def assemble : List Item → Nat → Option Row → Image → Option Image
  | [], _, _, g => some g
  | .i i :: is, o, w, g =>
    assemble is (o + 4) w { g with code := (o, i) :: g.code, rows := match w with | some w => (o, w) :: g.rows | none => g.rows }
  | .l l :: is, o, w, g => assemble is o w { g with labels := (l, o) :: g.labels }
  | .align :: is, o, w, g => assemble is (up16 o) w { g with code := pad o (up16 o) ++ g.code }
  | .e l k :: is, o, w, g =>
    match g.labels.lookup l with
    | none => none
    | some b => if up16 o ≤ b + 16 * k then assemble is (b + 16 * k) w { g with code := pad o (b + 16 * k) ++ g.code } else none
  | .cfi .start :: is, o, _, g => assemble is o (some ⟨30, 0, []⟩) g
  | .cfi .stop :: is, o, _, g => assemble is o none g
  | .cfi c :: is, o, w, g => assemble is o (w.map (·.apply c)) g

def image (bwx : Bool) : Image := (assemble (items bwx) 0 none ⟨[], [], []⟩).getD ⟨[], [], []⟩

def fetch (bwx : Bool) (o : Nat) : Option Ins := (image bwx).code.lookup o
def off (bwx : Bool) (l : Lbl) : Nat := ((image bwx).labels.lookup l).getD 0
def rowAt (bwx : Bool) (o : Nat) : Option Row := (image bwx).rows.lookup o

/-- The offsets at which functions are linked do not depend on BWX. -/
theorem off_eq (bwx : Bool) : off bwx .call = 0 ∧ off bwx .callRet = 88 ∧ off bwx .stTab = 144 ∧ off bwx .goClosure = 240 ∧ off bwx .closure = 288 ∧
    off bwx .doClosure = 328 ∧ off bwx .innerRet = 380 ∧ off bwx .ldTab = 416 := by
  cases bwx <;> decide +kernel

/-- Integer registers, floating-point registers, memory, the address of the next instruction. -/
structure M where
  r : Nat → Nat
  f : Nat → Nat
  mem : Mem
  pc : Nat

/-- Where things are: the code, `ffi_closure_osf_inner`, the global pointer; the halves of
the displacements of the global pointer from labels; the displacement of the entry of the global offset table.
Displacements are numbers modulo 2^64. -/
structure Env where
  bwx : Bool
  L : Nat
  inner : Nat
  gp : Nat
  hi : Lbl → Nat
  lo : Lbl → Nat
  got : Nat

/-- The linker has filled in the displacements. -/
structure Env.Ok (E : Env) : Prop where
  base : E.L + 1024 < 2 ^ 64
  gp : ∀ l, (E.L + off E.bwx l + E.hi l + E.lo l) % 2 ^ 64 = E.gp

/-- The address of the entry of the global offset table. -/
def Env.slot (E : Env) : Nat := (E.gp + E.got) % 2 ^ 64

def upd (f : Nat → Nat) (k : Nat) (v : Nat) : Nat → Nat := fun x => if x = k then v else f x

/-- Arithmetic shift right. -/
def sra (v k : Nat) : Nat := if 2 ^ 63 ≤ v then v / 2 ^ k + 2 ^ 64 - 2 ^ (64 - k) else v / 2 ^ k

/-- An instruction that does not branch. -/
def exec (E : Env) (s : M) : Ins → M
  | .mov a d => { s with r := upd s.r d (s.r a) }
  | .stq a k b => { s with mem := s.mem.wr (s.r b + k) (leBytes 8 (s.r a)) }
  | .ldq a k b => { s with r := upd s.r a (leNat (s.mem.rd (s.r b + k) 8)) }
  | .stt f k b => { s with mem := s.mem.wr (s.r b + k) (leBytes 8 (s.f f)) }
  | .ldt f k b => { s with f := upd s.f f (leNat (s.mem.rd (s.r b + k) 8)) }
  | .sts f k b => { s with mem := s.mem.wr (s.r b + k) (leBytes 4 (Spec.Alpha.sts (s.f f))) }
  | .lds f k b => { s with f := upd s.f f (Spec.Alpha.lds (leNat (s.mem.rd (s.r b + k) 4))) }
  | .lda d k b => { s with r := upd s.r d (s.r b + k) }
  | .ldaTab d t l b => { s with r := upd s.r d (s.r b + (off E.bwx t - off E.bwx l)) }
  | .gpHi l b => { s with r := upd s.r 29 ((s.r b + E.hi l) % 2 ^ 64) }
  | .gpLo l => { s with r := upd s.r 29 ((s.r 29 + E.lo l) % 2 ^ 64) }
  | .ldInner => { s with r := upd s.r 27 (leNat (s.mem.rd ((s.r 29 + E.got) % 2 ^ 64) 8)) }
  | .cmoveq a v d => { s with r := upd s.r d (if s.r a = 0 then v else s.r d) }
  | .addq a b d => { s with r := upd s.r d ((s.r a + s.r b) % 2 ^ 64) }
  | .s8addq a b d => { s with r := upd s.r d ((8 * s.r a + s.r b) % 2 ^ 64) }
  | .s4addi a d => { s with r := upd s.r d (4 * s.r a % 2 ^ 64) }
  | .s4addq a b d => { s with r := upd s.r d ((4 * s.r a + s.r b) % 2 ^ 64) }
  | .subi d k => { s with r := upd s.r d (s.r d - k) }
  | .addi d k => { s with r := upd s.r d (s.r d + k) }
  | .sextl d => { s with r := upd s.r d (sext 4 (s.r d % 2 ^ 32)) }
  | .sextw d => { s with r := upd s.r d (sext 2 (s.r d % 2 ^ 16)) }
  | .sextb d => { s with r := upd s.r d (sext 1 (s.r d % 2 ^ 8)) }
  | .zapnot3 d => { s with r := upd s.r d (s.r d % 2 ^ 16) }
  | .andff d => { s with r := upd s.r d (s.r d % 2 ^ 8) }
  | .sll d k => { s with r := upd s.r d (s.r d * 2 ^ k % 2 ^ 64) }
  | .sra d k => { s with r := upd s.r d (sra (s.r d) k) }
  | _ => s

/-- One step. -/
def step (E : Env) (s : M) : Option M :=
  if s.pc < E.L then none
  else match fetch E.bwx (s.pc - E.L) with
    | none => none
    | some (.br l) => some { s with pc := E.L + off E.bwx l }
    | some .jsr => some { s with r := upd s.r 26 (s.pc + 4), pc := s.r 27 }
    | some (.jmp a) => some { s with pc := s.r a }
    | some .ret => some { s with pc := s.r 26 }
    | some i => some { exec E s i with pc := s.pc + 4 }

/-- Any number of steps. -/
inductive Runs (E : Env) : M → M → Prop
  | refl (s : M) : Runs E s s
  | cons {s t u : M} : step E s = some t → Runs E t u → Runs E s u

theorem Runs.trans {E : Env} {s t u : M} (h : Runs E s t) (k : Runs E t u) : Runs E s u := by
  induction h with
  | refl => exact k
  | cons h _ ih => exact .cons h (ih k)

def plain : Ins → Bool
  | .br _ | .jsr | .jmp _ | .ret => false
  | _ => true

/-- The instructions are at the offset, one after the other. -/
def block (bwx : Bool) : Nat → List Ins → Bool
  | _, [] => true
  | o, i :: is => fetch bwx o == some i && plain i && block bwx (o + 4) is

attribute [irreducible] fetch off rowAt

theorem foldl_pc (E : Env) : ∀ (is : List Ins) (s : M) (p : Nat), is.foldl (exec E) { s with pc := p } = { is.foldl (exec E) s with pc := p }
  | [], _, _ => rfl
  | i :: is, s, p => by
    rw [List.foldl_cons, List.foldl_cons, ← foldl_pc E is]
    cases i <;> rfl

theorem runs_block {E : Env} {is : List Ins} : ∀ {o : Nat} {s : M}, block E.bwx o is = true → s.pc = E.L + o →
    Runs E s { is.foldl (exec E) s with pc := E.L + o + 4 * is.length } := by
  induction is with
  | nil =>
    intro o s _ hp
    have : ({ s with pc := E.L + o + 4 * ([] : List Ins).length } : M) = s := by cases s; simp_all
    rw [List.foldl_nil, this]
    exact .refl s
  | cons i is ih =>
    intro o s hb hp
    simp only [block, Bool.and_eq_true, beq_iff_eq] at hb
    obtain ⟨⟨h1, h2⟩, h3⟩ := hb
    have hs : step E s = some { exec E s i with pc := s.pc + 4 } := by
      unfold step
      rw [if_neg (by omega), show s.pc - E.L = o by omega, h1]
      cases i <;> first | rfl | cases h2
    refine .cons hs ?_
    have ih := ih (s := { exec E s i with pc := s.pc + 4 }) h3 (by show s.pc + _ = _; omega)
    rw [foldl_pc] at ih
    rw [List.foldl_cons]
    rw [show E.L + o + 4 * (i :: is).length = E.L + (o + 4) + 4 * is.length by simp only [List.length_cons]; omega]
    exact ih

theorem runs_jmp {E : Env} {o a : Nat} {s : M} (hf : fetch E.bwx o = some (.jmp a)) (hp : s.pc = E.L + o) : Runs E s { s with pc := s.r a } := by
  refine .cons ?_ (.refl _)
  unfold step
  rw [if_neg (by omega), show s.pc - E.L = o by omega, hf]

theorem runs_ret {E : Env} {o : Nat} {s : M} (hf : fetch E.bwx o = some .ret) (hp : s.pc = E.L + o) : Runs E s { s with pc := s.r 26 } := by
  refine .cons ?_ (.refl _)
  unfold step
  rw [if_neg (by omega), show s.pc - E.L = o by omega, hf]

theorem runs_br {E : Env} {o : Nat} {l : Lbl} {s : M} (hf : fetch E.bwx o = some (.br l)) (hp : s.pc = E.L + o) : Runs E s { s with pc := E.L + off E.bwx l } := by
  refine .cons ?_ (.refl _)
  unfold step
  rw [if_neg (by omega), show s.pc - E.L = o by omega, hf]

theorem runs_jsr {E : Env} {o : Nat} {s : M} (hf : fetch E.bwx o = some .jsr) (hp : s.pc = E.L + o) :
    Runs E s { s with r := upd s.r 26 (s.pc + 4), pc := s.r 27 } := by
  refine .cons ?_ (.refl _)
  unfold step
  rw [if_neg (by omega), show s.pc - E.L = o by omega, hf]

end Verif.Alpha.Asm
