import Verif.M68k.Args

/-
src/m68k/sysv.S instruction by instruction: with and without a floating-point unit (`fpu`), for the 68000 (`old`) and for later processors.
Instructions have different lengths: `Lay` says where they are.

Simplified: code is not read from memory; addresses do not wrap around; `ffi_prep_args` and `ffi_closure_SYSV_inner` are called by `jsr`
(no position-independent code); of the condition codes Z and C are modelled; `fmove` is a parameter (`Spec.M68k.Fpu`).
-/
namespace Verif.M68k
open Verif Verif.Spec.M68k
open Verif.Or1k (wr_rd be4 beNat_rd_lt)

/-- Labels; `ret n` is where bit `n` of the flags is tested, `ret 10` is `epilogue`; `next n` are the labels `1`. -/
inductive Lbl
  | call | ret (n : Nat) | closure | next (n : Nat) | cepi | cfloat | cldouble | cstruct1 | csint8 | cstruct
  deriving DecidableEq, Repr

/-- Functions in C that are called. -/
inductive Fn
  | prep | inner
  deriving DecidableEq, Repr

/-- fp is a6, sp is a7. -/
inductive Ins
  | link (k : Nat)        -- link fp,#-k
  | unlk                  -- unlk fp
  | rts
  | pushd (d : Nat)       -- move.l dd,-(sp)
  | pusha (a : Nat)       -- move.l aa,-(sp)
  | pushm (k : Nat)       -- move.l k(fp),-(sp)
  | peaf (k : Nat)        -- pea k(fp)
  | peafm (k : Nat)       -- pea -k(fp)
  | peas (k : Nat)        -- pea k(sp)
  | subsp (k : Nat)       -- sub.l k(fp),sp
  | addsp (k : Nat)       -- add.l k(fp),sp
  | addqsp (k : Nat)      -- addq.l #k,sp
  | jsr (f : Fn)
  | jsra                  -- jsr (a0)
  | mova (s d : Nat)      -- move.l as,ad
  | ldfa (k d : Nat)      -- move.l k(fp),ad
  | ldfd (k d : Nat)      -- move.l k(fp),dd
  | ldfmd (k d : Nat)     -- move.l -k(fp),dd
  | stsp (k : Nat)        -- move.l sp,-k(fp)
  | tst1                  -- tst.l a1
  | btst (n : Nat)        -- btst #n,d2
  | beq (l : Lbl)
  | bra (l : Lbl)
  | bne (l : Lbl)
  | bcc (l : Lbl)
  | bcs (l : Lbl)
  | st (d k : Nat)        -- move.l dd,k(a1)
  | sti (d : Nat)         -- move.l dd,(a1)+
  | sta                   -- move.l a0,(a1)
  | stb                   -- move.b d0,(a1)
  | stw                   -- move.w d0,(a1)
  | fsts                  -- fmove.s fp0,(a1)
  | fstd                  -- fmove.d fp0,(a1)
  | fstx                  -- fmove.x fp0,(a1)
  | extw                  -- ext.w d0
  | extl                  -- ext.l d0
  | extbl                 -- extb.l d0
  | popd (d : Nat)        -- move.l (sp)+,dd
  | lea (k : Nat)         -- lea -k(fp),a0
  | lsr (n : Nat)         -- lsr.l #n,d0
  | ldi (d : Nat)         -- move.l (a0)+,dd
  | ld (d : Nat)          -- move.l (a0),dd
  | lda                   -- move.l (a0),a0
  | movd                  -- move.l a0,d0
  | ldb                   -- move.b (a0),d0
  | ldw                   -- move.w (a0),d0
  | flds                  -- fmove.s (a0),fp0
  | fldd                  -- fmove.d (a0),fp0
  | fldx                  -- fmove.x (a0),fp0
  deriving DecidableEq, Repr

inductive Item
  | i (i : Ins)
  | l (l : Lbl)
  deriving DecidableEq, Repr

/-- `#if` for the 68000. -/
def ext8 (old : Bool) : List Item := if old then [.i .extw, .i .extl] else [.i .extbl]

/-- src/m68k/sysv.S:59-212. -/
def callItems (fpu old : Bool) : List Item :=
  [.l .call, .i (.link 0), .i (.pushd 2), .i (.subsp 12), .i (.pushm 8), .i (.peas 4), .i (.jsr .prep), .i (.addqsp 8),
   .i (.mova 0 1), .i (.ldfa 24 0), .i .jsra, .i (.addsp 12), .i (.ldfa 20 1), .i (.ldfd 16 2), .i .tst1, .i (.beq (.ret 10)),
   .l (.ret 0), .i (.btst 0), .i (.beq (.ret 1)), .i (.st 0 0), .i (.bra (.ret 10)),
   .l (.ret 1), .i (.btst 1), .i (.beq (.ret 2)), .i (.st 0 0), .i (.st 1 4), .i (.bra (.ret 10)),
   .l (.ret 2), .i (.btst 2), .i (.beq (.ret 3))] ++ (if fpu then [.i .fsts] else [.i (.st 0 0)]) ++ [.i (.bra (.ret 10)),
   .l (.ret 3), .i (.btst 3), .i (.beq (.ret 4))] ++ (if fpu then [.i .fstd] else [.i (.sti 0), .i (.st 1 0)]) ++ [.i (.bra (.ret 10)),
   .l (.ret 4), .i (.btst 4), .i (.beq (.ret 5))] ++ (if fpu then [.i .fstx] else [.i (.sti 0), .i (.sti 1), .i (.st 2 0)]) ++ [.i (.bra (.ret 10)),
   .l (.ret 5), .i (.btst 5), .i (.beq (.ret 6)), .i .sta, .i (.bra (.ret 10)),
   .l (.ret 6), .i (.btst 6), .i (.beq (.ret 7)), .i .stb, .i (.bra (.ret 10)),
   .l (.ret 7), .i (.btst 7), .i (.beq (.ret 8)), .i .stw, .i (.bra (.ret 10)),
   .l (.ret 8), .i (.btst 8), .i (.beq (.ret 9))] ++ ext8 old ++ [.i (.st 0 0), .i (.bra (.ret 10)),
   .l (.ret 9), .i (.btst 9), .i (.beq (.ret 10)), .i .extl, .i (.st 0 0),
   .l (.ret 10), .i (.popd 2), .i .unlk, .i .rts]

/-- src/m68k/sysv.S:220-325. -/
def closureItems (fpu old : Bool) : List Item :=
  [.l .closure, .i (.link 12), .i (.stsp 12), .i (.peaf 8), .i (.peafm 12), .i (.pusha 0), .i (.jsr .inner),
   .i (.lsr 1), .i (.bne (.next 0)), .i (.bcc .cepi), .i (.ldfmd 12 0),
   .l .cepi, .i .unlk, .i .rts,
   .l (.next 0), .i (.lea 12), .i (.lsr 2), .i (.bne (.next 1)), .i (.bcs .cfloat), .i (.ldi 0), .i (.ld 1), .i (.bra .cepi),
   .l .cfloat] ++ (if fpu then [.i .flds] else [.i (.ld 0)]) ++ [.i (.bra .cepi),
   .l (.next 1), .i (.lsr 2), .i (.bne (.next 2)), .i (.bcs .cldouble)] ++ (if fpu then [.i .fldd] else [.i (.ldi 0), .i (.ld 1)]) ++ [.i (.bra .cepi),
   .l .cldouble] ++ (if fpu then [.i .fldx] else [.i (.ldi 0), .i (.ldi 1), .i (.ld 2)]) ++ [.i (.bra .cepi),
   .l (.next 2), .i (.lsr 2), .i (.bne (.next 3)), .i (.bcs .cstruct1), .i .lda, .i .movd, .i (.bra .cepi),
   .l .cstruct1, .i .ldb, .i (.bra .cepi),
   .l (.next 3), .i (.lsr 2), .i (.bne (.next 4)), .i (.bcs .csint8), .i .ldw, .i (.bra .cepi),
   .l .csint8, .i (.ld 0)] ++ ext8 old ++ [.i (.bra .cepi),
   .l (.next 4), .i (.ld 0), .i .extl, .i (.bra .cepi)]

/-- src/m68k/sysv.S:327-356. -/
def structItems : List Item :=
  [.l .cstruct, .i (.link 0), .i (.stsp 12), .i (.peaf 8), .i (.pusha 1), .i (.pusha 0), .i (.jsr .inner), .i .unlk, .i .rts]

def items (fpu old : Bool) : List Item := callItems fpu old ++ closureItems fpu old ++ structItems

def code (fpu old : Bool) : List Ins := (items fpu old).filterMap fun | .i i => some i | .l _ => none

/-- The index of the instruction behind the label. -/
def target (fpu old : Bool) (l : Lbl) : Nat := (((items fpu old).takeWhile (· ≠ .l l)).filter fun | .i _ => true | .l _ => false).length

structure M where
  d : Nat → Nat
  a : Nat → Nat
  fp0 : Nat
  z : Bool
  c : Bool
  mem : Mem
  pc : Nat

def upd (f : Nat → Nat) (k v : Nat) : Nat → Nat := fun x => if x = k then v else f x

/-- Where the instructions and the functions in C are. -/
structure Lay where
  at_ : Nat → Nat
  fn : Fn → Nat
  mono : ∀ i j, i < j → at_ i < at_ j
  lt : at_ 200 < 2 ^ 32

theorem Lay.lt' (L : Lay) {k : Nat} (h : k < 200) : L.at_ k < 2 ^ 32 := Nat.lt_trans (L.mono _ _ h) L.lt

/-- Sign extension of the low byte to a word of 16 bits; the rest of the register stays. -/
def ext8to16 (v : Nat) : Nat := v / 65536 * 65536 + (if v % 256 < 128 then v % 256 else v % 256 + 65536 - 256)

/-- Sign extension of the low 16 bits. -/
def ext16to32 (v : Nat) : Nat := if v % 65536 < 32768 then v % 65536 else v % 65536 + 2 ^ 32 - 65536

/-- Sign extension of the low byte. -/
def ext8to32 (v : Nat) : Nat := if v % 256 < 128 then v % 256 else v % 256 + 2 ^ 32 - 256

/-- A store of a long word. -/
def w4 (m : Mem) (a v : Nat) : Mem := m.wr a (beBytes 4 v)

/-- A load of a long word. -/
def r4 (m : Mem) (a : Nat) : Nat := beNat (m.rd a 4)

/-- Instructions that do not branch. -/
def exec (F : Fpu) (s : M) : Ins → M
  | .link k => { s with mem := w4 s.mem (s.a 7 - 4) (s.a 6), a := upd (upd s.a 6 (s.a 7 - 4)) 7 (s.a 7 - 4 - k) }
  | .unlk => { s with a := upd (upd s.a 7 (s.a 6 + 4)) 6 (r4 s.mem (s.a 6)) }
  | .pushd d => { s with mem := w4 s.mem (s.a 7 - 4) (s.d d), a := upd s.a 7 (s.a 7 - 4) }
  | .pusha a => { s with mem := w4 s.mem (s.a 7 - 4) (s.a a), a := upd s.a 7 (s.a 7 - 4) }
  | .pushm k => { s with mem := w4 s.mem (s.a 7 - 4) (r4 s.mem (s.a 6 + k)), a := upd s.a 7 (s.a 7 - 4) }
  | .peaf k => { s with mem := w4 s.mem (s.a 7 - 4) (s.a 6 + k), a := upd s.a 7 (s.a 7 - 4) }
  | .peafm k => { s with mem := w4 s.mem (s.a 7 - 4) (s.a 6 - k), a := upd s.a 7 (s.a 7 - 4) }
  | .peas k => { s with mem := w4 s.mem (s.a 7 - 4) (s.a 7 + k), a := upd s.a 7 (s.a 7 - 4) }
  | .subsp k => { s with a := upd s.a 7 (s.a 7 - r4 s.mem (s.a 6 + k)) }
  | .addsp k => { s with a := upd s.a 7 (s.a 7 + r4 s.mem (s.a 6 + k)) }
  | .addqsp k => { s with a := upd s.a 7 (s.a 7 + k) }
  | .mova x y => { s with a := upd s.a y (s.a x) }
  | .ldfa k y => { s with a := upd s.a y (r4 s.mem (s.a 6 + k)) }
  | .ldfd k y => { s with d := upd s.d y (r4 s.mem (s.a 6 + k)) }
  | .ldfmd k y => { s with d := upd s.d y (r4 s.mem (s.a 6 - k)) }
  | .stsp k => { s with mem := w4 s.mem (s.a 6 - k) (s.a 7) }
  | .tst1 => { s with z := s.a 1 == 0 }
  | .btst n => { s with z := s.d 2 / 2 ^ n % 2 == 0 }
  | .st x k => { s with mem := w4 s.mem (s.a 1 + k) (s.d x) }
  | .sti x => { s with mem := w4 s.mem (s.a 1) (s.d x), a := upd s.a 1 (s.a 1 + 4) }
  | .sta => { s with mem := w4 s.mem (s.a 1) (s.a 0) }
  | .stb => { s with mem := s.mem.wr (s.a 1) (beBytes 1 (s.d 0)) }
  | .stw => { s with mem := s.mem.wr (s.a 1) (beBytes 2 (s.d 0)) }
  | .fsts => { s with mem := s.mem.wr (s.a 1) (F.sts s.fp0) }
  | .fstd => { s with mem := s.mem.wr (s.a 1) (F.std s.fp0) }
  | .fstx => { s with mem := s.mem.wr (s.a 1) (F.stx s.fp0) }
  | .extw => { s with d := upd s.d 0 (ext8to16 (s.d 0)) }
  | .extl => { s with d := upd s.d 0 (ext16to32 (s.d 0)) }
  | .extbl => { s with d := upd s.d 0 (ext8to32 (s.d 0)) }
  | .popd x => { s with d := upd s.d x (r4 s.mem (s.a 7)), a := upd s.a 7 (s.a 7 + 4) }
  | .lea k => { s with a := upd s.a 0 (s.a 6 - k) }
  | .lsr n => { s with d := upd s.d 0 (s.d 0 / 2 ^ n), z := s.d 0 / 2 ^ n == 0, c := s.d 0 / 2 ^ (n - 1) % 2 == 1 }
  | .ldi x => { s with d := upd s.d x (r4 s.mem (s.a 0)), a := upd s.a 0 (s.a 0 + 4) }
  | .ld x => { s with d := upd s.d x (r4 s.mem (s.a 0)) }
  | .lda => { s with a := upd s.a 0 (r4 s.mem (s.a 0)) }
  | .movd => { s with d := upd s.d 0 (s.a 0) }
  | .ldb => { s with d := upd s.d 0 (s.d 0 / 256 * 256 + beNat (s.mem.rd (s.a 0) 1)) }
  | .ldw => { s with d := upd s.d 0 (s.d 0 / 65536 * 65536 + beNat (s.mem.rd (s.a 0) 2)) }
  | .flds => { s with fp0 := F.lds (s.mem.rd (s.a 0) 4) }
  | .fldd => { s with fp0 := F.ldd (s.mem.rd (s.a 0) 8) }
  | .fldx => { s with fp0 := F.ldx (s.mem.rd (s.a 0) 12) }
  | _ => s

/-- The processor and where the code is. -/
structure Env where
  fpu : Bool
  old : Bool
  F : Fpu
  L : Lay

def Env.lbl (E : Env) (l : Lbl) : Nat := E.L.at_ (target E.fpu E.old l)

/-- What the instruction with index `k` does. -/
def stepIns (E : Env) (k : Nat) (s : M) : Ins → M
  | .beq l => { s with pc := if s.z then E.lbl l else E.L.at_ (k + 1) }
  | .bne l => { s with pc := if s.z then E.L.at_ (k + 1) else E.lbl l }
  | .bcs l => { s with pc := if s.c then E.lbl l else E.L.at_ (k + 1) }
  | .bcc l => { s with pc := if s.c then E.L.at_ (k + 1) else E.lbl l }
  | .bra l => { s with pc := E.lbl l }
  | .jsr f => { s with mem := w4 s.mem (s.a 7 - 4) (E.L.at_ (k + 1)), a := upd s.a 7 (s.a 7 - 4), pc := E.L.fn f }
  | .jsra => { s with mem := w4 s.mem (s.a 7 - 4) (E.L.at_ (k + 1)), a := upd s.a 7 (s.a 7 - 4), pc := s.a 0 }
  | .rts => { s with a := upd s.a 7 (s.a 7 + 4), pc := r4 s.mem (s.a 7) }
  | i => { exec E.F s i with pc := E.L.at_ (k + 1) }

/-- One step. -/
def Step (E : Env) (s t : M) : Prop := ∃ k i, s.pc = E.L.at_ k ∧ (code E.fpu E.old)[k]? = some i ∧ t = stepIns E k s i

/-- There is at most one step. -/
theorem Step.det {E : Env} {s t u : M} (h : Step E s t) (h' : Step E s u) : t = u := by
  obtain ⟨k, i, hp, hi, rfl⟩ := h
  obtain ⟨k', i', hp', hi', rfl⟩ := h'
  have : k = k' := by
    rcases Nat.lt_trichotomy k k' with h | h | h
    · have := E.L.mono _ _ h; omega
    · exact h
    · have := E.L.mono _ _ h; omega
  subst this
  rw [hi] at hi'
  cases hi'
  rfl

inductive Runs (E : Env) : M → M → Prop
  | refl (s : M) : Runs E s s
  | cons {s t u : M} : Step E s t → Runs E t u → Runs E s u

theorem Runs.trans {E : Env} {s t u : M} (h : Runs E s t) (k : Runs E t u) : Runs E s u := by
  induction h with
  | refl => exact k
  | cons h _ ih => exact .cons h (ih k)

def plain : Ins → Bool
  | .beq _ | .bne _ | .bcs _ | .bcc _ | .bra _ | .jsr _ | .jsra | .rts => false
  | _ => true

/-- The instructions are in the code from index `k` on. -/
def block (fpu old : Bool) : Nat → List Ins → Bool
  | _, [] => true
  | k, i :: is => (code fpu old)[k]? == some i && plain i && block fpu old (k + 1) is

theorem foldl_pc (F : Fpu) : ∀ (is : List Ins) (s : M) (p : Nat), is.foldl (exec F) { s with pc := p } = { is.foldl (exec F) s with pc := p }
  | [], _, _ => rfl
  | i :: is, s, p => by
    rw [List.foldl_cons, List.foldl_cons, ← foldl_pc F is]
    cases i <;> rfl

theorem runs_block {E : Env} {is : List Ins} : ∀ {k : Nat} {s : M}, block E.fpu E.old k is = true → s.pc = E.L.at_ k →
    Runs E s { is.foldl (exec E.F) s with pc := E.L.at_ (k + is.length) } := by
  induction is with
  | nil =>
    intro k s _ hp
    have : ({ s with pc := E.L.at_ (k + ([] : List Ins).length) } : M) = s := by cases s; simp_all
    rw [List.foldl_nil, this]
    exact .refl s
  | cons i is ih =>
    intro k s hb hp
    simp only [block, Bool.and_eq_true, beq_iff_eq] at hb
    obtain ⟨⟨h1, h2⟩, h3⟩ := hb
    have hs : Step E s { exec E.F s i with pc := E.L.at_ (k + 1) } := ⟨k, i, hp, h1, by cases i <;> first | rfl | cases h2⟩
    refine .cons hs ?_
    have ih := ih (s := { exec E.F s i with pc := E.L.at_ (k + 1) }) h3 rfl
    rw [foldl_pc] at ih
    rw [List.foldl_cons, show k + (i :: is).length = k + 1 + is.length by simp only [List.length_cons]; omega]
    exact ih

theorem step_at {E : Env} {k : Nat} {s : M} (hp : s.pc = E.L.at_ k) {i : Ins} (hi : (code E.fpu E.old)[k]? = some i) : Runs E s (stepIns E k s i) :=
  .cons ⟨k, i, hp, hi, rfl⟩ (.refl _)

theorem r4_lt (m : Mem) (a : Nat) : r4 m a < 2 ^ 32 := beNat_rd_lt m a 4

theorem rd_w4 {m : Mem} {a v b n : Nat} (h : b + n ≤ a ∨ a + 4 ≤ b) : (w4 m a v).rd b n = m.rd b n :=
  Mem.rd_congr fun i hi => Mem.wr_out _ _ _ _ (by rw [beBytes_length]; omega)

theorem rd_w4_same (m : Mem) (a v : Nat) : (w4 m a v).rd a 4 = beBytes 4 v := wr_rd _ _ (beBytes_length _ _)

theorem w4_out {m : Mem} {a v x : Nat} (h : x < a ∨ a + 4 ≤ x) : w4 m a v x = m x := Mem.wr_out _ _ _ _ (by rw [beBytes_length]; omega)

theorem r4_of {m : Mem} {a v : Nat} (h : m.rd a 4 = beBytes 4 v) (hv : v < 2 ^ 32) : r4 m a = v := by unfold r4; rw [h, be4 hv]

theorem r4_congr {m m' : Mem} {a : Nat} (h : m.rd a 4 = m'.rd a 4) : r4 m a = r4 m' a := by unfold r4; rw [h]

/-- `ffi_prep_args` is called; `A` is where the arguments are to be stored. -/
structure AtPrep (E : Env) (s t : M) (S A : Nat) : Prop where
  pc : t.pc = E.L.fn .prep
  sp : t.a 7 = A - 12
  fp : t.a 6 = S - 4
  ret : t.mem.rd (A - 12) 4 = beBytes 4 (E.L.at_ 6)
  stack : t.mem.rd (A - 8) 4 = beBytes 4 A
  ecif : t.mem.rd (A - 4) 4 = s.mem.rd (S + 4) 4
  sfp : t.mem.rd (S - 4) 4 = beBytes 4 (s.a 6)
  sd2 : t.mem.rd (S - 8) 4 = beBytes 4 (s.d 2)
  frame : ∀ x, x < A - 12 ∨ A ≤ x ∧ x < S - 8 ∨ S ≤ x → t.mem x = s.mem x
  d : t.d = s.d
  a : ∀ r, r ≠ 6 → r ≠ 7 → t.a r = s.a r

theorem run_prep {E : Env} {s : M} {S A : Nat} (hp : s.pc = E.lbl .call) (hS : s.a 7 = S) (hA : A + r4 s.mem (S + 8) + 8 = S) (h20 : 12 ≤ A) :
    ∃ t, Runs E s t ∧ AtPrep E s t S A := by
  have hb1 : block E.fpu E.old 0 [.link 0, .pushd 2] = true := by generalize E.fpu = x; generalize E.old = y; revert x y; decide +kernel
  have hb2 : block E.fpu E.old 2 [.subsp 12] = true := by generalize E.fpu = x; generalize E.old = y; revert x y; decide +kernel
  have hb3 : block E.fpu E.old 3 [.pushm 8, .peas 4] = true := by generalize E.fpu = x; generalize E.old = y; revert x y; decide +kernel
  have hc : (code E.fpu E.old)[5]? = some (.jsr .prep) := by generalize E.fpu = x; generalize E.old = y; revert x y; decide +kernel
  have h0 : E.lbl .call = E.L.at_ 0 := by
    unfold Env.lbl
    congr 1
  rw [h0] at hp
  have r1 := runs_block hb1 hp
  generalize e1 : M.mk _ _ _ _ _ _ _ = s1 at r1
  have a1 : s1.a 7 = S - 8 ∧ s1.a 6 = S - 4 ∧ s1.mem = w4 (w4 s.mem (S - 4) (s.a 6)) (S - 8) (s.d 2) ∧ s1.pc = E.L.at_ 2 ∧ s1.d = s.d ∧ ∀ r, r ≠ 6 → r ≠ 7 → s1.a r = s.a r := by
    subst e1
    refine ⟨?_, ?_, ?_, rfl, ?_, fun r h6 h7 => ?_⟩ <;> simp [exec, upd, hS, Nat.sub_sub, *]
  clear e1
  obtain ⟨p1, p2, p3, p4, p5, p6⟩ := a1
  have hbytes : r4 s1.mem (S - 4 + 12) = r4 s.mem (S + 8) := by
    rw [p3, show S - 4 + 12 = S + 8 by omega]
    exact r4_congr (by rw [rd_w4 (by omega), rd_w4 (by omega)])
  have r2 := runs_block hb2 p4
  generalize e2 : M.mk _ _ _ _ _ _ _ = s2 at r2
  have a2 : s2.a 7 = A ∧ s2.a 6 = S - 4 ∧ s2.mem = s1.mem ∧ s2.pc = E.L.at_ 3 ∧ s2.d = s.d ∧ ∀ r, r ≠ 6 → r ≠ 7 → s2.a r = s.a r := by
    subst e2
    refine ⟨?_, ?_, rfl, rfl, p5, fun r h6 h7 => ?_⟩
    · simp only [List.foldl_cons, List.foldl_nil, exec, upd, p1, p2, hbytes, if_true]; omega
    · simp [exec, upd, p2]
    · simp [exec, upd, h7, p6 r h6 h7]
  clear e2
  obtain ⟨q1, q2, q3, q4, q5, q6⟩ := a2
  have hecif : s1.mem.rd (S + 4) 4 = s.mem.rd (S + 4) 4 := by rw [p3, rd_w4 (by omega), rd_w4 (by omega)]
  have r3 := runs_block hb3 q4
  generalize e3 : M.mk _ _ _ _ _ _ _ = s3 at r3
  have a3 : s3.a 7 = A - 8 ∧ s3.a 6 = S - 4 ∧ s3.mem = w4 (w4 s1.mem (A - 4) (r4 s1.mem (S + 4))) (A - 8) A ∧ s3.pc = E.L.at_ 5 ∧ s3.d = s.d ∧ ∀ r, r ≠ 6 → r ≠ 7 → s3.a r = s.a r := by
    subst e3
    refine ⟨?_, ?_, ?_, rfl, ?_, fun r h6 h7 => ?_⟩ <;> simp [exec, upd, Nat.sub_sub, *]
    rw [show S - 4 + 8 = S + 4 by omega, show A - 4 + 4 = A by omega]
  clear e3
  obtain ⟨u1, u2, u3, u4, u5, u6⟩ := a3
  refine ⟨_, r1.trans (r2.trans (r3.trans (step_at u4 hc))), rfl, ?_, ?_, ?_, ?_, ?_, ?_, ?_, ?_, u5, ?_⟩
  · simp [stepIns, upd, u1]; omega
  · simp [stepIns, upd, u2]
  · simp only [stepIns, u1]; rw [show A - 8 - 4 = A - 12 by omega]; exact rd_w4_same _ _ _
  · simp only [stepIns, u1]; rw [rd_w4 (by omega), u3]; exact rd_w4_same _ _ _
  · simp only [stepIns, u1]; rw [rd_w4 (by omega), u3, rd_w4 (by omega), rd_w4_same, ← hecif]; exact beBytes_beNat' (Mem.rd_length _ _ _)
  · simp only [stepIns, u1]; rw [rd_w4 (by omega), u3, rd_w4 (by omega), rd_w4 (by omega), p3, rd_w4 (by omega), rd_w4_same]
  · simp only [stepIns, u1]; rw [rd_w4 (by omega), u3, rd_w4 (by omega), rd_w4 (by omega), p3, rd_w4_same]
  · intro x hx
    simp only [stepIns, u1]
    rw [w4_out (by omega), u3, w4_out (by omega), w4_out (by omega), p3, w4_out (by omega), w4_out (by omega)]
  · intro r h6 h7
    simp [stepIns, upd, h7, u6 r h6 h7]

/-- The function is called. -/
structure AtFn (E : Env) (p t : M) (S A : Nat) : Prop where
  pc : t.pc = r4 p.mem (S + 20)
  sp : t.a 7 = A - 4
  fp : t.a 6 = S - 4
  a1 : t.a 1 = p.a 0
  ret : t.mem.rd (A - 4) 4 = beBytes 4 (E.L.at_ 10)
  frame : ∀ x, x < A - 4 ∨ A ≤ x → t.mem x = p.mem x
  d : t.d = p.d
  a : ∀ r, r ≠ 0 → r ≠ 1 → r ≠ 7 → t.a r = p.a r

/-- `ffi_prep_args` has returned. -/
theorem run_fn {E : Env} {p : M} {S A : Nat} (hp : p.pc = E.L.at_ 6) (hsp : p.a 7 = A - 8) (hfp : p.a 6 = S - 4) (hA : 12 ≤ A) (hS : A + 8 ≤ S) :
    ∃ t, Runs E p t ∧ AtFn E p t S A := by
  have hb : block E.fpu E.old 6 [.addqsp 8, .mova 0 1, .ldfa 24 0] = true := by generalize E.fpu = x; generalize E.old = y; revert x y; decide +kernel
  have hc : (code E.fpu E.old)[9]? = some .jsra := by generalize E.fpu = x; generalize E.old = y; revert x y; decide +kernel
  have r1 := runs_block hb hp
  generalize e1 : M.mk _ _ _ _ _ _ _ = s1 at r1
  have a1 : s1.a 7 = A ∧ s1.a 6 = S - 4 ∧ s1.mem = p.mem ∧ s1.pc = E.L.at_ 9 ∧ s1.d = p.d ∧ s1.a 1 = p.a 0 ∧ s1.a 0 = r4 p.mem (S + 20) ∧ ∀ r, r ≠ 0 → r ≠ 1 → r ≠ 7 → s1.a r = p.a r := by
    subst e1
    refine ⟨?_, ?_, ?_, rfl, ?_, ?_, ?_, fun r h0 h1 h7 => ?_⟩ <;> simp [exec, upd, *]
    · omega
    · rw [show S - 4 + 24 = S + 20 by omega]
  clear e1
  obtain ⟨p1, p2, p3, p4, p5, p6, p7, p8⟩ := a1
  refine ⟨_, r1.trans (step_at p4 hc), ?_, ?_, ?_, ?_, ?_, ?_, p5, ?_⟩
  · simp [stepIns, p7]
  · simp [stepIns, upd, p1]
  · simp [stepIns, upd, p2]
  · simp [stepIns, upd, p6]
  · simp only [stepIns, p1]; exact rd_w4_same _ _ _
  · intro x hx; simp only [stepIns, p1]; rw [w4_out (by omega), p3]
  · intro r h0 h1 h7; simp [stepIns, upd, h7, p8 r h0 h1 h7]

end Verif.M68k
