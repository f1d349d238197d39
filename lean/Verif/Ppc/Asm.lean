import Verif.Ppc.Model

/-
Instructions of src/powerpc/linux64.S and src/powerpc/linux64_closure.S, for ELF V2, little endian,
with `__VEC__` and without `__PCREL__`.  All instructions have four bytes.

Simplified: code is not read from memory; addresses of memory do not wrap around; `lfs` and `stfs`
convert as in Base/Fp.lean; the hints of branches are left out.
-/
namespace Verif.Ppc.Asm
open Verif Verif.Ppc

inductive Lbl
  -- linux64.S
  | call | callLocal | l1 | l2 | l3 | done | vec | fp | float | struct | floatHomog | vecOrSmall | smallS
  -- linux64_closure.S
  | closure | c0 | doclosure | ret | table | finish | morevector | morefloat | small | go | g0
  deriving DecidableEq, Repr

/-- Instructions; `b p n` is the address `p - n(%rb)`. -/
inductive Ins
  | std (a b p n : Nat)
  | ld (a b p n : Nat)
  | lwz (a b p n : Nat)
  | lwa (a b p n : Nat)
  | lhz (a b p n : Nat)
  | lha (a b p n : Nat)
  | lbz (a b p n : Nat)
  | extsb (a b : Nat)
  | lfd (f b p n : Nat)
  | stfd (f b p n : Nat)
  | lfs (f b p n : Nat)
  | stfs (f b p n : Nat)
  | lvx (v b : Nat)           -- lvx v,0,%rb
  | stvx (v b : Nat)
  | stdux (a b : Nat)         -- stdux %ra,%ra,%rb
  | stdu (a n : Nat)          -- stdu %ra,-n(%ra)
  | mr (a b : Nat)
  | addi (a b p n : Nat)
  | addil (a b : Nat) (l m : Lbl)   -- addi %ra,%rb,l-m
  | add (a b c : Nat)
  | sldi (a k : Nat)
  | cmpldi (a k : Nat)
  | tocHa (l : Lbl)           -- addis %r2,%r12,.TOC.-l@ha
  | tocLo (l : Lbl)           -- addi %r2,%r2,.TOC.-l@l
  | mflr (a : Nat)
  | mtlr (a : Nat)
  | mtctr (a : Nat)
  | mtcrf (k a : Nat)
  | nop
  | bf (k : Nat) (l : Lbl)
  | bt (k : Nat) (l : Lbl)
  | b (l : Lbl)
  | blr
  | bctr
  | bctrl
  | bl                        -- bl to the function in C
  deriving DecidableEq, Repr

inductive Item
  | i (ins : Ins)
  | l (l : Lbl)
  | align16
  deriving DecidableEq, Repr

/-- `ld %r3..` and so on: successive registers at successive addresses. -/
def regs (f : Nat → Nat → Ins) (a n d o : Nat) : List Item := (List.range n).map fun k => .i (f (a + k) (o + d * k))

/-- Vector registers downwards from `a`, src/powerpc/linux64.S:152-175: `addi %r29,%r29,-16; lvx`. -/
def vecs (op : Nat → Ins) (b a n : Nat) : List Item := (List.range n).flatMap fun k => [.i (.addi b b 0 16), .i (op (a - k))]

/-- src/powerpc/linux64.S:37-271. -/
def callItems : List Item :=
  [.l .call, .i (.tocHa .call), .i (.tocLo .call), .l .callLocal,
   .i (.mflr 0), .i (.std 28 1 0 32), .i (.std 29 1 0 24), .i (.std 30 1 0 16), .i (.std 31 1 0 8), .i (.std 7 1 8 0), .i (.std 0 1 16 0),
   .i (.mr 28 1), .i (.stdux 1 8), .i (.mr 31 6), .i (.mr 30 5), .i (.mr 29 4), .i (.std 2 1 24 0), .i (.mr 4 1), .i .bl, .i .nop,
   .i (.mr 12 29), .i (.mtcrf 0xc0 31), .i (.mtctr 12), .i (.addi 29 28 0 96)] ++
  regs (fun a d => .ld a 29 d 0) 3 4 8 0 ++ [.i (.bf 5 .l1)] ++ regs (fun a d => .ld a 29 d 0) 7 4 8 32 ++
  [.l .l1, .i (.bf 6 .l2), .i (.addi 29 29 0 112)] ++ regs (fun a d => .lfd a 29 d 0) 1 13 8 8 ++
  [.l .l2, .i (.bf 3 .l3)] ++ vecs (fun a => .lvx a 29) 29 13 12 ++
  [.l .l3, .i (.ld 11 28 8 0), .i .bctrl, .i (.ld 2 1 24 0), .i (.mtcrf 0x01 31), .i (.bt 31 .struct), .i (.bt 30 .done), .i (.bt 29 .fp), .i (.bt 28 .vec),
   .i (.std 3 30 0 0),
   .l .done, .i (.mr 1 28), .i (.ld 0 28 16 0), .i (.ld 28 28 0 32), .i (.mtlr 0), .i (.ld 29 1 0 24), .i (.ld 30 1 0 16), .i (.ld 31 1 0 8), .i .blr,
   .l .vec, .i (.stvx 2 30), .i (.b .done),
   .l .fp, .i (.mtcrf 0x02 31), .i (.bf 27 .float), .i (.stfd 1 30 0 0), .i (.bf 26 .done), .i (.stfd 2 30 8 0), .i (.b .done),
   .l .float, .i (.stfs 1 30 0 0), .i (.b .done),
   .l .struct, .i (.bf 29 .vecOrSmall), .i (.mtcrf 0x02 31), .i (.bf 27 .floatHomog)] ++ regs (fun a d => .stfd a 30 d 0) 1 8 8 0 ++ [.i (.b .done),
   .l .floatHomog] ++ regs (fun a d => .stfs a 30 d 0) 1 8 4 0 ++ [.i (.b .done),
   .l .vecOrSmall, .i (.bf 28 .smallS), .i (.stvx 2 30)] ++ (List.range 7).flatMap (fun k => [.i (.addi 30 30 16 0), .i (.stvx (3 + k) 30)]) ++ [.i (.b .done),
   .l .smallS, .i (.std 3 30 0 0), .i (.std 4 30 8 0), .i (.b .done)]

/-- The beginning of a closure, src/powerpc/linux64_closure.S:88-110, 501-523: `o` is the offset of the cif. -/
def closureHead (o : Nat) (l0 : Lbl) : List Item :=
  [.i (.ld 12 11 o 0), .i (.mflr 0), .i (.lwz 12 12 28 0), .i (.mtcrf 0x40 12), .i (.addi 12 1 32 0), .i (.bt 7 l0), .i (.addi 12 1 0 496), .l l0] ++
  regs (fun a d => .std a 12 d 0) 3 8 8 0 ++ [.i (.mr 7 12), .i (.std 0 1 16 0)]

/-- Back to the caller. -/
def leave : List Item := [.i (.mtlr 0), .i (.addi 1 1 528 0), .i .blr]

/-- src/powerpc/linux64_closure.S:38-454, 473-549. -/
def closureItems : List Item :=
  [.l .closure, .i (.tocHa .closure), .i (.tocLo .closure)] ++ closureHead 32 .c0 ++
  [.i (.ld 3 11 32 0), .i (.ld 4 11 40 0), .i (.ld 5 11 48 0), .l .doclosure] ++
  regs (fun a d => .stfd a 1 d 104) 1 13 8 0 ++ [.i (.addi 8 1 0 104), .i (.addi 9 8 0 24), .i (.stvx 13 9)] ++ vecs (fun a => .stvx a 9) 9 12 11 ++
  [.i (.addi 6 1 0 432), .i (.stdu 1 528), .i .bl, .l .ret, .i .nop,
   .i (.ld 0 1 544 0), .i (.cmpldi 3 19), .i (.bf 0 .small), .i (.mflr 4), .i (.sldi 3 4), .i (.addil 4 4 .table .ret), .i (.add 3 3 4), .i (.mtctr 3), .i .bctr,
   .align16, .l .table] ++
  leave ++ [.i .nop] ++
  [.i (.lwa 3 1 96 0)] ++ leave ++
  [.i (.lfs 1 1 96 0)] ++ leave ++
  [.i (.lfd 1 1 96 0)] ++ leave ++
  [.i (.lfd 1 1 96 0), .i (.mtlr 0), .i (.lfd 2 1 104 0), .i (.b .finish)] ++
  [.i (.lbz 3 1 96 0)] ++ leave ++
  [.i (.lbz 3 1 96 0), .i (.extsb 3 3), .i (.mtlr 0), .i (.b .finish)] ++
  [.i (.lhz 3 1 96 0), .i (.mtlr 0), .l .finish, .i (.addi 1 1 528 0), .i .blr] ++
  [.i (.lha 3 1 96 0)] ++ leave ++
  [.i (.lwz 3 1 96 0)] ++ leave ++
  [.i (.lwa 3 1 96 0)] ++ leave ++
  [.i (.ld 3 1 96 0)] ++ leave ++
  [.i (.ld 3 1 96 0)] ++ leave ++
  leave ++ [.i .nop] ++
  [.i (.ld 3 1 96 0)] ++ leave ++
  [.i (.addi 3 1 96 0), .i (.lvx 2 3), .i (.mtlr 0), .i (.b .finish)] ++
  [.i (.addi 3 1 96 0), .i (.lvx 2 3), .i (.addi 3 3 16 0), .i (.b .morevector)] ++
  [.i (.lfs 1 1 96 0), .i (.lfs 2 1 100 0), .i (.lfs 3 1 104 0), .i (.b .morefloat)] ++
  regs (fun a d => .lfd a 1 d 0) 1 4 8 96 ++ [.i (.mtlr 0)] ++ regs (fun a d => .lfd a 1 d 0) 5 4 8 128 ++ [.i (.addi 1 1 528 0), .i .blr] ++
  [.l .morevector, .i (.lvx 3 3), .i (.addi 3 3 16 0), .i (.lvx 4 3), .i (.addi 3 3 16 0), .i (.lvx 5 3), .i (.mtlr 0), .i (.addi 3 3 16 0), .i (.lvx 6 3),
   .i (.addi 3 3 16 0), .i (.lvx 7 3), .i (.addi 3 3 16 0), .i (.lvx 8 3), .i (.addi 3 3 16 0), .i (.lvx 9 3), .i (.addi 1 1 528 0), .i .blr] ++
  [.l .morefloat, .i (.lfs 4 1 108 0), .i (.mtlr 0)] ++ regs (fun a d => .lfs a 1 d 0) 5 4 4 112 ++ [.i (.addi 1 1 528 0), .i .blr] ++
  [.l .small, .i (.ld 3 1 96 0), .i (.mtlr 0), .i (.ld 4 1 104 0), .i (.addi 1 1 528 0), .i .blr] ++
  [.l .go, .i (.tocHa .go), .i (.tocLo .go)] ++ closureHead 8 .g0 ++ [.i (.ld 3 11 8 0), .i (.ld 4 11 16 0), .i (.mr 5 11), .i (.b .doclosure)]

/-- The assembler: instructions and labels, in words. -/
def assemble : List Item → Nat → List Ins × List (Lbl × Nat)
  | [], _ => ([], [])
  | .i i :: is, o => let r := assemble is (o + 1); (i :: r.1, r.2)
  | .l l :: is, o => let r := assemble is o; (r.1, (l, o) :: r.2)
  | .align16 :: is, o => let r := assemble is ((o + 3) / 4 * 4); (List.replicate ((4 - o % 4) % 4) .nop ++ r.1, r.2)

/-- The two files. -/
inductive File
  | call | closure
  deriving DecidableEq, Repr

def File.items : File → List Item
  | .call => callItems
  | .closure => closureItems

def code (c : File) : List Ins := (assemble c.items 0).1
/-- Offset of a label, in words. -/
def off (c : File) (l : Lbl) : Nat := ((assemble c.items 0).2.lookup l).getD 0

/-- Registers, memory, and the address of the next instruction. -/
structure M where
  r : Nat → Nat
  f : Nat → Nat
  v : Nat → Nat
  cr : Nat → Bool
  lr : Nat
  ctr : Nat
  mem : Mem
  pc : Nat

def upd {α : Type} (f : Nat → α) (k : Nat) (v : α) : Nat → α := fun x => if x = k then v else f x

/-- Sign extension from `k` bits to 64. -/
def sx (k v : Nat) : Nat := if 2 ^ (k - 1) ≤ v then v + 2 ^ 64 - 2 ^ k else v

/-- Where the code, the function in C, and the TOC are. -/
structure Env where
  L : Nat
  H : Nat
  T : Nat

/-- `.TOC.-l@ha` and `.TOC.-l@l`. -/
def ha (d : Int) : Int := (d + 32768) / 65536
def lo (d : Int) : Int := d - ha d * 65536

/-- An instruction that does not branch. -/
def exec (c : File) (E : Env) (s : M) : Ins → M
  | .std a b p n => { s with mem := s.mem.wr (s.r b + p - n) (leBytes 8 (s.r a)) }
  | .ld a b p n => { s with r := upd s.r a (leNat (s.mem.rd (s.r b + p - n) 8)) }
  | .lwz a b p n => { s with r := upd s.r a (leNat (s.mem.rd (s.r b + p - n) 4)) }
  | .lwa a b p n => { s with r := upd s.r a (sx 32 (leNat (s.mem.rd (s.r b + p - n) 4))) }
  | .lhz a b p n => { s with r := upd s.r a (leNat (s.mem.rd (s.r b + p - n) 2)) }
  | .lha a b p n => { s with r := upd s.r a (sx 16 (leNat (s.mem.rd (s.r b + p - n) 2))) }
  | .lbz a b p n => { s with r := upd s.r a (leNat (s.mem.rd (s.r b + p - n) 1)) }
  | .extsb a b => { s with r := upd s.r a (sx 8 (s.r b % 256)) }
  | .lfd f b p n => { s with f := upd s.f f (leNat (s.mem.rd (s.r b + p - n) 8)) }
  | .stfd f b p n => { s with mem := s.mem.wr (s.r b + p - n) (leBytes 8 (s.f f)) }
  | .lfs f b p n => { s with f := upd s.f f (dblOf (leNat (s.mem.rd (s.r b + p - n) 4))) }
  | .stfs f b p n => { s with mem := s.mem.wr (s.r b + p - n) (leBytes 4 (sglOf (s.f f))) }
  | .lvx v b => { s with v := upd s.v v (leNat (s.mem.rd (s.r b / 16 * 16) 16)) }
  | .stvx v b => { s with mem := s.mem.wr (s.r b / 16 * 16) (leBytes 16 (s.v v)) }
  | .stdux a b => { s with r := upd s.r a ((s.r a + s.r b) % 2 ^ 64), mem := s.mem.wr ((s.r a + s.r b) % 2 ^ 64) (leBytes 8 (s.r a)) }
  | .stdu a n => { s with r := upd s.r a (s.r a - n), mem := s.mem.wr (s.r a - n) (leBytes 8 (s.r a)) }
  | .mr a b => { s with r := upd s.r a (s.r b) }
  | .addi a b p n => { s with r := upd s.r a (s.r b + p - n) }
  | .addil a b l m => { s with r := upd s.r a ((s.r b + 4 * off c l - 4 * off c m) % 2 ^ 64) }
  | .add a b d => { s with r := upd s.r a ((s.r b + s.r d) % 2 ^ 64) }
  | .sldi a k => { s with r := upd s.r a (s.r a * 2 ^ k % 2 ^ 64) }
  | .cmpldi a k => { s with cr := fun n => if n = 0 then decide (s.r a < k) else if n = 1 then decide (k < s.r a) else if n = 2 then decide (s.r a = k) else if n = 3 then false else s.cr n }
  | .tocHa l => { s with r := upd s.r 2 (((s.r 12 : Int) + ha ((E.T : Int) - (E.L + 4 * off c l : Nat)) * 65536) % 2 ^ 64).toNat }
  | .tocLo l => { s with r := upd s.r 2 (((s.r 2 : Int) + lo ((E.T : Int) - (E.L + 4 * off c l : Nat))) % 2 ^ 64).toNat }
  | .mflr a => { s with r := upd s.r a s.lr }
  | .mtlr a => { s with lr := s.r a }
  | .mtctr a => { s with ctr := s.r a }
  | .mtcrf k a => { s with cr := fun n => if n < 32 ∧ k.testBit (7 - n / 4) then (s.r a).testBit (31 - n) else s.cr n }
  | _ => s

/-- One step. -/
def step (c : File) (E : Env) (s : M) : Option M :=
  if s.pc < E.L ∨ (s.pc - E.L) % 4 ≠ 0 then none
  else match (code c)[(s.pc - E.L) / 4]? with
    | none => none
    | some (.bf k l) => some { s with pc := if s.cr k then s.pc + 4 else E.L + 4 * off c l }
    | some (.bt k l) => some { s with pc := if s.cr k then E.L + 4 * off c l else s.pc + 4 }
    | some (.b l) => some { s with pc := E.L + 4 * off c l }
    | some .blr => some { s with pc := s.lr / 4 * 4 }
    | some .bctr => some { s with pc := s.ctr / 4 * 4 }
    | some .bctrl => some { s with pc := s.ctr / 4 * 4, lr := s.pc + 4 }
    | some .bl => some { s with pc := E.H, lr := s.pc + 4 }
    | some i => some { exec c E s i with pc := s.pc + 4 }

/-- Any number of steps. -/
inductive Runs (c : File) (E : Env) : M → M → Prop
  | refl (s : M) : Runs c E s s
  | cons {s t u : M} : step c E s = some t → Runs c E t u → Runs c E s u

theorem Runs.trans {c : File} {E : Env} {s t u : M} (h : Runs c E s t) (k : Runs c E t u) : Runs c E s u := by
  induction h with
  | refl => exact k
  | cons h _ ih => exact .cons h (ih k)

def plain : Ins → Bool
  | .bf .. | .bt .. | .b _ | .blr | .bctr | .bctrl | .bl => false
  | _ => true

/-- The instructions are at the offset, one after the other. -/
def block (c : File) (o : Nat) (is : List Ins) : Bool := (((code c).drop o).take is.length == is) && is.all plain

theorem block_cons {c : File} {o : Nat} {i : Ins} {is : List Ins} (h : block c o (i :: is) = true) :
    (code c)[o]? = some i ∧ plain i = true ∧ block c (o + 1) is = true := by
  simp only [block, Bool.and_eq_true, beq_iff_eq, List.all_cons, List.length_cons] at h ⊢
  obtain ⟨h1, h2, h3⟩ := h
  cases hd : (code c).drop o with
  | nil => rw [hd] at h1; cases h1
  | cons x xs =>
    rw [hd, List.take_succ_cons, List.cons.injEq] at h1
    obtain ⟨rfl, h1⟩ := h1
    refine ⟨?_, h2, ?_, h3⟩
    · rw [← List.head?_drop, hd]; rfl
    · have : (code c).drop (o + 1) = xs := by rw [← List.drop_drop, hd]; rfl
      rw [this]
      exact h1

theorem step_plain {c : File} {E : Env} {s : M} {o : Nat} {i : Ins} (hc : (code c)[o]? = some i) (hp : plain i = true) (hpc : s.pc = E.L + 4 * o) :
    step c E s = some { exec c E s i with pc := s.pc + 4 } := by
  unfold step
  rw [if_neg (by omega), show (s.pc - E.L) / 4 = o by omega, hc]
  cases i <;> first | rfl | cases hp

theorem runs_block {c : File} {E : Env} : ∀ (is : List Ins) (o : Nat) {s : M}, block c o is = true → s.pc = E.L + 4 * o →
    Runs c E s { is.foldl (exec c E) s with pc := E.L + 4 * (o + is.length) }
  | [], o, s, _, hp => by
    have : ({ s with pc := E.L + 4 * (o + 0) } : M) = s := by cases s; simp only [Nat.add_zero] at *; simp_all
    rw [List.foldl_nil, List.length_nil, this]
    exact .refl s
  | i :: is, o, s, hb, hp => by
    obtain ⟨h1, h2, h3⟩ := block_cons hb
    refine .cons (step_plain h1 h2 hp) ?_
    have ih := runs_block (E := E) is (o + 1) (s := { exec c E s i with pc := s.pc + 4 }) h3 (by show s.pc + 4 = _; omega)
    have e : ∀ (is : List Ins) (s : M) (p : Nat), is.foldl (exec c E) { s with pc := p } = { is.foldl (exec c E) s with pc := p } := by
      intro is
      induction is with
      | nil => intro s p; rfl
      | cons i is ih =>
        intro s p
        rw [List.foldl_cons, List.foldl_cons, ← ih]
        cases i <;> rfl
    rw [e] at ih
    rw [List.foldl_cons, List.length_cons, show o + (is.length + 1) = o + 1 + is.length by omega]
    exact ih

theorem runs_bf {c : File} {E : Env} {o k : Nat} {l : Lbl} {s : M} (hf : (code c)[o]? = some (.bf k l)) (hp : s.pc = E.L + 4 * o) :
    Runs c E s { s with pc := if s.cr k then E.L + 4 * (o + 1) else E.L + 4 * off c l } := by
  refine .cons ?_ (.refl _)
  unfold step
  rw [if_neg (by omega), show (s.pc - E.L) / 4 = o by omega, hf, show E.L + 4 * (o + 1) = s.pc + 4 by omega]

theorem runs_bt {c : File} {E : Env} {o k : Nat} {l : Lbl} {s : M} (hf : (code c)[o]? = some (.bt k l)) (hp : s.pc = E.L + 4 * o) :
    Runs c E s { s with pc := if s.cr k then E.L + 4 * off c l else E.L + 4 * (o + 1) } := by
  refine .cons ?_ (.refl _)
  unfold step
  rw [if_neg (by omega), show (s.pc - E.L) / 4 = o by omega, hf, show E.L + 4 * (o + 1) = s.pc + 4 by omega]

theorem runs_b {c : File} {E : Env} {o : Nat} {l : Lbl} {s : M} (hf : (code c)[o]? = some (.b l)) (hp : s.pc = E.L + 4 * o) :
    Runs c E s { s with pc := E.L + 4 * off c l } := by
  refine .cons ?_ (.refl _)
  unfold step
  rw [if_neg (by omega), show (s.pc - E.L) / 4 = o by omega, hf]

theorem runs_blr {c : File} {E : Env} {o : Nat} {s : M} (hf : (code c)[o]? = some .blr) (hp : s.pc = E.L + 4 * o) :
    Runs c E s { s with pc := s.lr / 4 * 4 } := by
  refine .cons ?_ (.refl _)
  unfold step
  rw [if_neg (by omega), show (s.pc - E.L) / 4 = o by omega, hf]

theorem runs_bctr {c : File} {E : Env} {o : Nat} {s : M} (hf : (code c)[o]? = some .bctr) (hp : s.pc = E.L + 4 * o) :
    Runs c E s { s with pc := s.ctr / 4 * 4 } := by
  refine .cons ?_ (.refl _)
  unfold step
  rw [if_neg (by omega), show (s.pc - E.L) / 4 = o by omega, hf]

theorem runs_bctrl {c : File} {E : Env} {o : Nat} {s : M} (hf : (code c)[o]? = some .bctrl) (hp : s.pc = E.L + 4 * o) :
    Runs c E s { s with pc := s.ctr / 4 * 4, lr := E.L + 4 * (o + 1) } := by
  refine .cons ?_ (.refl _)
  unfold step
  rw [if_neg (by omega), show (s.pc - E.L) / 4 = o by omega, hf, show E.L + 4 * (o + 1) = s.pc + 4 by omega]

theorem runs_bl {c : File} {E : Env} {o : Nat} {s : M} (hf : (code c)[o]? = some .bl) (hp : s.pc = E.L + 4 * o) :
    Runs c E s { s with pc := E.H, lr := E.L + 4 * (o + 1) } := by
  refine .cons ?_ (.refl _)
  unfold step
  rw [if_neg (by omega), show (s.pc - E.L) / 4 = o by omega, hf, show E.L + 4 * (o + 1) = s.pc + 4 by omega]

/-- `addis`, `addi`: the TOC pointer. -/
theorem toc_ok {c : File} {E : Env} {s : M} {l : Lbl} (h : s.r 12 = E.L + 4 * off c l) (hT : E.T < 2 ^ 64) :
    (exec c E (exec c E s (.tocHa l)) (.tocLo l)) = { s with r := upd s.r 2 E.T } := by
  have hu : ∀ (f : Nat → Nat) (a b : Nat), upd (upd f 2 a) 2 b = upd f 2 b := by
    intro f a b; funext x; unfold upd; split <;> simp_all
  simp only [exec, hu, h]
  congr 1
  congr 1
  have h1 : ∀ x : Nat, upd s.r 2 x 2 = x := by intro x; simp [upd]
  rw [h1]
  unfold lo
  generalize ha _ = q
  omega

end Verif.Ppc.Asm
