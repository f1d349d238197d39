import Verif.S390.Model

/-
Instructions of src/s390/sysv.S, with 31 bits (HAVE_AS_S390_ZARCH) and 64 bits, and their place in
the code.  Lengths follow the Principles of Operation; alignment is filled with two-byte no-ops
(nopr), as gas does.

Simplified: code is not read from memory; addresses do not wrap around; with 31 bits the
addressing-mode bit of addresses in registers is left out.
-/
namespace Verif.S390.Asm
open Verif Verif.S390

inductive Lbl
  | call | table | done | goClosure | closure | doclosure
  deriving DecidableEq, Repr

/-- Instructions; the names are those of the 31-bit file.  `st`, `l` and so on transfer words. -/
inductive Ins
  | st (a b d : Nat)        -- st %ra,d(%rb); stg
  | stm (a n b d : Nat)     -- stm %ra,%r(a+n-1),d(%rb); stmg
  | l (a b d : Nat)         -- l; lg
  | lm (a n b d : Nat)      -- lm; lmg
  | lr (a b : Nat)          -- lr; lgr
  | la (a b d : Nat)        -- la
  | larl (a : Nat) (l : Lbl)
  | sla (a k : Nat)         -- sla; slag %ra,%ra,k
  | ar (a b : Nat)          -- ar; agr
  | sub (a k : Nat)         -- ahi %ra,-k; aghi
  | ld (f b d : Nat)
  | std (f b d : Nat)
  | ste (f b d : Nat)
  | nop
  | nopr
  | br (a : Nat)
  | j (l : Lbl)
  | brasl (a : Nat)         -- brasl %ra,ffi_closure_helper_SYSV
  deriving DecidableEq, Repr

/-- Length in bytes. -/
def len (w : Nat) : Ins → Nat
  | .st .. | .stm .. | .l .. | .lm .. | .sla .. => if w = 8 then 6 else 4
  | .lr .. | .ar .. => if w = 8 then 4 else 2
  | .la .. | .sub .. | .ld .. | .std .. | .ste .. | .nop | .j .. => 4
  | .larl .. | .brasl .. => 6
  | .nopr | .br .. => 2

inductive Item
  | i (ins : Ins)
  | l (l : Lbl)
  | balign8
  deriving DecidableEq, Repr

/-- src/s390/sysv.S:44-179. -/
def items31 : List Item :=
  [.balign8, .l .call,
   .i (.st 6 2 44), .i (.stm 12 3 2 48), .i (.lr 13 2), .i (.st 2 15 0), .i (.sla 3 3), .i (.lr 12 4), .i (.lr 1 5), .i (.lr 0 6),
   .i (.larl 14 .table), .i (.ar 14 3),
   .i (.lm 2 5 13 8), .i (.ld 0 13 64), .i (.ld 2 13 72), .i (.br 1),
   .balign8, .l .table,
   .i (.std 0 12 0), .i (.j .done),
   .balign8,
   .i (.ste 0 12 0), .i (.j .done),
   .balign8,
   .i (.st 3 12 4), .i .nop,
   .balign8,
   .i (.st 2 12 0), .i .nop,
   .balign8, .l .done,
   .i (.l 14 13 56), .i (.l 12 13 48), .i (.l 6 13 44), .i (.l 13 13 52), .i (.br 14),
   .balign8, .l .goClosure,
   .i (.stm 2 5 15 8), .i (.lr 4 0), .i (.l 2 4 4), .i (.l 3 4 8), .i (.j .doclosure),
   .balign8, .l .closure,
   .i (.stm 2 5 15 8), .i (.lr 4 0), .i (.l 2 4 16), .i (.l 3 4 20), .i (.l 4 4 24),
   .l .doclosure,
   .i (.stm 12 4 15 48), .i (.lr 12 15), .i (.sub 15 104), .i (.st 12 15 0),
   .i (.std 0 12 64), .i (.std 2 12 72),
   .i (.la 5 12 96), .i (.st 5 15 96), .i (.la 6 12 64), .i (.la 5 12 8), .i (.brasl 14),
   .i (.lr 15 12), .i (.lm 12 3 12 48), .i (.l 6 15 24), .i (.ld 0 15 64), .i (.lm 2 2 15 8), .i (.br 14)]

/-- src/s390/sysv.S:198-319. -/
def items64 : List Item :=
  [.balign8, .l .call,
   .i (.st 6 2 88), .i (.stm 12 3 2 96), .i (.lr 13 2), .i (.st 2 15 0), .i (.larl 14 .table), .i (.sla 3 3), .i (.lr 12 4), .i (.lr 1 5),
   .i (.lr 0 6), .i (.ar 14 3),
   .i (.lm 2 5 13 16), .i (.ld 0 13 128), .i (.ld 2 13 136), .i (.ld 4 13 144), .i (.ld 6 13 152), .i (.br 1),
   .balign8, .l .table,
   .i (.std 0 12 0), .i (.j .done),
   .balign8,
   .i (.ste 0 12 0), .i (.j .done),
   .balign8,
   .i (.st 2 12 0),
   .balign8,
   .i .nop, .i .nop,
   .balign8, .l .done,
   .i (.l 14 13 112), .i (.l 12 13 96), .i (.l 6 13 88), .i (.l 13 13 104), .i (.br 14),
   .balign8, .l .goClosure,
   .i (.stm 2 5 15 16), .i (.lr 4 0), .i (.l 2 4 8), .i (.l 3 4 16), .i (.j .doclosure),
   .balign8, .l .closure,
   .i (.stm 2 5 15 16), .i (.lr 4 0), .i (.l 2 4 32), .i (.l 3 4 40), .i (.l 4 4 48),
   .l .doclosure,
   .i (.stm 13 3 15 104), .i (.lr 13 15), .i (.sub 15 176), .i (.st 13 15 0),
   .i (.std 0 13 128), .i (.std 2 13 136), .i (.std 4 13 144), .i (.std 6 13 152),
   .i (.la 5 13 160), .i (.st 5 15 160), .i (.la 6 13 128), .i (.la 5 13 16), .i (.brasl 14),
   .i (.lr 15 13), .i (.lm 13 2 13 104), .i (.l 6 15 48), .i (.ld 0 15 128), .i (.l 2 15 16), .i (.br 14)]

def items (w : Nat) : List Item := if w = 8 then items64 else items31

/-- Filling up to a multiple of eight from offset `o`. -/
def pad (o : Nat) : List (Nat × Ins) := (List.range ((8 - o % 8) % 8 / 2)).map fun k => (o + 2 * k, .nopr)

/-- The assembler: offsets of instructions and of labels. -/
def assemble (w : Nat) : List Item → Nat → List (Nat × Ins) × List (Lbl × Nat)
  | [], _ => ([], [])
  | .i i :: is, o => let r := assemble w is (o + len w i); ((o, i) :: r.1, r.2)
  | .l l :: is, o => let r := assemble w is o; (r.1, (l, o) :: r.2)
  | .balign8 :: is, o => let r := assemble w is ((o + 7) / 8 * 8); (pad o ++ r.1, r.2)

def fetch (w o : Nat) : Option Ins := (assemble w (items w) 0).1.lookup o
def off (w : Nat) (l : Lbl) : Nat := ((assemble w (items w) 0).2.lookup l).getD 0

/-- General registers, floating-point registers, memory, and the address of the next
instruction. -/
structure M where
  r : Nat → Nat
  f : Nat → List Byte
  mem : Mem
  pc : Nat

def upd {α : Type} (f : Nat → α) (k : Nat) (v : α) : Nat → α := fun x => if x = k then v else f x

/-- Words of successive registers. -/
def stores (w : Nat) (r : Nat → Nat) : Nat → Nat → Nat → Mem → Mem
  | _, 0, _, m => m
  | a, n + 1, ad, m => stores w r (a + 1) n (ad + w) (m.wr ad (beBytes w (r a)))

/-- An instruction that does not branch; `L` is the address of the code. -/
def exec (w L : Nat) (s : M) : Ins → M
  | .st a b d => { s with mem := s.mem.wr (s.r b + d) (beBytes w (s.r a)) }
  | .stm a n b d => { s with mem := stores w s.r a n (s.r b + d) s.mem }
  | .l a b d => { s with r := upd s.r a (beNat (s.mem.rd (s.r b + d) w)) }
  | .lm a n b d => { s with r := fun k => if a ≤ k ∧ k < a + n then beNat (s.mem.rd (s.r b + d + w * (k - a)) w) else s.r k }
  | .lr a b => { s with r := upd s.r a (s.r b) }
  | .la a b d => { s with r := upd s.r a (s.r b + d) }
  | .larl a l => { s with r := upd s.r a (L + off w l) }
  | .sla a k => { s with r := upd s.r a (s.r a * 2 ^ k % 256 ^ w) }
  | .ar a b => { s with r := upd s.r a ((s.r a + s.r b) % 256 ^ w) }
  | .sub a k => { s with r := upd s.r a (s.r a - k) }
  | .ld f b d => { s with f := upd s.f f (s.mem.rd (s.r b + d) 8) }
  | .std f b d => { s with mem := s.mem.wr (s.r b + d) (s.f f) }
  | .ste f b d => { s with mem := s.mem.wr (s.r b + d) ((s.f f).take 4) }
  | _ => s

/-- One step; `H` is the address of `ffi_closure_helper_SYSV`. -/
def step (w L H : Nat) (s : M) : Option M :=
  if s.pc < L then none
  else match fetch w (s.pc - L) with
    | none => none
    | some (.br a) => some { s with pc := s.r a }
    | some (.j l) => some { s with pc := L + off w l }
    | some (.brasl a) => some { s with r := upd s.r a (s.pc + 6), pc := H }
    | some i => some { exec w L s i with pc := s.pc + len w i }

/-- Any number of steps. -/
inductive Runs (w L H : Nat) : M → M → Prop
  | refl (s : M) : Runs w L H s s
  | cons {s t u : M} : step w L H s = some t → Runs w L H t u → Runs w L H s u

theorem Runs.trans {w L H : Nat} {s t u : M} (h : Runs w L H s t) (k : Runs w L H t u) : Runs w L H s u := by
  induction h with
  | refl => exact k
  | cons h _ ih => exact .cons h (ih k)

def plain : Ins → Bool
  | .br _ | .j _ | .brasl _ => false
  | _ => true

/-- The instructions are at the offset, one after the other. -/
def block (w : Nat) : Nat → List Ins → Bool
  | _, [] => true
  | o, i :: is => fetch w o == some i && plain i && block w (o + len w i) is

def lens (w : Nat) (is : List Ins) : Nat := (is.map (len w)).sum

theorem runs_block {w L H : Nat} : ∀ {is : List Ins} {o : Nat} {s : M}, block w o is = true → s.pc = L + o →
    Runs w L H s { is.foldl (exec w L) s with pc := L + o + lens w is }
  | [], o, s, _, hp => by
    have : ({ s with pc := L + o + lens w [] } : M) = s := by cases s; simp only [lens] at *; simp_all
    rw [List.foldl_nil, this]
    exact .refl s
  | i :: is, o, s, hb, hp => by
    simp only [block, Bool.and_eq_true, beq_iff_eq] at hb
    obtain ⟨⟨h1, h2⟩, h3⟩ := hb
    have hs : step w L H s = some { exec w L s i with pc := s.pc + len w i } := by
      unfold step
      rw [if_neg (by omega), show s.pc - L = o by omega, h1]
      cases i <;> first | rfl | cases h2
    refine .cons hs ?_
    have ih := runs_block (H := H) (L := L) (is := is) (s := { exec w L s i with pc := s.pc + len w i }) h3 (by show s.pc + _ = _; omega)
    have e : ∀ (is : List Ins) (s : M) (p : Nat), is.foldl (exec w L) { s with pc := p } = { is.foldl (exec w L) s with pc := p } := by
      intro is
      induction is with
      | nil => intro s p; rfl
      | cons i is ih =>
        intro s p
        rw [List.foldl_cons, List.foldl_cons, ← ih]
        cases i <;> rfl
    rw [e] at ih
    rw [List.foldl_cons]
    rw [show L + o + lens w (i :: is) = L + (o + len w i) + lens w is by unfold lens; simp only [List.map_cons, List.sum_cons]; omega]
    exact ih

theorem runs_br {w L H : Nat} {o a : Nat} {s : M} (hf : fetch w o = some (.br a)) (hp : s.pc = L + o) : Runs w L H s { s with pc := s.r a } := by
  refine .cons ?_ (.refl _)
  unfold step
  rw [if_neg (by omega), show s.pc - L = o by omega, hf]

theorem runs_j {w L H : Nat} {o : Nat} {l : Lbl} {s : M} (hf : fetch w o = some (.j l)) (hp : s.pc = L + o) : Runs w L H s { s with pc := L + off w l } := by
  refine .cons ?_ (.refl _)
  unfold step
  rw [if_neg (by omega), show s.pc - L = o by omega, hf]

theorem runs_brasl {w L H : Nat} {o a : Nat} {s : M} (hf : fetch w o = some (.brasl a)) (hp : s.pc = L + o) :
    Runs w L H s { s with r := upd s.r a (s.pc + 6), pc := H } := by
  refine .cons ?_ (.refl _)
  unfold step
  rw [if_neg (by omega), show s.pc - L = o by omega, hf]

end Verif.S390.Asm
