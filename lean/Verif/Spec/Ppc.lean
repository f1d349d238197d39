import Verif.Base.FType
import Verif.Base.Mem
import Verif.Base.Fp

/-
The 64-bit ELF V2 ABI of Linux on Power, little endian, for types that libffi can describe there
(no complex numbers).  Independent of the model.
-/
namespace Verif.Spec.Ppc
open Verif

/-- What `long double` is: a double, a pair of doubles (IBM), or IEEE binary128. -/
inductive LD
  | dbl | ibm | ieee
  deriving DecidableEq, Repr

/-- The data model. -/
def tab (ld : LD) : ScalarTab
  | .uint8 | .sint8 => some (1, 1)
  | .uint16 | .sint16 => some (2, 2)
  | .uint32 | .sint32 | .float => some (4, 4)
  | .uint64 | .sint64 | .double | .pointer => some (8, 8)
  | .longdouble => if ld = .dbl then some (8, 8) else some (16, 16)
  | _ => none

mutual
/-- No complex numbers. -/
def plain : FType → Bool
  | .mk _ _ tc es => tc != .complex && plainL es
def plainL : List FType → Bool
  | [] => true
  | e :: es => plain e && plainL es
end

/-- Types of arguments and results. -/
def Ty (ld : LD) (t : FType) : Prop := WF (tab ld) t ∧ plain t = true

/-! ## Homogeneous types -/

/-- Floating-point classes; a `long double` that is a pair of doubles differs from doubles. -/
inductive Cls
  | f32 | f64 | ibm | v128
  deriving DecidableEq, Repr

def cls (ld : LD) : TC → Option Cls
  | .float => some .f32
  | .double => some .f64
  | .longdouble => some (match ld with | .dbl => .f64 | .ibm => .ibm | .ieee => .v128)
  | _ => none

/-- Registers for one number, and the bytes that each of them stands for. -/
def Cls.regs : Cls → Nat
  | .ibm => 2
  | _ => 1

def Cls.bytes : Cls → Nat
  | .f32 => 4
  | .f64 | .ibm => 8
  | .v128 => 16

/-- A number, or a struct of numbers of one class that takes up to eight registers: the class and
how many registers. -/
def homog (ld : LD) (t : FType) : Option (Cls × Nat) :=
  match (leaves t 0).map fun l => cls ld l.tc with
  | some c :: cs => if cs.all (· == some c) ∧ c.regs * (cs.length + 1) ≤ 8 then some (c, c.regs * (cs.length + 1)) else none
  | _ => none

/-! ## Arguments -/

/-- Where an argument is passed.  `slot` counts the doublewords of the parameter list: the first
eight are r3 to r10, the others in memory. -/
inductive Place
  /-- a doubleword with an integer, widened -/
  | int (slot : Nat)
  /-- the bytes of a struct -/
  | agg (slot : Nat)
  /-- `n` parts, each in its register from number `r`, if there is one, else in its doubleword -/
  | parts (slot : Nat) (c : Cls) (n r : Nat) (named : Bool)
  deriving DecidableEq, Repr

/-- Doublewords, floating-point registers and vector registers that have been used. -/
structure Pos where
  slot : Nat
  nf : Nat
  nv : Nat
  deriving DecidableEq, Repr

/-- Quadword alignment. -/
def even (n : Nat) : Nat := (n + 1) / 2 * 2

/-- The first doubleword for an argument: structs that are aligned to 16 bytes and binary128 are
aligned. -/
def first (ld : LD) (t : FType) (s : Nat) : Nat :=
  if t.align = 16 ∧ (t.tc = .struct ∨ ld = .ieee) then even s else s

def placeArg (ld : LD) (named : Bool) (t : FType) (p : Pos) : Place × Pos :=
  let s := first ld t p.slot
  match homog ld t with
  | some (.v128, n) => (.parts s .v128 n p.nv named, { p with slot := s + (t.size + 7) / 8, nv := p.nv + n })
  | some (c, n) => (.parts s c n p.nf named, { p with slot := s + (t.size + 7) / 8, nf := p.nf + n })
  | none => (if t.tc = .struct then .agg s else .int s, { p with slot := s + (t.size + 7) / 8 })

/-- `k` arguments are named. -/
def placeFrom (ld : LD) : Nat → List FType → Pos → List Place
  | _, [], _ => []
  | k, t :: ts, p => (placeArg ld (decide (0 < k)) t p).1 :: placeFrom ld (k - 1) ts (placeArg ld (decide (0 < k)) t p).2

def endFrom (ld : LD) : List FType → Pos → Pos
  | [], p => p
  | t :: ts, p => endFrom ld ts (placeArg ld true t p).2

/-! ## Results -/

inductive RPlace
  | void
  /-- r3, widened -/
  | int
  /-- registers from f1 or v2 -/
  | parts (c : Cls) (n : Nat)
  /-- the bytes of r3 and r4 -/
  | small
  /-- memory addressed by r3 on entry -/
  | mem
  deriving DecidableEq, Repr

def retPlace (ld : LD) (t : FType) : RPlace :=
  if t.tc = .void then .void
  else match homog ld t with
    | some (c, n) => .parts c n
    | none => if t.tc = .struct then (if t.size ≤ 16 then .small else .mem) else .int

def start (ld : LD) (rt : FType) : Pos := ⟨if retPlace ld rt = .mem then 1 else 0, 0, 0⟩

def places (ld : LD) (rt : FType) (k : Nat) (ts : List FType) : List Place := placeFrom ld k ts (start ld rt)

/-! ## Values -/

def signed : TC → Bool
  | .sint8 | .sint16 | .sint32 | .sint64 => true
  | _ => false

def intVal (tc : TC) (v : List Byte) : Int :=
  if signed tc ∧ 2 ^ (8 * v.length - 1) ≤ leNat v then (leNat v : Int) - 2 ^ (8 * v.length) else leNat v

/-- Contents of registers r(3+k), f(1+k), v(2+k), memory, and the stack pointer. -/
structure Regs where
  gpr : Nat → Nat
  fpr : Nat → Nat
  vec : Nat → Nat
  mem : Mem
  sp : Nat

/-- The parameter list as a sequence of bytes. -/
def Regs.img (R : Regs) : Mem := fun o => if o < 64 then (leBytes 8 (R.gpr (o / 8))).getD (o % 8) 0 else R.mem (R.sp + 32 + o)

/-- Registers for numbers of the class. -/
def Cls.count : Cls → Nat
  | .v128 => 12
  | _ => 13

/-- A register holds a part. -/
def InReg (R : Regs) (c : Cls) (k : Nat) (v : List Byte) : Prop :=
  match c with
  | .f32 => R.fpr k = dblOf (leNat v)
  | .f64 | .ibm => R.fpr k = leNat v
  | .v128 => R.vec k = leNat v

/-- The `j`-th part of a value. -/
def part (c : Cls) (v : List Byte) (j : Nat) : List Byte := (v.drop (c.bytes * j)).take c.bytes

/-- The value is passed at the place. -/
def PassedAt (R : Regs) (t : FType) (v : List Byte) : Place → Prop
  | .int s => (leNat (R.img.rd (8 * s) 8) : Int) = intVal t.tc v % 2 ^ 64
  | .agg s => R.img.rd (8 * s) t.size = v
  | .parts s c n r named => ∀ j, j < n →
      if named = true ∧ r + j < c.count then InReg R c (r + j) (part c v j)
      else R.img.rd (8 * s + c.bytes * j) c.bytes = part c v j

def AllPassed (R : Regs) : List FType → List (List Byte) → List Place → Prop
  | t :: ts, v :: vs, l :: ls => PassedAt R t v l ∧ AllPassed R ts vs ls
  | [], [], [] => True
  | _, _, _ => False

/-- Some of the argument is in memory. -/
def InMem (t : FType) : Place → Prop
  | .int s => 8 < s + 1
  | .agg s => 64 < 8 * s + t.size
  | .parts s c n r named => ∃ j, j < n ∧ ¬ (named = true ∧ r + j < c.count) ∧ 64 < 8 * s + c.bytes * (j + 1)

/-- The caller provides memory for the parameter list, of eight doublewords or more: the function
takes variable arguments, or some argument is in memory. -/
def HasArea (var : Bool) (ts : List FType) (ls : List Place) : Prop := var = true ∨ ∃ x ∈ ts.zip ls, InMem x.1 x.2

/-- A function has returned the value, not in memory. -/
def Returned (ld : LD) (t : FType) (v : List Byte) (R : Regs) : Prop :=
  v.length = t.size ∧
  match retPlace ld t with
  | .int => (R.gpr 0 : Int) = intVal t.tc v % 2 ^ 64
  | .parts c n => ∀ j, j < n → InReg R c j (part c v j)
  | .small => (leBytes 8 (R.gpr 0) ++ leBytes 8 (R.gpr 1)).take t.size = v
  | _ => True

end Verif.Spec.Ppc
