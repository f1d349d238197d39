import Verif.Base.FType
import Verif.Base.BE

/-
The calling conventions of Linux on S/390 (31 bits) and z/Architecture (64 bits), ELF ABI
supplements, for types that libffi can describe.  Independent of the model.
-/
namespace Verif.Spec.S390
open Verif

/-- The data model, by the size of words: `long double` has 16 bytes and is aligned to eight. -/
def tab (w : Nat) : ScalarTab
  | .uint8 | .sint8 => some (1, 1)
  | .uint16 | .sint16 => some (2, 2)
  | .uint32 | .sint32 | .float => some (4, 4)
  | .uint64 | .sint64 | .double => some (8, 8)
  | .pointer => some (w, w)
  | .longdouble => some (16, 8)
  | _ => none

/-- Registers for floating-point arguments: f0 and f2, and f4 and f6 with 64 bits. -/
def fprs (w : Nat) : Nat := if w = 8 then 4 else 2

/-- Size of the register save area, which lies between the stack pointer and the arguments on
the stack. -/
def saveArea (w : Nat) : Nat := if w = 8 then 160 else 96

/-- How arguments are passed: as integers, as floating-point numbers, by reference to a copy. -/
inductive Kind
  | int | fp | ref
  deriving DecidableEq, Repr

/-- A struct with nothing but one `float` or `double` in it is passed like that; other structs
of 1, 2, 4 and 8 bytes are passed like unsigned integers. -/
def kind (t : FType) : Kind :=
  match t.tc with
  | .float | .double => .fp
  | .struct =>
    if (leaves t 0).map (·.tc) = [.float] ∨ (leaves t 0).map (·.tc) = [.double] then .fp
    else if t.size = 1 ∨ t.size = 2 ∨ t.size = 4 ∨ t.size = 8 then .int else .ref
  | .complex | .longdouble => .ref
  | _ => .int

/-- General register r2 + k, or a word of the stack arguments. -/
inductive Loc
  | gpr (k : Nat)
  | stk (off : Nat)
  deriving DecidableEq, Repr

/-- Where an argument is passed. -/
inductive Place
  /-- a word: integers are widened, a `float` is in its last bytes -/
  | word (l : Loc)
  /-- general registers r2 + k and r3 + k (31 bits) -/
  | pair (k : Nat)
  /-- eight bytes of the stack (31 bits) -/
  | two (off : Nat)
  /-- the first bytes of register f(2k) -/
  | fpr (k : Nat)
  /-- the word holds the address of a copy -/
  | ref (l : Loc)
  deriving DecidableEq, Repr

/-- General registers, floating-point registers and bytes on the stack in use. -/
structure Pos where
  ng : Nat
  nf : Nat
  ns : Nat
  deriving DecidableEq, Repr

/-- The next word. -/
def nextWord (w : Nat) (p : Pos) : Loc × Pos :=
  if p.ng < 5 then (.gpr p.ng, { p with ng := p.ng + 1 }) else (.stk p.ns, { p with ns := p.ns + w })

def placeArg (w : Nat) (t : FType) (p : Pos) : Place × Pos :=
  match kind t with
  | .fp =>
    if p.nf < fprs w then (.fpr p.nf, { p with nf := p.nf + 1 })
    else if t.size ≤ w then (.word (.stk p.ns), { p with ns := p.ns + w })
    else (.two p.ns, { p with ns := p.ns + 8 })
  | .int =>
    if t.size ≤ w then (.word (nextWord w p).1, (nextWord w p).2)
    else if p.ng + 2 ≤ 5 then (.pair p.ng, { p with ng := p.ng + 2 })
    else (.two p.ns, { p with ng := 5, ns := p.ns + 8 })
  | .ref => (.ref (nextWord w p).1, (nextWord w p).2)

def placeFrom (w : Nat) : List FType → Pos → List Place
  | [], _ => []
  | t :: ts, p => (placeArg w t p).1 :: placeFrom w ts (placeArg w t p).2

def endFrom (w : Nat) : List FType → Pos → Pos
  | [], p => p
  | t :: ts, p => endFrom w ts (placeArg w t p).2

/-! ## Results -/

inductive RPlace
  | void
  /-- r2, or r2 and r3 -/
  | int
  /-- f0 -/
  | fp
  /-- memory addressed by r2 on entry -/
  | mem
  deriving DecidableEq, Repr

def retPlace (t : FType) : RPlace :=
  match t.tc with
  | .void => .void
  | .float | .double => .fp
  | .struct | .complex | .longdouble => .mem
  | _ => .int

/-- Position of the first argument. -/
def start (rt : FType) : Pos := ⟨if retPlace rt = .mem then 1 else 0, 0, 0⟩

def places (w : Nat) (rt : FType) (ts : List FType) : List Place := placeFrom w ts (start rt)

/-! ## Values -/

def signed : TC → Bool
  | .sint8 | .sint16 | .sint32 | .sint64 => true
  | _ => false

/-- The value of an integer; structs count as unsigned. -/
def intVal (tc : TC) (v : List Byte) : Int :=
  if signed tc ∧ 2 ^ (8 * v.length - 1) ≤ beNat v then (beNat v : Int) - 2 ^ (8 * v.length) else beNat v

/-- Machine state when a function is entered, or, as regards registers, left: words of r2 to r6,
the eight bytes of f0, f2, f4, f6. -/
structure Regs where
  gpr : Nat → List Byte
  fpr : Nat → List Byte
  mem : Mem
  sp : Nat

def Regs.at (w : Nat) (R : Regs) : Loc → List Byte
  | .gpr k => R.gpr k
  | .stk o => R.mem.rd (R.sp + saveArea w + o) w

/-- The value is passed at the place. -/
def PassedAt (w : Nat) (R : Regs) (t : FType) (v : List Byte) : Place → Prop
  | .word l =>
    if kind t = .int then (beNat (R.at w l) : Int) = intVal t.tc v % 2 ^ (8 * w) else (R.at w l).drop (w - t.size) = v
  | .pair k => R.gpr k ++ R.gpr (k + 1) = v
  | .two o => R.mem.rd (R.sp + saveArea w + o) 8 = v
  | .fpr k => (R.fpr k).take t.size = v
  | .ref l => R.mem.rd (beNat (R.at w l)) t.size = v

def AllPassed (w : Nat) (R : Regs) : List FType → List (List Byte) → List Place → Prop
  | t :: ts, v :: vs, l :: ls => PassedAt w R t v l ∧ AllPassed w R ts vs ls
  | [], [], [] => True
  | _, _, _ => False

/-- The copies that the arguments refer to: address and size. -/
def copies (w : Nat) (R : Regs) : List FType → List Place → List (Nat × Nat)
  | t :: ts, .ref l :: ls => (beNat (R.at w l), t.size) :: copies w R ts ls
  | _ :: ts, _ :: ls => copies w R ts ls
  | _, _ => []

/-- A function has returned the value, not in memory: `r2`, `r3`, `f0` are the contents of the
registers. -/
def Returned (w : Nat) (t : FType) (v r2 r3 f0 : List Byte) : Prop :=
  v.length = t.size ∧
  (retPlace t = .int → if t.size ≤ w then (beNat r2 : Int) = intVal t.tc v % 2 ^ (8 * w) else r2 ++ r3 = v) ∧
  (retPlace t = .fp → f0.take t.size = v)

end Verif.Spec.S390
