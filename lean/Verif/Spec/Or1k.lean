import Verif.Base.FType
import Verif.Base.BE
import Verif.Base.Mem

/-
The calling convention of OpenRISC 1000 (OpenRISC 1000 Architecture Manual, chapter 16, as GCC has it), for types that libffi
can describe there: it has no complex types, and `long double` is `double`.  Big-endian, 32 bits.  Independent of the model.
-/
namespace Verif.Spec.Or1k
open Verif

/-- Nothing is aligned to more than four bytes. -/
def tab : ScalarTab
  | .uint8 | .sint8 => some (1, 1)
  | .uint16 | .sint16 => some (2, 2)
  | .uint32 | .sint32 | .float | .pointer => some (4, 4)
  | .uint64 | .sint64 | .double => some (8, 4)
  | _ => none

/-- Types of arguments. -/
def Ty (t : FType) : Prop := WF tab t ∧ t.tc ≠ .complex

/-- Words of an argument: structs are passed by reference to a copy. -/
def words (t : FType) : Nat := if t.tc = .struct then 1 else (t.size + 3) / 4

def signed : TC → Bool
  | .sint8 | .sint16 | .sint32 => true
  | _ => false

/-- The number that the bytes stand for. -/
def intVal (tc : TC) (v : List Byte) : Int :=
  if signed tc ∧ 2 ^ (8 * v.length - 1) ≤ beNat v then (beNat v : Int) - 2 ^ (8 * v.length) else beNat v

/-- Machine state when a function is entered: r3 + k, memory, the stack pointer. -/
structure Regs where
  r : Nat → Nat
  mem : Mem
  sp : Nat

/-- Registers and words of the stack in use. -/
structure Pos where
  g : Nat
  w : Nat
  deriving DecidableEq, Repr

/-- An argument with a name is in registers if all of it fits; arguments are not split. -/
def inRegs (named : Nat) (p : Pos) (k : Nat) : Bool := decide (0 < named ∧ p.g + k ≤ 6)

/-- Word `i` of the next argument. -/
def Regs.word (R : Regs) (b : Bool) (p : Pos) (i : Nat) : Nat := if b then R.r (p.g + i) else beNat (R.mem.rd (R.sp + 4 * (p.w + i)) 4)

/-- No register is used for an argument that follows one on the stack. -/
def next (b : Bool) (p : Pos) (k : Nat) : Pos := if b then ⟨p.g + k, p.w⟩ else ⟨6, p.w + k⟩

/-- The words are a value.  Small integers are extended. -/
def Passed (m : Mem) (W : Nat → Nat) (t : FType) (v : List Byte) : Prop :=
  match t.tc with
  | .struct => m.rd (W 0) t.size = v
  | .uint64 | .sint64 | .double => beBytes 4 (W 0) ++ beBytes 4 (W 1) = v
  | tc => (W 0 : Int) = intVal tc v % 2 ^ 32

/-- `n` arguments with names are left. -/
def AllPassed (R : Regs) : Nat → Pos → List FType → List (List Byte) → Prop
  | n, p, t :: ts, v :: vs =>
    Passed R.mem (R.word (inRegs n p (words t)) p) t v ∧ AllPassed R (n - 1) (next (inRegs n p (words t)) p (words t)) ts vs
  | _, _, [], [] => True
  | _, _, _, _ => False

/-- Registers and stack in use after the arguments. -/
def endPos : Nat → Pos → List FType → Pos
  | _, p, [] => p
  | n, p, t :: ts => endPos (n - 1) (next (inRegs n p (words t)) p (words t)) ts

/-- The objects that are passed by reference: address and size. -/
def refs (R : Regs) : Nat → Pos → List FType → List (Nat × Nat)
  | _, _, [] => []
  | n, p, t :: ts => (if t.tc = .struct then [(R.word (inRegs n p (words t)) p 0, t.size)] else []) ++ refs R (n - 1) (next (inRegs n p (words t)) p (words t)) ts

/-- The address of a struct result comes first. -/
def start (rt : FType) : Pos := ⟨if rt.tc = .struct then 1 else 0, 0⟩

/-- The function has returned the value, not a struct, in r11 and r12. -/
def Returned (t : FType) (v : List Byte) (r11 r12 : Nat) : Prop :=
  v.length = t.size ∧
    match t.tc with
    | .struct | .void => True
    | .uint64 | .sint64 | .double => beBytes 4 r11 ++ beBytes 4 r12 = v
    | tc => (r11 : Int) = intVal tc v % 2 ^ 32

/-- What is found where results are stored: small integers are extended to words (`ffi_arg`). -/
def Got (t : FType) (v : List Byte) (m : Mem) (a : Nat) : Prop :=
  match t.tc with
  | .struct | .void => True
  | .uint64 | .sint64 | .double => m.rd a 8 = v
  | tc => (beNat (m.rd a 4) : Int) = intVal tc v % 2 ^ 32

/-- The values of objects in memory. -/
def vals (m : Mem) : List FType → List Nat → List (List Byte)
  | t :: ts, a :: as => m.rd a t.size :: vals m ts as
  | _, _ => []

end Verif.Spec.Or1k
