import Verif.Base.FType
import Verif.Base.BE
import Verif.Base.Mem

/-
The calling convention of 68000 processors under Linux (GCC): all arguments are on the stack; results are in d0-d2, a0 or fp0.  Big-endian, 32 bits.
Independent of the model.
-/
namespace Verif.Spec.M68k
open Verif

/-- Nothing is aligned to more than two bytes. -/
def tab : ScalarTab
  | .uint8 | .sint8 => some (1, 1)
  | .uint16 | .sint16 => some (2, 2)
  | .uint32 | .sint32 | .float | .pointer => some (4, 2)
  | .uint64 | .sint64 | .double => some (8, 2)
  | .longdouble => some (12, 2)
  | _ => none

/-- Types of objects; there are no complex types. -/
def Ty (t : FType) : Prop := WF tab t ∧ t.tc ≠ .complex

/-- Bytes on the stack. -/
def slot (t : FType) : Nat := (t.size + 3) / 4 * 4

def signed : TC → Bool
  | .sint8 | .sint16 | .sint32 => true
  | _ => false

/-- The number that the bytes stand for. -/
def intVal (tc : TC) (v : List Byte) : Int :=
  if signed tc ∧ 2 ^ (8 * v.length - 1) ≤ beNat v then (beNat v : Int) - 2 ^ (8 * v.length) else beNat v

/-- The argument at an address: small integers are extended to words, small structs are at the end of a word. -/
def Passed (m : Mem) (a : Nat) (t : FType) (v : List Byte) : Prop :=
  match t.tc with
  | .uint8 | .sint8 | .uint16 | .sint16 => (beNat (m.rd a 4) : Int) = intVal t.tc v % 2 ^ 32
  | .struct => if t.size < 4 then m.rd (a + (4 - t.size)) t.size = v else m.rd a t.size = v
  | _ => m.rd a t.size = v

def AllPassed (m : Mem) : Nat → List FType → List (List Byte) → Prop
  | a, t :: ts, v :: vs => Passed m a t v ∧ AllPassed m (a + slot t) ts vs
  | _, [], [] => True
  | _, _, _ => False

/-- Bytes of all arguments. -/
def total (ts : List FType) : Nat := (ts.map slot).sum

/-- A struct as the first of several members. -/
def first : List FType → Bool
  | e :: _ :: _ => e.tc == .struct
  | _ => false

/-- Structs that are not returned in registers; their address is passed in a1. -/
def inMem (t : FType) : Bool :=
  t.tc == .struct && (first t.elems || !(t.size == 1 || t.size == 2 || t.size == 4 || t.size == 8))

/-- Conversions of the floating-point unit: from the bytes of single, double and extended numbers, and back. -/
structure Fpu where
  lds : List Byte → Nat
  ldd : List Byte → Nat
  ldx : List Byte → Nat
  sts : Nat → List Byte
  std : Nat → List Byte
  stx : Nat → List Byte
  slen : ∀ x, (sts x).length = 4
  dlen : ∀ x, (std x).length = 8
  xlen : ∀ x, (stx x).length = 12

/-- Registers of results. -/
structure Res where
  d0 : Nat
  d1 : Nat
  d2 : Nat
  a0 : Nat
  fp0 : Nat

/-- The function has returned the value.  Nothing is said about the rest of d0 if the value is smaller. -/
def Returned (F : Fpu) (fpu : Bool) (t : FType) (v : List Byte) (r : Res) : Prop :=
  v.length = t.size ∧
    match t.tc with
    | .void => True
    | .pointer => beBytes 4 r.a0 = v
    | .uint64 | .sint64 => beBytes 4 r.d0 ++ beBytes 4 r.d1 = v
    | .float => if fpu then r.fp0 = F.lds v else beBytes 4 r.d0 = v
    | .double => if fpu then r.fp0 = F.ldd v else beBytes 4 r.d0 ++ beBytes 4 r.d1 = v
    | .longdouble => if fpu then r.fp0 = F.ldx v else beBytes 4 r.d0 ++ beBytes 4 r.d1 ++ beBytes 4 r.d2 = v
    | .struct => inMem t = true ∨ (if t.size ≤ 4 then beBytes t.size r.d0 = v else beBytes 4 r.d0 ++ beBytes 4 r.d1 = v)
    | _ => beBytes t.size r.d0 = v

/-- What is found where results are stored: small integers are extended to words (`ffi_arg`). -/
def Got (t : FType) (v : List Byte) (m : Mem) (a : Nat) : Prop :=
  match t.tc with
  | .void => True
  | .uint8 | .sint8 | .uint16 | .sint16 => (beNat (m.rd a 4) : Int) = intVal t.tc v % 2 ^ 32
  | .struct => inMem t = true ∨ m.rd a t.size = v
  | _ => m.rd a t.size = v

/-- The values of objects in memory. -/
def vals (m : Mem) : List FType → List Nat → List (List Byte)
  | t :: ts, a :: as => m.rd a t.size :: vals m ts as
  | _, _ => []

end Verif.Spec.M68k
