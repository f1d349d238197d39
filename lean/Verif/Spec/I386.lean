import Verif.Base.FType
import Verif.Base.Mem

/-
The 32-bit x86 calling conventions (System V psABI, the Microsoft conventions as
implemented by GCC and MSVC, and the reversed Borland ones) for types that libffi can
describe.  Independent of the model.
-/
namespace Verif.Spec.X86
open Verif

/-- The conventions, `ffi_abi`. -/
inductive Conv
  | sysv | thiscall | fastcall | stdcall | pascal | register | msCdecl
  deriving DecidableEq, Repr

/-- What differs between 32-bit targets: alignment of 64-bit scalars (4, or 8 on Windows),
size and alignment of `long double` (12 and 4; 16 and 16 on Darwin). -/
structure Data where
  a8 : Nat
  ldSize : Nat
  ldAlign : Nat
  deriving DecidableEq, Repr

def Data.Ok (D : Data) : Prop :=
  (D.a8 = 4 ∨ D.a8 = 8) ∧ ((D.ldSize = 12 ∧ D.ldAlign = 4) ∨ (D.ldSize = 16 ∧ D.ldAlign = 16))

def linux : Data := ⟨4, 12, 4⟩
def windows : Data := ⟨8, 12, 4⟩
def darwin : Data := ⟨4, 16, 16⟩

def Data.tab (D : Data) : ScalarTab
  | .uint8 | .sint8 => some (1, 1)
  | .uint16 | .sint16 => some (2, 2)
  | .uint32 | .sint32 | .pointer | .float => some (4, 4)
  | .uint64 | .sint64 | .double => some (8, D.a8)
  | .longdouble => some (D.ldSize, D.ldAlign)
  | _ => none

inductive Reg
  | eax | edx | ecx
  deriving DecidableEq, Repr

/-- Where an argument is passed: in a register, or at an offset from the stack pointer
(which is just above the return address). -/
inductive Loc
  | reg (r : Reg)
  | stk (off : Nat)
  deriving DecidableEq, Repr

/-- Registers still available and stack bytes in use. -/
structure Pos where
  free : List Reg
  ns : Nat
  deriving DecidableEq, Repr

/-- Registers for arguments, in order. -/
def Conv.regs : Conv → List Reg
  | .thiscall => [.ecx]
  | .fastcall => [.ecx, .edx]
  | .register => [.eax, .edx, .ecx]
  | _ => []

/-- Integers and pointers of at most 32 bits may be passed in registers. -/
def word : TC → Bool
  | .uint8 | .sint8 | .uint16 | .sint16 | .uint32 | .sint32 | .pointer => true
  | _ => false

/-- Under `thiscall` and `fastcall` no argument after a 64-bit integer or a struct is
passed in a register. -/
def Conv.closes (A : Conv) (tc : TC) : Bool :=
  (A = .thiscall || A = .fastcall) && (tc = .uint64 || tc = .sint64 || tc = .struct)

/-- Alignment on the stack. -/
def stkAlign (t : FType) : Nat := if t.tc = .struct ∧ 16 ≤ t.align then 16 else 4

/-- Place of an argument and position after it, for the conventions that push from right
to left: the first argument has the lowest address. -/
def placeArg (A : Conv) (t : FType) (p : Pos) : Loc × Pos :=
  match p.free with
  | r :: rs =>
    if word t.tc then (.reg r, ⟨rs, p.ns⟩)
    else (.stk (roundUp p.ns (stkAlign t)),
      ⟨if A.closes t.tc then [] else r :: rs, roundUp p.ns (stkAlign t) + roundUp t.size 4⟩)
  | [] => (.stk (roundUp p.ns (stkAlign t)), ⟨[], roundUp p.ns (stkAlign t) + roundUp t.size 4⟩)

def placeFrom (A : Conv) : List FType → Pos → List Loc
  | [], _ => []
  | t :: ts, p => (placeArg A t p).1 :: placeFrom A ts (placeArg A t p).2

def endFrom (A : Conv) : List FType → Pos → Pos
  | [], p => p
  | t :: ts, p => endFrom A ts (placeArg A t p).2

/-- The reversed conventions push from left to right: the last argument has the lowest
address, without regard to alignment.  Bytes pushed by the arguments. -/
def pushed : List FType → List Reg → Nat
  | [], _ => 0
  | t :: ts, r :: rs => if word t.tc then pushed ts rs else roundUp t.size 4 + pushed ts (r :: rs)
  | t :: ts, [] => roundUp t.size 4 + pushed ts []

def placeRev : List FType → List Reg → List Loc
  | [], _ => []
  | t :: ts, r :: rs =>
    if word t.tc then .reg r :: placeRev ts rs else .stk (pushed ts (r :: rs)) :: placeRev ts (r :: rs)
  | _ :: ts, [] => .stk (pushed ts []) :: placeRev ts []

/-- Results returned in memory at an address passed by the caller: structs (on Windows
and Darwin only those that are not of size 1, 2, 4 or 8) and complex numbers of more than
8 bytes. -/
def inMemory (small : Bool) (t : FType) : Bool :=
  match t.tc with
  | .struct => !(small && (t.size = 1 || t.size = 2 || t.size = 4 || t.size = 8))
  | .complex => decide (8 < t.size)
  | _ => false

/-- Position of the first argument; the address of a result in memory is passed before
the arguments, in a register if the convention has one. -/
def start (A : Conv) (mem : Bool) : Pos :=
  if mem then
    match A.regs with
    | _ :: rs => ⟨rs, 0⟩
    | [] => ⟨[], 4⟩
  else ⟨A.regs, 0⟩

/-- Where that address is passed. -/
def hidden (A : Conv) : Loc :=
  match A.regs with
  | r :: _ => .reg r
  | [] => .stk 0

/-- Machine state at a call. -/
structure Regs where
  reg : Reg → List Byte
  mem : Mem
  sp : Nat

/-- The first `n` bytes of a location. -/
def Regs.at (R : Regs) (n : Nat) : Loc → List Byte
  | .reg r => (R.reg r).take n
  | .stk o => R.mem.rd (R.sp + o) n

/-- Integer value of the bytes of an integer. -/
def signed : TC → Bool
  | .sint8 | .sint16 | .sint32 | .sint64 => true
  | _ => false

def intVal (sg : Bool) (bs : List Byte) : Int :=
  if sg && decide (256 ^ bs.length ≤ 2 * leNat bs) then (leNat bs : Int) - 256 ^ bs.length else leNat bs

/-- The value is passed at the location; integers are widened to 32 bits according to the
sign of their type. -/
def PassedAt (R : Regs) (t : FType) (v : List Byte) (l : Loc) : Prop :=
  R.at t.size l = v ∧ (word t.tc → (intVal (signed t.tc) v - leNat (R.at 4 l)) % 2 ^ 32 = 0)

def AllPassed (R : Regs) : List FType → List (List Byte) → List Loc → Prop
  | t :: ts, v :: vs, l :: ls => PassedAt R t v l ∧ AllPassed R ts vs ls
  | [], [], [] => True
  | _, _, _ => False

/-- A handler's argument pointers lead to objects with the values. -/
def AllFound (m : Mem) : List FType → List (List Byte) → List Nat → Prop
  | t :: ts, v :: vs, a :: as => m.rd a t.size = v ∧ AllFound m ts vs as
  | [], [], [] => True
  | _, _, _ => False

/-- Bytes of arguments on the stack, which a function removes under `stdcall`,
`thiscall`, `fastcall` and the reversed conventions. -/
def stackBytes (A : Conv) (small : Bool) (rt : FType) (ts : List FType) : Nat :=
  (endFrom A ts (start A (inMemory small rt))).ns

/-! ## Results -/

/-- Bytes that represent a value of the type: `long double` has two or six bytes of
padding. -/
def valueBytes (t : FType) : Nat := if t.tc = .longdouble then 10 else t.size

/-- A function has returned the value, not in memory: floating-point numbers on the x87
stack (given with the size of their format), everything else in %eax and %edx. -/
def Returned (t : FType) (v eax : List Byte) (edx : Option (List Byte)) (st0 : Option (Nat × List Byte)) : Prop :=
  match t.tc with
  | .void => True
  | .float => st0 = some (4, v)
  | .double => st0 = some (8, v)
  | .longdouble => st0 = some (10, v)
  | _ => if t.size ≤ 4 then eax.take t.size = v else edx.map (eax ++ ·) = some v

/-- Integers of less than 32 bits fill %eax. -/
def WidenedTo (t : FType) (v w : List Byte) : Prop :=
  word t.tc → (intVal (signed t.tc) v - leNat (w.take 4)) % 2 ^ 32 = 0

/-- The caller of `ffi_call` finds the value at its address, integers widened to
`ffi_arg`. -/
def Delivered (m : Mem) (p : Nat) (t : FType) (v : List Byte) : Prop :=
  t.tc ≠ .void → m.rd p (valueBytes t) = v ∧ WidenedTo t v (m.rd p 4)

/-- Bytes at the address of a result that may change: integers take a whole `ffi_arg`. -/
def resultRoom (t : FType) : Nat := if t.tc = .void then 0 else if word t.tc then 4 else t.size

/-- Bytes that a function removes from the stack in addition to its return address. -/
def popped (A : Conv) (small : Bool) (rt : FType) (ts : List FType) : Nat :=
  match A with
  | .stdcall | .thiscall | .fastcall => stackBytes A small rt ts
  | .pascal | .register => pushed ts A.regs
  | .sysv => if inMemory small rt then 4 else 0
  | .msCdecl => 0

/-! ## Raw arguments -/

/-- The array of raw arguments at `a` holds the values: each takes a multiple of four
bytes, and integers are widened. -/
def RawHolds (m : Mem) : List FType → List (List Byte) → Nat → Prop
  | t :: ts, v :: vs, a => m.rd a t.size = v ∧ WidenedTo t v (m.rd a 4) ∧ RawHolds m ts vs (a + roundUp t.size 4)
  | [], [], _ => True
  | _, _, _ => False

/-- Size of that array. -/
def rawBytes : List FType → Nat
  | [] => 0
  | t :: ts => roundUp t.size 4 + rawBytes ts

end Verif.Spec.X86
