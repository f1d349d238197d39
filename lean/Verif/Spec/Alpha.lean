import Verif.Base.FType
import Verif.Base.Mem

/-
The calling convention of OSF/1 and Linux on Alpha (Tru64 UNIX Calling Standard for Alpha Systems;
for complex numbers and 128-bit `long double`, as GCC has it), for types that libffi can describe,
and the floating-point formats of the Alpha Architecture Handbook.  Independent of the model.

The data model is `lp64`, with 128-bit `long double`.
-/
namespace Verif.Spec.Alpha
open Verif

/-- MAP_S (Alpha Architecture Handbook, 4.8.4): the exponent of a single in a register. -/
def mapS (e : Nat) : Nat := if e = 255 then 2047 else if e = 0 then 0 else if 128 ≤ e then 1024 + (e - 128) else 896 + e

/-- The 64 bits of a register that holds the single with these 32 bits (LDS). -/
def lds (v : Nat) : Nat := v / 2 ^ 31 * 2 ^ 63 + mapS (v / 2 ^ 23 % 256) * 2 ^ 52 + v % 2 ^ 23 * 2 ^ 29

/-- The 32 bits that are stored for a register (STS). -/
def sts (r : Nat) : Nat := r / 2 ^ 62 % 4 * 2 ^ 30 + r / 2 ^ 29 % 2 ^ 30

/-- The type of the parts of a complex number. -/
def part (t : FType) : TC := (t.elems.headD t).tc

/-- Passed by reference. -/
def byRef (t : FType) : Bool := t.tc == .longdouble || (t.tc == .complex && part t == .longdouble)

/-- Argument slots of eight bytes: numbers take one, structs as many as it takes, complex numbers
are two arguments. -/
def slots (t : FType) : Nat :=
  if byRef t then 1
  else match t.tc with
    | .struct => (t.size + 7) / 8
    | .complex => 2
    | _ => 1

/-- Integers of 32 bits are sign extended, signed or not. -/
def signed : TC → Bool
  | .sint8 | .sint16 | .sint32 | .uint32 | .sint64 => true
  | _ => false

/-- The integer that the register shows, as a signed or unsigned number. -/
def intVal (tc : TC) (v : List Byte) : Int :=
  if signed tc ∧ 2 ^ (8 * v.length - 1) ≤ leNat v then (leNat v : Int) - 2 ^ (8 * v.length) else leNat v

/-- Machine state when a function is entered: $16 to $21, $f16 to $f21, memory, the stack pointer. -/
structure Regs where
  int : Nat → Nat
  fp : Nat → Nat
  mem : Mem
  sp : Nat

/-- Slot `n`, of integers and of floating-point numbers: six registers, then the stack. -/
def Regs.islot (R : Regs) (n : Nat) : Nat := if n < 6 then R.int n else leNat (R.mem.rd (R.sp + 8 * (n - 6)) 8)
def Regs.fslot (R : Regs) (n : Nat) : Nat := if n < 6 then R.fp n else leNat (R.mem.rd (R.sp + 8 * (n - 6)) 8)

/-- A number is passed in slot `n`: singles are in the register format in registers, but in four
bytes on the stack. -/
def ScalarAt (R : Regs) (n : Nat) (tc : TC) (v : List Byte) : Prop :=
  match tc with
  | .float => if n < 6 then R.fslot n = lds (leNat v) else (leBytes 8 (R.fslot n)).take 4 = v
  | .double => R.fslot n = leNat v
  | tc => (R.islot n : Int) = intVal tc v % 2 ^ 64

/-- The value is passed from slot `n` on. -/
def PassedAt (R : Regs) (n : Nat) (t : FType) (v : List Byte) : Prop :=
  if byRef t then R.mem.rd (R.islot n) t.size = v
  else match t.tc with
    | .struct => ((List.range (slots t)).flatMap fun k => leBytes 8 (R.islot (n + k))).take t.size = v
    | .complex => ScalarAt R n (part t) (v.take (t.size / 2)) ∧ ScalarAt R (n + 1) (part t) (v.drop (t.size / 2))
    | tc => ScalarAt R n tc v

def AllPassed (R : Regs) : Nat → List FType → List (List Byte) → Prop
  | n, t :: ts, v :: vs => PassedAt R n t v ∧ AllPassed R (n + slots t) ts vs
  | _, [], [] => True
  | _, _, _ => False

/-- The slot after the arguments. -/
def endSlot : Nat → List FType → Nat
  | n, [] => n
  | n, t :: ts => endSlot (n + slots t) ts

/-- The objects that are passed by reference: address and size. -/
def refs (R : Regs) : Nat → List FType → List (Nat × Nat)
  | _, [] => []
  | n, t :: ts => (if byRef t then [(R.islot n, t.size)] else []) ++ refs R (n + slots t) ts

/-- The values of arguments that are objects in memory. -/
def vals (m : Mem) : List FType → List Nat → List (List Byte)
  | t :: ts, a :: as => m.rd a t.size :: vals m ts as
  | _, _ => []

/-! ## Results -/

inductive RPlace
  | void
  /-- $0 -/
  | int
  /-- $f0 -/
  | fp
  /-- $f0 and $f1 -/
  | cfp
  /-- memory addressed by $16 on entry -/
  | mem
  deriving DecidableEq, Repr

/-- Complex numbers with integer parts are returned like integers if they have eight bytes at most. -/
def retPlace (t : FType) : RPlace :=
  match t.tc with
  | .void => .void
  | .float | .double => .fp
  | .struct | .longdouble => .mem
  | .complex =>
    match part t with
    | .float | .double => .cfp
    | _ => if t.size ≤ 8 then .int else .mem
  | _ => .int

/-- The slot of the first argument. -/
def start (rt : FType) : Nat := if retPlace rt = .mem then 1 else 0

/-- The bits of a register with a floating-point number. -/
def fpReg (tc : TC) (v : List Byte) : Nat := if tc = .float then lds (leNat v) else leNat v

/-- A function has returned the value, not in memory: `r0`, `f0`, `f1` are the contents of $0, $f0, $f1. -/
def Returned (t : FType) (v : List Byte) (r0 f0 f1 : Nat) : Prop :=
  v.length = t.size ∧
  (retPlace t = .int → if t.tc = .complex then (leBytes 8 r0).take t.size = v else (r0 : Int) = intVal t.tc v % 2 ^ 64) ∧
  (retPlace t = .fp → f0 = fpReg t.tc v) ∧
  (retPlace t = .cfp → f0 = fpReg (part t) (v.take (t.size / 2)) ∧ f1 = fpReg (part t) (v.drop (t.size / 2)))

/-! ## Facts about the formats -/

theorem mapS_lt {e : Nat} (h : e < 256) : mapS e < 2048 := by
  unfold mapS; repeat' split
  all_goals omega

/-- Normal numbers keep their value: the exponent is the same but for the bias. -/
theorem mapS_normal {e : Nat} (h0 : 0 < e) (h1 : e < 255) : mapS e + 127 = e + 1023 := by
  unfold mapS; repeat' split
  all_goals omega

theorem lds_lt {v : Nat} (h : v < 2 ^ 32) : lds v < 2 ^ 64 := by
  have := mapS_lt (e := v / 2 ^ 23 % 256) (Nat.mod_lt _ (by decide))
  unfold lds
  omega

set_option maxRecDepth 8000 in
/-- No single changes when it goes through a register. -/
theorem sts_lds {v : Nat} (h : v < 2 ^ 32) : sts (lds v) = v := by
  obtain ⟨s, e, f, hs, he, hf, rfl⟩ : ∃ s e f, s < 2 ∧ e < 256 ∧ f < 2 ^ 23 ∧ v = s * 2 ^ 31 + e * 2 ^ 23 + f :=
    ⟨v / 2 ^ 31, v / 2 ^ 23 % 256, v % 2 ^ 23, by omega, by omega, by omega, by omega⟩
  have h2 : mapS e % 128 = e % 128 ∧ mapS e / 1024 = e / 128 := by
    unfold mapS
    repeat' split
    all_goals omega
  have h1 := mapS_lt he
  have e1 : (s * 2 ^ 31 + e * 2 ^ 23 + f) / 2 ^ 31 = s := by omega
  have e2 : (s * 2 ^ 31 + e * 2 ^ 23 + f) / 2 ^ 23 % 256 = e := by omega
  have e3 : (s * 2 ^ 31 + e * 2 ^ 23 + f) % 2 ^ 23 = f := by omega
  have e4 : lds (s * 2 ^ 31 + e * 2 ^ 23 + f) = s * 2 ^ 63 + mapS e * 2 ^ 52 + f * 2 ^ 29 := by
    unfold lds; rw [e1, e2, e3]
  rw [e4]
  clear e4 e1 e2 e3
  generalize mapS e = M at *
  have e5 : (s * 2 ^ 63 + M * 2 ^ 52 + f * 2 ^ 29) / 2 ^ 62 = 2 * s + M / 1024 := by omega
  have e6 : (s * 2 ^ 63 + M * 2 ^ 52 + f * 2 ^ 29) / 2 ^ 29 % 2 ^ 30 = M % 128 * 2 ^ 23 + f := by omega
  unfold sts
  rw [e5, e6]
  omega

end Verif.Spec.Alpha
