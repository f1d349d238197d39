import Verif.Base.FType
import Verif.Base.Mem

/-
Specification of the Microsoft x64 calling convention (the part libffi uses),
independent of the implementation.
-/
namespace Verif.Spec.Win64
open Verif Spec

/-- Sizes that are passed and returned by value in one 8-byte slot; anything else is
passed by reference. -/
def ByValue (n : Nat) : Prop := n = 1 ∨ n = 2 ∨ n = 4 ∨ n = 8

instance (n) : Decidable (ByValue n) := by unfold ByValue; infer_instance

/-- Types passed in vector registers. -/
def isFP (t : FType) : Prop := t.tc = .float ∨ t.tc = .double

instance (t) : Decidable (isFP t) := by unfold isFP; infer_instance

/-- Machine state at function entry: memory, address of the first argument slot, the
four general (`%rcx, %rdx, %r8, %r9`) and vector argument registers (low half). -/
structure Regs where
  mem : Mem
  args : Nat
  gpr : Nat → List Byte
  xmm : Nat → List Byte

/-- The 8 bytes that carry argument slot `k`. -/
def slot (R : Regs) (fp : Bool) (k : Nat) : List Byte :=
  if k < 4 then (if fp then R.xmm k else R.gpr k) else R.mem.rd (R.args + 8 * k) 8

/-- A value `v` of type `t` is passed in slot `k`. -/
def PassedAt (R : Regs) (t : FType) (v : List Byte) (k : Nat) : Prop :=
  if ByValue t.size then (slot R (isFP t) k).take t.size = v
  else R.mem.rd (leNat (slot R false k)) t.size = v

/-- Memory through which the callee receives argument `k`: it may modify these bytes,
because arguments are passed by value. -/
def calleeOwns (R : Regs) (t : FType) (k : Nat) (x : Nat) : Prop :=
  if ByValue t.size then R.args + 8 * k ≤ x ∧ x < R.args + 8 * k + 8
  else (R.args + 8 * k ≤ x ∧ x < R.args + 8 * k + 8) ∨
    (leNat (slot R false k) ≤ x ∧ x < leNat (slot R false k) + t.size)

/-- Where a value is returned; `unsupported` is an 80-bit `long double` with a compiler
that has none. -/
inductive RPlace
  | void | rax | xmm0 | mem | unsupported
  deriving DecidableEq, Repr

/-- `gnu`: the MinGW variant, which has an 80-bit `long double`. -/
def retPlace (gnu : Bool) (t : FType) : RPlace :=
  match t.tc with
  | .void => .void
  | .float | .double => .xmm0
  | .longdouble => if gnu then .mem else .unsupported
  | .struct | .complex => if ByValue t.size then .rax else .mem
  | _ => .rax

/-- Slot of the first argument: slot 0 carries the address of a result in memory. -/
def firstSlot (gnu : Bool) (rt : FType) : Nat := if retPlace gnu rt = .mem then 1 else 0

/-- Sizes of the scalar types in the Windows and EFI data models (`long double` varies
and is not listed). -/
def stdSize : TC → Option Nat
  | .uint8 | .sint8 => some 1
  | .uint16 | .sint16 => some 2
  | .int | .uint32 | .sint32 | .float => some 4
  | .uint64 | .sint64 | .pointer | .double => some 8
  | _ => none

/-- Scalars have the size their type code promises; structs and complex types are
arbitrary. -/
def SizeOk (t : FType) : Prop := ∀ n, stdSize t.tc = some n → t.size = n

/-- Integer scalars: widened to `ffi_arg` in results. -/
def isIntTC : TC → Bool
  | .int | .uint8 | .sint8 | .uint16 | .sint16 | .uint32 | .sint32 | .uint64 | .sint64 | .pointer => true
  | _ => false

/-- 64-bit value of an integer scalar stored little-endian in `bs`. -/
def extend64 (tc : TC) (bs : List Byte) : Nat :=
  match tc with
  | .int | .sint8 | .sint16 | .sint32 | .sint64 =>
    if 2 * leNat bs < 256 ^ bs.length then leNat bs else leNat bs + 2 ^ 64 - 256 ^ bs.length
  | _ => leNat bs

/-- The result object of a call holding value `v`: a full `ffi_arg` for integers. -/
def resultObj (tc : TC) (v : List Byte) : List Byte :=
  if isIntTC tc then leBytes 8 (extend64 tc v) else v

/-- A value `v` of type `t` has been returned in registers. -/
def ReturnedIn (gnu : Bool) (rax xmm0 : List Byte) (t : FType) (v : List Byte) : Prop :=
  v.length = t.size ∧
  (retPlace gnu t = .rax → rax.take t.size = v) ∧ (retPlace gnu t = .xmm0 → xmm0.take t.size = v)

end Verif.Spec.Win64
