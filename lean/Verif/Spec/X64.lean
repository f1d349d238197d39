import Verif.Base.FType

/-
Specification of the System V x86-64 psABI parameter passing (the part libffi
uses: no vector types, no packed structs), independent of the implementation.
-/
namespace Verif.Spec.X64
open Verif Spec

/-- Components of psABI class INTEGER. -/
def isInt (l : Leaf) : Bool :=
  match l.tc with
  | .uint8 | .sint8 | .uint16 | .sint16 | .uint32 | .sint32 | .uint64 | .sint64 | .pointer => true
  | _ => false

/-- Components of class X87/X87UP. -/
def isX87 (l : Leaf) : Bool := l.tc = .longdouble

/-- The component has a byte in eightbyte `i`. -/
def touches (l : Leaf) (i : Nat) : Prop := l.off < 8 * i + 8 ∧ 8 * i < l.off + l.size

instance (l i) : Decidable (touches l i) := by unfold touches; infer_instance

/-- Register class of an eightbyte. -/
inductive EB | int | sse
  deriving DecidableEq, Repr

/-- Class of eightbyte `i`: INTEGER if any component in it is, otherwise SSE. -/
def ebClass (L : List Leaf) (i : Nat) : EB :=
  if ∃ l ∈ L, isInt l = true ∧ touches l i then .int else .sse

/-- Classes of an argument; `none` = class MEMORY: larger than two eightbytes, or
containing an x87 component. -/
def argClass (t : FType) : Option (List EB) :=
  if 16 < t.size ∨ (leaves t 0).any isX87 then none
  else some ((List.range ((t.size + 7) / 8)).map (ebClass (leaves t 0)))

inductive Reg
  | gpr (i : Nat)
  | sse (i : Nat)
  deriving DecidableEq, Repr

/-- Where an argument lives: each eightbyte in a register, or at an offset of the
memory argument area. -/
inductive Place
  | regs (rs : List Reg)
  | stack (off : Nat)
  deriving DecidableEq, Repr

/-- Registers for a sequence of eightbytes when `g` general and `s` SSE registers
are already taken. -/
def assign : List EB → Nat → Nat → List Reg
  | [], _, _ => []
  | .int :: cs, g, s => .gpr g :: assign cs (g + 1) s
  | .sse :: cs, g, s => .sse s :: assign cs g (s + 1)

/-- Number of eightbytes of a class. -/
def nInt (cs : List EB) : Nat := cs.count .int
def nSse (cs : List EB) : Nat := cs.count .sse

/-- An argument that goes to memory: offset and the next free offset.  Arguments
are aligned to their alignment, at least 8. -/
def memOff (t : FType) (off : Nat) : Nat := roundUp off (max 8 t.align)

/-- Registers/offset for every argument, left to right (psABI 3.2.3): an argument
goes to registers only as a whole. -/
def place : List FType → Nat → Nat → Nat → List Place
  | [], _, _, _ => []
  | t :: ts, g, s, off =>
    match argClass t with
    | some cs =>
      if g + nInt cs ≤ 6 ∧ s + nSse cs ≤ 8 then
        .regs (assign cs g s) :: place ts (g + nInt cs) (s + nSse cs) off
      else .stack (memOff t off) :: place ts g s (memOff t off + t.size)
    | none => .stack (memOff t off) :: place ts g s (memOff t off + t.size)

/-- Final counters of the same process: general registers, SSE registers, bytes
of memory arguments. -/
def totals : List FType → Nat → Nat → Nat → Nat × Nat × Nat
  | [], g, s, off => (g, s, off)
  | t :: ts, g, s, off =>
    match argClass t with
    | some cs =>
      if g + nInt cs ≤ 6 ∧ s + nSse cs ≤ 8 then totals ts (g + nInt cs) (s + nSse cs) off
      else totals ts g s (memOff t off + t.size)
    | none => totals ts g s (memOff t off + t.size)

/-- Byte `q` of the type is not padding. -/
def dataByte (t : FType) (q : Nat) : Prop := ∃ l ∈ leaves t 0, l.off ≤ q ∧ q < l.off + l.size

end Verif.Spec.X64

namespace Verif.Spec.X64
open Verif Spec

/-- The 64-bit two's complement representation of an integer scalar stored in
`bs` (little-endian): sign-extended for signed types, zero-extended otherwise. -/
def extend64 (tc : TC) (bs : List Byte) : Nat :=
  let v := leNat bs
  match tc with
  | .sint8 | .sint16 | .sint32 | .sint64 =>
    if 2 * v < 256 ^ bs.length then v else v + 2 ^ 64 - 256 ^ bs.length
  | _ => v

/-- Argument registers and memory argument area as bytes. -/
structure Regs where
  gpr : Nat → Nat → Byte
  sse : Nat → Nat → Byte
  mem : Buf

def regByte (R : Regs) : Reg → Nat → Byte
  | .gpr i, j => R.gpr i j
  | .sse i, j => R.sse i j

/-- A value `a` of type `t` is passed at place `p`: every byte that is not padding
is found in its register, or the whole object in memory. -/
def PassedAt (R : Regs) (t : FType) (a : List Byte) : Place → Prop
  | .regs rs => ∀ q, dataByte t q → ∃ r, rs[q / 8]? = some r ∧ regByte R r (q % 8) = a.getD q 0
  | .stack off => off + t.size ≤ R.mem.size ∧ ∀ q, q < t.size → R.mem.at_ (off + q) = a.getD q 0

/-- All arguments are passed at their places. -/
def AllPassed (R : Regs) (ts : List FType) (as : List (List Byte)) (ps : List Place) : Prop :=
  ∀ (i : Nat) t a p, ts[i]? = some t → as[i]? = some a → ps[i]? = some p → PassedAt R t a p

end Verif.Spec.X64

namespace Verif.Spec.X64
open Verif Spec

/-- An integer scalar passed in a general register fills the whole register with
its sign- or zero-extension (more than the psABI asks for). -/
def WidenedAt (R : Regs) (t : FType) (a : List Byte) : Place → Prop
  | .regs rs => t.tc ≠ .struct → t.tc ≠ .complex → ∀ i, rs = [.gpr i] →
      ∀ j, j < 8 → R.gpr i j = (leBytes 8 (extend64 t.tc a)).getD j 0
  | .stack _ => True

end Verif.Spec.X64

/-! ## Results -/
namespace Verif.Spec.X64
open Verif Spec

/-- Where the psABI returns a value: nowhere, in memory supplied by the caller, in
registers (general registers 0, 1 are %rax, %rdx; SSE registers 0, 1 are
%xmm0, %xmm1), on the x87 stack. -/
inductive RPlace
  | void
  | mem
  | regs (rs : List Reg)
  | x87
  | x87x2
  deriving DecidableEq, Repr

/-- psABI 3.2.3 "Returning of Values". -/
def retPlace (t : FType) : RPlace :=
  if t.tc = .void then .void
  else if leaves t 0 = [⟨0, 16, .longdouble⟩] then .x87
  else if t.tc = .complex ∧ (leaves t 0).any isX87 then .x87x2
  else match argClass t with
    | none => .mem
    | some cs => .regs (assign cs 0 0)

/-- Bytes of an object that carry its value: no padding, and of a `long double`
only the ten bytes of the x87 format. -/
def sigByte (t : FType) (q : Nat) : Prop :=
  ∃ l ∈ leaves t 0, l.off ≤ q ∧ q < l.off + (if l.tc = .longdouble then 10 else l.size)

/-- Result registers, byte-wise. -/
structure RRegs where
  gpr : Nat → Nat → Byte
  sse : Nat → Nat → Byte
  st : Nat → Nat → Byte

/-- A value `v` of type `t` has been returned according to the psABI. -/
def ReturnedIn (R : RRegs) (t : FType) (v : Nat → Byte) : Prop :=
  match retPlace t with
  | .void => True
  | .mem => True
  | .regs rs => ∀ q, dataByte t q → ∃ r, rs[q / 8]? = some r ∧
      (match r with | .gpr i => R.gpr i (q % 8) | .sse i => R.sse i (q % 8)) = v q
  | .x87 => ∀ q, q < 10 → R.st 0 q = v q
  | .x87x2 => ∀ q, q < 10 → R.st 0 q = v q ∧ R.st 1 q = v (16 + q)

/-- Integer scalar types, widened to `ffi_arg` in results. -/
def isIntTC : TC → Bool
  | .uint8 | .sint8 | .uint16 | .sint16 | .uint32 | .sint32 | .uint64 | .sint64 | .pointer => true
  | _ => false

/-- Bytes of the result object that a call may write itself: a full `ffi_arg` for
integers, the exact size otherwise, nothing for `void` and for results the callee
stores through the pointer it got. -/
def resultBytes (t : FType) : Nat :=
  if t.tc = .void ∨ retPlace t = .mem then 0 else if isIntTC t.tc then 8 else t.size

end Verif.Spec.X64

/-! ## Signatures -/
namespace Verif.Spec.X64
open Verif Spec

def Reg.isSse : Reg → Bool
  | .gpr _ => false
  | .sse _ => true

/-- Number of SSE registers used by a list of places. -/
def sseUsed : List Place → Nat
  | [] => 0
  | .regs rs :: ps => rs.countP Reg.isSse + sseUsed ps
  | .stack _ :: ps => sseUsed ps

/-- Sizes and alignments are those of C objects; argument objects have the size
of their type. -/
structure ArgsOk (ts : List FType) (as : List (List Byte)) : Prop where
  wf : ∀ t ∈ ts, WF lp64 t
  len : as.length = ts.length
  bytes : ∀ (i : Nat) t a, ts[i]? = some t → as[i]? = some a → a.length = t.size

/-- Return types: `void` or an object type. -/
def RetOk (t : FType) : Prop := t.tc = .void ∨ WF lp64 t

/-- First general register that carries an argument: the second one when the first
carries the address of the result. -/
def firstReg (rt : FType) : Nat := if retPlace rt = .mem then 1 else 0

/-- Where the psABI puts the arguments of a function. -/
def argPlaces (rt : FType) (ats : List FType) : List Place := place ats (firstReg rt) 0 0

/-- Bytes of memory arguments. -/
def stackBytes (rt : FType) (ats : List FType) : Nat := (totals ats (firstReg rt) 0 0).2.2

end Verif.Spec.X64
