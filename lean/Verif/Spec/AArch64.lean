import Verif.Base.FType
import Verif.Base.Mem

/-
Specification of the parts of the AArch64 procedure call standard (AAPCS64, and
Apple's variant) that libffi implements, independent of the implementation.
-/
namespace Verif.Spec.A64
open Verif Spec

/-- Floating-point scalar kinds and their sizes. -/
def fpSize : TC → Option Nat
  | .float => some 4
  | .double => some 8
  | .longdouble => some 16
  | _ => none

/-- `t` is a homogeneous floating-point aggregate (or scalar) with `n` members of kind
`k`: its scalar components are 1 to 4 floating-point numbers of that kind, and nothing
else is in it. -/
def IsHFA (t : FType) (k : TC) (n : Nat) : Prop :=
  1 ≤ n ∧ n ≤ 4 ∧ (leaves t 0).map (·.tc) = List.replicate n k ∧
  ∃ z, fpSize k = some z ∧ t.size = n * z

/-- Number of members if `t` is a homogeneous floating-point aggregate. -/
def hfa (t : FType) : Option Nat :=
  match (leaves t 0).map (·.tc) with
  | [] => none
  | k :: ks =>
    match fpSize k with
    | none => none
    | some z =>
      if ks.length < 4 ∧ ks = List.replicate ks.length k ∧ t.size = (ks.length + 1) * z then
        some (ks.length + 1)
      else none

/-- Which standard applies. -/
structure Rules where
  /-- Apple: stack arguments are packed according to their natural alignment and
  variadic arguments always go to the stack -/
  apple : Bool
  /-- number of named arguments; 0 if the function is not variadic -/
  nfixed : Nat
  deriving DecidableEq, Repr

/-- Where an argument is passed. -/
inductive Place
  /-- `n` vector registers, one member each -/
  | v (k n : Nat)
  /-- `n` general registers, 8 bytes each -/
  | x (k n : Nat)
  /-- on the stack, at this offset -/
  | stack (off : Nat)
  /-- by reference, the address in a general register -/
  | refX (k : Nat)
  /-- by reference, the address on the stack -/
  | refStack (off : Nat)
  deriving DecidableEq, Repr

/-- Next general register, vector register and stack offset; whether the argument is
passed as an unnamed argument in the Apple sense. -/
structure Pos where
  ngrn : Nat
  nsrn : Nat
  nsaa : Nat
  unnamed : Bool
  deriving DecidableEq, Repr

/-- Granularity of stack slots. -/
def slot (R : Rules) (p : Pos) : Nat := if R.apple && !p.unnamed then 1 else 8

/-- The offset of a stack argument. -/
def stackAt (R : Rules) (p : Pos) (align : Nat) : Nat := roundUp p.nsaa (max (slot R p) align)

/-- The position after a stack argument: slots are filled up. -/
def stackAfter (R : Rules) (p : Pos) (align size : Nat) : Nat :=
  roundUp (stackAt R p align + size) (slot R p)

/-- Stage C of AAPCS64 6.8.2 for one argument (composites of more than 16 bytes have
been replaced by a reference, rule B.4). -/
def placeArg (R : Rules) (t : FType) (p : Pos) : Place × Pos :=
  match hfa t with
  | some n =>
    if p.nsrn + n ≤ 8 then (.v p.nsrn n, { p with nsrn := p.nsrn + n })
    else (.stack (stackAt R p t.align),
      { p with nsrn := 8, nsaa := stackAfter R p t.align t.size })
  | none =>
    if 16 < t.size then
      if p.ngrn < 8 then (.refX p.ngrn, { p with ngrn := p.ngrn + 1 })
      else (.refStack (stackAt R p 8), { p with ngrn := 8, nsaa := stackAfter R p 8 8 })
    else
      let n := (t.size + 7) / 8
      let g := if t.align = 16 then roundUp p.ngrn 2 else p.ngrn
      if g + n ≤ 8 then (.x g n, { p with ngrn := g + n })
      else (.stack (stackAt R p t.align),
        { p with ngrn := 8, nsaa := stackAfter R p t.align t.size })

/-- After the last named argument of an Apple variadic call. -/
def nextPos (R : Rules) (i : Nat) (p : Pos) : Pos :=
  if R.apple && decide (i + 1 = R.nfixed) then { p with ngrn := 8, nsrn := 8, unnamed := true } else p

def placeFrom (R : Rules) : List FType → Nat → Pos → List Place
  | [], _, _ => []
  | t :: ts, i, p =>
    (placeArg R t p).1 :: placeFrom R ts (i + 1) (nextPos R i (placeArg R t p).2)

def start : Pos := ⟨0, 0, 0, false⟩

/-- Places of the arguments of a call. -/
def places (R : Rules) (ts : List FType) : List Place := placeFrom R ts 0 start

/-- Machine state on function entry. -/
structure Regs where
  mem : Mem
  sp : Nat
  /-- `x0` … `x7`, 8 bytes each -/
  x : Nat → List Byte
  /-- `q0` … `q7`, 16 bytes each -/
  v : Nat → List Byte

/-- Contents of `n` consecutive general registers. -/
def xs (x : Nat → List Byte) (k : Nat) : Nat → List Byte
  | 0 => []
  | n + 1 => xs x k n ++ x (k + n)

/-- The value `a` of type `t` is passed at the given place. -/
def PassedAt (R : Regs) (t : FType) (a : List Byte) : Place → Prop
  | .v k n => ∀ j < n, (R.v (k + j)).take (t.size / n) = (a.drop (t.size / n * j)).take (t.size / n)
  | .x k n => (xs R.x k n).take t.size = a
  | .stack off => R.mem.rd (R.sp + off) t.size = a
  | .refX k => t.align ∣ leNat (R.x k) ∧ R.mem.rd (leNat (R.x k)) t.size = a
  | .refStack off => t.align ∣ leNat (R.mem.rd (R.sp + off) 8) ∧
      R.mem.rd (leNat (R.mem.rd (R.sp + off) 8)) t.size = a

/-- All arguments are passed at their places. -/
def AllPassed (R : Regs) : List FType → List (List Byte) → List Place → Prop
  | t :: ts, a :: as, p :: ps => PassedAt R t a p ∧ AllPassed R ts as ps
  | [], [], [] => True
  | _, _, _ => False

/-! ## Space -/

/-- Position after the last argument. -/
def endFrom (R : Rules) : List FType → Nat → Pos → Pos
  | [], _, p => p
  | t :: ts, i, p => endFrom R ts (i + 1) (nextPos R i (placeArg R t p).2)

/-- Arguments passed by reference. -/
def ByRef (t : FType) : Prop := hfa t = none ∧ 16 < t.size

instance (t) : Decidable (ByRef t) := by unfold ByRef; infer_instance

/-- Lowest offset used when the objects passed by reference are placed from `top`
downwards, each at its alignment; `none` if they do not fit above 0. -/
def copyLow : List FType → Nat → Option Nat
  | [], top => some top
  | t :: ts, top =>
    if ByRef t then
      if t.size ≤ top then copyLow ts ((top - t.size) / t.align * t.align) else none
    else copyLow ts top

/-- `bytes` are enough for the stack arguments from below and the objects passed by
reference from above. -/
def Room (R : Rules) (ts : List FType) (bytes : Nat) : Prop :=
  ∃ low, copyLow ts bytes = some low ∧ (endFrom R ts 0 start).nsaa ≤ low

/-- Space set aside for arguments one after the other, each at its alignment and
rounded up to 8 bytes. -/
def reserve (b : Nat) (ts : List FType) : Nat :=
  ts.foldl (fun b t => roundUp b t.align + roundUp t.size 8) b

/-- Passed (by value) in registers. -/
def Place.inReg : Place → Bool
  | .v _ _ | .x _ _ => true
  | _ => false

/-- A reference on the stack. -/
def Place.stackRef : Place → Bool
  | .refStack _ => true
  | _ => false

/-- Bytes of arguments in registers (rounded up). -/
def regBytes : List FType → List Place → Nat
  | t :: ts, p :: ps => (if p.inReg then roundUp t.size 8 else 0) + regBytes ts ps
  | _, _ => 0

/-- Number of references passed on the stack. -/
def refsOnStack : List Place → Nat
  | [] => 0
  | p :: ps => (if p.stackRef then 1 else 0) + refsOnStack ps

/-! ## Results -/

/-- Where a value is returned. -/
inductive RPlace
  | void
  /-- `x0`, integer scalar -/
  | int
  /-- `n` vector registers -/
  | v (n : Nat)
  /-- `x0`, `x1` -/
  | x
  /-- memory addressed by `x8` -/
  | mem
  deriving DecidableEq, Repr

def retPlace (t : FType) : RPlace :=
  match t.tc with
  | .void => .void
  | .float | .double | .longdouble | .struct | .complex =>
    match hfa t with
    | some n => .v n
    | none => if 16 < t.size then .mem else .x
  | _ => .int

/-- Signed integer types. -/
def isSigned : TC → Bool
  | .int | .sint8 | .sint16 | .sint32 | .sint64 => true
  | _ => false

/-- 64-bit value of an integer scalar stored little-endian in `bs`. -/
def extend64 (tc : TC) (bs : List Byte) : Nat :=
  if isSigned tc ∧ 256 ^ bs.length ≤ 2 * leNat bs then leNat bs + 2 ^ 64 - 256 ^ bs.length
  else leNat bs

/-- The object libffi delivers for a value: a full `ffi_arg` for integers, the value
itself otherwise. -/
def resultObj (t : FType) (v : List Byte) : List Byte :=
  if retPlace t = .int then leBytes 8 (extend64 t.tc v) else v

/-- The value `a` of type `t` has been returned in registers. -/
def ReturnedIn (x v : Nat → List Byte) (t : FType) (a : List Byte) : Prop :=
  a.length = t.size ∧
  (retPlace t = .int → (x 0).take t.size = a) ∧
  (retPlace t = .x → (xs x 0 2).take t.size = a) ∧
  (∀ n, retPlace t = .v n →
    ∀ j < n, (v j).take (t.size / n) = (a.drop (t.size / n * j)).take (t.size / n))

/-- An integer passed in a register fills all of it. -/
def WidenedAt (R : Regs) (t : FType) (a : List Byte) : Place → Prop
  | .x k _ => retPlace t = .int → R.x k = leBytes 8 (extend64 t.tc a)
  | _ => True

def AllWidened (R : Regs) : List FType → List (List Byte) → List Place → Prop
  | t :: ts, a :: as, p :: ps => WidenedAt R t a p ∧ AllWidened R ts as ps
  | [], [], [] => True
  | _, _, _ => False

end Verif.Spec.A64
