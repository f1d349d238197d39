import Verif.Base.FType
import Verif.Base.Mem

/-
The RISC-V calling convention (psABI, chapter "Calling Convention"), for the integer
and the hardware floating-point conventions with 32- and 64-bit registers, as far as
types that libffi can describe are concerned.  Independent of the model.
-/
namespace Verif.Spec.RV
open Verif

/-- Width of integer registers and of the floating-point registers used for arguments,
in bytes: XLEN 4 or 8, ABI_FLEN 0, 4 or 8. -/
structure Abi where
  xlen : Nat
  flen : Nat
  deriving DecidableEq, Repr

def Abi.Ok (A : Abi) : Prop := (A.xlen = 4 ∨ A.xlen = 8) ∧ (A.flen = 0 ∨ A.flen = 4 ∨ A.flen = 8)

/-- The data models: ILP32 and LP64, both with naturally aligned 64-bit scalars and
16-byte `long double`. -/
def tab (xlen : Nat) : ScalarTab
  | .uint8 | .sint8 => some (1, 1)
  | .uint16 | .sint16 => some (2, 2)
  | .uint32 | .sint32 => some (4, 4)
  | .uint64 | .sint64 => some (8, 8)
  | .pointer => some (xlen, xlen)
  | .float => some (4, 4)
  | .double => some (8, 8)
  | .longdouble => some (16, 16)
  | _ => none

/-- Object types without complex numbers (which libffi rejects on this target,
src/prep_cif.c:138-141, 173-176). -/
inductive Plain (tab : ScalarTab) : FType → Prop
  | scalar {tc s a} : tab tc = some (s, a) → Plain tab (.mk s a tc [])
  | struct {es s a offs} : (∀ e ∈ es, Plain tab e) →
      StructLayout (es.map fun e => (e.size, e.align)) offs s a → Plain tab (.mk s a .struct es)

/-- Real types that fit a floating-point argument register. -/
def Abi.real (A : Abi) : TC → Bool
  | .float => decide (4 ≤ A.flen)
  | .double => decide (8 ≤ A.flen)
  | _ => false

/-- Integer types of at most XLEN bits.  (Compilers do not count pointers.) -/
def Abi.integer (A : Abi) : TC → Bool
  | .uint8 | .sint8 | .uint16 | .sint16 | .uint32 | .sint32 => true
  | .uint64 | .sint64 => decide (8 ≤ A.xlen)
  | _ => false

/-- Where a register-sized datum is passed: `fa0`…, `a0`…, or at an offset from the
stack pointer. -/
inductive Loc
  | fa (k : Nat)
  | a (k : Nat)
  | stk (off : Nat)
  deriving DecidableEq, Repr

/-- The bytes `off`, …, `off + len - 1` of an argument are in the low-order part of
`loc`. -/
structure Piece where
  off : Nat
  len : Nat
  loc : Loc
  deriving DecidableEq, Repr

/-- How an argument is passed: in pieces, or by a reference to a copy. -/
inductive Place
  | direct (ps : List Piece)
  | ref (loc : Loc)
  deriving DecidableEq, Repr

/-- Integer registers, floating-point registers and stack bytes in use. -/
structure Pos where
  ni : Nat
  nf : Nat
  ns : Nat
  deriving DecidableEq, Repr

/-- The next integer register, or the next stack slot if there is none. -/
def word (A : Abi) (p : Pos) : Loc × Pos :=
  if p.ni < 8 then (.a p.ni, { p with ni := p.ni + 1 }) else (.stk p.ns, { p with ns := p.ns + A.xlen })

/-- Before an argument of 2·XLEN alignment: the stack is aligned; if it is a variadic
one, so is the register number. -/
def evenPos (A : Abi) (var : Bool) (p : Pos) : Pos :=
  { p with ni := if var then roundUp p.ni 2 else p.ni, ns := roundUp p.ns (2 * A.xlen) }

/-- The integer calling convention. -/
def intConv (A : Abi) (var : Bool) (t : FType) (p : Pos) : Place × Pos :=
  if 2 * A.xlen < t.size then
    (.ref (word A p).1, (word A p).2)
  else if t.size ≤ A.xlen then
    (.direct [⟨0, t.size, (word A p).1⟩], (word A p).2)
  else
    let q := if A.xlen < t.align then evenPos A var p else p
    (.direct [⟨0, A.xlen, (word A q).1⟩, ⟨A.xlen, t.size - A.xlen, (word A (word A q).2).1⟩],
      (word A (word A q).2).2)

/-- Place of an argument and position after it.  Under the hardware floating-point
convention a real, a struct of one real, of two reals, or of one real and one integer
is passed in registers of the respective kind if there are enough. -/
def placeArg (A : Abi) (var : Bool) (t : FType) (p : Pos) : Place × Pos :=
  if var then intConv A var t p
  else
    match leaves t 0 with
    | [l] =>
      if A.real l.tc ∧ p.nf < 8 then (.direct [⟨l.off, l.size, .fa p.nf⟩], { p with nf := p.nf + 1 })
      else intConv A var t p
    | [l₁, l₂] =>
      if A.real l₁.tc ∧ A.real l₂.tc ∧ p.nf + 1 < 8 then
        (.direct [⟨l₁.off, l₁.size, .fa p.nf⟩, ⟨l₂.off, l₂.size, .fa (p.nf + 1)⟩], { p with nf := p.nf + 2 })
      else if A.real l₁.tc ∧ A.integer l₂.tc ∧ p.nf < 8 ∧ p.ni < 8 then
        (.direct [⟨l₁.off, l₁.size, .fa p.nf⟩, ⟨l₂.off, l₂.size, .a p.ni⟩],
          { p with nf := p.nf + 1, ni := p.ni + 1 })
      else if A.integer l₁.tc ∧ A.real l₂.tc ∧ p.nf < 8 ∧ p.ni < 8 then
        (.direct [⟨l₁.off, l₁.size, .a p.ni⟩, ⟨l₂.off, l₂.size, .fa p.nf⟩],
          { p with nf := p.nf + 1, ni := p.ni + 1 })
      else intConv A var t p
    | _ => intConv A var t p

/-- Places of arguments `i`, `i + 1`, …; those from `nfixed` on are variadic. -/
def placeFrom (A : Abi) (nfixed : Nat) : List FType → Nat → Pos → List Place
  | [], _, _ => []
  | t :: ts, i, p =>
    (placeArg A (decide (nfixed ≤ i)) t p).1 ::
      placeFrom A nfixed ts (i + 1) (placeArg A (decide (nfixed ≤ i)) t p).2

/-- Position after all arguments. -/
def endFrom (A : Abi) (nfixed : Nat) : List FType → Nat → Pos → Pos
  | [], _, p => p
  | t :: ts, i, p => endFrom A nfixed ts (i + 1) (placeArg A (decide (nfixed ≤ i)) t p).2

/-- If the argument is a named struct of a single real, a floating-point register is
left for it. -/
def SingleOk (A : Abi) (var : Bool) (t : FType) (p : Pos) : Prop :=
  var = false → t.tc = .struct → ∀ l, leaves t 0 = [l] → A.real l.tc = true → p.nf < 8

def SinglesOk (A : Abi) (nfixed : Nat) : List FType → Nat → Pos → Prop
  | [], _, _ => True
  | t :: ts, i, p => SingleOk A (decide (nfixed ≤ i)) t p ∧
      SinglesOk A nfixed ts (i + 1) (placeArg A (decide (nfixed ≤ i)) t p).2

/-- A result is returned like a first named argument; if that would be passed by
reference, the caller passes the address of the result in `a0`. -/
def retPlace (A : Abi) (t : FType) : Place := (placeArg A false t ⟨0, 0, 0⟩).1

def Place.isRef : Place → Bool
  | .ref _ => true
  | _ => false

/-- Position of the first argument. -/
def start (A : Abi) (rt : Option FType) : Pos :=
  match rt with
  | some t => if (retPlace A t).isRef then ⟨1, 0, 0⟩ else ⟨0, 0, 0⟩
  | none => ⟨0, 0, 0⟩

/-- Machine state at a call. -/
structure Regs where
  fa : Nat → List Byte
  a : Nat → List Byte
  mem : Mem
  sp : Nat

/-- Contents of a location. -/
def Regs.at (A : Abi) (R : Regs) : Loc → List Byte
  | .fa k => R.fa k
  | .a k => R.a k
  | .stk o => R.mem.rd (R.sp + o) A.xlen

/-- The value `v` of type `t` is passed at a place. -/
def PassedAt (A : Abi) (R : Regs) (t : FType) (v : List Byte) : Place → Prop
  | .direct ps => ∀ p ∈ ps, (R.at A p.loc).take p.len = (v.drop p.off).take p.len
  | .ref l => R.mem.rd (leNat (R.at A l)) t.size = v

def AllPassed (A : Abi) (R : Regs) : List FType → List (List Byte) → List Place → Prop
  | t :: ts, v :: vs, pl :: ps => PassedAt A R t v pl ∧ AllPassed A R ts vs ps
  | [], [], [] => True
  | _, _, _ => False

/-- References are to objects aligned for their type. -/
def RefAligned (A : Abi) (R : Regs) (t : FType) : Place → Prop
  | .direct _ => True
  | .ref l => t.align ∣ leNat (R.at A l)

def AllAligned (A : Abi) (R : Regs) : List FType → List Place → Prop
  | t :: ts, pl :: ps => RefAligned A R t pl ∧ AllAligned A R ts ps
  | [], [] => True
  | _, _ => False

/-- The referenced object is outside of the range. -/
def RefOut (A : Abi) (R : Regs) (lo hi : Nat) (t : FType) : Place → Prop
  | .direct _ => True
  | .ref l => leNat (R.at A l) + t.size ≤ lo ∨ hi ≤ leNat (R.at A l)

def AllOut (A : Abi) (R : Regs) (lo hi : Nat) : List FType → List Place → Prop
  | t :: ts, pl :: ps => RefOut A R lo hi t pl ∧ AllOut A R lo hi ts ps
  | [], [] => True
  | _, _ => False

/-- Integer value of the bytes of a scalar of the given type. -/
def signed : TC → Bool
  | .sint8 | .sint16 | .sint32 | .sint64 => true
  | _ => false

def intVal (sg : Bool) (bs : List Byte) : Int :=
  if sg && decide (256 ^ bs.length ≤ 2 * leNat bs) then (leNat bs : Int) - 256 ^ bs.length else leNat bs

/-- Scalars narrower than XLEN are widened according to the sign of their type up to 32
bits, then sign-extended: the content of the register for a value of type `tc`. -/
def Widened (tc : TC) (v reg : List Byte) : Prop :=
  (intVal (signed tc || decide (v.length = 4)) v - leNat reg) % 256 ^ reg.length = 0

/-- Integers in registers and on the stack are widened; reals narrower than the register
are NaN-boxed. -/
def ExtendedAt (A : Abi) (R : Regs) (t : FType) (v : List Byte) : Place → Prop
  | .direct ps => ∀ p ∈ ps,
    (A.integer t.tc → Widened t.tc v (R.at A p.loc)) ∧
    (∀ k, p.loc = .fa k → ∀ b ∈ (R.at A p.loc).drop p.len, b = 0xff)
  | .ref _ => True

def AllExtended (A : Abi) (R : Regs) : List FType → List (List Byte) → List Place → Prop
  | t :: ts, v :: vs, pl :: ps => ExtendedAt A R t v pl ∧ AllExtended A R ts vs ps
  | [], [], [] => True
  | _, _, _ => False

/-- Two values of a type agree in all members (padding may differ). -/
def SameMembers (t : FType) (v v' : List Byte) : Prop :=
  ∀ l ∈ leaves t 0, (v.drop l.off).take l.size = (v'.drop l.off).take l.size

/-- A handler's argument pointers lead to objects with the values. -/
def AllFound (m : Mem) : List FType → List (List Byte) → List Nat → Prop
  | t :: ts, v :: vs, a :: as => SameMembers t (m.rd a t.size) v ∧ AllFound m ts vs as
  | [], [], [] => True
  | _, _, _ => False

/-- The argument pointers are aligned. -/
def AllPtrs : List FType → List Nat → Prop
  | t :: ts, a :: as => t.align ∣ a ∧ AllPtrs ts as
  | [], [] => True
  | _, _ => False

end Verif.Spec.RV
