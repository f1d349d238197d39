import Verif.Spec.I386

/-
The procedure call standard of the 32-bit ARM architecture (AAPCS32), base standard and
VFP variant, little-endian, for types that libffi can describe.  Independent of the
model.  Values of integers are taken from `Verif/Spec/I386.lean`.
-/
namespace Verif.Spec.A32
open Verif
open Verif.Spec.X86 (word signed intVal WidenedTo)

/-- The data model: 64-bit scalars are aligned to eight bytes; `long double` is `double`
and has no descriptor of its own. -/
def tab : ScalarTab
  | .uint8 | .sint8 => some (1, 1)
  | .uint16 | .sint16 => some (2, 2)
  | .uint32 | .sint32 | .pointer | .float => some (4, 4)
  | .uint64 | .sint64 | .double => some (8, 8)
  | _ => none

/-- Words per number. -/
def fpWords : TC → Option Nat
  | .float => some 1
  | .double => some 2
  | _ => none

/-- `t` is a floating-point number or a homogeneous aggregate of `n` of them with `w`
words each: its scalar components are 1 to 4 numbers of the same kind, and nothing else
is in it. -/
def IsCprc (t : FType) (n w : Nat) : Prop :=
  1 ≤ n ∧ n ≤ 4 ∧ ∃ k, fpWords k = some w ∧ (leaves t 0).map (·.tc) = List.replicate n k ∧ t.size = 4 * (n * w)

/-- Candidates for VFP registers (VFP CPRC): number of members and words per member. -/
def cprc (t : FType) : Option (Nat × Nat) :=
  match (leaves t 0).map (·.tc) with
  | [] => none
  | k :: ks =>
    match fpWords k with
    | none => none
    | some w =>
      if ks.length < 4 ∧ ks = List.replicate ks.length k ∧ t.size = 4 * ((ks.length + 1) * w) then
        some (ks.length + 1, w)
      else none

/-- Where an argument is passed. -/
inductive Place
  /-- from core register `k` on; what does not fit into r3 is at the beginning of the
  stack arguments -/
  | core (k : Nat)
  /-- at an offset in the stack arguments -/
  | stack (off : Nat)
  /-- in consecutive single-precision registers from `k` on -/
  | vfp (k : Nat)
  deriving DecidableEq, Repr

/-- Next core register, next stack argument and the single-precision registers that are
not available. -/
structure Pos where
  ncrn : Nat
  nsaa : Nat
  used : List Nat
  deriving DecidableEq, Repr

/-- `n` registers from `k` on. -/
def run (k n : Nat) : List Nat := (List.range n).map (k + ·)

/-- The run of `n` registers at `k` is available; `w`: doubles are in even registers. -/
def Fits (used : List Nat) (n w k : Nat) : Prop := w ∣ k ∧ k + n ≤ 16 ∧ ∀ i < n, k + i ∉ used

instance (used : List Nat) (n w k : Nat) : Decidable (Fits used n w k) := by unfold Fits; infer_instance

/-- The lowest-numbered run. -/
def lowest (used : List Nat) (n w : Nat) : Option Nat := (List.range 17).find? fun k => decide (Fits used n w k)

/-- Words of an argument (rule B.4: composites are filled up to words). -/
def words (t : FType) : Nat := (t.size + 3) / 4

/-- Offset of the next stack argument (rules C.2 and C.7): arguments are aligned to four
or eight bytes. -/
def stackAt (t : FType) (nsaa : Nat) : Nat := if 8 ≤ t.align then roundUp nsaa 8 else nsaa

/-- Stage C of AAPCS32 6.5 for one argument; `hard` is the VFP variant.  Rule C.6 sets
the next core register to 4 when an argument goes to the stack; `open6` omits this if
there are stack arguments already.  -/
def placeArg (open6 hard : Bool) (t : FType) (p : Pos) : Place × Pos :=
  match (if hard then cprc t else none) with
  | some (n, w) =>
    match lowest p.used (n * w) w with
    | some k => (.vfp k, { p with used := p.used ++ run k (n * w) })
    | none => (.stack (stackAt t p.nsaa), ⟨p.ncrn, stackAt t p.nsaa + 4 * words t, List.range 16⟩)
  | none =>
    let g := if 8 ≤ t.align then roundUp p.ncrn 2 else p.ncrn
    if g + words t ≤ 4 then (.core g, { p with ncrn := g + words t })
    else if g < 4 ∧ p.nsaa = 0 then (.core g, { p with ncrn := 4, nsaa := 4 * (g + words t - 4) })
    else (.stack (stackAt t p.nsaa),
      { p with ncrn := if open6 ∧ p.nsaa ≠ 0 then p.ncrn else 4, nsaa := stackAt t p.nsaa + 4 * words t })

def placeFrom (open6 hard : Bool) : List FType → Pos → List Place
  | [], _ => []
  | t :: ts, p => (placeArg open6 hard t p).1 :: placeFrom open6 hard ts (placeArg open6 hard t p).2

def endFrom (open6 hard : Bool) : List FType → Pos → Pos
  | [], p => p
  | t :: ts, p => endFrom open6 hard ts (placeArg open6 hard t p).2

/-! ## Results -/

/-- Where a result is returned. -/
inductive RPlace
  | void
  /-- r0, or r0 and r1 -/
  | core
  /-- single-precision registers from s0 on -/
  | vfp
  /-- memory addressed by the first core register -/
  | mem
  deriving DecidableEq, Repr

/-- Composites of more than four bytes are returned in memory, unless the VFP variant
has them in registers. -/
def retPlace (hard : Bool) (t : FType) : RPlace :=
  match t.tc with
  | .void => .void
  | .float | .double | .struct | .complex =>
    if hard ∧ (cprc t).isSome then .vfp
    else if (t.tc = .struct ∨ t.tc = .complex) ∧ 4 < t.size then .mem else .core
  | _ => .core

/-- Position of the first argument. -/
def start (hard : Bool) (rt : FType) : Pos := ⟨if retPlace hard rt = .mem then 1 else 0, 0, []⟩

/-- Places of the arguments. -/
def places (hard : Bool) (rt : FType) (ts : List FType) : List Place := placeFrom false hard ts (start hard rt)

/-! ## Values -/

/-- Machine state when a function is entered, or, as regards registers, left. -/
structure Regs where
  /-- r0 to r3, four bytes each -/
  r : Nat → List Byte
  /-- s0 to s15, four bytes each -/
  s : Nat → List Byte
  mem : Mem
  sp : Nat

/-- Contents of `n` consecutive registers. -/
def cat (f : Nat → List Byte) (k : Nat) : Nat → List Byte
  | 0 => []
  | n + 1 => cat f k n ++ f (k + n)

/-- The first `n` bytes at a place. -/
def Regs.at (R : Regs) (n : Nat) : Place → List Byte
  | .core k => (cat R.r k (4 - k) ++ R.mem.rd R.sp n).take n
  | .stack o => R.mem.rd (R.sp + o) n
  | .vfp k => (cat R.s k (16 - k)).take n

/-- The value is passed at the place; integers of less than 32 bits are widened (rule
B.2). -/
def PassedAt (R : Regs) (t : FType) (v : List Byte) (l : Place) : Prop :=
  R.at t.size l = v ∧ WidenedTo t v (R.at 4 l)

def AllPassed (R : Regs) : List FType → List (List Byte) → List Place → Prop
  | t :: ts, v :: vs, l :: ls => PassedAt R t v l ∧ AllPassed R ts vs ls
  | [], [], [] => True
  | _, _, _ => False

/-- A function has returned the value, not in memory. -/
def Returned (hard : Bool) (t : FType) (v : List Byte) (r s : Nat → List Byte) : Prop :=
  v.length = t.size ∧
  (retPlace hard t = .core → (cat r 0 2).take t.size = v ∧ WidenedTo t v (r 0)) ∧
  (retPlace hard t = .vfp → (cat s 0 16).take t.size = v)

end Verif.Spec.A32
