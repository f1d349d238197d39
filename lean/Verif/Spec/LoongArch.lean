import Verif.Spec.RiscV

/-
The LoongArch calling convention (lapcs, base ABI types lp64d and lp64s) has the rules of
the RISC-V one for 64-bit registers, so the definitions of `Spec/RiscV.lean` serve for it:
eight registers of each kind, structs of one or two reals or of a real and an integer in
registers of the respective kind, other types up to two words in integer registers or on
the stack, larger ones by reference, variadic arguments like integers, with aligned
register pairs for types of sixteen-byte alignment; integers up to 32 bits are extended to
32 bits according to their sign, then sign-extended.  The upper part of a register that
holds a `float` is not specified.
-/
namespace Verif.Spec.LA
open Verif RV

/-- Integers in registers and on the stack are widened. -/
def WidenedAt (A : Abi) (R : Regs) (t : FType) (v : List Byte) : Place → Prop
  | .direct ps => A.integer t.tc = true → ∀ p ∈ ps, Widened t.tc v (R.at A p.loc)
  | .ref _ => True

def AllWidened (A : Abi) (R : Regs) : List FType → List (List Byte) → List Place → Prop
  | t :: ts, v :: vs, pl :: ps => WidenedAt A R t v pl ∧ AllWidened A R ts vs ps
  | [], [], [] => True
  | _, _, _ => False

/-- References lead to objects in the range. -/
def RefIn (A : Abi) (R : Regs) (lo hi : Nat) (t : FType) : Place → Prop
  | .direct _ => True
  | .ref l => lo ≤ leNat (R.at A l) ∧ leNat (R.at A l) + t.size ≤ hi

def AllIn (A : Abi) (R : Regs) (lo hi : Nat) : List FType → List Place → Prop
  | t :: ts, pl :: ps => RefIn A R lo hi t pl ∧ AllIn A R lo hi ts ps
  | [], [] => True
  | _, _ => False

end Verif.Spec.LA
