import Verif.Raw.Model

/-
Assumptions on configurations and types for the raw API.
-/
namespace Verif.Spec.Raw
open Verif Verif.Raw

/-- Configurations of the supported targets. -/
structure CfgOk (c : Cfg) : Prop where
  ptr : c.ptr = 4 ∨ c.ptr = 8
  arg : c.arg = 4 ∨ c.arg = 8
  le : c.ptr ≤ c.arg
  jraw : c.jraw = c.arg ∨ (c.jraw = 4 ∧ c.ptr = 4)

/-- Size an argument type must have: fixed for integers, pointers and floating-point
scalars, arbitrary for the rest. -/
def scalarSize (c : Cfg) : TC → Option Nat
  | .uint8 | .sint8 => some 1
  | .uint16 | .sint16 => some 2
  | .uint32 | .sint32 | .float => some 4
  | .uint64 | .sint64 | .double => some 8
  | .pointer => some c.ptr
  | _ => none

structure TypeOk (c : Cfg) (t : FType) : Prop where
  size : ∀ n, scalarSize c t.tc = some n → t.size = n
  pos : 0 < t.size
  small : t.size < 2 ^ 31

/-- Passed through the raw area as an address. -/
def byAddr : TC → Bool
  | .struct | .complex => true
  | _ => false

/-- Argument types the decoder of src/raw_api.c steps over correctly: all of them on
big-endian targets and where arguments are as wide as pointers; otherwise those not
larger than a pointer. -/
def Steppable (c : Cfg) (t : FType) : Prop :=
  c.be = true ∨ c.ptr = c.arg ∨ t.size ≤ c.ptr ∨ byAddr t.tc = true

/-- Argument types of Java methods. -/
def javaType : TC → Bool
  | .uint8 | .sint8 | .uint16 | .sint16 | .uint32 | .sint32 | .uint64 | .sint64
  | .float | .double | .pointer => true
  | _ => false

end Verif.Spec.Raw
