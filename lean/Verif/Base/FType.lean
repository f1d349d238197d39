import Verif.Core.Model
import Verif.Spec.Layout

/-
Type trees: the machine-dependent files only read descriptors (after
`ffi_prep_cif_core` has laid them out), so they are modelled on the tree obtained
by unfolding a descriptor.  `Verif/Core/Tree.lean` links trees to the heap.
-/
namespace Verif

/-- An unfolded `ffi_type` (include/ffi.h.in `struct _ffi_type`): size, alignment,
type code and elements. -/
inductive FType where
  | mk (size align : Nat) (tc : TC) (elems : List FType)

namespace FType
def size : FType → Nat | mk s _ _ _ => s
def align : FType → Nat | mk _ a _ _ => a
def tc : FType → TC | mk _ _ c _ => c
def elems : FType → List FType | mk _ _ _ e => e

@[simp] theorem size_mk (s a c e) : (mk s a c e).size = s := rfl
@[simp] theorem align_mk (s a c e) : (mk s a c e).align = a := rfl
@[simp] theorem tc_mk (s a c e) : (mk s a c e).tc = c := rfl
@[simp] theorem elems_mk (s a c e) : (mk s a c e).elems = e := rfl
end FType

namespace Spec

/-- Size and alignment of the scalar types of a data model. -/
abbrev ScalarTab := TC → Option (Nat × Nat)

/-- The LP64 data model with 16-byte `long double` (x86-64, AArch64, RV64);
src/types.c instantiates the descriptors with these values. -/
def lp64 : ScalarTab
  | .uint8 | .sint8 => some (1, 1)
  | .uint16 | .sint16 => some (2, 2)
  | .uint32 | .sint32 => some (4, 4)
  | .uint64 | .sint64 | .pointer => some (8, 8)
  | .float => some (4, 4)
  | .double => some (8, 8)
  | .longdouble => some (16, 16)
  | _ => none

/-- Types that have a complex variant. -/
def complexBase : TC → Bool
  | .uint8 | .sint8 | .uint16 | .sint16 | .uint32 | .sint32 | .uint64 | .sint64
  | .float | .double | .longdouble => true
  | _ => false

/-- Well-formed object types: scalars and complex types of the data model, and
non-empty structs of well-formed members with C layout. -/
inductive WF (tab : ScalarTab) : FType → Prop
  | scalar {tc s a} : tab tc = some (s, a) → WF tab (.mk s a tc [])
  | complex {tc s a} : complexBase tc = true → tab tc = some (s, a) →
      WF tab (.mk (2 * s) a .complex [.mk s a tc []])
  | struct {es s a offs} : (∀ e ∈ es, WF tab e) →
      StructLayout (es.map fun e => (e.size, e.align)) offs s a → WF tab (.mk s a .struct es)

/-- A scalar component of a value: offset, size, type code. -/
structure Leaf where
  off : Nat
  size : Nat
  tc : TC
  deriving DecidableEq, Repr

mutual
/-- The scalar components of a type placed at offset `o`; a complex number is a
pair of its parts. -/
def leaves : FType → Nat → List Leaf
  | .mk s _ tc es, o =>
    match tc with
    | .struct => leavesL es o 0
    | .complex =>
      match es with
      | [.mk s' _ tc' _] => [⟨o, s', tc'⟩, ⟨o + s', s', tc'⟩]
      | _ => []
    | tc => [⟨o, s, tc⟩]
/-- Members of a struct at offset `o`, from relative position `cur` on: each
member is placed at the next multiple of its alignment. -/
def leavesL : List FType → Nat → Nat → List Leaf
  | [], _, _ => []
  | e :: es, o, cur =>
    leaves e (o + roundUp cur e.align) ++ leavesL es o (roundUp cur e.align + e.size)
end

end Spec
end Verif
