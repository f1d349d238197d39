import Verif.Core.Model

/-
Specification of C aggregate layout, written without the alignment macro and
without the loop of the implementation.
-/
namespace Verif.Spec

/-- `m` is the least multiple of `a` that is at least `v`. -/
def IsLeastMult (a v m : Nat) : Prop :=
  a ∣ m ∧ v ≤ m ∧ ∀ m', a ∣ m' → v ≤ m' → m ≤ m'

/-- Members given as `(size, alignment)` are placed one after the other, each at
the least admissible offset; the first index is where free space starts, the
last one where it ends. -/
inductive Placed : Nat → List (Nat × Nat) → List Nat → Nat → Prop
  | nil (e : Nat) : Placed e [] [] e
  | cons {e o s a ms os e'} : IsLeastMult a e o → Placed (o + s) ms os e' →
      Placed e ((s, a) :: ms) (o :: os) e'

/-- `al` is the strictest alignment among the members. -/
def IsMaxAlign (ms : List (Nat × Nat)) (al : Nat) : Prop :=
  (∃ m ∈ ms, m.2 = al) ∧ ∀ m ∈ ms, m.2 ≤ al

/-- A C struct with members `ms` has member offsets `offs`, size `s` and
alignment `al`. -/
def StructLayout (ms : List (Nat × Nat)) (offs : List Nat) (s al : Nat) : Prop :=
  ∃ e, Placed 0 ms offs e ∧ IsMaxAlign ms al ∧ IsLeastMult al e s

mutual
/-- In the descriptor heap `h`, the type at an address has the given size and
alignment: either because its descriptor says so (size already set), or because
it is an unset aggregate whose members have layouts and that is laid out by the
C rules.  Empty aggregates have no layout. -/
inductive Layout (h : Heap) : Addr → Nat → Nat → Prop
  | preset {a d} : h a = some d → d.size ≠ 0 → Layout h a d.size d.align
  | agg {a d es ms offs s al} : h a = some d → d.size = 0 → d.elements = some es →
      Members h es ms → StructLayout ms offs s al → s ≠ 0 → Layout h a s al
inductive Members (h : Heap) : List Addr → List (Nat × Nat) → Prop
  | nil : Members h [] []
  | cons {e es s al ms} : Layout h e s al → Members h es ms →
      Members h (e :: es) ((s, al) :: ms)
end

/-- An aggregate descriptor whose size has not been set yet. -/
def Unset (h : Heap) (a : Addr) : Prop := ∃ d, h a = some d ∧ d.size = 0

/-- `b` is visited when laying out `a`: reachable through unset aggregates. -/
inductive Visits (h : Heap) : Addr → Addr → Prop
  | refl (a) : Visits h a a
  | step {a d es e b} : h a = some d → d.size = 0 → d.elements = some es → e ∈ es →
      Visits h e b → Visits h a b

/-- Sane heaps: descriptors that are already set have a power-of-two alignment,
element pointers of unset aggregates are valid, unset aggregates are not
cyclic, and sizes stay within the address space. -/
structure Valid (h : Heap) : Prop where
  pow2 : ∀ a d, h a = some d → d.size ≠ 0 → ∃ k, k < 16 ∧ d.align = 2 ^ k
  ptrs : ∀ a d es, h a = some d → d.size = 0 → d.elements = some es →
    ∀ e ∈ es, ∃ d', h e = some d'
  acyclic : ∃ rk : Addr → Nat, ∀ a d es, h a = some d → d.size = 0 → d.elements = some es →
    ∀ e ∈ es, Unset h e → rk e < rk a
  fits : ∀ a s al, Layout h a s al → s < 2 ^ 63

/-- The type can be laid out. -/
def HasLayout (h : Heap) (a : Addr) : Prop := ∃ s al, Layout h a s al

end Verif.Spec
