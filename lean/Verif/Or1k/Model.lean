import Verif.Spec.Or1k

/-
src/or1k/ffi.c.

Simplified: memory is total and flat (which bytes are touched is a theorem); addresses and sizes do not
wrap around, and `int` holds the size of the arguments.
-/
namespace Verif.Or1k
open Verif Verif.Spec.Or1k

/-- `cif->flags`: FFI_TYPE_STRUCT, FFI_TYPE_UINT64 or 0, src/or1k/ffi.c:316-330. -/
def flags (rt : FType) : Nat := if rt.tc = .struct then 13 else if rt.size > 4 then 11 else 0

/-- A signed integer of `n` bytes as a word. -/
def sext (n v : Nat) : Nat := if 2 ^ (8 * n - 1) ≤ v then v + 2 ^ 32 - 256 ^ n else v

/-- One round of the loop of `ffi_prep_args`, src/or1k/ffi.c:62-107, behind the check for variadic arguments: `count` and memory.
`stack` is always `base + count`.  `a` is `*argv`. -/
def prepArg (base : Nat) (t : FType) (a count : Nat) (m : Mem) : Nat × Mem :=
  match t.tc with
  | .struct => (count + 4, m.wr (base + count) (beBytes 4 a))
  | .sint8 => (count + 4, m.wr (base + count) (beBytes 4 (sext 1 (beNat (m.rd a 1)))))
  | .uint8 => (count + 4, m.wr (base + count) (beBytes 4 (beNat (m.rd a 1))))
  | .sint16 => (count + 4, m.wr (base + count) (beBytes 4 (sext 2 (beNat (m.rd a 2)))))
  | .uint16 => (count + 4, m.wr (base + count) (beBytes 4 (beNat (m.rd a 2))))
  | .sint32 | .uint32 | .float | .pointer => (count + 4, m.wr (base + count) (beBytes 4 (beNat (m.rd a 4))))
  | _ =>
    let count := if count = 20 then 24 else count
    (count + t.size, m.wr (base + count) (m.rd a t.size))

/-- The loop, src/or1k/ffi.c:51-107; `nf` is `nfixedargs`. -/
def prepLoop (base : Nat) : Int → List FType → List Nat → Nat → Mem → Nat × Mem
  | nf, t :: ts, a :: as, count, m =>
    let count := if nf = 0 ∧ count < 24 then 24 else count
    let r := prepArg base t a count m
    prepLoop base (nf - 1) ts as r.1 r.2
  | _, _, _, count, m => (count, m)

/-- `ffi_prep_args`, src/or1k/ffi.c:33-109: the new stack pointer, memory. -/
def prepArgs (base : Nat) (rt : FType) (nfixed : Nat) (ats : List FType) (avalue : List Nat) (rvalue : Nat) (m : Mem) : Nat × Mem :=
  let r := if rt.tc = .struct then prepLoop base nfixed ats avalue 4 (m.wr base (beBytes 4 rvalue)) else prepLoop base nfixed ats avalue 0 m
  (base + (if r.1 > 24 then 24 else 0), r.2)

/-- The size of an argument on the stack, src/or1k/ffi.c:129-135. -/
def argSize (t : FType) : Nat := if t.tc = .struct then 4 else if t.size ≤ 4 then 4 else 8

/-- `size`, src/or1k/ffi.c:127-156. -/
def callSize (rt : FType) (nfixed : Nat) (ats : List FType) : Nat :=
  (ats.map argSize).sum + (if ats.length ≠ nfixed then 24 else 0) + (if rt.tc = .struct then 4 else 0)

/-- `alloca`: the stack pointer is a multiple of four. -/
def alloca (top n : Nat) : Nat := (top - n) / 4 * 4

/-- The copies of structs, src/or1k/ffi.c:137-149: `avalue`, which is changed, the stack pointer, memory. -/
def copyArgs : List FType → List Nat → Nat → Mem → List Nat × Nat × Mem
  | t :: ts, a :: as, top, m =>
    if t.tc = .struct then
      let p := alloca top t.size
      let r := copyArgs ts as p (m.wr p (m.rd a t.size))
      (p :: r.1, r.2)
    else
      let r := copyArgs ts as top m
      (a :: r.1, r.2)
  | _, as, top, m => (as, top, m)

/-! ## Closures -/

/-- One round of the loop of `ffi_closure_SYSV`, src/or1k/ffi.c:218-261, behind the check for variadic arguments: `avalue[i]`,
`ptr` and `count`.  `ra` is the address of `register_args`, `st` is `stack_args`. -/
def closureArg (m : Mem) (ra st : Nat) (t : FType) (ptr count : Nat) : Nat × Nat × Nat :=
  let r : Nat × Nat × Nat := match t.tc with
    | .sint8 | .uint8 => (ptr + 3, ptr + 4, count + 4)
    | .sint16 | .uint16 => (ptr + 2, ptr + 4, count + 4)
    | .sint32 | .uint32 | .float | .pointer => (ptr, ptr + 4, count + 4)
    | .struct => (beNat (m.rd ptr 4), ptr + 4, count + 4)
    | _ =>
      let ptr := if ptr = ra + 20 then st else ptr
      (ptr, ptr + 8, count + 8)
  if r.2.2 = 24 then (r.1, st, r.2.2) else r

def closureLoop (m : Mem) (ra st : Nat) : Int → List FType → Nat → Nat → List Nat
  | _, [], _, _ => []
  | nf, t :: ts, ptr, count =>
    let b := nf = 0 ∧ count < 24
    let r := closureArg m ra st t (if b then st else ptr) (if b then 24 else count)
    r.1 :: closureLoop m ra st (nf - 1) ts r.2.1 r.2.2

/-- `avalue`, src/or1k/ffi.c:186-262; `m` has the registers in `register_args`. -/
def closureView (m : Mem) (ra st : Nat) (rt : FType) (nfixed : Nat) (ats : List FType) : List Nat :=
  if rt.tc = .struct then closureLoop m ra st nfixed ats (ra + 4) 4 else closureLoop m ra st nfixed ats ra 0

end Verif.Or1k
