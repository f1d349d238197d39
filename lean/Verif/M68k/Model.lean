import Verif.Spec.M68k

/-
src/m68k/ffi.c, Linux (`__MINT__` is not defined).

Simplified: memory is total and flat (which bytes are touched is a theorem); addresses and sizes do not wrap around.
-/
namespace Verif.M68k
open Verif Verif.Spec.M68k

/-- A signed integer of `n` bytes as a word. -/
def sext (n v : Nat) : Nat := if 2 ^ (8 * n - 1) ≤ v then v + 2 ^ 32 - 256 ^ n else v

/-- `FFI_ALIGN(z, 4)`. -/
def up4 (z : Nat) : Nat := (z + 3) / 4 * 4

/-- One round of the loop of `ffi_prep_args`, src/m68k/ffi.c:59-111: `argp` and memory.  `a` is `*p_argv`. -/
def prepArg (t : FType) (a argp : Nat) (m : Mem) : Nat × Mem :=
  if t.size < 4 then
    (argp + 4, match t.tc with
      | .sint8 => m.wr argp (beBytes 4 (sext 1 (beNat (m.rd a 1))))
      | .uint8 => m.wr argp (beBytes 4 (beNat (m.rd a 1)))
      | .sint16 => m.wr argp (beBytes 4 (sext 2 (beNat (m.rd a 2))))
      | .uint16 => m.wr argp (beBytes 4 (beNat (m.rd a 2)))
      | .struct => m.wr (argp + 4 - t.size) (m.rd a t.size)
      | _ => m)
  else (argp + (if t.size % 4 ≠ 0 then up4 t.size else t.size), m.wr argp (m.rd a t.size))

/-- The loop, src/m68k/ffi.c:55-111. -/
def prepArgs : List FType → List Nat → Nat → Mem → Mem
  | t :: ts, a :: as, argp, m => prepArgs ts as (prepArg t a argp m).1 (prepArg t a argp m).2
  | _, _, _, m => m

/-- The first member is a struct and there is another one, src/m68k/ffi.c:141-142. -/
def nested : List FType → Bool
  | e :: _ :: _ => e.tc == .struct
  | _ => false

/-- `cif->flags`, src/m68k/ffi.c:130-213. -/
def flags (rt : FType) : Nat :=
  match rt.tc with
  | .void => 0
  | .struct =>
    if nested rt.elems then 0
    else if rt.size = 1 then 64 else if rt.size = 2 then 128 else if rt.size = 4 then 1 else if rt.size = 8 then 2 else 0
  | .float => 4
  | .double => 8
  | .longdouble => 16
  | .pointer => 32
  | .sint64 | .uint64 => 2
  | .sint16 => 512
  | .sint8 => 256
  | _ => 1

/-- `struct_value_ptr`, src/m68k/ffi.c:45-53. -/
def structPtr (rt : FType) (rvalue : Nat) : Nat := if rt.tc = .struct ∧ flags rt = 0 then rvalue else 0

/-- `ecif.rvalue`, src/m68k/ffi.c:226-234: `room` is what `alloca` returns. -/
def callRvalue (rt : FType) (rvalue room : Nat) : Nat := if rvalue = 0 ∧ rt.tc = .struct ∧ rt.size > 8 then room else rvalue

/-- `cif->bytes`, src/prep_cif.c:155-201. -/
def prepBytes (rt : FType) (ats : List FType) : Nat :=
  ats.foldl (fun b t => (if b % t.align ≠ 0 then (b + t.align - 1) / t.align * t.align else b) + up4 t.size) (if rt.tc = .struct then 4 else 0)

/-- `ffi_prep_incoming_args_SYSV`, src/m68k/ffi.c:252-304. -/
def closureView : Nat → List FType → List Nat
  | _, [] => []
  | argp, t :: ts =>
    if t.size ≤ 4 then (argp + 4 - t.size) :: closureView (argp + 4) ts
    else argp :: closureView (argp + (if t.size % 4 ≠ 0 then up4 t.size else t.size)) ts

end Verif.M68k
