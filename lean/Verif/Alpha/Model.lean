import Verif.Spec.Alpha
import Verif.Base.Mem

/-
src/alpha/ffi.c: `ffi_prep_cif_machdep`, `extend_basic_type`, `ffi_call_int`,
`ffi_closure_osf_inner`, with 128-bit `long double` (`__LONG_DOUBLE_128__`).

Simplified: memory is total and flat (which bytes are touched is a theorem); addresses do not
wrap around.
-/
namespace Verif.Alpha
open Verif Verif.Spec.Alpha

/-- ALPHA_ST_*, ALPHA_LD_*, ALPHA_RET_IN_MEM, ALPHA_FLAGS, src/alpha/internal.h. -/
def retInMem : Nat := 0x10000
def flagsOf (st ld : Nat) : Nat := ld <<< 8 ||| st

/-- FFI_ALIGN (x, 8). -/
def align8 (x : Nat) : Nat := (x + 7) / 8 * 8

/-- The bytes of an argument, src/alpha/ffi.c:79-114.  All type codes have a case. -/
def argBytes (t : FType) : Nat :=
  match t.tc with
  | .void | .struct => align8 t.size
  | .complex => if (t.elems.headD t).tc = .longdouble then 8 else 16
  | _ => 8

/-- The return type flag, src/alpha/ffi.c:119-177. -/
def retFlags (rt : FType) : Nat :=
  match rt.tc with
  | .void => flagsOf 0 0
  | .int | .uint32 | .sint32 => flagsOf 1 2
  | .float => flagsOf 2 7
  | .double => flagsOf 3 8
  | .uint8 => flagsOf 1 5
  | .sint8 => flagsOf 1 6
  | .uint16 => flagsOf 1 3
  | .sint16 => flagsOf 1 4
  | .uint64 | .sint64 | .pointer => flagsOf 1 1
  | .longdouble | .struct => retInMem
  | .complex =>
    match (rt.elems.headD rt).tc with
    | .float => flagsOf 4 9
    | .double => flagsOf 5 10
    | _ => if rt.size ≤ 8 then flagsOf 1 1 else retInMem

structure Cif where
  flags : Nat
  bytes : Nat
  deriving DecidableEq, Repr

/-- The argument area before it is stored in 32 bits, src/alpha/ffi.c:68-185. -/
def prepBytes (rt : FType) (ats : List FType) : Nat :=
  let b := (ats.map argBytes).sum
  let b := if retFlags rt = retInMem then b + 8 else b
  if b < 48 then 48 else b

/-- `ffi_prep_cif_machdep`, src/alpha/ffi.c:65-189, with FFI_OSF.  `cif->bytes` is an `unsigned`. -/
def prepCif (rt : FType) (ats : List FType) : Cif := ⟨retFlags rt, prepBytes rt ats % 2 ^ 32⟩

/-! ## Calls -/

/-- A signed integer of `n` bytes, converted to `unsigned long`. -/
def sext (n v : Nat) : Nat := if 2 ^ (8 * n - 1) ≤ v then v + 2 ^ 64 - 256 ^ n else v

/-- `extend_basic_type`, src/alpha/ffi.c:191-225; nothing: it aborts. -/
def extend (m : Mem) (a : Nat) (tc : TC) (argn : Nat) : Option Nat :=
  match tc with
  | .sint8 => some (sext 1 (leNat (m.rd a 1)))
  | .uint8 => some (leNat (m.rd a 1))
  | .sint16 => some (sext 2 (leNat (m.rd a 2)))
  | .uint16 => some (leNat (m.rd a 2))
  | .float => if argn < 6 then some (lds (leNat (m.rd a 4))) else some (sext 4 (leNat (m.rd a 4)))
  | .int | .sint32 | .uint32 => some (sext 4 (leNat (m.rd a 4)))
  | .sint64 | .uint64 | .pointer | .double => some (leNat (m.rd a 8))
  | _ => none

/-- `argp[argn] = v`. -/
def put (argp argn v : Nat) (m : Mem) : Mem := m.wr (argp + 8 * argn) (leBytes 8 v)

/-- One round of the loop of `ffi_call_int`, src/alpha/ffi.c:255-305; `a` is `avalue[i]`.  The
result is `argn` and memory; nothing: it aborts. -/
def callArg (argp : Nat) (t : FType) (a argn : Nat) (m : Mem) : Option (Nat × Mem) :=
  match t.tc with
  | .longdouble => some (argn + 1, put argp argn a m)
  | .void | .struct => some (argn + align8 t.size / 8, m.wr (argp + 8 * argn) (m.rd a t.size))
  | .complex =>
    let e := t.elems.headD t
    if e.tc = .longdouble then some (argn + 1, put argp argn a m)
    else
      match extend m a e.tc argn with
      | none => none
      | some v =>
        let m := put argp argn v m
        match extend m (a + e.size) e.tc (argn + 1) with
        | none => none
        | some v' => some (argn + 2, put argp (argn + 1) v' m)
  | tc =>
    match extend m a tc argn with
    | none => none
    | some v => some (argn + 1, put argp argn v m)

def callLoop (argp : Nat) : List FType → List Nat → Nat → Mem → Option (Nat × Mem)
  | t :: ts, a :: as, argn, m =>
    match callArg argp t a argn m with
    | none => none
    | some (argn, m) => callLoop argp ts as argn m
  | _, _, argn, m => some (argn, m)

/-- What `ffi_call_int` starts from: `top` is the stack pointer before `alloca`. -/
structure CallIn where
  mem : Mem
  top : Nat
  rvalue : Nat
  avalue : List Nat
  fn : Nat
  closure : Nat

/-- The arguments of `ffi_call_osf (argp, frame, flags, rvalue, fn, closure)`, and memory. -/
structure CallOut where
  mem : Mem
  argp : Nat
  frame : Nat
  flags : Nat
  rvalue : Nat

/-- `alloca (n)`: memory below, aligned to sixteen. -/
def alloca (top n : Nat) : Nat := (top - n) / 16 * 16

/-- `ffi_call_int` up to the call of `ffi_call_osf`, src/alpha/ffi.c:227-309; nothing: it aborts. -/
def callEntry (cif : Cif) (rt : FType) (ats : List FType) (I : CallIn) : Option CallOut :=
  let fake := I.rvalue = 0 ∧ cif.flags = retInMem
  let rvalue := if fake then alloca I.top rt.size else I.rvalue
  let argp := alloca (if fake then rvalue else I.top) (cif.bytes + 32)
  let m := if cif.flags = retInMem then put argp 0 rvalue I.mem else I.mem
  match callLoop argp ats I.avalue (if cif.flags = retInMem then 1 else 0) m with
  | none => none
  | some (_, m) => some ⟨m, argp, argp + cif.bytes, cif.flags &&& 0xff, rvalue⟩

/-! ## Closures -/

/-- `sts (p, argp[argn - 6])`, src/alpha/ffi.c:60-63. -/
def stsTo (p : Nat) (src : Nat) (m : Mem) : Mem := m.wr p (leBytes 4 (sts (leNat (m.rd src 8))))

/-- One round of the loop of `ffi_closure_osf_inner`, src/alpha/ffi.c:401-513: `avalue[i]`, `argn`
and memory; nothing: it aborts.  `argp` is the address of `argp[0]`; `tmp` is what `alloca (16)` returns. -/
def closureArg (argp tmp : Nat) (t : FType) (argn : Nat) (m : Mem) : Option (Nat × Nat × Mem) :=
  let p := argp + 8 * argn
  let q := argp + 8 * argn - 48
  match t.tc with
  | .void | .struct => some (p, argn + align8 t.size / 8, m)
  | .float => if argn < 6 then some (q, argn + 1, stsTo q q m) else some (p, argn + 1, m)
  | .double => some (if argn < 6 then q else p, argn + 1, m)
  | .longdouble => some (leNat (m.rd p 8), argn + 1, m)
  | .complex =>
    match (t.elems.headD t).tc with
    | .sint64 | .uint64 => some (p, argn + 2, m)
    | .int | .sint8 | .uint8 | .sint16 | .uint16 | .sint32 | .uint32 =>
      let size := (t.elems.headD t).size
      some (p, argn + 2, m.wr (p + size) (m.rd (p + 8) size))
    | .float =>
      let valp := if argn < 6 then q else p
      let m := if argn < 6 then stsTo q q m else m
      let m := if argn + 1 < 6 then stsTo (valp + 4) (q + 8) m
        else m.wr (valp + 4) (leBytes 4 (leNat (m.rd (p + 8) 8)))
      some (valp, argn + 2, m)
    | .double =>
      if argn < 5 then some (q, argn + 2, m)
      else if argn = 5 then
        let m := m.wr tmp (leBytes 8 (leNat (m.rd (argp - 8) 8)))
        some (tmp, argn + 2, m.wr (tmp + 8) (leBytes 8 (leNat (m.rd (argp + 48) 8))))
      else some (p, argn + 2, m)
    | .longdouble => some (leNat (m.rd p 8), argn + 1, m)
    | _ => none
  | _ => some (p, argn + 1, m)

def closureLoop (argp tmp : Nat) : List FType → Nat → Mem → Option (List Nat × Mem)
  | [], _, m => some ([], m)
  | t :: ts, argn, m =>
    match closureArg argp tmp t argn m with
    | none => none
    | some (v, argn, m) =>
      match closureLoop argp tmp ts argn m with
      | none => none
      | some (vs, m) => some (v :: vs, m)

/-- What the handler gets, src/alpha/ffi.c:374-517: the address for the result, those of the
arguments, and memory; `rvalue` is the fourth argument of `ffi_closure_osf_inner`. -/
def closureView (cif : Cif) (ats : List FType) (argp tmp rvalue : Nat) (m : Mem) : Option (Nat × List Nat × Mem) :=
  if cif.flags = retInMem then
    (closureLoop argp tmp ats 1 m).map fun r => (leNat (m.rd argp 8), r.1, r.2)
  else (closureLoop argp tmp ats 0 m).map fun r => (rvalue, r.1, r.2)

/-- The result of `ffi_closure_osf_inner`, src/alpha/ffi.c:520. -/
def ldCode (cif : Cif) : Nat := cif.flags >>> 8 &&& 0xff

end Verif.Alpha
