import Verif.Spec.S390

/-
src/s390/ffi.c: `ffi_check_struct_type`, `ffi_prep_cif_machdep`, `ffi_call_int`,
`ffi_closure_helper_SYSV`, `ffi_prep_closure_loc`, `ffi_prep_go_closure`, with 31 and 64 bits
(`__s390x__`), FFI_TYPE_LONGDOUBLE different from FFI_TYPE_DOUBLE.

Simplified: memory is total and flat (which bytes are touched is a theorem); addresses do not
wrap around; FFI_ASSERT does nothing.
-/
namespace Verif.S390
open Verif

/-- Size of `long`: 4 or 8. -/
structure Cfg where
  w : Nat
  deriving DecidableEq, Repr

def Cfg.Ok (c : Cfg) : Prop := c.w = 4 ∨ c.w = 8

/-- MAX_GPRARGS, MAX_FPRARGS, ROUND_SIZE, src/s390/ffi.c:45-55. -/
def maxGpr : Nat := 5
def maxFpr (c : Cfg) : Nat := if c.w = 8 then 4 else 2
def roundSize (n : Nat) : Nat := (n + 15) / 16 * 16

/-- `struct call_frame`, src/s390/ffi.c:64-71: offsets of `gpr_args[k]` and `fpr_args[k]`, and
its size (the end of `fpr_args`; with 31 bits `long long` is aligned to eight, and so is 64). -/
def gprOff (c : Cfg) (k : Nat) : Nat := 2 * c.w + c.w * k
def fprOff (c : Cfg) (k : Nat) : Nat := 16 * c.w + 8 * k
def frameSize (c : Cfg) : Nat := 16 * c.w + 32

/-- The loop of `ffi_check_struct_type`, src/s390/ffi.c:97-99: the code of the type reached. -/
def inner : FType → TC
  | .mk _ _ .struct [e] => inner e
  | .mk _ _ tc _ => tc

/-- `ffi_check_struct_type`, src/s390/ffi.c:90-129. -/
def checkStruct (t : FType) : TC :=
  match t.size with
  | 1 => .uint8
  | 2 => .uint16
  | 4 => if inner t = .float then .float else .uint32
  | 8 => if inner t = .double then .double else .uint64
  | _ => .pointer

/-- FFI390_RET_*, src/s390/internal.h:2-11. -/
def retDouble : Nat := 0
def retFloat : Nat := 1
def retInt64 : Nat := 2
def retInt32 : Nat := 3
def retVoid : Nat := 4
def retInMem : Nat := 8
def retStruct : Nat := retVoid ||| retInMem

/-- Return value handling of `ffi_prep_cif_machdep`, src/s390/ffi.c:152-207. -/
def retFlags (c : Cfg) (rt : FType) : Nat :=
  match rt.tc with
  | .void => retVoid
  | .struct | .complex | .longdouble => retStruct
  | .float => retFloat
  | .double => retDouble
  | .uint64 | .sint64 => retInt64
  | _ => if c.w = 8 then retInt64 else retInt32

/-- `n_gpr`, `n_fpr`, `n_ov` and `struct_size`. -/
structure Cnt where
  ng : Nat
  nf : Nat
  no : Nat
  ss : Nat
  deriving DecidableEq, Repr

/-- The type that is switched on, src/s390/ffi.c:215-232 and 560-576. -/
def argType (t : FType) : TC :=
  match t.tc with
  | .longdouble | .struct => checkStruct t
  | .complex => .pointer
  | tc => tc

/-- The type is a struct, long double or complex number that is passed by pointer. -/
def byPtr (t : FType) : Bool :=
  match t.tc with
  | .longdouble | .struct | .complex => argType t == .pointer
  | _ => false

/-- A word, src/s390/ffi.c:279-284. -/
def prepWord (n : Cnt) : Cnt := if n.ng < maxGpr then { n with ng := n.ng + 1 } else { n with no := n.no + 1 }

/-- The switch of the loop over the arguments, src/s390/ffi.c:235-285. -/
def prepType (c : Cfg) (ty : TC) (n : Cnt) : Cnt :=
  match ty with
  | .double => if n.nf < maxFpr c then { n with nf := n.nf + 1 } else { n with no := n.no + 8 / c.w }
  | .float => if n.nf < maxFpr c then { n with nf := n.nf + 1 } else { n with no := n.no + 1 }
  | .uint64 | .sint64 =>
    if c.w = 8 then prepWord n
    else
      let g := if n.ng = maxGpr - 1 then maxGpr else n.ng
      if g < maxGpr then { n with ng := g + 2 } else { n with ng := g, no := n.no + 2 }
  | _ => prepWord n

/-- One round of the loop over the arguments, src/s390/ffi.c:209-286. -/
def prepArg (c : Cfg) (t : FType) (n : Cnt) : Cnt :=
  prepType c (argType t) (if byPtr t then { n with ss := n.ss + roundSize t.size } else n)

def prepLoop (c : Cfg) : List FType → Cnt → Cnt
  | [], n => n
  | t :: ts, n => prepLoop c ts (prepArg c t n)

structure Cif where
  flags : Nat
  bytes : Nat
  deriving DecidableEq, Repr

/-- The stack space before it is stored in 32 bits. -/
def prepBytes (c : Cfg) (rt : FType) (ats : List FType) : Nat :=
  let n := prepLoop c ats ⟨if retFlags c rt = retStruct then 1 else 0, 0, 0, 0⟩
  roundSize (n.no * c.w) + n.ss

/-- `ffi_prep_cif_machdep`, src/s390/ffi.c:138-294.  `cif->bytes` is an `unsigned`. -/
def prepCif (c : Cfg) (rt : FType) (ats : List FType) : Cif :=
  ⟨retFlags c rt, prepBytes c rt ats % 2 ^ 32⟩

/-! ## Calls -/

/-- An integer of `n` bytes at `a`, converted to `unsigned long`. -/
def getInt (c : Cfg) (sgn : Bool) (n : Nat) (m : Mem) (a : Nat) : Nat :=
  let v := beNat (m.rd a n)
  if sgn ∧ 2 ^ (8 * n - 1) ≤ v then v + 256 ^ c.w - 256 ^ n else v

/-- `n_gpr`, `n_fpr`, `n_ov` and `p_struct`. -/
structure St where
  ng : Nat
  nf : Nat
  no : Nat
  ps : Nat
  deriving DecidableEq, Repr

/-- `do_int`, src/s390/ffi.c:410-411. -/
def putWord (c : Cfg) (frame stack v : Nat) (s : St) (m : Mem) : St × Mem :=
  if s.ng < maxGpr then ({ s with ng := s.ng + 1 }, m.wr (frame + gprOff c s.ng) (beBytes c.w v))
  else ({ s with no := s.no + 1 }, m.wr (stack + c.w * s.no) (beBytes c.w v))

/-- The types that arrive at `do_int`: signedness and size. -/
def intType (c : Cfg) : TC → Option (Bool × Nat)
  | .sint8 => some (true, 1)
  | .uint8 => some (false, 1)
  | .sint16 => some (true, 2)
  | .uint16 => some (false, 2)
  | .int | .sint32 => some (true, 4)
  | .uint32 => some (false, 4)
  | .pointer => some (false, c.w)
  | .uint64 | .sint64 => if c.w = 8 then some (false, 8) else none
  | _ => none

/-- The bytes of a `long long` with 31 bits, src/s390/ffi.c:414-429. -/
def putLong (c : Cfg) (frame stack a : Nat) (s : St) (m : Mem) : St × Mem :=
  let g := if s.ng = maxGpr - 1 then maxGpr else s.ng
  if g < maxGpr then
    let m := m.wr (frame + gprOff c g) (m.rd a 4)
    ({ s with ng := g + 2 }, m.wr (frame + gprOff c (g + 1)) (m.rd (a + 4) 4))
  else
    let m := m.wr (stack + c.w * s.no) (m.rd a 4)
    ({ s with ng := g, no := s.no + 2 }, m.wr (stack + c.w * (s.no + 1)) (m.rd (a + 4) 4))

/-- FFI_TYPE_DOUBLE, src/s390/ffi.c:431-443. -/
def putDouble (c : Cfg) (frame stack a : Nat) (s : St) (m : Mem) : St × Mem :=
  if s.nf < maxFpr c then ({ s with nf := s.nf + 1 }, m.wr (frame + fprOff c s.nf) (m.rd a 8))
  else if c.w = 8 then ({ s with no := s.no + 1 }, m.wr (stack + c.w * s.no) (m.rd a 8))
  else
    let m := m.wr (stack + c.w * s.no) (m.rd a 4)
    ({ s with no := s.no + 2 }, m.wr (stack + c.w * (s.no + 1)) (m.rd (a + 4) 4))

/-- FFI_TYPE_FLOAT, src/s390/ffi.c:445-451. -/
def putFloat (c : Cfg) (frame stack a : Nat) (s : St) (m : Mem) : St × Mem :=
  if s.nf < maxFpr c then
    ({ s with nf := s.nf + 1 }, m.wr (frame + fprOff c s.nf) (beBytes 8 (beNat (m.rd a 4) * 2 ^ 32)))
  else ({ s with no := s.no + 1 }, m.wr (stack + c.w * s.no) (beBytes c.w (beNat (m.rd a 4))))

/-- One round of the loop of `ffi_call_int`, src/s390/ffi.c:379-476; `a` is `avalue[i]`. -/
def callArg (c : Cfg) (frame stack : Nat) (t : FType) (a : Nat) (s : St) (m : Mem) : St × Mem :=
  if byPtr t then
    let ps := s.ps - roundSize t.size
    putWord c frame stack ps { s with ps := ps } (m.wr ps (m.rd a t.size))
  else
    match intType c (argType t) with
    | some (sgn, n) => putWord c frame stack (getInt c sgn n m a) s m
    | none =>
      match argType t with
      | .uint64 | .sint64 => putLong c frame stack a s m
      | .double => putDouble c frame stack a s m
      | .float => putFloat c frame stack a s m
      | _ => (s, m)

def callLoop (c : Cfg) (frame stack : Nat) : List FType → List Nat → St → Mem → St × Mem
  | t :: ts, a :: as, s, m =>
    let (s, m) := callArg c frame stack t a s m
    callLoop c frame stack ts as s m
  | _, _, s, m => (s, m)

/-- What `ffi_call_int` starts from: `top` is the lowest address that its own frame uses above the
register save area, so that `alloca` puts new memory just below (aligned to eight) and the stack
pointer a register save area further down; `fp` is `__builtin_frame_address (0)`. -/
structure CallIn where
  mem : Mem
  top : Nat
  fp : Nat
  rvalue : Nat
  avalue : List Nat
  fn : Nat
  closure : Nat

/-- The registers of `ffi_call_SYSV (frame, ret_type, rvalue, fn, closure)`, and the stack pointer. -/
structure CallOut where
  mem : Mem
  stack : Nat
  frame : Nat
  retType : Nat
  rvalue : Nat

/-- `ret_type` and `rsize`, src/s390/ffi.c:324-331. -/
def retOf (cif : Cif) (rt : FType) (rvalue : Nat) : Nat × Nat :=
  if rvalue = 0 then
    if cif.flags &&& retInMem ≠ 0 then (cif.flags, rt.size) else (retVoid, 0)
  else (cif.flags, 0)

/-- `ffi_call_int` up to the call of `ffi_call_SYSV`, src/s390/ffi.c:306-478. -/
def callEntry (c : Cfg) (cif : Cif) (rt : FType) (ats : List FType) (I : CallIn) : CallOut :=
  let (retType, rsize) := retOf cif rt I.rvalue
  let stack := (I.top - (cif.bytes + frameSize c + rsize)) / 8 * 8
  let frame := stack + cif.bytes
  let rvalue := if rsize ≠ 0 then frame + frameSize c else I.rvalue
  let m := I.mem.wr frame (beBytes c.w I.fp)
  let (ng, m) := if cif.flags &&& retInMem ≠ 0 then (1, m.wr (frame + gprOff c 0) (beBytes c.w rvalue)) else (0, m)
  let (_, m) := callLoop c frame stack ats I.avalue ⟨ng, 0, 0, frame⟩ m
  ⟨m, stack, frame, retType &&& 7, rvalue⟩

/-! ## Closures -/

/-- `n_gpr`, `n_fpr`, `n_ov` of `ffi_closure_helper_SYSV`. -/
structure Nx where
  ng : Nat
  nf : Nat
  no : Nat
  deriving DecidableEq, Repr

/-- The address of the next word, less than a word further by the size of small types. -/
def nextW (c : Cfg) (pg po d : Nat) (s : Nx) : Nat × Nx :=
  if s.ng < maxGpr then (pg + c.w * s.ng + d, { s with ng := s.ng + 1 })
  else (po + c.w * s.no + d, { s with no := s.no + 1 })

/-- A `double`, src/s390/ffi.c:573-579. -/
def closureDouble (c : Cfg) (pf po : Nat) (s : Nx) : Nat × Nx :=
  if s.nf < maxFpr c then (pf + 8 * s.nf, { s with nf := s.nf + 1 })
  else (po + c.w * s.no, { s with no := s.no + 8 / c.w })

/-- A `float`, src/s390/ffi.c:581-586. -/
def closureFloat (c : Cfg) (pf po : Nat) (s : Nx) : Nat × Nx :=
  if s.nf < maxFpr c then (pf + 8 * s.nf, { s with nf := s.nf + 1 })
  else (po + c.w * s.no + (c.w - 4), { s with no := s.no + 1 })

/-- Eight bytes with 31 bits, src/s390/ffi.c:596-601. -/
def closureLong (c : Cfg) (pg po : Nat) (s : Nx) : Nat × Nx :=
  let g := if s.ng = maxGpr - 1 then maxGpr else s.ng
  if g < maxGpr then (pg + c.w * g, { s with ng := g + 2 })
  else (po + c.w * s.no, { s with ng := g, no := s.no + 2 })

/-- The switch, src/s390/ffi.c:561-633. -/
def closureType (c : Cfg) (pg pf po : Nat) (ty : TC) (s : Nx) : Nat × Nx :=
  match (if ty = .pointer then (if c.w = 8 then .uint64 else .uint32) else ty) with
  | .double => closureDouble c pf po s
  | .float => closureFloat c pf po s
  | .uint64 | .sint64 => if c.w = 8 then nextW c pg po 0 s else closureLong c pg po s
  | .int | .uint32 | .sint32 => nextW c pg po (c.w - 4) s
  | .uint16 | .sint16 => nextW c pg po (c.w - 2) s
  | .uint8 | .sint8 => nextW c pg po (c.w - 1) s
  | _ => (0, s)

/-- One round of the loop of `ffi_closure_helper_SYSV`, src/s390/ffi.c:535-639: `*p_arg`.  `pg`, `pf`, `po`
are `p_gpr`, `p_fpr`, `p_ov`. -/
def closureArg (c : Cfg) (pg pf po : Nat) (m : Mem) (t : FType) (s : Nx) : Nat × Nx :=
  let r := closureType c pg pf po (argType t) s
  (if byPtr t then beNat (m.rd r.1 c.w) else r.1, r.2)

def closureLoop (c : Cfg) (pg pf po : Nat) (m : Mem) : List FType → Nx → List Nat
  | [], _ => []
  | t :: ts, s => (closureArg c pg pf po m t s).1 :: closureLoop c pg pf po m ts (closureArg c pg pf po m t s).2

/-- What the handler gets: `ret` is the address of `ret_buffer`, src/s390/ffi.c:512-643. -/
def closureView (c : Cfg) (cif : Cif) (ats : List FType) (pg pf po ret : Nat) (m : Mem) : Nat × List Nat :=
  if cif.flags &&& retInMem ≠ 0 then (beNat (m.rd pg c.w), closureLoop c pg pf po m ats ⟨1, 0, 0⟩)
  else (ret, closureLoop c pg pf po m ats ⟨0, 0, 0⟩)

/-- Conversion of the return value, src/s390/ffi.c:646-695; `m` is the memory after the handler. -/
def closureRet (c : Cfg) (rt : FType) (pg pf rvalue : Nat) (m : Mem) : Mem :=
  match rt.tc with
  | .void | .struct | .complex | .longdouble => m
  | .float => m.wr pf (beBytes 8 (beNat (m.rd rvalue 4) * 2 ^ 32))
  | .double => m.wr pf (m.rd rvalue 8)
  | .uint64 | .sint64 =>
    if c.w = 8 then m.wr pg (m.rd rvalue 8)
    else
      let m := m.wr pg (m.rd rvalue 4)
      m.wr (pg + 4) (m.rd (rvalue + 4) 4)
  | _ => m.wr pg (m.rd rvalue c.w)

end Verif.S390
