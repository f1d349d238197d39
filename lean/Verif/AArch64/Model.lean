import Verif.Base.Mem
import Verif.Base.FType

/-
Model of src/aarch64/ffi.c and src/aarch64/sysv.S (little-endian, LP64), with the
Linux, Apple and Windows variants of argument passing.  Memory is flat: large structs
are passed by reference to copies that share one allocation with the stack arguments.
-/
namespace Verif.A64
open Verif

/-! ## Homogeneous aggregates -/

mutual
/-- `is_hfa0`, src/aarch64/ffi.c:98-117; `none` is `-1`. -/
def isHfa0 : FType → Option TC
  | .mk _ _ _ es => isHfa0L es
termination_by structural t => t
/-- The loop of `is_hfa0`, src/aarch64/ffi.c:104-115. -/
def isHfa0L : List FType → Option TC
  | [] => none
  | .mk s a tc es' :: es =>
    if tc = .struct ∨ tc = .complex then
      match isHfa0 (.mk s a tc es') with
      | some c => some c
      | none => isHfa0L es
    else some tc
termination_by structural es => es
end

mutual
/-- `is_hfa1`, src/aarch64/ffi.c:123-143. -/
def isHfa1 (cand : TC) : FType → Bool
  | .mk _ _ _ es => isHfa1L cand es
termination_by structural t => t
/-- The loop of `is_hfa1`, src/aarch64/ffi.c:129-140; the same loop ends
`is_vfp_type`, src/aarch64/ffi.c:229-240. -/
def isHfa1L (cand : TC) : List FType → Bool
  | [] => true
  | .mk s a tc es' :: es =>
    if tc = .struct ∨ tc = .complex then isHfa1 cand (.mk s a tc es') && isHfa1L cand es
    else decide (tc = cand) && isHfa1L cand es
termination_by structural es => es
end

/-- The search `for (i = 0; ; ++i) candidate = is_hfa0 (elements[i])`,
src/aarch64/ffi.c:194-201.  The loop does not look for the terminating null pointer:
running into it dereferences it. -/
def findCand : List FType → Except Abn TC
  | [] => .error .fault
  | e :: es =>
    match isHfa0 e with
    | some c => .ok c
    | none => findCand es

/-- Numeric value of the type codes that occur in results, include/ffi.h.in. -/
def fpCode : TC → Nat
  | .float => 2
  | .double => 3
  | .longdouble => 4
  | _ => 0

/-- `sizeof` of the floating-point types, src/aarch64/ffi.c:206-225; 0 for others. -/
def fpSizeof : TC → Nat
  | .float => 4
  | .double => 8
  | .longdouble => 16
  | _ => 0

/-- The type of the first scalar member, src/aarch64/ffi.c:191-202; `e` is
`elements[0]`. -/
def candidate (e : FType) (es : List FType) : Except Abn TC :=
  if e.tc = .struct ∨ e.tc = .complex then findCand es else .ok e.tc

/-- The checks on a struct, src/aarch64/ffi.c:186-244. -/
def vfpStruct (size : Nat) (es : List FType) : Except Abn Nat :=
  if size < 4 ∨ 64 < size then .ok 0
  else
    match es with
    | [] => .error .fault
    | e :: _ => do
      let cand ← candidate e es
      let z := fpSizeof cand
      if z = 0 then .ok 0
      else
        let n := size / z
        if size ≠ n * z then .ok 0
        else if 4 < n then .ok 0
        else if isHfa1L cand es then .ok (fpCode cand * 4 + (4 - n))
        else .ok 0

/-- `is_vfp_type`, src/aarch64/ffi.c:153-246: 0, or one of `AARCH64_RET_S4` …
`AARCH64_RET_Q1`, src/aarch64/internal.h:33-46. -/
def isVfp : FType → Except Abn Nat
  | .mk size _ tc es =>
    match tc with
    | .float | .double | .longdouble => .ok (fpCode tc * 4 + 3)
    | .complex =>
      match es with
      | [] => .error .fault
      | e :: _ => if fpCode e.tc = 0 then .ok 0 else .ok (fpCode e.tc * 4 + 2)
    | .struct => vfpStruct size es
    | _ => .ok 0

/-- `4 - (h & 3)`, src/aarch64/ffi.c:753, 1034. -/
def hElems (h : Nat) : Nat := 4 - h % 4

/-- Bytes per element of a homogeneous aggregate code: 4, 8 or 16. -/
def hSize (h : Nat) : Nat := if h < 12 then 4 else if h < 16 then 8 else 16

/-! ## Configuration and argument state -/

/-- Build and call variant. -/
structure Cfg where
  /-- compiled with `__APPLE__` -/
  apple : Bool
  /-- `cif->abi == FFI_WIN64` -/
  win64 : Bool
  /-- `AARCH64_FLAG_VARARG`, set by `ffi_prep_cif_machdep_var`,
  src/aarch64/ffi.c:634-640 -/
  vararg : Bool
  /-- `cif->aarch64_nfixedargs` on Apple, src/aarch64/ffi.c:616-632; 0 otherwise -/
  nfixed : Nat
  deriving DecidableEq, Repr

/-- `struct arg_state`, src/aarch64/ffi.c:257-267. -/
structure St where
  ngrn : Nat
  nsrn : Nat
  nsaa : Nat
  next : Nat
  variadic : Bool
  deriving DecidableEq, Repr

/-- `arg_init`, src/aarch64/ffi.c:270-280. -/
def argInit (size : Nat) : St := ⟨0, 0, 0, size, false⟩

/-- `allocate_to_stack`, src/aarch64/ffi.c:283-303: offset from `stack`. -/
def allocStack (c : Cfg) (st : St) (alignment size : Nat) : Nat × St :=
  let alignment :=
    if c.apple then (if st.variadic && decide (alignment < 8) then 8 else alignment)
    else if alignment < 8 then 8 else alignment
  let nsaa := ffiAlign st.nsaa alignment
  (nsaa, { st with nsaa := (nsaa + size) % 2 ^ 64 })

/-- `allocate_and_copy_struct_to_stack` without the copy, src/aarch64/ffi.c:307-318. -/
def allocStruct (st : St) (alignment size : Nat) : Nat × St :=
  let dest := ffiAlignDown ((st.next + 2 ^ 64 - size % 2 ^ 64) % 2 ^ 64) alignment
  (dest, { st with next := dest })

/-- Number of bytes and signedness with which `extend_integer_type` loads a type,
src/aarch64/ffi.c:320-377; `none` is `abort`. -/
def intLoad : TC → Option (Nat × Bool)
  | .uint8 => some (1, false)
  | .sint8 => some (1, true)
  | .uint16 => some (2, false)
  | .sint16 => some (2, true)
  | .uint32 => some (4, false)
  | .int | .sint32 => some (4, true)
  | .uint64 | .sint64 | .pointer => some (8, false)
  | _ => none

/-- Conversion of an `n`-byte integer to 64 bits. -/
def widen (signed : Bool) (bs : List Byte) : Nat :=
  if signed && decide (256 ^ bs.length ≤ 2 * leNat bs) then
    leNat bs + 2 ^ 64 - 256 ^ bs.length
  else leNat bs

/-- Addresses inside the block allocated by `ffi_call_int` (and saved by
`ffi_closure_SYSV`): `struct call_context`, src/aarch64/ffi.c:57-61. -/
def vAddr (ctx k : Nat) : Nat := ctx + 16 * k
def xAddr (ctx k : Nat) : Nat := ctx + 128 + 8 * k

/-- The bytes stored by `extend_hfa_type`, src/aarch64/ffi.c:383-448: each element
zero-extended to 16 bytes.  The four loads precede the stores and the stores are
contiguous, so they are done as one. -/
def extendHfa (m : Mem) (src e : Nat) : Nat → List Byte
  | 0 => []
  | n + 1 => extendHfa m src e n ++ (m.rd (src + e * n) e ++ List.replicate (16 - e) 0)

/-- The elements gathered by `compress_hfa_type`, src/aarch64/ffi.c:454-521: lane 0 of
consecutive 16-byte registers. -/
def gatherHfa (m : Mem) (reg e : Nat) : Nat → List Byte
  | 0 => []
  | n + 1 => gatherHfa m reg e n ++ m.rd (reg + 16 * n) e

/-- `compress_hfa_type (reg, reg, h)`, src/aarch64/ffi.c:454-521: single elements and
quad-precision aggregates are left in place. -/
def compressHfa (m : Mem) (reg h : Nat) : Mem :=
  if hElems h = 1 ∨ 16 ≤ h then m
  else m.wr reg (gatherHfa m reg (hSize h) (hElems h))

/-! ## Calls -/

/-- The code at `do_pointer`, src/aarch64/ffi.c:723-743, after the extension: `ext` is
the 64-bit value, `raw` the `s` bytes at `a`. -/
def putInt (c : Cfg) (ctx alignment s ext : Nat) (raw : List Byte) (st : St) (m : Mem) : St × Mem :=
  if st.ngrn < 8 then
    ({ st with ngrn := st.ngrn + 1 }, m.wr (xAddr ctx st.ngrn) (leBytes 8 ext))
  else
    let r := allocStack c st alignment s
    ({ r.2 with ngrn := 8 }, m.wr (ctx + 192 + r.1) (if c.apple then raw else leBytes 8 ext))

/-- A homogeneous aggregate, src/aarch64/ffi.c:751-778 and 814. -/
def putHfa (c : Cfg) (ctx : Nat) (t : FType) (h a : Nat) (st : St) (m : Mem) : St × Mem :=
  let n := hElems h
  if c.win64 && c.vararg then
    if st.ngrn + n ≤ 8 then
      ({ st with ngrn := st.ngrn + n }, m.wr (xAddr ctx st.ngrn) (extendHfa m a (hSize h) n))
    else
      let r := allocStack c { st with nsrn := 8 } t.align t.size
      (r.2, m.wr (ctx + 192 + r.1) (m.rd a t.size))
  else if st.nsrn + n ≤ 8 then
    ({ st with nsrn := st.nsrn + n }, m.wr (vAddr ctx st.nsrn) (extendHfa m a (hSize h) n))
  else
    let r := allocStack c { st with nsrn := 8 } t.align t.size
    (r.2, m.wr (ctx + 192 + r.1) (m.rd a t.size))

/-- A composite of more than 16 bytes, src/aarch64/ffi.c:779-791 and `do_pointer`.  The
slot for the pointer is requested with the alignment of the struct. -/
def putRef (c : Cfg) (ctx : Nat) (t : FType) (a : Nat) (st : St) (m : Mem) : St × Mem :=
  let r := allocStruct st t.align t.size
  let dest := (ctx + 192 + r.1) % 2 ^ 64
  putInt c ctx t.align 8 dest (leBytes 8 dest) r.2 (m.wr dest (m.rd a t.size))

/-- A composite of at most 16 bytes, src/aarch64/ffi.c:792-814. -/
def putSmall (c : Cfg) (ctx : Nat) (t : FType) (a : Nat) (st : St) (m : Mem) : St × Mem :=
  let n := (t.size + 7) / 8
  if st.ngrn + n ≤ 8 then
    ({ st with ngrn := st.ngrn + n }, m.wr (xAddr ctx st.ngrn) (m.rd a t.size))
  else
    let r := allocStack c { st with ngrn := 8 } t.align t.size
    (r.2, m.wr (ctx + 192 + r.1) (m.rd a t.size))

/-- One round of the argument loop without the Apple-specific part,
src/aarch64/ffi.c:698-820; `a` is `avalue[i]`. -/
def callArg (c : Cfg) (ctx : Nat) (t : FType) (a : Nat) (st : St) (m : Mem) :
    Except Abn (St × Mem) :=
  match intLoad t.tc with
  | some (n, sg) =>
    .ok (putInt c ctx t.align t.size (widen sg (m.rd a n)) (m.rd a t.size) st m)
  | none =>
    match t.tc with
    | .float | .double | .longdouble | .struct | .complex => do
      let h ← isVfp t
      if h ≠ 0 then .ok (putHfa c ctx t h a st m)
      else if 16 < t.size then .ok (putRef c ctx t a st m)
      else .ok (putSmall c ctx t a st m)
    | _ => .error .abort

/-- After argument `i`: the first variadic argument of an Apple call,
src/aarch64/ffi.c:822-829, 1113-1120. -/
def afterArg (c : Cfg) (i : Nat) (st : St) : St :=
  if c.apple && decide (i + 1 = c.nfixed) then { st with ngrn := 8, nsrn := 8, variadic := true }
  else st

/-- The argument loop, src/aarch64/ffi.c:695-830. -/
def callLoop (c : Cfg) (ctx : Nat) : List FType → List Nat → Nat → St → Mem → Except Abn (St × Mem)
  | t :: ts, a :: as, i, st, m => do
    let r ← callArg c ctx t a st m
    callLoop c ctx ts as (i + 1) (afterArg c i r.1) r.2
  | _, _, _, st, m => .ok (st, m)

/-! ## Preparation -/

/-- `cif->flags`: the result code (`AARCH64_RET_MASK`) and the single bits,
src/aarch64/internal.h:57-64, as separate fields. -/
structure Flags where
  ret : Nat
  inMem : Bool
  needCopy : Bool
  argV : Bool
  deriving DecidableEq, Repr

/-- Result code of an integer type, src/aarch64/ffi.c:549-577. -/
def intRet : TC → Option Nat
  | .void => some 0
  | .uint8 => some 20
  | .uint16 => some 22
  | .uint32 => some 24
  | .sint8 => some 26
  | .sint16 => some 28
  | .int | .sint32 => some 30
  | .sint64 | .uint64 | .pointer => some 1
  | _ => none

/-- The switch on the return type, src/aarch64/ffi.c:547-604; `argV` is still unset. -/
def retFlags (rt : FType) : Except Abn Flags :=
  match intRet rt.tc with
  | some r => .ok ⟨r, false, false, false⟩
  | none => do
    let h ← isVfp rt
    if h ≠ 0 then .ok ⟨h, false, false, false⟩
    else if 16 < rt.size then .ok ⟨0, true, false, false⟩
    else if rt.size = 16 then .ok ⟨2, false, false, false⟩
    else if rt.size = 8 then .ok ⟨1, false, false, false⟩
    else .ok ⟨2, false, true, false⟩

/-- The loop setting `AARCH64_FLAG_ARG_V`, src/aarch64/ffi.c:606-611. -/
def anyVfp : List FType → Except Abn Bool
  | [] => .ok false
  | t :: ts => do
    let h ← isVfp t
    if h ≠ 0 then .ok true else anyVfp ts

/-- `ffi_prep_cif_machdep`, src/aarch64/ffi.c:540-621: flags and the final
`cif->bytes`; `bytes` is what `ffi_prep_cif_core` computed. -/
def prep (rt : FType) (ats : List FType) (bytes : Nat) : Except Abn (Flags × Nat) := do
  let f ← retFlags rt
  let v ← anyVfp ats
  .ok ({ f with argV := v }, ffiAlign (if f.inMem then bytes + 8 else bytes) 16 % 2 ^ 32)

/-- The descriptor of a type tree as the generic stage sees it. -/
def desc (t : FType) : Desc := ⟨t.size, t.align, t.tc, none⟩

/-- `cif->bytes` as computed by `ffi_prep_cif_core`, src/prep_cif.c:148-205 (see
`Core/Model.lean`), for this target. -/
def coreBytes (rt : FType) (ats : List FType) : Nat :=
  ats.foldl (fun b t => addArgBytes 8 b (desc t)) (if rt.tc = .struct then 8 else 0)

/-! ## Entry of the called function -/

/-- State on entry to the called function. -/
structure Entry where
  mem : Mem
  /-- stack pointer: address of the first stack argument -/
  sp : Nat
  /-- `x0` … `x7` -/
  x : Nat → List Byte
  /-- `q0` … `q7` -/
  v : Nat → List Byte
  x8 : Nat

/-- Arguments of `ffi_call_int` besides the signature; `x29`, `x30` (as
saved, that is, signed where return addresses are) and `v` are the values of those
registers (any). -/
structure CallIn where
  sp : Nat
  mem : Mem
  avalue : List Nat
  /-- `none` = NULL -/
  rvalue : Option Nat
  x29 : Nat
  x30 : Nat
  v : Nat → List Byte
  /-- stack pointer at the call of `ffi_call_SYSV`, below the block -/
  asp : Nat

/-- Result of marshalling: entry state, the block, the flags and result address
stored in the frame. -/
structure CallOut where
  entry : Entry
  ctx : Nat
  flags : Flags
  rvalue : Nat

/-- `flags` after the `rvalue == NULL` case, src/aarch64/ffi.c:674-686. -/
def callFlags (f : Flags) (rvalue : Option Nat) : Flags :=
  if f.inMem then f else if rvalue = none then { f with ret := 0, needCopy := false } else f

/-- `rsize`, src/aarch64/ffi.c:674-686. -/
def callRsize (f : Flags) (rt : FType) (rvalue : Option Nat) : Nat :=
  if f.inMem then (if rvalue = none then rt.size else 0)
  else if rvalue = none then 0
  else if f.needCopy then 16 else 0

/-- `alloca` (the stack grows downwards in 16-byte units). -/
def alloca (sp n : Nat) : Nat := (sp - n) / 16 * 16

/-- Flags as stored in the frame. -/
def Flags.code (f : Flags) : Nat :=
  f.ret + (if f.inMem then 32 else 0) + (if f.needCopy then 64 else 0) + (if f.argV then 128 else 0)

/-- `ffi_call_int`, src/aarch64/ffi.c:651-832, and `ffi_call_SYSV` up to the call,
src/aarch64/sysv.S:92-141. -/
def callEntry (c : Cfg) (f : Flags) (bytes : Nat) (rt : FType) (ats : List FType) (I : CallIn) :
    Except Abn CallOut := do
  let flags := callFlags f I.rvalue
  let rsize := callRsize f rt I.rvalue
  let ctx := alloca I.sp (192 + bytes + 40 + rsize)
  let frame := ctx + 192 + bytes
  let rvalue := if rsize ≠ 0 then frame + 40 else I.rvalue.getD 0
  let r ← callLoop c ctx ats I.avalue 0 (argInit bytes) I.mem
  let m := r.2.wr frame (leBytes 8 I.x29 ++ leBytes 8 I.x30)
  let m := m.wr (frame + 32) (leBytes 8 I.asp)
  let m := m.wr (frame + 16) (leBytes 8 rvalue ++ leBytes 8 flags.code)
  let v := if flags.argV then fun k => m.rd (vAddr ctx k) 16 else I.v
  .ok { entry := ⟨m, ctx + 192, fun k => m.rd (xAddr ctx k) 8, v, rvalue⟩, ctx := ctx,
        flags := flags, rvalue := rvalue }

/-! ## Closures -/

/-- `allocate_int_to_reg_or_stack`, src/aarch64/ffi.c:528-538: address of the slot. -/
def allocInt (c : Cfg) (ctx stack : Nat) (st : St) (size : Nat) : Nat × St :=
  if st.ngrn < 8 then (xAddr ctx st.ngrn, { st with ngrn := st.ngrn + 1 })
  else
    let r := allocStack c { st with ngrn := 8 } size size
    (stack + r.1, r.2)

/-- A homogeneous aggregate in a closure, src/aarch64/ffi.c:1032-1074. -/
def getHfa (c : Cfg) (ctx stack : Nat) (t : FType) (h : Nat) (st : St) (m : Mem) : Nat × St × Mem :=
  let n := hElems h
  if c.win64 && c.vararg then
    if st.ngrn + n ≤ 8 then
      (xAddr ctx st.ngrn, { st with ngrn := st.ngrn + n }, compressHfa m (xAddr ctx st.ngrn) h)
    else
      let r := allocStack c { st with ngrn := 8, nsrn := 8 } t.align t.size
      (stack + r.1, r.2, m)
  else if st.nsrn + n ≤ 8 then
    (vAddr ctx st.nsrn, { st with nsrn := st.nsrn + n }, compressHfa m (vAddr ctx st.nsrn) h)
  else
    let r := allocStack c { st with nsrn := 8 } t.align t.size
    (stack + r.1, r.2, m)

/-- A composite of more than 16 bytes in a closure, src/aarch64/ffi.c:1075-1091. -/
def getRef (c : Cfg) (ctx stack : Nat) (st : St) (m : Mem) : Nat × St × Mem :=
  let r := allocInt c ctx stack st 8
  (leNat (m.rd r.1 8), r.2, m)

/-- A composite of at most 16 bytes in a closure, src/aarch64/ffi.c:1092-1107. -/
def getSmall (c : Cfg) (ctx stack : Nat) (t : FType) (st : St) (m : Mem) : Nat × St × Mem :=
  let n := (t.size + 7) / 8
  if st.ngrn + n ≤ 8 then (xAddr ctx st.ngrn, { st with ngrn := st.ngrn + n }, m)
  else
    let r := allocStack c { st with ngrn := 8 } t.align t.size
    (stack + r.1, r.2, m)

/-- One round of the loop of `ffi_closure_SYSV_inner`, src/aarch64/ffi.c:1003-1111:
`avalue[i]`. -/
def closureArg (c : Cfg) (ctx stack : Nat) (t : FType) (st : St) (m : Mem) :
    Except Abn (Nat × St × Mem) :=
  match intLoad t.tc with
  | some _ => .ok (let r := allocInt c ctx stack st t.size; (r.1, r.2, m))
  | none =>
    match t.tc with
    | .float | .double | .longdouble | .struct | .complex => do
      let h ← isVfp t
      if h ≠ 0 then .ok (getHfa c ctx stack t h st m)
      else if 16 < t.size then .ok (getRef c ctx stack st m)
      else .ok (getSmall c ctx stack t st m)
    | _ => .error .abort

/-- The loop of `ffi_closure_SYSV_inner`, src/aarch64/ffi.c:1001-1121. -/
def closureLoop (c : Cfg) (ctx stack : Nat) : List FType → Nat → St → Mem →
    Except Abn (List Nat × Mem)
  | [], _, _, m => .ok ([], m)
  | t :: ts, i, st, m => do
    let r ← closureArg c ctx stack t st m
    let q ← closureLoop c ctx stack ts (i + 1) (afterArg c i r.2.1) r.2.2
    .ok (r.1 :: q.1, q.2)

/-- What the handler gets: memory, result address, argument pointers. -/
structure View where
  mem : Mem
  rvalue : Nat
  avalue : List Nat

/-- Consecutive stores of `n` registers of `z` bytes. -/
def saveRegs (a z : Nat) (r : Nat → List Byte) : Nat → Mem → Mem
  | 0, m => m
  | n + 1, m => (saveRegs a z r n m).wr (a + z * n) (r n)

/-- `ffi_closure_SYSV(_V)` up to the C function, src/aarch64/sysv.S:325-379, and
`ffi_closure_SYSV_inner` up to the handler, src/aarch64/ffi.c:981-1126.  The frame of
272 bytes (`ffi_closure_SYSV_FS`) holds `x29`, `x30`, the context and 64 bytes for the
result.  Which of the two entry points runs is decided by `ffi_prep_closure_loc`,
src/aarch64/ffi.c:876-879. -/
def closureEntry (c : Cfg) (f : Flags) (ats : List FType) (bytes x29 x30 : Nat) (E : Entry) :
    Except Abn View := do
  let fp := E.sp - 272
  let m := E.mem.wr fp (leBytes 8 x29 ++ leBytes 8 x30)
  let m := if f.argV then saveRegs (vAddr (fp + 16) 0) 16 E.v 8 m else m
  let m := saveRegs (xAddr (fp + 16) 0) 8 E.x 8 m
  let r ← closureLoop c (fp + 16) E.sp ats 0 (argInit bytes) m
  .ok { mem := r.2, rvalue := if f.inMem then E.x8 else fp + 208, avalue := r.1 }

/-! ## Results -/

/-- Result registers `x0`, `x1` and `q0` … `q3`. -/
structure RetRegs where
  x : Nat → List Byte
  v : Nat → List Byte

/-- Lane 0 of `n` consecutive vector registers, `z` bytes each. -/
def lanes (v : Nat → List Byte) (z : Nat) : Nat → List Byte
  | 0 => []
  | n + 1 => lanes v z n ++ (v n).take z

/-- The store table of `ffi_call_SYSV`, src/aarch64/sysv.S:163-293; entries 16 and 17
fall through to the next one.  Unused entries are `brk`. -/
def storeRet (ret : Nat) (R : RetRegs) (a : Nat) (m : Mem) : Except Abn Mem :=
  match ret with
  | 0 => .ok m
  | 1 => .ok (m.wr a ((R.x 0).take 8))
  | 2 => .ok (m.wr a ((R.x 0).take 8 ++ (R.x 1).take 8))
  | 8 => .ok (m.wr a (lanes R.v 4 4))
  | 9 => .ok (m.wr a (lanes R.v 4 3))
  | 10 => .ok (m.wr a (lanes R.v 4 2))
  | 11 => .ok (m.wr a (lanes R.v 4 1))
  | 12 => .ok (m.wr a (lanes R.v 8 4))
  | 13 => .ok (m.wr a (lanes R.v 8 3))
  | 14 => .ok (m.wr a (lanes R.v 8 2))
  | 15 => .ok (m.wr a (lanes R.v 8 1))
  | 16 => .ok (((m.wr (a + 48) ((R.v 3).take 16)).wr (a + 32) ((R.v 2).take 16)).wr a (lanes R.v 16 2))
  | 17 => .ok ((m.wr (a + 32) ((R.v 2).take 16)).wr a (lanes R.v 16 2))
  | 18 => .ok (m.wr a (lanes R.v 16 2))
  | 19 => .ok (m.wr a (lanes R.v 16 1))
  | 20 => .ok (m.wr a (leBytes 8 (widen false ((R.x 0).take 1))))
  | 22 => .ok (m.wr a (leBytes 8 (widen false ((R.x 0).take 2))))
  | 24 => .ok (m.wr a (leBytes 8 (widen false ((R.x 0).take 4))))
  | 26 => .ok (m.wr a (leBytes 8 (widen true ((R.x 0).take 1))))
  | 28 => .ok (m.wr a (leBytes 8 (widen true ((R.x 0).take 2))))
  | 30 => .ok (m.wr a (leBytes 8 (widen true ((R.x 0).take 4))))
  | _ => .error .abort

/-- `ffi_call_int` after the call, src/aarch64/ffi.c:832-835: the result is stored at
the address in the frame and copied to the caller's object if need be. -/
def finishCall (flags : Flags) (rt : FType) (rvalue : Nat) (orig : Option Nat) (R : RetRegs)
    (m : Mem) : Except Abn Mem := do
  let m ← storeRet flags.ret R rvalue m
  .ok (if flags.needCopy then m.wr (orig.getD 0) (m.rd rvalue rt.size) else m)

/-- A load of `z` bytes into a vector register clears the rest. -/
def ldv (m : Mem) (a z : Nat) : List Byte := m.rd a z ++ List.replicate (16 - z) 0

/-- The load table of `ffi_closure_SYSV`, src/aarch64/sysv.S:381-515; `R` are the
register contents before.  Entries 8, 9, 12, 13, 16 and 17 fall through to the
two-register entry; the last entry, 30, to the return. -/
def loadRet (ret a : Nat) (m : Mem) (R : RetRegs) : Except Abn RetRegs :=
  let x0 (b : List Byte) : RetRegs := { R with x := fun k => if k = 0 then b else R.x k }
  let v (z n : Nat) : RetRegs := { R with v := fun k => if k < n then ldv m (a + z * k) z else R.v k }
  match ret with
  | 0 => .ok R
  | 1 => .ok (x0 (m.rd a 8))
  | 2 => .ok { R with x := fun k => if k = 0 then m.rd a 8 else if k = 1 then m.rd (a + 8) 8 else R.x k }
  | 8 => .ok (v 4 4)
  | 9 => .ok (v 4 3)
  | 10 => .ok (v 4 2)
  | 11 => .ok (v 4 1)
  | 12 => .ok (v 8 4)
  | 13 => .ok (v 8 3)
  | 14 => .ok (v 8 2)
  | 15 => .ok (v 8 1)
  | 16 => .ok (v 16 4)
  | 17 => .ok (v 16 3)
  | 18 => .ok (v 16 2)
  | 19 => .ok (v 16 1)
  | 20 => .ok (x0 (leBytes 8 (widen false (m.rd a 1))))
  | 22 => .ok (x0 (leBytes 8 (widen false (m.rd a 2))))
  | 24 => .ok (x0 (leBytes 8 (widen false (m.rd a 4))))
  | 26 => .ok (x0 (leBytes 8 (widen true (m.rd a 1))))
  | 28 => .ok (x0 (leBytes 8 (widen true (m.rd a 2))))
  | 30 => .ok (x0 (leBytes 8 (widen true (m.rd a 4))))
  | _ => .error .abort

end Verif.A64
