import Verif.AArch64.Model
import Verif.I386.Model
import Verif.Spec.Arm

/-
Model of src/arm/ffi.c and src/arm/sysv.S (32-bit ARM, little-endian, FFI_SYSV and
FFI_VFP): `ffi_prep_cif_machdep`, `ffi_call_int` with `ffi_call_SYSV` and `ffi_call_VFP`,
the closure entry points with `ffi_closure_inner_SYSV` and `ffi_closure_inner_VFP`.
Memory is flat; addresses are numbers and do not wrap at 2^32.  Windows (Thumb, other
float stores) and src/arm/sysv_msvc_arm32.S are not modelled.
-/
namespace Verif.Arm
open Verif
open Verif.I386 (widen)

/-! ## Homogeneous aggregates -/

/-- Numeric type codes, include/ffi.h.in; `sizeof` of the types that count. -/
def code : TC → Nat
  | .float => 2
  | .double => 3
  | _ => 0

def fpSizeof : TC → Nat
  | .float => 4
  | .double => 8
  | _ => 0

/-- The checks on a struct, src/arm/ffi.c:788-838.  `is_hfa0`, `is_hfa1`, the search for
the first scalar and the final loop are those of src/aarch64/ffi.c:98-143, 191-202,
229-240, repeated literally in src/arm/ffi.c:708-753, 795-804, 827-838. -/
def vfpStruct (size : Nat) (es : List FType) : Except Abn Nat :=
  if size < 4 ∨ 32 < size then .ok 0
  else
    match es with
    | [] => .error .fault
    | e :: _ => do
      let cand ← A64.candidate e es
      if fpSizeof cand = 0 then .ok 0
      else
        let n := size / fpSizeof cand
        if size ≠ n * fpSizeof cand then .ok 0
        else if 4 < n then .ok 0
        else if A64.isHfa1L cand es then .ok (n * 256 + code cand)
        else .ok 0

/-- `vfp_type_p`, src/arm/ffi.c:762-843: 0, or number of members times 256 plus type code. -/
def vfpTypeP : FType → Except Abn Nat
  | .mk size _ tc es =>
    match tc with
    | .float | .double => .ok (256 + code tc)
    | .complex =>
      match es with
      | [] => .error .fault
      | e :: _ => if e.tc ≠ .float ∧ e.tc ≠ .double then .ok 0 else .ok (2 * 256 + code e.tc)
    | .struct => vfpStruct size es
    | _ => .ok 0

/-! ## VFP registers -/

/-- `vfp_used`, `vfp_reg_free` and the part of `vfp_args` that is set (`vfp_nargs` is its
length), src/arm/ffitarget.h:53-56. -/
structure Vfp where
  used : Nat
  free : Nat
  args : List Nat
  deriving DecidableEq, Repr

/-- The loop over `s`, src/arm/ffi.c:861-869: the new bits, or nothing if a register is in
use. -/
def tryRun (used : Nat) : Nat → Nat → Nat → Option Nat
  | 0, _, acc => some acc
  | n + 1, s, acc => if used &&& (1 <<< s) ≠ 0 then none else tryRun used n (s + 1) (acc ||| (1 <<< s))

/-- The outer loop, src/arm/ffi.c:858-884: the register and the new bits.  The first
argument bounds the number of rounds; 17 are enough (`search_spec`). -/
def search (used n align : Nat) : Nat → Nat → Option (Nat × Nat)
  | 0, _ => none
  | f + 1, reg =>
    if reg + n ≤ 16 then
      match tryRun used n reg 0 with
      | some u => some (reg, u)
      | none => search used n align f (reg + align)
    else none

/-- `while (cif->vfp_used & (1 << reg)) reg += 1`, src/arm/ffi.c:878-879. -/
def skip (used : Nat) : Nat → Nat → Nat
  | 0, reg => reg
  | f + 1, reg => if used &&& (1 <<< reg) ≠ 0 then skip used f (reg + 1) else reg

/-- `place_vfp_arg`, src/arm/ffi.c:845-889; true if there is no room. -/
def placeVfp (v : Vfp) (h : Nat) : Bool × Vfp :=
  let align := if h % 256 = 3 then 2 else 1
  let nregs := if h % 256 = 3 then h / 256 * 2 else h / 256
  let reg := if v.free % 2 = 1 ∧ align = 2 then v.free + 1 else v.free
  match search v.used nregs align 17 reg with
  | some (reg, new) =>
    let used := v.used ||| new
    (false, ⟨used, if used &&& (1 <<< v.free) ≠ 0 then skip used 17 (reg + nregs) else v.free, v.args ++ [reg]⟩)
  | none => (true, ⟨0xffff, 16, v.args⟩)

/-- The loop of `layout_vfp_args`, src/arm/ffi.c:901-906. -/
def layoutLoop : List FType → Vfp → Except Abn Vfp
  | [], v => .ok v
  | t :: ts, v => do
    let h ← vfpTypeP t
    if h ≠ 0 then
      if (placeVfp v h).1 then .ok (placeVfp v h).2 else layoutLoop ts (placeVfp v h).2
    else layoutLoop ts v

/-- `layout_vfp_args`, src/arm/ffi.c:891-907. -/
def layoutVfp (ts : List FType) : Except Abn Vfp := layoutLoop ts ⟨0, 0, []⟩

/-! ## Preparation -/

/-- `ARM_TYPE_*`, src/arm/internal.h:1-7. -/
inductive Flag
  | vfpS | vfpD | vfpN | int64 | int | void | struct
  deriving DecidableEq, Repr

def Flag.num : Flag → Nat
  | .vfpS => 0 | .vfpD => 1 | .vfpN => 2 | .int64 => 3 | .int => 4 | .void => 5 | .struct => 6

/-- Entry of the jump tables. -/
def Flag.ofNum : Nat → Option Flag
  | 0 => some .vfpS | 1 => some .vfpD | 2 => some .vfpN | 3 => some .int64 | 4 => some .int
  | 5 => some .void | 6 => some .struct | _ => none

/-- What is prepared.  `hard`: `cif->abi == FFI_VFP`. -/
structure Cif where
  hard : Bool
  flag : Flag
  bytes : Nat
  vfp : Vfp
  deriving DecidableEq, Repr

/-- The flag of a struct or complex result, src/arm/ffi.c:290-316. -/
def compFlag (hard : Bool) (rt : FType) : Except Abn Flag := do
  let h ← if hard then vfpTypeP rt else .ok 0
  if h = 256 + 2 then .ok .vfpS
  else if h = 256 + 3 then .ok .vfpD
  else if h ≠ 0 then .ok .vfpN
  else if rt.size ≤ 4 then .ok .int
  else .ok .struct

/-- The switch on the result type, src/arm/ffi.c:259-320. -/
def retFlag (hard : Bool) (rt : FType) : Except Abn Flag :=
  match rt.tc with
  | .void => .ok .void
  | .int | .uint8 | .sint8 | .uint16 | .sint16 | .uint32 | .sint32 | .pointer => .ok .int
  | .sint64 | .uint64 => .ok .int64
  | .float => .ok (if hard then .vfpS else .int)
  | .double => .ok (if hard then .vfpD else .int64)
  | .struct | .complex => compFlag hard rt
  | _ => .error .abort

/-- `cif->bytes` as computed by `ffi_prep_cif_core`, src/prep_cif.c:148-205 (see
`Core/Model.lean`), for this target. -/
def coreBytes (rt : FType) (ats : List FType) : Nat :=
  ats.foldl (fun b t => addArgBytes 4 b (A64.desc t)) (if rt.tc = .struct then 4 else 0)

/-- `ffi_prep_cif_machdep`, src/arm/ffi.c:246-334; `bytes` is what `ffi_prep_cif_core`
computed.  (`size_t` has 32 bits.)  `vfp` is not set without FFI_VFP, and not used then. -/
def prepMach (hard : Bool) (rt : FType) (ats : List FType) (bytes : Nat) : Except Abn Cif := do
  let v ← if hard then layoutVfp ats else .ok ⟨0, 0, []⟩
  let fl ← retFlag hard rt
  let b := ffiAlign ((bytes + (if fl = .struct then 4 else 0)) % 2 ^ 32) 8 % 2 ^ 32
  .ok ⟨hard, fl, if b < 16 then 16 else b, v⟩

/-- `ffi_prep_cif` (`var = false`) and `ffi_prep_cif_var`, src/prep_cif.c:110-216 and
src/arm/ffi.c:337-346: variadic calls use FFI_SYSV. -/
def prep (hard var : Bool) (rt : FType) (ats : List FType) : Except Abn Cif :=
  prepMach (hard && !var) rt ats (coreBytes rt ats)

/-! ## Calls -/

/-- `ffi_align`, src/arm/ffi.c:75-88. -/
def alignTy (t : FType) (p : Nat) : Nat := ffiAlign p (if t.align < 4 then 4 else t.align)

/-- `ffi_put_arg`, src/arm/ffi.c:90-144: the bytes stored; `none` is `abort`. -/
def putArg (m : Mem) (t : FType) (src : Nat) : Option (List Byte) :=
  match t.tc with
  | .sint8 => some (widen true (m.rd src 1))
  | .uint8 => some (widen false (m.rd src 1))
  | .sint16 => some (widen true (m.rd src 2))
  | .uint16 => some (widen false (m.rd src 2))
  | .int | .sint32 | .uint32 | .pointer | .float => some (m.rd src 4)
  | .sint64 | .uint64 | .double => some (m.rd src 8)
  | .struct | .complex => some (m.rd src t.size)
  | _ => none

/-- The loop of `ffi_prep_args_SYSV`, src/arm/ffi.c:166-171. -/
def sysvLoop : List FType → List Nat → Nat → Mem → Except Abn Mem
  | t :: ts, a :: as, argp, m =>
    match putArg m t a with
    | none => .error .abort
    | some bs => sysvLoop ts as (alignTy t argp + ffiAlign t.size 4) (m.wr (alignTy t argp) bs)
  | _, _, _, m => .ok m

/-- `vi`, `argp`, `regp`, `stack_used`, `done_with_regs` of `ffi_prep_args_VFP` and
`ffi_prep_incoming_args_VFP`. -/
structure ASt where
  vi : Nat
  argp : Nat
  regp : Nat
  stackUsed : Bool
  done : Bool
  deriving DecidableEq, Repr

/-- Arguments on the stack, src/arm/ffi.c:238-241. -/
def toStack (t : FType) (st : ASt) : Nat × ASt :=
  (alignTy t st.argp, { st with stackUsed := true, argp := alignTy t st.argp + ffiAlign t.size 4 })

/-- One round of the loop of `ffi_prep_args_VFP`, src/arm/ffi.c:199-241: where the argument
is put, and the state.  `eo` is `eo_regp`, `isv` whether `vfp_type_p` is not zero. -/
def outStep (v : Vfp) (vs eo : Nat) (t : FType) (isv : Bool) (st : ASt) : Nat × ASt :=
  if st.vi < v.args.length ∧ isv then (vs + v.args.getD st.vi 0 * 4, { st with vi := st.vi + 1 })
  else if !st.done && !isv then
    let tregp := alignTy t st.regp
    if tregp + (if t.size < 4 then 4 else t.size) ≤ eo then
      let regp := tregp + ffiAlign t.size 4
      (tregp, { st with regp := regp, done := decide (regp = st.argp) })
    else if !st.stackUsed then
      (tregp, { st with stackUsed := true, done := true, argp := tregp + ffiAlign t.size 4 })
    else toStack t st
  else toStack t st

/-- The loop of `ffi_prep_args_VFP`, src/arm/ffi.c:199-242. -/
def outLoop (v : Vfp) (vs eo : Nat) : List FType → List Nat → ASt → Mem → Except Abn Mem
  | t :: ts, a :: as, st, m => do
    let h ← vfpTypeP t
    match putArg m t a with
    | none => .error .abort
    | some bs =>
      outLoop v vs eo ts as (outStep v vs eo t (decide (h ≠ 0)) st).2 (m.wr (outStep v vs eo t (decide (h ≠ 0)) st).1 bs)
  | _, _, _, m => .ok m

/-- What `ffi_call_int` is given: the stack pointer, memory, its parameters, the values of
fp and lr that `ffi_call_SYSV` saves, and the VFP registers. -/
structure CallIn where
  sp : Nat
  mem : Mem
  avalue : List Nat
  rvalue : Option Nat
  closure : List Byte
  fp : List Byte
  lr : List Byte
  s : Nat → List Byte

/-- `rsize`, src/arm/ffi.c:374-391. -/
def rsize (fl : Flag) (rt : FType) (rvalue : Option Nat) : Nat :=
  match rvalue with
  | none => if fl = .struct then rt.size else 0
  | some _ => if fl = .vfpN then 32 else if fl = .int ∧ rt.tc = .struct then 4 else 0

/-- `flags`, src/arm/ffi.c:380-383. -/
def callFlag (fl : Flag) (rvalue : Option Nat) : Flag :=
  match rvalue with
  | none => if fl = .struct then .struct else .void
  | some _ => fl

/-- `alloca` as compiled: 8-byte units. -/
def alloca (sp n : Nat) : Nat := (sp - n) / 8 * 8

/-- `vfp_size`, src/arm/ffi.c:394. -/
def vfpSize (c : Cif) : Nat := if c.hard ∧ c.vfp.used ≠ 0 then 64 else 0

/-- `ffi_prep_args_SYSV` and `ffi_prep_args_VFP`, src/arm/ffi.c:153-243. -/
def prepArgs (c : Cif) (fl : Flag) (ats : List FType) (avalue : List Nat) (rv stack vs : Nat) (m : Mem) :
    Except Abn Mem :=
  let m := if fl = .struct then m.wr stack (leBytes 4 rv) else m
  let p := if fl = .struct then stack + 4 else stack
  if vfpSize c ≠ 0 then outLoop c.vfp vs (stack + 16) ats avalue ⟨0, stack + 16, p, false, false⟩ m
  else sysvLoop ats avalue p m

/-- State when the function is entered. -/
structure CallOut where
  stack : Nat
  frame : Nat
  rvalue : Nat
  ip : List Byte
  entry : Spec.A32.Regs

/-- `ffi_call_VFP` and `ffi_call_SYSV` up to and including the call,
src/arm/sysv.S:139-167: d0 alone is loaded if no other register is used. -/
def enter (c : Cif) (stack frame vs rv : Nat) (I : CallIn) (m : Mem) : CallOut :=
  let s : Nat → List Byte := fun i =>
    if vfpSize c ≠ 0 ∧ (i < 2 ∨ 3 < c.vfp.used ∧ i < 16) then m.rd (vs + 4 * i) 4 else I.s i
  let m := (m.wr frame I.fp).wr (frame + 4) I.lr
  { stack := stack, frame := frame, rvalue := rv, ip := m.rd (frame + 16) 4,
    entry := { r := fun i => m.rd (stack + 4 * i) 4, s := s, mem := m, sp := stack + 16 } }

/-- `ffi_call_int` up to the call, src/arm/ffi.c:364-425; `sizeof (struct call_frame)` is
20. -/
def callEntry (c : Cif) (rt : FType) (ats : List FType) (I : CallIn) : Except Abn CallOut :=
  let rs := rsize c.flag rt I.rvalue
  let fl := callFlag c.flag I.rvalue
  let vs := alloca I.sp (vfpSize c + c.bytes + 20 + rs)
  let stack := vs + vfpSize c
  let frame := stack + c.bytes
  let rv := if rs ≠ 0 then frame + 20 else I.rvalue.getD 0
  let m := ((I.mem.wr (frame + 8) (leBytes 4 rv)).wr (frame + 12) (leBytes 4 fl.num)).wr (frame + 16) I.closure
  match prepArgs c fl ats I.avalue rv stack vs m with
  | .error e => .error e
  | .ok m => .ok (enter c stack frame vs rv I m)

/-- `ffi_call_SYSV` after the call, src/arm/sysv.S:169-209: memory; flags and address are
read from the frame again. -/
def finishAsm (frame : Nat) (r s : Nat → List Byte) (m : Mem) : Option Mem :=
  let p := leNat (m.rd (frame + 8) 4)
  (Flag.ofNum (leNat (m.rd (frame + 12) 4))).map fun
    | .vfpS => m.wr p (s 0)
    | .vfpD => m.wr p (Spec.A32.cat s 0 2)
    | .vfpN => m.wr p (Spec.A32.cat s 0 8)
    | .int64 => (m.wr (p + 4) (r 1)).wr p (r 0)
    | .int => m.wr p (r 0)
    | .void => m
    | .struct => m

/-- The rest of `ffi_call_int`, src/arm/ffi.c:427-428; `rv` is `new_rvalue`. -/
def finishCall (rt : FType) (rvalue : Option Nat) (rv frame : Nat) (r s : Nat → List Byte) (m : Mem) : Option Mem :=
  (finishAsm frame r s m).map fun m =>
    match rvalue with
    | none => m
    | some p => if p ≠ rv then m.wr p (m.rd rv rt.size) else m

/-! ## Closures -/

/-- Ordinary closures and Go closures. -/
inductive Kind
  | closure | go
  deriving DecidableEq, Repr

/-- `ffi_prep_closure_loc`, `ffi_prep_go_closure`: which entry point,
src/arm/ffi.c:612-621, 681-690. -/
def viaVfp (c : Cif) : Bool := c.hard && decide (c.vfp.used ≠ 0)

/-- What `ffi_closure_inner_SYSV` or `ffi_closure_inner_VFP` is called with. -/
structure Asm where
  frame : Nat
  cif : List Byte
  handler : List Byte
  userData : List Byte
  mem : Mem

/-- The entry points up to the call of the inner function, src/arm/sysv.S:221-262, 276-316;
`self` is in ip (FFI_TRAMPOLINE_CLOSURE_OFFSET is 12, src/arm/ffitarget.h:85). -/
def asmEntry (vfp : Bool) (kind : Kind) (self : Nat) (lr : List Byte) (E : Spec.A32.Regs) : Asm :=
  let m := E.mem.wr (E.sp - 16) (Spec.A32.cat E.r 0 4)
  let cif := match kind with | .closure => m.rd (self + 12) 4 | .go => m.rd (self + 4) 4
  let fn := match kind with | .closure => m.rd (self + 16) 4 | .go => m.rd (self + 8) 4
  let ud := match kind with | .closure => m.rd (self + 20) 4 | .go => leBytes 4 self
  let frame := E.sp - 16 - 96
  let m := if vfp then m.wr frame (Spec.A32.cat E.s 0 16) else m
  ⟨frame, cif, fn, ud, (m.wr (frame - 8) (leBytes 4 E.sp)).wr (frame - 4) lr⟩

/-- The loop of `ffi_prep_incoming_args_SYSV`, src/arm/ffi.c:464-472. -/
def sysvIn : List FType → Nat → List Nat
  | [], _ => []
  | t :: ts, argp => alignTy t argp :: sysvIn ts (alignTy t argp + t.size)

/-- One round of the loop of `ffi_prep_incoming_args_VFP`, src/arm/ffi.c:496-542. -/
def inStep (v : Vfp) (vs eo : Nat) (t : FType) (isv : Bool) (st : ASt) : Nat × ASt :=
  let stack (z : Nat) : Nat × ASt :=
    (alignTy t st.argp, { st with stackUsed := true, argp := alignTy t st.argp + z })
  if st.vi < v.args.length ∧ isv then (vs + v.args.getD st.vi 0 * 4, { st with vi := st.vi + 1 })
  else if !st.done && !isv then
    let tregp := alignTy t st.regp
    let z := if t.size < 4 then 4 else t.size
    if tregp + z ≤ eo ∨ st.stackUsed = false then
      let regp := tregp + z
      (tregp, { st with
        regp := regp, argp := if eo < regp then regp else st.argp,
        done := st.done || decide (eo ≤ regp), stackUsed := st.stackUsed || decide (eo ≤ regp) })
    else stack z
  else stack t.size

/-- The loop. -/
def inLoop (v : Vfp) (vs eo : Nat) : List FType → ASt → Except Abn (List Nat)
  | [], _ => .ok []
  | t :: ts, st => do
    let h ← vfpTypeP t
    let r ← inLoop v vs eo ts (inStep v vs eo t (decide (h ≠ 0)) st).2
    .ok ((inStep v vs eo t (decide (h ≠ 0)) st).1 :: r)

/-- What the handler is called with. -/
structure View where
  frame : Nat
  cif : List Byte
  handler : List Byte
  userData : List Byte
  rvalue : Nat
  args : List Nat
  mem : Mem

/-- `ffi_prep_incoming_args_SYSV` and `ffi_prep_incoming_args_VFP`, src/arm/ffi.c:446-545:
`rvalue`, `avalue` and memory.  (`*(uint32_t *) rvalue = 0` in the former only.) -/
def incoming (c : Cif) (rt : FType) (ats : List FType) (frame : Nat) (m : Mem) : Except Abn (Nat × List Nat × Mem) :=
  let stack := frame + 96
  let rv := if c.flag = .struct then leNat (m.rd stack 4) else frame + 64
  let p := if c.flag = .struct then stack + 4 else stack
  if viaVfp c then
    match inLoop c.vfp frame (stack + 16) ats ⟨0, stack + 16, p, false, false⟩ with
    | .error e => .error e
    | .ok as => .ok (rv, as, m)
  else
    .ok (rv, sysvIn ats p,
      if c.flag ≠ .struct ∧ rt.size ≠ 0 ∧ rt.size < 4 then m.wr rv (List.replicate 4 0) else m)

/-- A closure from its entry to the call of the handler, src/arm/ffi.c:556-580. -/
def closureEntry (c : Cif) (rt : FType) (ats : List FType) (kind : Kind) (self : Nat) (lr : List Byte)
    (E : Spec.A32.Regs) : Except Abn View :=
  let A := asmEntry (viaVfp c) kind self lr E
  match incoming c rt ats A.frame A.mem with
  | .error e => .error e
  | .ok (rv, as, m) => .ok ⟨A.frame, A.cif, A.handler, A.userData, rv, as, m⟩

/-- State when a closure has returned; `none`: not set. -/
structure Exit where
  r : Nat → Option (List Byte)
  s : Nat → Option (List Byte)
  sp : Nat
  pc : List Byte

/-- After the handler, src/arm/sysv.S:263-270, 317-325, 334-366. -/
def closureExit (fl : Flag) (frame : Nat) (m : Mem) : Exit :=
  let word := fun i => m.rd (frame + 64 + 4 * i) 4
  { r := fun i =>
      match fl with
      | .int64 => if i < 2 then some (word i) else none
      | .int => if i < 1 then some (word i) else none
      | _ => none
    s := fun i =>
      match fl with
      | .vfpS => if i < 1 then some (word i) else none
      | .vfpD => if i < 2 then some (word i) else none
      | .vfpN => if i < 8 then some (word i) else none
      | _ => none
    sp := leNat (m.rd (frame - 8) 4)
    pc := m.rd (frame - 4) 4 }

end Verif.Arm
