import Verif.Base.FType
import Verif.Base.Mem
import Verif.Core.Model

/-
RISC-V, src/riscv/ffi.c and src/riscv/sysv.S, for all register widths: ILP32, ILP32F,
ILP32D, LP64, LP64F, LP64D.  Memory is flat, so the register image, the argument area
and whatever lies beyond can alias.  Pointer arithmetic of 32-bit targets is done on
64-bit words; it makes no difference for addresses below 2^32.
-/
namespace Verif.RV
open Verif

/-- Build and call variant: `w` is `__SIZEOF_POINTER__`, `fl` is `ABI_FLEN / 8`
(src/riscv/ffi.c:36-42), `nfixed` is `cif->riscv_nfixedargs` (src/riscv/ffi.c:316-327). -/
structure Cfg where
  w : Nat
  fl : Nat
  nfixed : Nat
  deriving DecidableEq, Repr

/-- `IS_INT`, src/riscv/ffi.c:69-73; the range of type codes spelled out. -/
def isInt (c : Cfg) : TC → Bool
  | .uint8 | .sint8 | .uint16 | .sint16 | .uint32 | .sint32 => true
  | .uint64 | .sint64 => c.w == 8
  | _ => false

/-- `IS_FLOAT`, src/riscv/ffi.c:80-84; never true without `ABI_FLEN`, where the code
using it is not compiled. -/
def isFloat (c : Cfg) : TC → Bool
  | .float => c.fl == 4 || c.fl == 8
  | .double => c.fl == 8
  | _ => false

mutual
/-- `flatten_struct`, src/riscv/ffi.c:86-96, with room for three fields; `out` is what
has been stored so far. -/
def flatten : FType → List FType → List FType
  | .mk s a tc es, out =>
    if out.length = 3 then out
    else if tc = .struct then flattenL es out
    else out ++ [.mk s a tc es]
termination_by structural t => t
/-- The loop of `flatten_struct`, src/riscv/ffi.c:92-93. -/
def flattenL : List FType → List FType → List FType
  | [], out => out
  | e :: es, out => flattenL es (flatten e out)
termination_by structural es => es
end

/-- `float_struct_info`, src/riscv/ffi.c:76-78, for structs passed as elements.  The
`char` fields hold small numbers. -/
structure Fsi where
  type1 : TC
  offset2 : Nat
  type2 : TC
  deriving DecidableEq, Repr

/-- `struct_passed_as_elements`, src/riscv/ffi.c:101-129; `none` is `as_elements = 0`.
For one field there is no check that a register is left. -/
def asElements (c : Cfg) (ui uf : Nat) (top : FType) : Option Fsi :=
  match flatten top [] with
  | [f] => if isFloat c f.tc then some ⟨f.tc, 0, .void⟩ else none
  | [f, g] =>
    let nfl := (isFloat c f.tc).toNat + (isFloat c g.tc).toNat
    let nin := (isInt c f.tc).toNat + (isInt c g.tc).toNat
    if nfl = 0 ∨ nfl + nin ≠ 2 then none
    else if 8 < uf + nfl ∨ 8 < ui + (2 - nfl) then none
    else some ⟨f.tc, ffiAlign f.size g.align, g.tc⟩
  | _ => none

/-- `call_builder`, src/riscv/ffi.c:58-65, except `aregs`: registers used, next stack
slot (address), next copy (address). -/
structure St where
  ui : Nat
  uf : Nat
  stk : Nat
  ss : Nat
  deriving DecidableEq, Repr

/-- Addresses in a `call_context`, src/riscv/ffi.c:48-56. -/
def faAddr (c : Cfg) (ctx k : Nat) : Nat := ctx + c.fl * k
def aAddr (c : Cfg) (ctx k : Nat) : Nat := ctx + 8 * c.fl + c.w * k
/-- `sizeof (call_context)`, `FRAME_LEN`. -/
def ctxSize (c : Cfg) : Nat := 8 * c.fl + 8 * c.w + 16

/-- Size and signedness of the load in `marshal_atom`, src/riscv/ffi.c:135-147. -/
def atomLoad (c : Cfg) : TC → Option (Nat × Bool)
  | .uint8 => some (1, false)
  | .sint8 => some (1, true)
  | .uint16 => some (2, false)
  | .sint16 => some (2, true)
  | .uint32 => some (4, true)
  | .sint32 => some (4, true)
  | .uint64 => if c.w = 8 then some (8, false) else none
  | .sint64 => if c.w = 8 then some (8, true) else none
  | .pointer => some (c.w, false)
  | _ => none

/-- Conversion of an integer to `size_t`. -/
def extB (w : Nat) (sg : Bool) (bs : List Byte) : List Byte :=
  bs ++ List.replicate (w - bs.length) (if sg && decide (0x80 ≤ (bs.getLastD 0).toNat) then 0xff else 0)

/-- A store to the register or stack slot for an integer, src/riscv/ffi.c:165-169. -/
def putWord (c : Cfg) (ctx : Nat) (v : List Byte) (st : St) (m : Mem) : St × Mem :=
  if st.ui = 8 then ({ st with stk := st.stk + c.w }, m.wr st.stk v)
  else ({ st with ui := st.ui + 1 }, m.wr (aAddr c ctx st.ui) v)

/-- `marshal_atom`, src/riscv/ffi.c:133-170; `load n` are the `n` bytes at `data`.  A
`float` loaded into a wider register is NaN-boxed.  Other types (`FFI_ASSERT (0)`) are
passed as zero. -/
def marshalAtom (c : Cfg) (ctx : Nat) (tc : TC) (load : Nat → List Byte) (st : St) (m : Mem) : St × Mem :=
  if isFloat c tc then
    let n := if tc = .float then 4 else 8
    ({ st with uf := st.uf + 1 }, m.wr (faAddr c ctx st.uf) (load n ++ List.replicate (c.fl - n) 0xff))
  else
    match atomLoad c tc with
    | some (n, sg) => putWord c ctx (extB c.w sg (load n)) st m
    | none => putWord c ctx (List.replicate c.w 0) st m

/-- The content of the next integer register or stack slot, src/riscv/ffi.c:187-191. -/
def getWord (c : Cfg) (ctx : Nat) (st : St) (m : Mem) : List Byte × St :=
  if st.ui = 8 then (m.rd st.stk c.w, { st with stk := st.stk + c.w })
  else (m.rd (aAddr c ctx st.ui) c.w, { st with ui := st.ui + 1 })

/-- `unmarshal_atom`, src/riscv/ffi.c:172-207: the bytes stored at `data`. -/
def unmarshalAtom (c : Cfg) (ctx : Nat) (tc : TC) (st : St) (m : Mem) : List Byte × St :=
  if isFloat c tc then
    let n := if tc = .float then 4 else 8
    (m.rd (faAddr c ctx st.uf) n, { st with uf := st.uf + 1 })
  else
    match atomLoad c tc with
    | some (n, _) => ((getWord c ctx st m).1.take n, (getWord c ctx st m).2)
    | none => ([], (getWord c ctx st m).2)

/-- Before an overaligned argument, src/riscv/ffi.c:242-246, 290-294. -/
def evenSt (c : Cfg) (var : Bool) (st : St) : St :=
  { st with ui := if var then ffiAlign st.ui 2 else st.ui, stk := ffiAlign st.stk (2 * c.w) }

/-- The integer part of `marshal`, src/riscv/ffi.c:230-253.  `realign` is an
uninitialised local array of two words: `junk`. -/
def marshalInt (c : Cfg) (ctx : Nat) (t : FType) (var : Bool) (load : Nat → List Byte) (junk : List Byte)
    (st : St) (m : Mem) : St × Mem :=
  if 2 * c.w < t.size then
    let data := st.ss
    marshalAtom c ctx .pointer (fun n => (leBytes c.w data).take n)
      { st with ss := ffiAlign (st.ss + t.size) c.w } (m.wr data (load t.size))
  else if isInt c t.tc || t.tc == .pointer then
    marshalAtom c ctx t.tc load st m
  else
    let st := if c.w < t.align then evenSt c var st else st
    let realign := load t.size ++ junk.drop t.size
    let r := if 0 < t.size then marshalAtom c ctx .pointer (fun n => realign.take n) st m else (st, m)
    if c.w < t.size then marshalAtom c ctx .pointer (fun n => (realign.drop c.w).take n) r.1 r.2 else r

/-- The two atoms of a struct passed as elements, src/riscv/ffi.c:217-219.  The second
one is read from memory as it was before the first store. -/
def marshalFsi (c : Cfg) (ctx : Nat) (f : Fsi) (load : Nat → Nat → List Byte) (st : St) (m : Mem) : St × Mem :=
  let r := marshalAtom c ctx f.type1 (load 0) st m
  if f.offset2 ≠ 0 then marshalAtom c ctx f.type2 (load f.offset2) r.1 r.2 else r

/-- The struct case at the head of `marshal`, `unmarshal` and `passed_by_ref`. -/
def fsiOf (c : Cfg) (t : FType) (var : Bool) (st : St) : Option Fsi :=
  if !var && t.tc == .struct && c.fl != 0 then asElements c st.ui st.uf t else none

/-- `marshal`, src/riscv/ffi.c:210-254; `load o n` are `n` bytes at `data + o`. -/
def marshal (c : Cfg) (ctx : Nat) (t : FType) (var : Bool) (load : Nat → Nat → List Byte) (junk : List Byte)
    (st : St) (m : Mem) : St × Mem :=
  match fsiOf c t var st with
  | some f => marshalFsi c ctx f load st m
  | none =>
    if !var && decide (st.uf < 8) && isFloat c t.tc then marshalAtom c ctx t.tc (load 0) st m
    else marshalInt c ctx t var (load 0) junk st m

/-- The integer part of `unmarshal`, src/riscv/ffi.c:278-302: the pointer returned. -/
def unmarshalInt (c : Cfg) (ctx : Nat) (t : FType) (var : Bool) (data : Nat) (st : St) (m : Mem) :
    Nat × St × Mem :=
  if 2 * c.w < t.size then
    let r := unmarshalAtom c ctx .pointer st m
    (leNat r.1, r.2, m)
  else if isInt c t.tc || t.tc == .pointer then
    let r := unmarshalAtom c ctx t.tc st m
    (data, r.2, m.wr data r.1)
  else
    let st := if c.w < t.align then evenSt c var st else st
    let r := if 0 < t.size then unmarshalAtom c ctx .pointer st m else ([], st)
    let s := if c.w < t.size then unmarshalAtom c ctx .pointer r.2 m else ([], r.2)
    (data, s.2, m.wr data ((r.1 ++ s.1).take t.size))

/-- The two atoms of a struct passed as elements, src/riscv/ffi.c:264-267. -/
def unmarshalFsi (c : Cfg) (ctx : Nat) (f : Fsi) (data : Nat) (st : St) (m : Mem) : Nat × St × Mem :=
  let r := unmarshalAtom c ctx f.type1 st m
  let m := m.wr data r.1
  if f.offset2 ≠ 0 then
    let s := unmarshalAtom c ctx f.type2 r.2 m
    (data, s.2, m.wr (data + f.offset2) s.1)
  else (data, r.2, m)

/-- `unmarshal`, src/riscv/ffi.c:257-303. -/
def unmarshal (c : Cfg) (ctx : Nat) (t : FType) (var : Bool) (data : Nat) (st : St) (m : Mem) :
    Nat × St × Mem :=
  match fsiOf c t var st with
  | some f => unmarshalFsi c ctx f data st m
  | none =>
    if !var && decide (st.uf < 8) && isFloat c t.tc then
      let r := unmarshalAtom c ctx t.tc st m
      (data, r.2, m.wr data r.1)
    else unmarshalInt c ctx t var data st m

/-- `passed_by_ref`, src/riscv/ffi.c:305-314. -/
def passedByRef (c : Cfg) (t : FType) (st : St) : Bool :=
  match fsiOf c t false st with
  | some _ => false
  | none => decide (2 * c.w < t.size)

/-! ## Calls -/

/-- The descriptor of a type tree as the generic stage sees it. -/
def desc (t : FType) : Desc := ⟨t.size, t.align, t.tc, none⟩

/-- `cif->bytes` as computed by `ffi_prep_cif_core`, src/prep_cif.c:148-205 (see
`Core/Model.lean`); `ffi_prep_cif_machdep` does not change it. -/
def coreBytes (c : Cfg) (rt : FType) (ats : List FType) : Nat :=
  ats.foldl (fun b t => addArgBytes c.w b (desc t)) (if rt.tc = .struct then c.w else 0)

/-- State on entry to the called function. -/
structure Entry where
  mem : Mem
  sp : Nat
  fa : Nat → List Byte
  a : Nat → List Byte

/-- Arguments of `ffi_call_int` besides the signature; `fp`, `ra` are the values of
those registers, `junk i` what an uninitialised local array holds while argument `i` is
marshalled. -/
structure CallIn where
  sp : Nat
  mem : Mem
  avalue : List Nat
  /-- `none` = NULL -/
  rvalue : Option Nat
  fp : Nat
  ra : Nat
  junk : Nat → List Byte

/-- Result of marshalling: entry state, block, register image, `rvalue`,
`return_by_ref` and `cb.used_float`. -/
structure CallOut where
  entry : Entry
  base : Nat
  ctx : Nat
  rvalue : Nat
  byRef : Bool
  uf : Nat

/-- `alloca` (the stack grows downwards in 16-byte units), src/riscv/ffi.c:353-359. -/
def alloca (sp n : Nat) : Nat := (sp - n) / 16 * 16

/-- `arg_bytes`, src/riscv/ffi.c:339-340. -/
def argBytes (c : Cfg) (n : Nat) : Nat := if n ≤ 3 then 0 else ffiAlign (2 * c.w * (n - 3)) 16

/-- `rval_bytes`, src/riscv/ffi.c:343-345. -/
def rvalBytes (c : Cfg) (rt : FType) (rvalue : Option Nat) : Nat :=
  if rvalue = none ∧ 2 * c.w < rt.size then ffiAlign rt.size 16 else 0

/-- The argument loop, src/riscv/ffi.c:374-376. -/
def callLoop (c : Cfg) (ctx : Nat) (junk : Nat → List Byte) : List FType → List Nat → Nat → St → Mem → St × Mem
  | t :: ts, a :: as, i, st, m =>
    let r := marshal c ctx t (decide (c.nfixed ≤ i)) (fun o n => m.rd (a + o) n) (junk i) st m
    callLoop c ctx junk ts as (i + 1) r.1 r.2
  | _, _, _, st, m => (st, m)

/-- Memory when `ffi_call_int` calls `ffi_call_asm`, src/riscv/ffi.c:333-378, for the block
at `base`. -/
def callMem (c : Cfg) (bytes : Nat) (rt : FType) (ats : List FType) (I : CallIn) (base : Nat) : St × Mem :=
  let ab := argBytes c ats.length
  let rb := rvalBytes c rt I.rvalue
  let rvalue := if rb ≠ 0 then base + ab else I.rvalue.getD 0
  let ctx := base + ab + rb + ffiAlign bytes 16
  let st : St := ⟨0, 0, base, base + ab + rb⟩
  let r := if passedByRef c rt st then marshalAtom c ctx .pointer (fun n => (leBytes c.w rvalue).take n) st I.mem
    else (st, I.mem)
  callLoop c ctx I.junk ats I.avalue 0 r.1 r.2

/-- `ffi_call_int`, src/riscv/ffi.c:333-378, and `ffi_call_asm` up to the call,
src/riscv/sysv.S:76-124. -/
def callEntry (c : Cfg) (bytes : Nat) (rt : FType) (ats : List FType) (I : CallIn) : CallOut :=
  let ab := argBytes c ats.length
  let sb := ffiAlign bytes 16
  let rb := rvalBytes c rt I.rvalue
  let base := alloca I.sp (ab + rb + sb + ctxSize c)
  let rvalue := if rb ≠ 0 then base + ab else I.rvalue.getD 0
  let ctx := base + ab + rb + sb
  let q := callMem c bytes rt ats I base
  let m := q.2.wr (ctx + ctxSize c - 2 * c.w) (leBytes c.w I.fp ++ leBytes c.w I.ra)
  { entry := ⟨m, base, fun k => m.rd (faAddr c ctx k) c.fl, fun k => m.rd (aAddr c ctx k) c.w⟩
    base := base, ctx := ctx, rvalue := rvalue, byRef := passedByRef c rt ⟨0, 0, base, base + ab + rb⟩, uf := q.1.uf }

/-- Result registers. -/
structure RetRegs where
  fa : Nat → List Byte
  a : Nat → List Byte

/-- `ffi_call_asm` after the call, src/riscv/sysv.S:126-142, and the rest of
`ffi_call_int`, src/riscv/ffi.c:380-407.  `rvalue` is 0 for NULL.  Both branches of the
`switch` store a whole register, so they are one here. -/
def finishCall (c : Cfg) (rt : FType) (rvalue : Nat) (byRef : Bool) (ctx : Nat) (R : RetRegs) (m : Mem) : Mem :=
  let m := m.wr (faAddr c ctx 0) (R.fa 0 ++ R.fa 1)
  let m := m.wr (aAddr c ctx 0) (R.a 0 ++ R.a 1)
  let st : St := ⟨0, 0, 0, 0⟩
  if byRef || rvalue == 0 then m
  else if isInt c rt.tc && decide (rt.size < c.w) then
    m.wr rvalue ((unmarshalAtom c ctx (if c.w = 8 then .sint64 else .sint32) st m).1)
  else (unmarshal c ctx rt false rvalue st m).2.2

/-! ## Closures -/

/-- What the handler gets: memory, result address, argument pointers; and what
`ffi_closure_inner` remembers. -/
structure View where
  mem : Mem
  rvalue : Nat
  avalue : List Nat
  ctx : Nat
  byRef : Bool

/-- Consecutive stores of `n` registers of `z` bytes. -/
def saveRegs (a z : Nat) (r : Nat → List Byte) : Nat → Mem → Mem
  | 0, m => m
  | n + 1, m => (saveRegs a z r n m).wr (a + z * n) (r n)

/-- The loop of `ffi_closure_inner`, src/riscv/ffi.c:504-506; `ast` is `astorage`. -/
def closureLoop (c : Cfg) (ctx ast : Nat) : List FType → Nat → St → Mem → List Nat × Mem
  | [], _, _, m => ([], m)
  | t :: ts, i, st, m =>
    let r := unmarshal c ctx t (decide (c.nfixed ≤ i)) (ast + 16 * i) st m
    let q := closureLoop c ctx ast ts (i + 1) r.2.1 r.2.2
    (r.1 :: q.1, q.2)

/-- The frame of `ffi_closure_asm`, src/riscv/sysv.S:158-190. -/
def closureFrameMem (c : Cfg) (fp ra : Nat) (E : Entry) : Mem :=
  let ctx := E.sp - ctxSize c
  let m := E.mem.wr (E.sp - 2 * c.w) (leBytes c.w fp ++ leBytes c.w ra)
  saveRegs (aAddr c ctx 0) c.w E.a 8 (saveRegs (faAddr c ctx 0) c.fl E.fa 8 m)

/-- `ffi_closure_asm` up to the C function, src/riscv/sysv.S:158-199, and
`ffi_closure_inner` up to the handler, src/riscv/ffi.c:477-508.  Of the frame of
`ffi_closure_inner` only the three `alloca` blocks are modelled; the array `avalue` is
the list of its elements. -/
def closureEntry (c : Cfg) (rt : FType) (ats : List FType) (fp ra : Nat) (E : Entry) : View :=
  let ctx := E.sp - ctxSize c
  let m := closureFrameMem c fp ra E
  let ast := alloca (alloca ctx (c.w * ats.length)) (16 * ats.length)
  let st : St := ⟨0, 0, E.sp, 0⟩
  let byRef := passedByRef c rt st
  let r := if byRef then unmarshalAtom c ctx .pointer st m else ([], st)
  let q := closureLoop c ctx ast ats 0 r.2 m
  { mem := q.2, rvalue := if byRef then leNat r.1 else alloca ast rt.size, avalue := q.1, ctx := ctx,
    byRef := byRef }

/-- The end of `ffi_closure_inner`, src/riscv/ffi.c:510-513, and `ffi_closure_asm` after
it, src/riscv/sysv.S:201-217: the result registers. -/
def closureExit (c : Cfg) (rt : FType) (rvalue : Nat) (byRef : Bool) (ctx : Nat) (junk : List Byte) (m : Mem) :
    RetRegs :=
  let m := if !byRef && rt.tc != .void then
      (marshal c ctx rt false (fun o n => m.rd (rvalue + o) n) junk ⟨0, 0, 0, 0⟩ m).2
    else m
  ⟨fun k => m.rd (faAddr c ctx k) c.fl, fun k => m.rd (aAddr c ctx k) c.w⟩

end Verif.RV
