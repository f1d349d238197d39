import Verif.RiscV.Model

/-
LoongArch64, src/loongarch64/ffi.c and src/loongarch64/sysv.S, with and without
double-precision argument registers.  (The single-precision variant does not assemble:
src/loongarch64/sysv.S:44-47 define `FLD` and `FST`, the code uses `FLARG` and `FSARG`.)

The file is derived from the RISC-V port; where the text is the same, so are the
definitions of `RiscV/Model.lean`, used here with `w = 8`:

  `Cfg`          __SIZEOF_POINTER__, ABI_FRLEN / 8 (src/loongarch64/ffi.c:36-46) and
                 cif->loongarch_nfixedargs (src/loongarch64/ffi.c:428-443)
  `isInt`        IS_INT, src/loongarch64/ffi.c:80-84
  `isFloat`      IS_FLOAT, src/loongarch64/ffi.c:95-99
  `flatten`      flatten_struct, src/loongarch64/ffi.c:101-114
  `asElements`   struct_passed_as_elements, src/loongarch64/ffi.c:119-153
  `fsiOf`        the head of marshal, unmarshal and passed_by_ref,
                 src/loongarch64/ffi.c:281-283, 350-352, 416-418
  `atomLoad`     the loads in marshal_atom, src/loongarch64/ffi.c:161-193
  `extB`         their conversion to size_t
  `putWord`      src/loongarch64/ffi.c:210-213
  `getWord`      src/loongarch64/ffi.c:234-237
  `evenSt`       src/loongarch64/ffi.c:325-331, 395-401
  `passedByRef`  passed_by_ref, src/loongarch64/ffi.c:412-425
  `faAddr`, `aAddr`, `ctxSize`  call_context, src/loongarch64/ffi.c:60-66; FRAME_LEN
  `alloca`, `rvalBytes`, `coreBytes`, `saveRegs`  src/loongarch64/ffi.c:457-458, 469;
                 src/prep_cif.c:148-205; src/loongarch64/sysv.S:173-191

Variadic arguments of type `float`, which src/loongarch64/ffi.c:300-307, 369-375 treat
specially, are left out: `ffi_prep_cif_var` rejects `ffi_type_float` there
(src/prep_cif.c:240-249).
-/
namespace Verif.LA
open Verif RV

/-- `marshal_atom`, src/loongarch64/ffi.c:158-214; `load n` are the `n` bytes at `data`.
Only the low-order part of the slot is written for a `float`.  Other types
(`FFI_ASSERT (0)`) are passed as zero. -/
def marshalAtom (c : Cfg) (ctx : Nat) (tc : TC) (load : Nat → List Byte) (st : St) (m : Mem) : St × Mem :=
  if isFloat c tc then
    ({ st with uf := st.uf + 1 }, m.wr (faAddr c ctx st.uf) (load (if tc = .float then 4 else 8)))
  else
    match atomLoad c tc with
    | some (n, sg) => putWord c ctx (extB c.w sg (load n)) st m
    | none => putWord c ctx (List.replicate c.w 0) st m

/-- `unmarshal_atom`, src/loongarch64/ffi.c:216-258: the bytes stored at `data`; for
integers a whole `ffi_arg`. -/
def unmarshalAtom (c : Cfg) (ctx : Nat) (tc : TC) (st : St) (m : Mem) : List Byte × St :=
  if isFloat c tc then
    (m.rd (faAddr c ctx st.uf) (if tc = .float then 4 else 8), { st with uf := st.uf + 1 })
  else
    match atomLoad c tc with
    | some _ => getWord c ctx st m
    | none => ([], (getWord c ctx st m).2)

/-- `allocate_and_copy_struct_to_stack`, src/loongarch64/ffi.c:262-272, without the copy:
`next_struct_area` after it.  It is the field `ss` of the state, an offset from
`cb->stack`. -/
def copyDest (ss size alignment : Nat) : Nat :=
  ffiAlignDown ((ss + 2 ^ 64 - size % 2 ^ 64) % 2 ^ 64) alignment

/-- The integer part of `marshal`, src/loongarch64/ffi.c:310-338; `base` is `cb->stack`.
`realign` is an uninitialised local array of two words: `junk`. -/
def marshalInt (c : Cfg) (ctx base : Nat) (t : FType) (var : Bool) (load : Nat → List Byte) (junk : List Byte)
    (st : St) (m : Mem) : St × Mem :=
  if 2 * c.w < t.size then
    let dest := copyDest st.ss t.size t.align
    let data := (base + dest) % 2 ^ 64
    marshalAtom c ctx .pointer (fun n => (leBytes c.w data).take n) { st with ss := dest } (m.wr data (load t.size))
  else if isInt c t.tc || t.tc == .pointer then
    marshalAtom c ctx t.tc load st m
  else
    let st := if c.w < t.align then evenSt c var st else st
    let realign := load t.size ++ junk.drop t.size
    let r := if 0 < t.size then marshalAtom c ctx .pointer (fun n => realign.take n) st m else (st, m)
    if c.w < t.size then marshalAtom c ctx .pointer (fun n => (realign.drop c.w).take n) r.1 r.2 else r

/-- The two atoms of a struct passed as elements, src/loongarch64/ffi.c:285-290. -/
def marshalFsi (c : Cfg) (ctx : Nat) (f : Fsi) (load : Nat → Nat → List Byte) (st : St) (m : Mem) : St × Mem :=
  let r := marshalAtom c ctx f.type1 (load 0) st m
  if f.offset2 ≠ 0 then marshalAtom c ctx f.type2 (load f.offset2) r.1 r.2 else r

/-- `marshal`, src/loongarch64/ffi.c:275-339; `load o n` are `n` bytes at `data + o`. -/
def marshal (c : Cfg) (ctx base : Nat) (t : FType) (var : Bool) (load : Nat → Nat → List Byte) (junk : List Byte)
    (st : St) (m : Mem) : St × Mem :=
  match fsiOf c t var st with
  | some f => marshalFsi c ctx f load st m
  | none =>
    if !var && decide (st.uf < 8) && isFloat c t.tc then marshalAtom c ctx t.tc (load 0) st m
    else marshalInt c ctx base t var (load 0) junk st m

/-- The integer part of `unmarshal`, src/loongarch64/ffi.c:378-409: the pointer
returned. -/
def unmarshalInt (c : Cfg) (ctx : Nat) (t : FType) (var : Bool) (data : Nat) (st : St) (m : Mem) :
    Nat × St × Mem :=
  if 2 * c.w < t.size then
    let r := unmarshalAtom c ctx .pointer st m
    (leNat r.1, r.2, m)
  else if isInt c t.tc || t.tc == .pointer then
    let r := unmarshalAtom c ctx t.tc st m
    (data, r.2, m.wr data r.1)
  else
    let st := if c.w < t.align then evenSt c var st else st
    let r := if 0 < t.size then unmarshalAtom c ctx .pointer st m else ([], st)
    let s := if c.w < t.size then unmarshalAtom c ctx .pointer r.2 m else ([], r.2)
    (data, s.2, m.wr data ((r.1 ++ s.1).take t.size))

/-- The two atoms of a struct passed as elements, src/loongarch64/ffi.c:354-359. -/
def unmarshalFsi (c : Cfg) (ctx : Nat) (f : Fsi) (data : Nat) (st : St) (m : Mem) : Nat × St × Mem :=
  let r := unmarshalAtom c ctx f.type1 st m
  let m := m.wr data r.1
  if f.offset2 ≠ 0 then
    let s := unmarshalAtom c ctx f.type2 r.2 m
    (data, s.2, m.wr (data + f.offset2) s.1)
  else (data, r.2, m)

/-- `unmarshal`, src/loongarch64/ffi.c:343-410. -/
def unmarshal (c : Cfg) (ctx : Nat) (t : FType) (var : Bool) (data : Nat) (st : St) (m : Mem) :
    Nat × St × Mem :=
  match fsiOf c t var st with
  | some f => unmarshalFsi c ctx f data st m
  | none =>
    if !var && decide (st.uf < 8) && isFloat c t.tc then
      let r := unmarshalAtom c ctx t.tc st m
      (data, r.2, m.wr data r.1)
    else unmarshalInt c ctx t var data st m

/-! ## Calls -/

/-- The argument loop, src/loongarch64/ffi.c:487-490. -/
def callLoop (c : Cfg) (ctx base : Nat) (junk : Nat → List Byte) : List FType → List Nat → Nat → St → Mem → St × Mem
  | t :: ts, a :: as, i, st, m =>
    let r := marshal c ctx base t (decide (c.nfixed ≤ i)) (fun o n => m.rd (a + o) n) (junk i) st m
    callLoop c ctx base junk ts as (i + 1) r.1 r.2
  | _, _, _, st, m => (st, m)

/-- Memory when `ffi_call_int` calls `ffi_call_asm`, src/loongarch64/ffi.c:449-492, for the
block at `base`; `bytes` is `cif->bytes`. -/
def callMem (c : Cfg) (bytes : Nat) (rt : FType) (ats : List FType) (I : CallIn) (base : Nat) : St × Mem :=
  let rb := rvalBytes c rt I.rvalue
  let rvalue := if rb ≠ 0 then base + bytes else I.rvalue.getD 0
  let ctx := base + bytes + rb
  let st : St := ⟨0, 0, base, bytes⟩
  let r := if passedByRef c rt st then putWord c ctx (leBytes c.w rvalue) st I.mem else (st, I.mem)
  callLoop c ctx base I.junk ats I.avalue 0 r.1 r.2

/-- `ffi_call_int`, src/loongarch64/ffi.c:449-492, and `ffi_call_asm` up to the call,
src/loongarch64/sysv.S:80-127. -/
def callEntry (c : Cfg) (bytes : Nat) (rt : FType) (ats : List FType) (I : CallIn) : CallOut :=
  let rb := rvalBytes c rt I.rvalue
  let base := alloca I.sp (bytes + rb + ctxSize c)
  let rvalue := if rb ≠ 0 then base + bytes else I.rvalue.getD 0
  let ctx := base + bytes + rb
  let q := callMem c bytes rt ats I base
  let m := q.2.wr (ctx + ctxSize c - 2 * c.w) (leBytes c.w I.fp ++ leBytes c.w I.ra)
  { entry := ⟨m, base, fun k => m.rd (faAddr c ctx k) c.fl, fun k => m.rd (aAddr c ctx k) c.w⟩
    base := base, ctx := ctx, rvalue := rvalue, byRef := passedByRef c rt ⟨0, 0, base, bytes⟩, uf := q.1.uf }

/-- `ffi_call_asm` after the call, src/loongarch64/sysv.S:129-145, and the rest of
`ffi_call_int`, src/loongarch64/ffi.c:494-496.  `rvalue` is 0 for NULL.  `cb.used_stack` is
of no interest: results are not on the stack. -/
def finishCall (c : Cfg) (rt : FType) (rvalue : Nat) (byRef : Bool) (ctx : Nat) (R : RetRegs) (m : Mem) : Mem :=
  let m := m.wr (faAddr c ctx 0) (R.fa 0 ++ R.fa 1)
  let m := m.wr (aAddr c ctx 0) (R.a 0 ++ R.a 1)
  if byRef || rvalue == 0 then m else (unmarshal c ctx rt false rvalue ⟨0, 0, 0, 0⟩ m).2.2

/-! ## Closures -/

/-- The loop of `ffi_closure_inner`, src/loongarch64/ffi.c:598-601; `ast` is `astorage`. -/
def closureLoop (c : Cfg) (ctx ast : Nat) : List FType → Nat → St → Mem → List Nat × Mem
  | [], _, _, m => ([], m)
  | t :: ts, i, st, m =>
    let r := unmarshal c ctx t (decide (c.nfixed ≤ i)) (ast + 16 * i) st m
    let q := closureLoop c ctx ast ts (i + 1) r.2.1 r.2.2
    (r.1 :: q.1, q.2)

/-- `ffi_closure_asm` up to the C function, src/loongarch64/sysv.S:160-200 (or
`ffi_go_closure_asm`, src/loongarch64/sysv.S:263-303), and `ffi_closure_inner` up to the
handler, src/loongarch64/ffi.c:572-603.  Of the frame of `ffi_closure_inner` only the three
`alloca` blocks are modelled; the array `avalue` is the list of its elements. -/
def closureEntry (c : Cfg) (rt : FType) (ats : List FType) (fp ra : Nat) (E : Entry) : View :=
  let ctx := E.sp - ctxSize c
  let m := closureFrameMem c fp ra E
  let ast := alloca (alloca ctx (c.w * ats.length)) (16 * ats.length)
  let st : St := ⟨0, 0, E.sp, 0⟩
  let byRef := passedByRef c rt st
  let r := if byRef then unmarshalAtom c ctx .pointer st m else ([], st)
  let q := closureLoop c ctx ast ats 0 r.2 m
  { mem := q.2, rvalue := if byRef then leNat r.1 else alloca ast rt.size, avalue := q.1, ctx := ctx,
    byRef := byRef }

/-- The end of `ffi_closure_inner`, src/loongarch64/ffi.c:605-610, and `ffi_closure_asm`
after it, src/loongarch64/sysv.S:202-218: the result registers.  `cb.stack` and
`cb.next_struct_area` are not set; they are not used for results in registers. -/
def closureExit (c : Cfg) (rt : FType) (rvalue : Nat) (byRef : Bool) (ctx : Nat) (junk : List Byte) (m : Mem) :
    RetRegs :=
  let m := if !byRef && rt.tc != .void then
      (marshal c ctx 0 rt false (fun o n => m.rd (rvalue + o) n) junk ⟨0, 0, 0, 0⟩ m).2
    else m
  ⟨fun k => m.rd (faAddr c ctx k) c.fl, fun k => m.rd (aAddr c ctx k) c.w⟩

end Verif.LA
