import Verif.Base.FType

/-
Model of src/x86/ffi64.c and src/x86/unix64.S (SysV x86-64, LP64).
-/
namespace Verif.X64
open Verif

/-! ## Classification -/

/-- `enum x86_64_reg_class`, src/x86/ffi64.c:86-99. -/
inductive Cls
  | no | integer | integersi | sse | ssesf | ssedf | sseup | x87 | x87up | complexX87 | memory
  deriving DecidableEq, Repr, Inhabited

/-- `SSE_CLASS_P`, src/x86/ffi64.c:103. -/
def Cls.isSse : Cls → Bool
  | .sse | .ssesf | .ssedf | .sseup => true
  | _ => false

/-- `merge_classes`, src/x86/ffi64.c:112-152. -/
def merge (c1 c2 : Cls) : Cls :=
  if c1 = c2 then c1
  else if c1 = .no then c2
  else if c2 = .no then c1
  else if c1 = .memory ∨ c2 = .memory then .memory
  else if (c1 = .integersi ∧ c2 = .ssesf) ∨ (c2 = .integersi ∧ c1 = .ssesf) then .integersi
  else if c1 = .integer ∨ c1 = .integersi ∨ c2 = .integer ∨ c2 = .integersi then .integer
  else if c1 = .x87 ∨ c1 = .x87up ∨ c1 = .complexX87 ∨ c2 = .x87 ∨ c2 = .x87up ∨ c2 = .complexX87
    then .memory
  else .sse

/-- Inner loop src/x86/ffi64.c:253-259: merge the classes of a member into the
array at position `pos`, ignoring what would fall beyond `words`. -/
def mergeAt (pos : Nat) (sub cls : List Cls) : List Cls :=
  cls.mapIdx fun k c => if pos ≤ k ∧ k - pos < sub.length then merge (sub.getD (k - pos) .no) c else c

/-- "Final merger cleanup" loop, src/x86/ffi64.c:279-306; `none` = `return 0`. -/
def cleanup : Nat → Cls → List Cls → Option (List Cls)
  | _, _, [] => some []
  | i, prev, c :: cs =>
    if c = .memory then none
    else
      let c := if 1 < i ∧ c = .sseup ∧ prev ≠ .sse ∧ prev ≠ .sseup then .sse else c
      if 1 < i ∧ c = .x87up ∧ prev ≠ .x87 then none
      else (cleanup (i + 1) c cs).map (c :: ·)

/-- src/x86/ffi64.c:264-307, from `if (words > 2)` to `return words`; an empty
list stands for the return value 0. -/
def finish (cls : List Cls) : List Cls :=
  if 2 < cls.length ∧ (cls.head? ≠ some .sse ∨ cls.tail.any (· ≠ .sseup)) then []
  else (cleanup 0 .no cls).getD []

/-- Label `do_integer`, src/x86/ffi64.c:175-200, including the fall-through into
the `float` case when the assertion at the end fails. -/
def doInteger (size bo : Nat) : List Cls :=
  let sz := bo + size
  if sz ≤ 4 then [.integersi]
  else if sz ≤ 8 then [.integer]
  else if sz ≤ 12 then [.integer, .integersi]
  else if sz ≤ 16 then [.integer, .integer]
  else if bo % 8 = 0 then [.ssesf] else [.sse]

mutual
/-- `classify_argument`, src/x86/ffi64.c:160-345.  The result is the filled prefix of
`classes[]` (its length is the C return value, the empty list is "return 0").  A
write beyond `MAX_CLASSES` = 4 is a fault. -/
def classify : FType → Nat → Except Abn (List Cls)
  | .mk size _ tc es, bo =>
    match tc with
    | .uint8 | .sint8 | .uint16 | .sint16 | .uint32 | .sint32 | .uint64 | .sint64 | .pointer =>
      .ok (doInteger size bo)
    | .float => .ok (if bo % 8 = 0 then [.ssesf] else [.sse])
    | .double => .ok [.ssedf]
    | .longdouble => .ok [.x87, .x87up]
    | .void => .ok [.no]
    | .struct =>
      let words := (size + bo + 7) / 8
      if 32 < size then .ok []
      else if 4 < words then .error .fault
      else if words = 0 then .ok [.no]
      else
        match classifyFields es bo (List.replicate words .no) with
        | .error e => .error e
        | .ok none => .ok []
        | .ok (some cls) => .ok (finish cls)
    | .complex =>
      match es with
      | .mk _ _ tc' _ :: _ =>
        match tc' with
        | .int | .uint8 | .sint8 | .uint16 | .sint16 | .uint32 | .sint32 | .uint64 | .sint64 =>
          .ok (doInteger size bo)
        | .float => .ok (if bo % 8 ≠ 0 then [.sse, .ssesf] else [.sse])
        | .double => .ok [.ssedf, .ssedf]
        | .longdouble => .ok [.complexX87]
        | _ => .error .abort
      | [] => .error .fault
    | .int => .error .abort
/-- The member loop of `classify_argument`, src/x86/ffi64.c:244-262; `none` =
`return 0`. -/
def classifyFields : List FType → Nat → List Cls → Except Abn (Option (List Cls))
  | [], _, cls => .ok (some cls)
  | e :: es, bo, cls =>
    let bo := ffiAlign bo e.align
    match classify e (bo % 8) with
    | .error x => .error x
    | .ok sub =>
      if sub = [] then .ok none
      else classifyFields es (bo + e.size) (mergeAt (bo / 8) sub cls)
end

/-- Result of `examine_argument`: 0 (memory), or x87 in a return value, or the
classes with the numbers of general and SSE registers. -/
inductive Exam
  | mem
  | x87 (cls : List Cls)
  | regs (cls : List Cls) (ngpr nsse : Nat)
  deriving DecidableEq, Repr

/-- The counting loop of `examine_argument`, src/x86/ffi64.c:363-385. -/
def countLoop : List Cls → Nat → Nat → Except Abn (Option (Nat × Nat))
  | [], g, s => .ok (some (g, s))
  | c :: cs, g, s =>
    match c with
    | .integer | .integersi => countLoop cs (g + 1) s
    | .sse | .ssesf | .ssedf => countLoop cs g (s + 1)
    | .no | .sseup => countLoop cs g s
    | .x87 | .x87up | .complexX87 => .ok none
    | .memory => .error .abort

/-- `examine_argument`, src/x86/ffi64.c:351-391. -/
def examine (t : FType) (inReturn : Bool) : Except Abn Exam :=
  match classify t 0 with
  | .error e => .error e
  | .ok cls =>
    if cls = [] then .ok .mem
    else
      match countLoop cls 0 0 with
      | .error e => .error e
      | .ok none => .ok (if inReturn then .x87 cls else .mem)
      | .ok (some (g, s)) => .ok (.regs cls g s)

/-- The test `n == 0 || gprcount + ngpr > MAX_GPR_REGS || ssecount + nsse > MAX_SSE_REGS`
that occurs in `ffi_prep_cif_machdep` (src/x86/ffi64.c:533-535), `ffi_call_int`
(609-611) and `ffi_closure_unix64_inner` (850-852): `none` = pass in memory. -/
def inRegs (ex : Exam) (g s : Nat) : Option (List Cls × Nat × Nat) :=
  match ex with
  | .regs cls ng ns => if 6 < g + ng ∨ 8 < s + ns then none else some (cls, ng, ns)
  | _ => none

/-! ## Preparation -/

/-- `UNIX64_RET_*`, src/x86/internal64.h. -/
inductive Ret
  | void | uint8 | uint16 | uint32 | sint8 | sint16 | sint32 | int64
  | xmm32 | xmm64 | x87 | x87_2 | stXmm0Rax | stRaxXmm0 | stXmm0Xmm1 | stRaxRdx
  deriving DecidableEq, Repr, Inhabited

/-- The fields of `cif->flags`: return code (low byte), `UNIX64_FLAG_RET_IN_MEM`
(bit 10), `UNIX64_FLAG_XMM_ARGS` (bit 11), size (from bit `UNIX64_SIZE_SHIFT`=12).
`Verif/X64/RetLemmas.lean` proves that the packed word separates them. -/
structure Flags where
  ret : Ret
  inMem : Bool
  xmm : Bool
  size : Nat
  deriving DecidableEq, Repr

def Flags.ofRet (r : Ret) : Flags := ⟨r, false, false, 0⟩

/-- Return part of `ffi_prep_cif_machdep`, src/x86/ffi64.c:418-526; `none` =
`FFI_BAD_TYPEDEF`.  The second component is the initial `gprcount`. -/
def retFlags (rt : FType) : Except Abn (Option (Flags × Nat)) :=
  match rt.tc with
  | .void => .ok (some (.ofRet .void, 0))
  | .uint8 => .ok (some (.ofRet .uint8, 0))
  | .sint8 => .ok (some (.ofRet .sint8, 0))
  | .uint16 => .ok (some (.ofRet .uint16, 0))
  | .sint16 => .ok (some (.ofRet .sint16, 0))
  | .uint32 => .ok (some (.ofRet .uint32, 0))
  | .int | .sint32 => .ok (some (.ofRet .sint32, 0))
  | .uint64 | .sint64 | .pointer => .ok (some (.ofRet .int64, 0))
  | .float => .ok (some (.ofRet .xmm32, 0))
  | .double => .ok (some (.ofRet .xmm64, 0))
  | .longdouble => .ok (some (.ofRet .x87, 0))
  | .struct =>
    match examine rt true with
    | .error e => .error e
    | .ok .mem => .ok (some (⟨.void, true, false, 0⟩, 1))
    | .ok ex =>
      let (n, cls) := match ex with
        | .mem => (0, [])
        | .x87 cls => (1, cls)
        | .regs cls _ _ => (cls.length, cls)
      let sse0 := (cls.getD 0 .no).isSse
      if rt.size = 4 ∧ sse0 then .ok (some (.ofRet .xmm32, 0))
      else if rt.size = 8 then .ok (some (.ofRet (if sse0 then .xmm64 else .int64), 0))
      else
        let sse1 := n = 2 ∧ (cls.getD 1 .no).isSse
        let r := if sse0 ∧ sse1 then Ret.stXmm0Xmm1 else if sse0 then .stXmm0Rax
          else if sse1 then .stRaxXmm0 else .stRaxRdx
        .ok (some (⟨r, false, false, rt.size⟩, 0))
  | .complex =>
    match rt.elems with
    | [] => .error .fault
    | e :: _ =>
      match e.tc with
      | .uint8 | .sint8 | .uint16 | .sint16 | .int | .uint32 | .sint32 | .uint64 | .sint64 =>
        .ok (some (⟨.stRaxRdx, false, false, rt.size⟩, 0))
      | .float => .ok (some (.ofRet .xmm64, 0))
      | .double => .ok (some (⟨.stXmm0Xmm1, false, false, 16⟩, 0))
      | .longdouble => .ok (some (.ofRet .x87_2, 0))
      | _ => .ok none

/-- `if (align < 8) align = 8`, src/x86/ffi64.c:539-540, 616-617, 857-858. -/
def stackAlign (t : FType) : Nat := if t.align < 8 then 8 else t.align

/-- The argument loop of `ffi_prep_cif_machdep`, src/x86/ffi64.c:528-552. -/
def prepLoop : List FType → Nat → Nat → Nat → Except Abn (Nat × Nat × Nat)
  | [], g, s, bytes => .ok (g, s, bytes)
  | t :: ts, g, s, bytes =>
    match examine t false with
    | .error e => .error e
    | .ok ex =>
      match inRegs ex g s with
      | none => prepLoop ts g s ((ffiAlign bytes (stackAlign t) + t.size) % 2 ^ 64)
      | some (_, ng, ns) => prepLoop ts (g + ng) (s + ns) bytes

/-- `ffi_prep_cif_machdep` for `FFI_UNIX64`, src/x86/ffi64.c:400-558; result:
flags and `bytes`, or `none` for `FFI_BAD_TYPEDEF`. -/
def prep (rt : FType) (ats : List FType) : Except Abn (Option (Flags × Nat)) :=
  match retFlags rt with
  | .error e => .error e
  | .ok none => .ok none
  | .ok (some (fl, g)) =>
    match prepLoop ats g 0 0 with
    | .error e => .error e
    | .ok (_, s, bytes) =>
      .ok (some ({ fl with xmm := decide (s ≠ 0) }, ffiAlign bytes 8 % 2 ^ 32))

/-! ## The call -/

/-- Reading `n` bytes at offset `o` of an argument object; the object consists of
exactly the given bytes. -/
def argRead (a : List Byte) (o n : Nat) : Except Abn (List Byte) :=
  if o + n ≤ a.length then .ok ((a.drop o).take n) else .error .fault

/-- Write to the block allocated by `alloca`. -/
def wr (m : Buf) (off : Nat) (bs : List Byte) : Except Abn Buf :=
  match m.write off bs with
  | some m => .ok m
  | none => .error .fault

/-- Assignment to `reg_args->gpr[i]` (struct register_args, src/x86/ffi64.c:63-70). -/
def wrGpr (m : Buf) (i : Nat) (bs : List Byte) : Except Abn Buf :=
  if i < 6 then wr m (8 * i) bs else .error .fault

/-- Copy to `reg_args->sse[i]`. -/
def wrSse (m : Buf) (i : Nat) (bs : List Byte) : Except Abn Buf :=
  if i < 8 then wr m (48 + 16 * i) bs else .error .fault

/-- Sign extension `(SINT64) *((SINTk *) a)` of a little-endian value. -/
def sext64 (bs : List Byte) : List Byte :=
  leBytes 8 (BitVec.signExtend 64 (BitVec.ofNat (8 * bs.length) (leNat bs))).toNat

/-- State of the argument loop of `ffi_call_int`; `argp` is the offset from
`stack`. -/
structure CallSt where
  mem : Buf
  g : Nat
  s : Nat
  argp : Nat

/-- What is stored in a general register for the eightbyte at offset `8*j`,
src/x86/ffi64.c:638-660; `size` has been decremented `j` times (as `size_t`). -/
def gprValue (t : FType) (a : List Byte) (j : Nat) : Except Abn (List Byte) :=
  match t.tc with
  | .sint8 => (argRead a (8 * j) 1).map sext64
  | .sint16 => (argRead a (8 * j) 2).map sext64
  | .sint32 => (argRead a (8 * j) 4).map sext64
  | _ =>
    let size := (2 ^ 64 + t.size - 8 * j) % 2 ^ 64
    let n := if size ≤ 8 then size else 8
    (argRead a (8 * j) n).map fun bs => bs ++ List.replicate (8 - n) 0

/-- The register-passing loop of `ffi_call_int`, src/x86/ffi64.c:630-671. -/
def copyRegs (t : FType) (a : List Byte) : List Cls → Nat → CallSt → Except Abn CallSt
  | [], _, st => .ok st
  | c :: cs, j, st =>
    match c with
    | .no | .sseup => copyRegs t a cs (j + 1) st
    | .integer | .integersi =>
      match gprValue t a j with
      | .error e => .error e
      | .ok bs =>
        match wrGpr st.mem st.g bs with
        | .error e => .error e
        | .ok m => copyRegs t a cs (j + 1) { st with mem := m, g := st.g + 1 }
    | .sse | .ssedf =>
      match argRead a (8 * j) 8 with
      | .error e => .error e
      | .ok bs =>
        match wrSse st.mem st.s bs with
        | .error e => .error e
        | .ok m => copyRegs t a cs (j + 1) { st with mem := m, s := st.s + 1 }
    | .ssesf =>
      match argRead a (8 * j) 4 with
      | .error e => .error e
      | .ok bs =>
        match wrSse st.mem st.s bs with
        | .error e => .error e
        | .ok m => copyRegs t a cs (j + 1) { st with mem := m, s := st.s + 1 }
    | _ => .error .abort

/-- The argument loop of `ffi_call_int`, src/x86/ffi64.c:604-673; `sp` is the
address of `stack`. -/
def callLoop (sp : Nat) : List FType → List (List Byte) → CallSt → Except Abn CallSt
  | [], _, st => .ok st
  | _ :: _, [], _ => .error .fault
  | t :: ts, a :: as, st =>
    match examine t false with
    | .error e => .error e
    | .ok ex =>
      match inRegs ex st.g st.s with
      | none =>
        let argp := ffiAlign (sp + st.argp) (stackAlign t) - sp
        match argRead a 0 t.size with
        | .error e => .error e
        | .ok bs =>
          match wr st.mem argp bs with
          | .error e => .error e
          | .ok m => callLoop sp ts as { st with mem := m, argp := argp + t.size }
      | some (cls, _, _) =>
        match copyRegs t a cls 0 st with
        | .error e => .error e
        | .ok st => callLoop sp ts as st

/-- Machine state on entry to the called function: argument registers (byte-wise,
little-endian), `%eax`, `%r10`, and the memory argument area starting at
8(%rsp). -/
structure Entry where
  gpr : Nat → Nat → Byte
  xmm : Nat → Nat → Byte
  eax : Nat
  r10 : Nat
  stk : Buf

/-- `ffi_call_unix64` up to the call, src/x86/unix64.S:62-104: save four words above
the argument area, load the registers (SSE only if `%eax` is not zero; otherwise
they keep their old contents), point `%rsp` at the argument area. -/
def enter (m : Buf) (bytes : Nat) (saved : List Byte) (oldXmm : Nat → Nat → Byte) :
    Except Abn Entry :=
  match wr m (192 + bytes) saved with
  | .error e => .error e
  | .ok m =>
    match m.read 176 4, m.read 184 8 with
    | some eax, some r10 =>
      if 192 + bytes ≤ m.size then
        .ok {
          gpr := fun i j => m.at_ (8 * i + j)
          xmm := fun i j => if leNat eax ≠ 0 then m.at_ (48 + 16 * i + j) else oldXmm i j
          eax := leNat eax
          r10 := leNat r10
          stk := ⟨bytes, fun i => m.at_ (192 + i)⟩ }
      else .error .fault
    | _, _ => .error .fault

/-- `ffi_call_int` up to the entry of the called function, src/x86/ffi64.c:563-678.
`mem0` is the (uninitialised) alloca block of size `sizeof (struct register_args)
+ cif->bytes + 4*8`, `sp` its address, `rvalue` the address of the result (after
the NULL case has been replaced by an alloca block), `closure` the static chain,
`saved` the four words `flags, raddr, rbp, return address`. -/
def callEntry (fl : Flags) (bytes : Nat) (ats : List FType) (avalue : List (List Byte))
    (rvalue closure sp : Nat) (mem0 : Buf) (saved : List Byte) (oldXmm : Nat → Nat → Byte) :
    Except Abn Entry :=
  match wr mem0 184 (leBytes 8 closure) with
  | .error e => .error e
  | .ok m =>
    match (if fl.inMem then wrGpr m 0 (leBytes 8 rvalue) else .ok m) with
    | .error e => .error e
    | .ok m =>
      match callLoop sp ats avalue ⟨m, if fl.inMem then 1 else 0, 0, 192⟩ with
      | .error e => .error e
      | .ok st =>
        match wr st.mem 176 (leBytes 8 st.s) with
        | .error e => .error e
        | .ok m => enter m bytes saved oldXmm

/-! ## Closures -/

/-- Closure entry, src/x86/unix64.S:252-303: spill the argument registers to the
216-byte frame (SSE registers only by the `_sse` variant). -/
def spill (E : Entry) (sse : Bool) (frame0 : Buf) : Buf :=
  { size := frame0.size
    at_ := fun k =>
      if k < 48 then E.gpr (k / 8) (k % 8)
      else if k < 176 ∧ sse then E.xmm ((k - 48) / 16) ((k - 48) % 16)
      else frame0.at_ k }

/-- Where an element of `avalue` points: into the frame, into the stack argument
area, or to a 16-byte `alloca` copy. -/
inductive CPtr
  | frame (off : Nat)
  | stk (off : Nat)
  | tmp (b : Buf)

/-- Reading `n` bytes through such a pointer. -/
def CPtr.deref (frame stk : Buf) (p : CPtr) (n : Nat) : Option (List Byte) :=
  match p with
  | .frame o => frame.read o n
  | .stk o => stk.read o n
  | .tmp b => b.read 0 n

/-- Copy loop src/x86/ffi64.c:889-895. -/
def gather (frame : Buf) : List Cls → Nat → Buf → Nat → Nat → Except Abn (Buf × Nat × Nat)
  | [], _, b, g, s => .ok (b, g, s)
  | c :: cs, j, b, g, s =>
    match (if c.isSse then frame.read (48 + 16 * s) 8 else frame.read (8 * g) 8) with
    | none => .error .fault
    | some bs =>
      match b.write (8 * j) bs with
      | none => .error .fault
      | some b => gather frame cs (j + 1) b (if c.isSse then g else g + 1) (if c.isSse then s + 1 else s)

/-- The argument loop of `ffi_closure_unix64_inner`, src/x86/ffi64.c:844-897; `sp` is
the address of the stack argument area, `argp` relative to it. -/
def closureLoop (sp : Nat) (frame tmp0 : Buf) : List FType → Nat → Nat → Nat → Except Abn (List CPtr)
  | [], _, _, _ => .ok []
  | t :: ts, g, s, argp =>
    match examine t false with
    | .error e => .error e
    | .ok ex =>
      match inRegs ex g s with
      | none =>
        let argp := ffiAlign (sp + argp) (stackAlign t) - sp
        (closureLoop sp frame tmp0 ts g s (argp + t.size)).map (CPtr.stk argp :: ·)
      | some (cls, _, _) =>
        let n := cls.length
        let sse0 := (cls.getD 0 .no).isSse
        let sse1 := (cls.getD 1 .no).isSse
        if n = 1 ∨ (n = 2 ∧ ¬(sse0 ∨ sse1)) then
          if sse0 then
            (closureLoop sp frame tmp0 ts g (s + n) argp).map (CPtr.frame (48 + 16 * s) :: ·)
          else
            (closureLoop sp frame tmp0 ts (g + n) s argp).map (CPtr.frame (8 * g) :: ·)
        else
          match gather frame cls 0 tmp0 g s with
          | .error e => .error e
          | .ok (b, g', s') => (closureLoop sp frame tmp0 ts g' s' argp).map (CPtr.tmp b :: ·)

/-- What the user function of a closure receives: the frame, the argument pointers,
where the result goes (`none`: the 32-byte buffer of the frame, `some a`: the address
passed by the caller) and the flags returned to the assembly. -/
structure ClosureView where
  frame : Buf
  avalue : List CPtr
  retPtr : Option Nat

/-- `ffi_closure_unix64(_sse)` and `ffi_closure_unix64_inner` up to the user function,
src/x86/ffi64.c:815-905.  `frame0` is the fresh 216-byte frame, `tmp0` fresh 16-byte
alloca blocks. -/
def closureEntry (fl : Flags) (ats : List FType) (E : Entry) (sp : Nat) (frame0 tmp0 : Buf) :
    Except Abn ClosureView :=
  let frame := spill E fl.xmm frame0
  match closureLoop sp frame tmp0 ats (if fl.inMem then 1 else 0) 0 0 with
  | .error e => .error e
  | .ok ps =>
    .ok { frame := frame, avalue := ps,
          retPtr := if fl.inMem then (frame.read 0 8).map leNat else none }

end Verif.X64
