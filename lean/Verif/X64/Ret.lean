import Verif.X64.Model

/-
Model of the return paths of src/x86/unix64.S and of the `flags` word.
-/
namespace Verif.X64
open Verif

/-- `UNIX64_RET_*` numbers, src/x86/internal64.h:1-16. -/
def Ret.code : Ret → Nat
  | .void => 0 | .uint8 => 1 | .uint16 => 2 | .uint32 => 3 | .sint8 => 4 | .sint16 => 5
  | .sint32 => 6 | .int64 => 7 | .xmm32 => 8 | .xmm64 => 9 | .x87 => 10 | .x87_2 => 11
  | .stXmm0Rax => 12 | .stRaxXmm0 => 13 | .stXmm0Xmm1 => 14 | .stRaxRdx => 15

/-- Entry number `n` of the two jump tables (src/x86/unix64.S:134-216, 325-399);
numbers above `UNIX64_RET_LAST` = 15 branch to `abort`. -/
def Ret.ofCode : Nat → Option Ret
  | 0 => some .void | 1 => some .uint8 | 2 => some .uint16 | 3 => some .uint32 | 4 => some .sint8
  | 5 => some .sint16 | 6 => some .sint32 | 7 => some .int64 | 8 => some .xmm32 | 9 => some .xmm64
  | 10 => some .x87 | 11 => some .x87_2 | 12 => some .stXmm0Rax | 13 => some .stRaxXmm0
  | 14 => some .stXmm0Xmm1 | 15 => some .stRaxRdx | _ => none

/-- The `flags` word assembled by `ffi_prep_cif_machdep` with `|` and `<<`
(src/x86/ffi64.c:420-554); 32-bit `unsigned`. -/
def Flags.pack (f : Flags) : Nat :=
  (f.ret.code ||| (if f.inMem then 1 <<< 10 else 0) ||| (if f.xmm then 1 <<< 11 else 0)
    ||| (f.size <<< 12)) % 2 ^ 32

/-- `movzbl %cl, %r10d` and the table lookup, src/x86/unix64.S:117-131. -/
def decodeRet (w : Nat) : Option Ret := Ret.ofCode (w &&& 255)
/-- `flags & UNIX64_FLAG_RET_IN_MEM`, src/x86/ffi64.c:581, 601, 833. -/
def decodeInMem (w : Nat) : Bool := w &&& (1 <<< 10) ≠ 0
/-- `cif->flags & UNIX64_FLAG_XMM_ARGS`, src/x86/ffi64.c:783. -/
def decodeXmm (w : Nat) : Bool := w &&& (1 <<< 11) ≠ 0
/-- `shrl $UNIX64_SIZE_SHIFT, %ecx`, src/x86/unix64.S:206, 212. -/
def decodeSize (w : Nat) : Nat := w >>> 12

/-- Registers that can carry a result.  `st0`, `st1`: the top two x87 registers in
their 10-byte memory format. -/
structure RetRegs where
  rax : Nat → Byte
  rdx : Nat → Byte
  xmm0 : Nat → Byte
  xmm1 : Nat → Byte
  st0 : Nat → Byte
  st1 : Nat → Byte

/-- The low `n` bytes of a register. -/
def low (r : Nat → Byte) (n : Nat) : List Byte := (List.range n).map r

/-- The structure cases of the store table, src/x86/unix64.S:189-214: build the
value in the scratch area at `-20(%rsp)`, i.e. offset 4 of the 32-byte frame (the
words flags, raddr, rbp have been reloaded, the return address is at offset 24),
then `rep movsb`. -/
def storeStruct (frame rv : Buf) (lo hi : Nat → Byte) (size : Nat) : Except Abn (Buf × Buf) :=
  match wr frame 12 (low hi 8) with
  | .error e => .error e
  | .ok frame =>
    match wr frame 4 (low lo 8) with
    | .error e => .error e
    | .ok frame =>
      match frame.read 4 size with
      | none => .error .fault
      | some bs => (wr rv 0 bs).map (·, frame)

/-- Store table of `ffi_call_unix64`, src/x86/unix64.S:134-214: effect on the result
object and on the local frame. -/
def storeRet (r : Ret) (size : Nat) (R : RetRegs) (frame rv : Buf) : Except Abn (Buf × Buf) :=
  match r with
  | .void => .ok (rv, frame)
  | .uint8 => (wr rv 0 (leBytes 8 (leNat (low R.rax 1)))).map (·, frame)
  | .uint16 => (wr rv 0 (leBytes 8 (leNat (low R.rax 2)))).map (·, frame)
  | .uint32 => (wr rv 0 (leBytes 8 (leNat (low R.rax 4)))).map (·, frame)
  | .sint8 => (wr rv 0 (sext64 (low R.rax 1))).map (·, frame)
  | .sint16 => (wr rv 0 (sext64 (low R.rax 2))).map (·, frame)
  | .sint32 => (wr rv 0 (sext64 (low R.rax 4))).map (·, frame)
  | .int64 => (wr rv 0 (low R.rax 8)).map (·, frame)
  | .xmm32 => (wr rv 0 (low R.xmm0 4)).map (·, frame)
  | .xmm64 => (wr rv 0 (low R.xmm0 8)).map (·, frame)
  | .x87 => (wr rv 0 (low R.st0 10)).map (·, frame)
  | .x87_2 =>
    match wr rv 0 (low R.st0 10) with
    | .error e => .error e
    | .ok rv => (wr rv 16 (low R.st1 10)).map (·, frame)
  | .stXmm0Rax => storeStruct frame rv R.xmm0 R.rax size
  | .stRaxXmm0 => storeStruct frame rv R.rax R.xmm0 size
  | .stXmm0Xmm1 => storeStruct frame rv R.xmm0 R.xmm1 size
  | .stRaxRdx => storeStruct frame rv R.rax R.rdx size

/-- The return path of `ffi_call`: flags as adjusted for `rvalue == NULL`
(src/x86/ffi64.c:576-585), then the store table.  With `rvalue == NULL` and a
result in registers nothing is stored (`rv` = `none`). -/
def callReturn (fl : Flags) (R : RetRegs) (frame : Buf) (rv : Option Buf) :
    Except Abn (Option Buf × Buf) :=
  match rv with
  | none =>
    match storeRet .void 0 R frame ⟨0, fun _ => 0⟩ with
    | .error e => .error e
    | .ok (_, frame) => .ok (none, frame)
  | some rv =>
    match decodeRet fl.pack with
    | none => .error .abort
    | some r =>
      match storeRet r (decodeSize fl.pack) R frame rv with
      | .error e => .error e
      | .ok (rv, frame) => .ok (some rv, frame)

/-- Replace the low bytes of a register. -/
def setLow (r : Nat → Byte) (bs : List Byte) : Nat → Byte := fun i => if i < bs.length then bs.getD i 0 else r i

/-- Load table of the closure return path, src/x86/unix64.S:325-399; `rv` is the
32-byte result area of the frame (now in the red zone), `R` the register contents
left by the user function.  32-bit moves clear the upper half of `%rax`; `movd`
and `movq` to an SSE register are only tracked in the low 8 bytes. -/
def loadRet (r : Ret) (R : RetRegs) (rv : Buf) : Except Abn RetRegs :=
  let rd (o n : Nat) (k : List Byte → RetRegs) : Except Abn RetRegs :=
    match rv.read o n with
    | none => .error .fault
    | some bs => .ok (k bs)
  let sext32 (bs : List Byte) : List Byte := (sext64 bs).take 4 ++ [0, 0, 0, 0]
  match r with
  | .void => .ok R
  | .uint8 => rd 0 1 fun bs => { R with rax := setLow R.rax (leBytes 8 (leNat bs)) }
  | .uint16 => rd 0 2 fun bs => { R with rax := setLow R.rax (leBytes 8 (leNat bs)) }
  | .uint32 => rd 0 4 fun bs => { R with rax := setLow R.rax (leBytes 8 (leNat bs)) }
  | .sint8 => rd 0 1 fun bs => { R with rax := setLow R.rax (sext32 bs) }
  | .sint16 => rd 0 2 fun bs => { R with rax := setLow R.rax (sext32 bs) }
  | .sint32 => rd 0 4 fun bs => { R with rax := setLow R.rax (leBytes 8 (leNat bs)) }
  | .int64 => rd 0 8 fun bs => { R with rax := setLow R.rax bs }
  | .xmm32 => rd 0 4 fun bs => { R with xmm0 := setLow R.xmm0 (bs ++ [0, 0, 0, 0]) }
  | .xmm64 => rd 0 8 fun bs => { R with xmm0 := setLow R.xmm0 bs }
  | .x87 => rd 0 10 fun bs => { R with st0 := setLow R.st0 bs }
  | .x87_2 =>
    match rv.read 16 10, rv.read 0 10 with
    | some b1, some b0 => .ok { R with st0 := setLow R.st0 b0, st1 := setLow R.st1 b1 }
    | _, _ => .error .fault
  | .stXmm0Rax =>
    match rv.read 8 8, rv.read 0 8 with
    | some b1, some b0 => .ok { R with rax := setLow R.rax b1, xmm0 := setLow R.xmm0 b0 }
    | _, _ => .error .fault
  | .stRaxXmm0 =>
    match rv.read 8 8, rv.read 0 8 with
    | some b1, some b0 => .ok { R with xmm0 := setLow R.xmm0 b1, rax := setLow R.rax b0 }
    | _, _ => .error .fault
  | .stXmm0Xmm1 =>
    match rv.read 8 8, rv.read 0 8 with
    | some b1, some b0 => .ok { R with xmm1 := setLow R.xmm1 b1, xmm0 := setLow R.xmm0 b0 }
    | _, _ => .error .fault
  | .stRaxRdx =>
    match rv.read 8 8, rv.read 0 8 with
    | some b1, some b0 => .ok { R with rdx := setLow R.rdx b1, rax := setLow R.rax b0 }
    | _, _ => .error .fault

/-- Return path of a closure: `ffi_closure_unix64_inner` returns `flags`, replaced by
`UNIX64_RET_INT64` when the result is in memory (src/x86/ffi64.c:833-841, 904), then
the load table.  `rv` is the result area after the handler ran; in the in-memory case
its first word holds the caller's pointer. -/
def closureReturn (fl : Flags) (R : RetRegs) (rv : Buf) : Except Abn RetRegs :=
  match (if decodeInMem fl.pack then some Ret.int64 else decodeRet fl.pack) with
  | none => .error .abort
  | some r => loadRet r R rv

/-- `rvalue` as used by `ffi_call_int`, src/x86/ffi64.c:578-585: a null pointer is
replaced by a fresh block when the result is returned in memory. -/
def callRvalue (fl : Flags) (rvalue : Option Nat) (fresh : Nat) : Nat :=
  match rvalue with
  | some a => a
  | none => if decodeInMem fl.pack then fresh else 0

/-- The result area of the closure frame when the user function starts,
src/x86/ffi64.c:833-841: in the in-memory case its first word is set to the pointer
found in the first general register. -/
def closureArea (V : ClosureView) (area0 : Buf) : Buf :=
  match V.retPtr with
  | none => area0
  | some a => { area0 with at_ := fun k => if k < 8 then (leBytes 8 a).getD k 0 else area0.at_ k }

/-- The copying loop at the start of `ffi_call`, src/x86/ffi64.c:692-704, as seen in
the caller's `avalue` array (a list of pointers): a struct larger than `maxReg` is
copied and the array element is overwritten with the address of the copy.
`fresh i` is the address `alloca` returns for argument `i`. -/
def copyLarge (maxReg : Nat) (fresh : Nat → Nat) : Nat → List FType → List Nat → List Nat
  | i, t :: ts, p :: ps =>
    (if t.tc = .struct ∧ maxReg < t.size then fresh i else p) :: copyLarge maxReg fresh (i + 1) ts ps
  | _, _, ps => ps

/-- Effect of `ffi_call` on the caller's `avalue` array for `FFI_UNIX64`: only the
loop above writes to it. -/
def callAvalue (fresh : Nat → Nat) (ats : List FType) (avalue : List Nat) : List Nat :=
  copyLarge 16 fresh 0 ats avalue

end Verif.X64
