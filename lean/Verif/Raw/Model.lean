import Verif.Base.Mem
import Verif.Base.FType

/-
Model of src/raw_api.c and src/java_raw_api.c.  Memory is flat; the configuration
(byte order and widths) is a parameter.
-/
namespace Verif.Raw
open Verif

/-- Target configuration: byte order, `sizeof (void*)`, `FFI_SIZEOF_ARG`,
`FFI_SIZEOF_JAVA_RAW` (include/ffi.h.in:253-285 and the `ffitarget.h` files).
`sizeof (ffi_raw)` is `FFI_SIZEOF_ARG` and `sizeof (ffi_java_raw)` is
`FFI_SIZEOF_JAVA_RAW`, see the unions at include/ffi.h.in:265-285. -/
structure Cfg where
  be : Bool
  ptr : Nat
  arg : Nat
  jraw : Nat
  deriving DecidableEq, Repr

/-- Object representation of an `n`-byte integer. -/
def enc (be : Bool) (n v : Nat) : List Byte := if be then (leBytes n v).reverse else leBytes n v

/-- Value of an object representation. -/
def dec (be : Bool) (bs : List Byte) : Nat := if be then leNat bs.reverse else leNat bs

/-- Conversion of an `n`-byte signed integer to a `w`-byte integer. -/
def sext (n w v : Nat) : Nat := (BitVec.signExtend (8 * w) (BitVec.ofNat (8 * n) v)).toNat

/-- `(raw++)->uint = *(UINTn*) a`: value of an `n`-byte unsigned object stored in a
`w`-byte union member. -/
def storeU (c : Cfg) (m : Mem) (w n a : Nat) : List Byte := enc c.be w (dec c.be (m.rd a n))

/-- `(raw++)->sint = *(SINTn*) a`. -/
def storeS (c : Cfg) (m : Mem) (w n a : Nat) : List Byte := enc c.be w (sext n w (dec c.be (m.rd a n)))

/-! ## Loops shared by both files -/

/-- Loop over the arguments writing to the raw area: `f` gives the bytes written at the
cursor and how far the cursor moves. -/
def toRawLoop (f : Mem → FType → Nat → Except Abn (List Byte × Nat)) :
    List FType → List Nat → Nat → Mem → Except Abn (Mem × Nat)
  | t :: ts, a :: as, r, m =>
    match f m t a with
    | .error e => .error e
    | .ok (bs, n) => toRawLoop f ts as (r + n) (m.wr r bs)
  | _, _, r, m => .ok (m, r)

/-- Loop over the arguments computing pointers from the raw area. -/
def toPtrLoop (g : Mem → FType → Nat → Except Abn (Nat × Nat)) :
    List FType → Nat → Mem → Except Abn (List Nat × Nat)
  | t :: ts, r, m =>
    match g m t r with
    | .error e => .error e
    | .ok (p, n) =>
      match toPtrLoop g ts (r + n) m with
      | .error e => .error e
      | .ok (ps, r') => .ok (p :: ps, r')
  | [], r, _ => .ok ([], r)

/-! ## src/raw_api.c -/

/-- `ffi_raw_size`, src/raw_api.c:34-53.  `FFI_ALIGN` is taken on 64-bit words; for
sizes below 2^31 the 32-bit macro gives the same. -/
def rawSize (c : Cfg) : List FType → Nat
  | [] => 0
  | t :: ts => (if t.tc = .struct then ffiAlign c.ptr c.arg else ffiAlign t.size c.arg) + rawSize c ts

/-- One iteration of `ffi_ptrarray_to_raw`, src/raw_api.c:143-191. -/
def rawPut (c : Cfg) (m : Mem) (t : FType) (a : Nat) : Except Abn (List Byte × Nat) :=
  match t.tc with
  | .uint8 => .ok (storeU c m c.arg 1 a, c.arg)
  | .sint8 => .ok (storeS c m c.arg 1 a, c.arg)
  | .uint16 => .ok (storeU c m c.arg 2 a, c.arg)
  | .sint16 => .ok (storeS c m c.arg 2 a, c.arg)
  | .uint32 => .ok (storeU c m c.arg 4 a, c.arg)
  | .sint32 => .ok (storeS c m c.arg 4 a, c.arg)
  | .struct | .complex => .ok (enc c.be c.ptr a, c.arg)
  | .pointer => .ok (m.rd a c.ptr, c.arg)
  | _ => .ok (m.rd a t.size, ffiAlign t.size c.arg / c.arg * c.arg)

/-- `ffi_ptrarray_to_raw`, src/raw_api.c:137-192. -/
def ptrarrayToRaw (c : Cfg) : List FType → List Nat → Nat → Mem → Except Abn (Mem × Nat) :=
  toRawLoop (rawPut c)

/-- One iteration of `ffi_raw_to_ptrarray`: big-endian, src/raw_api.c:64-103;
little-endian, src/raw_api.c:110-128 (note `sizeof (void*)` there). -/
def rawGet (c : Cfg) (m : Mem) (t : FType) (r : Nat) : Except Abn (Nat × Nat) :=
  if c.be then
    match t.tc with
    | .uint8 | .sint8 => .ok (r + c.arg - 1, c.arg)
    | .uint16 | .sint16 => .ok (r + c.arg - 2, c.arg)
    | .uint32 | .sint32 => .ok (r + c.arg - 4, c.arg)
    | .struct | .complex => .ok (dec c.be (m.rd r c.ptr), c.arg)
    | .pointer => .ok (r, c.arg)
    | _ => .ok (r, ffiAlign t.size c.arg / c.arg * c.arg)
  else
    match t.tc with
    | .struct | .complex => .ok (dec c.be (m.rd r c.ptr), c.arg)
    | _ => .ok (r, ffiAlign t.size c.ptr / c.ptr * c.arg)

/-- `ffi_raw_to_ptrarray`, src/raw_api.c:56-135. -/
def rawToPtrarray (c : Cfg) : List FType → Nat → Mem → Except Abn (List Nat × Nat) :=
  toPtrLoop (rawGet c)

/-! ## src/java_raw_api.c -/

/-- `ffi_java_raw_size`, src/java_raw_api.c:44-72, with `abort ()`. -/
def javaSize (c : Cfg) : List FType → Except Abn Nat
  | [] => .ok 0
  | t :: ts =>
    match (match t.tc with
      | .uint64 | .sint64 | .double => Except.ok (2 * c.jraw)
      | .struct | .complex => .error .abort
      | _ => .ok c.jraw : Except Abn Nat) with
    | .error e => .error e
    | .ok n => (javaSize c ts).map (n + ·)

/-- One iteration of `ffi_java_ptrarray_to_raw`, src/java_raw_api.c:162-240.  The
`FFI_ASSERT (0)` of 64-bit slots (line 233) is an `abort`. -/
def javaPut (c : Cfg) (m : Mem) (t : FType) (a : Nat) : Except Abn (List Byte × Nat) :=
  -- big-endian targets store a 32-bit word, little-endian ones the `uint`/`sint` member
  let w := if c.be then 4 else c.jraw
  match t.tc with
  | .uint8 => .ok (storeU c m w 1 a, c.jraw)
  | .sint8 => .ok (storeS c m w 1 a, c.jraw)
  | .uint16 => .ok (storeU c m w 2 a, c.jraw)
  | .sint16 => .ok (storeS c m w 2 a, c.jraw)
  | .uint32 => .ok (storeU c m w 4 a, c.jraw)
  | .sint32 => .ok (storeS c m w 4 a, c.jraw)
  | .float => .ok (m.rd a 4, c.jraw)
  | .pointer => .ok (m.rd a c.ptr, c.jraw)
  | .uint64 | .sint64 | .double =>
    if c.jraw = 8 then .ok (storeU c m c.jraw 8 a, 2 * c.jraw)
    else .ok (m.rd a t.size, ffiAlign t.size c.jraw / c.jraw * c.jraw)
  | _ =>
    if c.jraw = 8 then .error .abort
    else .ok (m.rd a t.size, ffiAlign t.size c.jraw / c.jraw * c.jraw)

/-- `ffi_java_ptrarray_to_raw`, src/java_raw_api.c:156-241. -/
def javaToRaw (c : Cfg) : List FType → List Nat → Nat → Mem → Except Abn (Mem × Nat) :=
  toRawLoop (javaPut c)

/-- One iteration of `ffi_java_raw_to_ptrarray`, src/java_raw_api.c:83-147. -/
def javaGet (c : Cfg) (_m : Mem) (t : FType) (r : Nat) : Except Abn (Nat × Nat) :=
  if c.be then
    match t.tc with
    | .uint8 | .sint8 => .ok (r + 3, c.jraw)
    | .uint16 | .sint16 => .ok (r + 2, c.jraw)
    | .pointer => .ok (r, c.jraw)
    | .complex => .error .abort
    | .uint64 | .sint64 | .double =>
      if c.jraw = 8 then .ok (r, 2 * c.jraw)
      else .ok (r, ffiAlign t.size c.jraw / c.jraw * c.jraw)
    | _ => .ok (r, ffiAlign t.size c.jraw / c.jraw * c.jraw)
  else if c.jraw = 8 then
    match t.tc with
    | .uint64 | .sint64 | .double => .ok (r, 2 * c.jraw)
    | .complex => .error .abort
    | _ => .ok (r, c.jraw)
  else .ok (r, ffiAlign t.size c.jraw / c.jraw * c.jraw)

/-- `ffi_java_raw_to_ptrarray`, src/java_raw_api.c:75-154. -/
def javaToPtrarray (c : Cfg) : List FType → Nat → Mem → Except Abn (List Nat × Nat) :=
  toPtrLoop (javaGet c)

/-- `ffi_java_rvalue_to_raw`, src/java_raw_api.c:245-275, on the value of the `ffi_arg`
result object. -/
def javaRvalueToRaw (c : Cfg) (tc : TC) (v : BitVec 64) : Except Abn (BitVec 64) :=
  if c.be ∧ c.arg = 8 then
    match tc with
    | .uint8 | .uint16 | .uint32 => .ok (v <<< 32)
    | .sint8 | .sint16 | .sint32 | .int => .ok (v <<< 32)
    | .pointer => if c.jraw = 4 then .ok (v <<< 32) else .ok v
    | .complex => .error .abort
    | _ => .ok v
  else .ok v

/-- `ffi_java_raw_to_rvalue`, src/java_raw_api.c:277-304; the signed shift is
arithmetic. -/
def javaRawToRvalue (c : Cfg) (tc : TC) (v : BitVec 64) : Except Abn (BitVec 64) :=
  if c.be ∧ c.arg = 8 then
    match tc with
    | .uint8 | .uint16 | .uint32 => .ok (v >>> 32)
    | .sint8 | .sint16 | .sint32 | .int => .ok (v.sshiftRight 32)
    | .complex => .error .abort
    | _ => .ok v
  else .ok v

end Verif.Raw
