import Verif.Spec.Ppc

/-
src/powerpc/ffi_linux64.c and src/powerpc/ffi.c for 64-bit ELF V2, little endian (`_CALL_ELF == 2`,
`__LITTLE_ENDIAN__`, POWERPC64, `__VEC__`, FFI_TYPE_LONGDOUBLE different from FFI_TYPE_DOUBLE), with the ABI values
that have FFI_LINUX and FFI_LINUX_STRUCT_ALIGN (the default of compilers): `LD` stands for the bits
FFI_LINUX_LONG_DOUBLE_128 and FFI_LINUX_LONG_DOUBLE_IEEE128.

Simplified: memory is total and flat (which bytes are touched is a theorem); addresses do not
wrap around; `intarg_count` does not wrap (it has 32 bits and counts doublewords; `cif->bytes` wraps earlier);
FFI_ASSERT does nothing; the conversions between `float` and `double` are those of `lfs` and `stfs` (compilers may
also use `frsp`, which makes signalling NaNs quiet).
-/
namespace Verif.Ppc
open Verif Verif.Spec Verif.Spec.Ppc

mutual
/-- `discover_homogeneous_aggregate`, src/powerpc/ffi_linux64.c:67-127: the element type, `*elnum`; `none` stands for 0. -/
def discover (ld : LD) : FType → Option (TC × Nat)
  | .mk _ _ tc es =>
    match tc with
    | .longdouble =>
      match ld with
      | .dbl => some (.double, 1)
      | .ibm => some (.longdouble, 2)
      | .ieee => some (.longdouble, 1)
    | .float => some (.float, 1)
    | .double => some (.double, 1)
    | .struct => discoverL ld es none 0
    | _ => none
/-- Its loop over the elements, src/powerpc/ffi_linux64.c:100-121. -/
def discoverL (ld : LD) : List FType → Option TC → Nat → Option (TC × Nat)
  | [], b, n => b.map fun k => (k, n)
  | e :: es, b, n =>
    match discover ld e with
    | none => none
    | some (k, m) => if b ≠ none ∧ b ≠ some k then none else if n + m > 8 then none else discoverL ld es (some k) (n + m)
end

/-- FLAG_*, src/powerpc/ffi_powerpc.h:31-52. -/
def flagSmst : Nat := 2 ^ 0
def flagNothing : Nat := 2 ^ 1
def flagFp : Nat := 2 ^ 2
def flagVec : Nat := 2 ^ 3
def flag64 : Nat := 2 ^ 4
def flag128 : Nat := 2 ^ 5
def flagPsave : Nat := 2 ^ 24
def flagFpArgs : Nat := 2 ^ 25
def flag4Gpr : Nat := 2 ^ 26
def flagRetRef : Nat := 2 ^ 27
def flagVecArgs : Nat := 2 ^ 28

/-- NUM_GPR_ARG_REGISTERS64 and so on, src/powerpc/ffi_linux64.c:38-44. -/
def numGpr : Nat := 8
def numFpr : Nat := 13
def numVec : Nat := 12
def asmRegs : Nat := 4

/-- The cases for numbers, src/powerpc/ffi_linux64.c:178-205; the code of FFI_TYPE_UINT128 is that of
complex numbers, which this target does not have. -/
def numFlags (ld : LD) : TC → Nat
  | .longdouble =>
    match ld with
    | .ieee => flagVec
    | .ibm => flag128 ||| flag64 ||| flagFp
    | .dbl => flag64 ||| flagFp
  | .double => flag64 ||| flagFp
  | .float => flagFp
  | .complex => flag128 ||| flag64
  | .uint64 | .sint64 | .pointer => flag64
  | _ => 0

/-- Return value handling, src/powerpc/ffi_linux64.c:173-232. -/
def retFlags (ld : LD) (rt : FType) : Nat :=
  match rt.tc with
  | .struct =>
    match discover ld rt with
    | some (elt, _) => flagSmst ||| numFlags ld elt
    | none => if rt.size ≤ 16 then flagSmst else flagRetRef ||| flagNothing
  | .void => flagNothing
  | tc => numFlags ld tc

/-- `fparg_count`, `intarg_count`, `vecarg_count`, and FLAG_ARG_NEEDS_PSAVE. -/
structure Cnt where
  fp : Nat
  int : Nat
  vec : Nat
  ps : Bool
  deriving DecidableEq, Repr

/-- Alignment of structs, src/powerpc/ffi_linux64.c:267-275. -/
def prepAlign (t : FType) (n : Nat) : Nat :=
  let al := (if t.align > 16 then 16 else t.align) / 8
  if al > 1 then roundUp n al else n

/-- `double` and `float`, src/powerpc/ffi_linux64.c:251-264. -/
def prepNum (k : Nat) (n : Cnt) : Cnt :=
  { n with fp := n.fp + k, int := n.int + k, ps := n.ps || decide (n.fp + k > numFpr) }

/-- A struct, src/powerpc/ffi_linux64.c:266-300. -/
def prepStruct (ld : LD) (t : FType) (n : Cnt) : Cnt :=
  let int := prepAlign t n.int + (t.size + 7) / 8
  match discover ld t with
  | some (elt, k) =>
    if elt = .longdouble ∧ ld = .ieee then { n with int := int, vec := n.vec + k, ps := n.ps || decide (n.vec + k > numVec) }
    else { n with int := int, fp := n.fp + k, ps := n.ps || decide (n.fp + k > numFpr) }
  | none => { n with int := int, ps := n.ps || decide (int > numGpr) }

/-- One round of the loop over the arguments, src/powerpc/ffi_linux64.c:234-321. -/
def prepArg (ld : LD) (t : FType) (n : Cnt) : Cnt :=
  match t.tc with
  | .longdouble =>
    match ld with
    | .ieee => { n with vec := n.vec + 1, int := (n.int + 3) / 2 * 2, ps := n.ps || decide (n.vec + 1 > numVec) }
    | .ibm => prepNum 2 n
    | .dbl => prepNum 1 n
  | .double | .float => prepNum 1 n
  | .struct => prepStruct ld t n
  | .void | .complex => n
  | _ => { n with int := n.int + 1, ps := n.ps || decide (n.int + 1 > numGpr) }

def prepLoop (ld : LD) : List FType → Cnt → Cnt
  | [], n => n
  | t :: ts, n => prepLoop ld ts (prepArg ld t n)

structure Cif where
  flags : Nat
  bytes : Nat
  nfixed : Nat
  deriving DecidableEq, Repr

/-- What the loop starts from: with variable arguments FLAG_ARG_NEEDS_PSAVE is set already
(src/powerpc/ffi_linux64.c:396-398), and a struct in memory takes a register (222). -/
def prepStart (ld : LD) (var : Bool) (rt : FType) : Cnt :=
  ⟨0, if retFlags ld rt &&& flagRetRef ≠ 0 then 1 else 0, 0, var⟩

def prepCnt (ld : LD) (var : Bool) (rt : FType) (ats : List FType) : Cnt := prepLoop ld ats (prepStart ld var rt)

/-- Bits are or-ed together one by one. -/
def bit (b : Bool) (f : Nat) : Nat := if b then f else 0

def prepFlags (ld : LD) (rt : FType) (n : Cnt) : Nat :=
  retFlags ld rt ||| bit n.ps flagPsave ||| bit (n.fp != 0) flagFpArgs ||| bit (decide (n.int > 4)) flag4Gpr ||| bit (n.vec != 0) flagVecArgs

/-- The size of the frame before it is stored in 32 bits, src/powerpc/ffi_linux64.c:158-163, 330-349. -/
def prepBytes (n : Cnt) : Nat :=
  let b := (4 + asmRegs) * 8 + numGpr * 8
  let b := if n.fp ≠ 0 then b + numFpr * 8 else b
  let b := if n.vec ≠ 0 then (b + 15) / 16 * 16 + numVec * 16 else b
  let b := if n.ps then b + n.int * 8 else b
  (b + 15) / 16 * 16

/-- `ffi_prep_cif_linux64` and `ffi_prep_cif_linux64_var`, src/powerpc/ffi_linux64.c:131-400, with `var` for the latter.
`cif->bytes` is an `unsigned`. -/
def prepCif (ld : LD) (var : Bool) (nfixed : Nat) (rt : FType) (ats : List FType) : Cif :=
  let n := prepCnt ld var rt ats
  ⟨prepFlags ld rt n, prepBytes n % 2 ^ 32, if var then nfixed else ats.length⟩

/-! ## Calls -/

/-- `stack`, `bytes`, and whether FLAG_FP_ARGUMENTS is set. -/
structure Fr where
  S : Nat
  B : Nat
  fp : Bool

/-- The pointers, src/powerpc/ffi_linux64.c:496-513. -/
def Fr.top (F : Fr) : Nat := F.S + F.B
def Fr.gprBase (F : Fr) : Nat := F.top - 8 * asmRegs - 8 * numGpr
def Fr.gprEnd (F : Fr) : Nat := F.gprBase + 8 * numGpr
def Fr.rest (F : Fr) : Nat := F.S + 8 * (4 + numGpr)
def Fr.fprBase (F : Fr) : Nat := F.gprBase - 8 * numFpr
def Fr.vecBase (F : Fr) : Nat := (if F.fp then F.fprBase / 16 * 16 else F.gprBase) - 16 * numVec

/-- `next_arg`, `fpr_base`, `fparg_count`, `vec_base`, `vecarg_count`. -/
structure St where
  na : Nat
  fb : Nat
  fc : Nat
  vb : Nat
  vc : Nat
  deriving DecidableEq, Repr

/-- From the end of the registers to the stack. -/
def Fr.bump (F : Fr) (a : Nat) : Nat := if a = F.gprEnd then F.rest else a

/-- Parts of numbers. -/
inductive K
  | f32 | f64 | f128
  deriving DecidableEq, Repr

def K.size : K → Nat
  | .f32 => 4
  | .f64 => 8
  | .f128 => 16

/-- A `double`, src/powerpc/ffi_linux64.c:563-592, 601-615, 715-726. -/
def put64 (F : Fr) (named : Bool) (a : Nat) (s : St) (m : Mem) : St × Mem :=
  let v := m.rd a 8
  let na := F.bump (s.na + 8)
  if s.fc < numFpr ∧ named then ({ s with na := na, fb := s.fb + 8, fc := s.fc + 1 }, m.wr s.fb v)
  else ({ s with na := na, fc := s.fc + 1 }, m.wr s.na v)

/-- A `float` in a struct, src/powerpc/ffi_linux64.c:697-709, or, with `d = 8`, by itself, 622-648. -/
def put32 (F : Fr) (named : Bool) (d a : Nat) (s : St) (m : Mem) : St × Mem :=
  let v := dblOf (leNat (m.rd a 4))
  let na := F.bump (s.na + d)
  if s.fc < numFpr ∧ named then ({ s with na := na, fb := s.fb + 8, fc := s.fc + 1 }, m.wr s.fb (leBytes 8 v))
  else ({ s with na := na, fc := s.fc + 1 }, m.wr s.na (leBytes 4 (sglOf v)))

/-- A binary128, src/powerpc/ffi_linux64.c:550-556, 680-691. -/
def put128 (F : Fr) (named : Bool) (a : Nat) (s : St) (m : Mem) : St × Mem :=
  let v := m.rd a 16
  let na := F.bump (s.na + 16)
  if s.vc < numVec ∧ named then ({ s with na := na, vb := s.vb + 16, vc := s.vc + 1 }, m.wr s.vb v)
  else ({ s with na := na, vc := s.vc + 1 }, m.wr s.na v)

def putPart (F : Fr) (named : Bool) : K → Nat → St → Mem → St × Mem
  | .f32 => put32 F named 4
  | .f64 => put64 F named
  | .f128 => put128 F named

/-- The loops over the elements of a homogeneous struct, src/powerpc/ffi_linux64.c:675-726. -/
def putParts (F : Fr) (named : Bool) (k : K) : Nat → Nat → St → Mem → St × Mem
  | 0, _, s, m => (s, m)
  | n + 1, a, s, m =>
    let (s, m) := putPart F named k a s m
    putParts F named k n (a + k.size) s m

/-- A struct that is not homogeneous, src/powerpc/ffi_linux64.c:734-759. -/
def putStruct (F : Fr) (sz a : Nat) (s : St) (m : Mem) : St × Mem :=
  let words := (sz + 7) / 8
  if s.na ≥ F.gprBase ∧ s.na + 8 * words > F.gprEnd then
    let first := F.gprEnd - s.na
    let m := m.wr s.na (m.rd a first)
    ({ s with na := F.rest + words * 8 - first }, m.wr F.rest (m.rd (a + first) (sz - first)))
  else ({ s with na := F.bump (s.na + 8 * words) }, m.wr s.na (m.rd a sz))

/-- An integer of `n` bytes at `a`, converted to `unsigned long`. -/
def getInt (sgn : Bool) (n : Nat) (m : Mem) (a : Nat) : Nat :=
  let v := leNat (m.rd a n)
  if sgn ∧ 2 ^ (8 * n - 1) ≤ v then v + 2 ^ 64 - 256 ^ n else v

/-- Signedness and size of the types that arrive at `putgpr`, src/powerpc/ffi_linux64.c:762-785. -/
def intType : TC → Option (Bool × Nat)
  | .uint8 => some (false, 1)
  | .sint8 => some (true, 1)
  | .uint16 => some (false, 2)
  | .sint16 => some (true, 2)
  | .uint32 => some (false, 4)
  | .int | .sint32 => some (true, 4)
  | .uint64 | .sint64 | .pointer => some (false, 8)
  | _ => none

/-- `putgpr`, src/powerpc/ffi_linux64.c:786-790. -/
def putGpr (F : Fr) (v : Nat) (s : St) (m : Mem) : St × Mem :=
  ({ s with na := F.bump (s.na + 8) }, m.wr s.na (leBytes 8 v))

/-- Alignment of structs, src/powerpc/ffi_linux64.c:652-663. -/
def alignStruct (F : Fr) (t : FType) (s : St) : St :=
  let al := if t.align > 16 then 16 else t.align
  if al > 1 then { s with na := F.bump (roundUp s.na al) } else s

/-- After the loop over `float`s, src/powerpc/ffi_linux64.c:710-712. -/
def padFloat (F : Fr) (s : St) : St := if s.na % 8 ≠ 0 then { s with na := F.bump (s.na + 4) } else s

/-- FFI_TYPE_STRUCT, src/powerpc/ffi_linux64.c:651-760. -/
def callStruct (F : Fr) (ld : LD) (named : Bool) (t : FType) (a : Nat) (s : St) (m : Mem) : St × Mem :=
  let s := alignStruct F t s
  match discover ld t with
  | some (elt, n) =>
    if elt = .longdouble ∧ ld = .ieee then putParts F named .f128 n a s m
    else if elt = .float then
      let r := putParts F named .f32 n a s m
      (padFloat F r.1, r.2)
    else putParts F named .f64 n a s m
  | none => putStruct F t.size a s m

/-- One round of the loop of `ffi_prep_args64`, src/powerpc/ffi_linux64.c:535-792; `a` is `*p_argv`; `named`
is `i < nfixedargs`. -/
def callArg (F : Fr) (ld : LD) (named : Bool) (t : FType) (a : Nat) (s : St) (m : Mem) : St × Mem :=
  match t.tc with
  | .longdouble =>
    match ld with
    | .ieee => put128 F named a { s with na := F.bump (roundUp s.na 16) } m
    | .ibm =>
      let r := put64 F named a s m
      put64 F named (a + 8) r.1 r.2
    | .dbl => put64 F named a s m
  | .double => put64 F named a s m
  | .float => put32 F named 8 a s m
  | .struct => callStruct F ld named t a s m
  | tc =>
    match intType tc with
    | some (sgn, n) => putGpr F (getInt sgn n m a) s m
    | none => (s, m)

/-- `k` arguments are still named. -/
def callLoop (F : Fr) (ld : LD) : Nat → List FType → List Nat → St → Mem → St × Mem
  | k, t :: ts, a :: as, s, m =>
    let r := callArg F ld (decide (0 < k)) t a s m
    callLoop F ld (k - 1) ts as r.1 r.2
  | _, _, _, s, m => (s, m)

def frOf (cif : Cif) (S : Nat) : Fr := ⟨S, cif.bytes, cif.flags &&& flagFpArgs ≠ 0⟩

/-- `ffi_prep_args64`, src/powerpc/ffi_linux64.c:439-797. -/
def prepArgs (ld : LD) (cif : Cif) (ats : List FType) (rvalue : Nat) (avalue : List Nat) (S : Nat) (m : Mem) : Mem :=
  let F := frOf cif S
  let s : St := ⟨F.gprBase, F.fprBase, 0, F.vecBase, 0⟩
  if cif.flags &&& flagRetRef ≠ 0 then
    (callLoop F ld cif.nfixed ats avalue { s with na := s.na + 8 } (m.wr s.na (leBytes 8 rvalue))).2
  else (callLoop F ld cif.nfixed ats avalue s m).2

/-- `ecif.rvalue`, src/powerpc/ffi.c:98-104: `buf` is the address of `smst_buffer`, `tmp` that of memory from `alloca`. -/
def callRv (cif : Cif) (rt : FType) (rvalue buf tmp : Nat) : Nat :=
  if cif.flags &&& flagSmst ≠ 0 then buf
  else if rvalue = 0 ∧ rt.tc = .struct then tmp
  else rvalue

/-- After the call, src/powerpc/ffi.c:113-134; `rv` is `ecif.rvalue`. -/
def callEnd (rt : FType) (rvalue buf rv : Nat) (m : Mem) : Mem :=
  if rvalue ≠ 0 ∧ rv = buf then m.wr rvalue (m.rd buf (rt.size % 2 ^ 32)) else m

/-! ## Closures -/

/-- `pst`, `pfr`, `pvec`. -/
structure Nx where
  pst : Nat
  pfr : Nat
  pvec : Nat
  deriving DecidableEq, Repr

/-- `end_pfr`, `end_pvec`. -/
structure Ends where
  f : Nat
  v : Nat

/-- The loops that put a homogeneous struct together, src/powerpc/ffi_linux64.c:988-1037. -/
def pack (E : Ends) (named : Bool) (k : K) : Nat → Nat → Nat → Nx → Mem → Nx × Mem
  | 0, _, _, s, m => (s, m)
  | n + 1, dst, fr, s, m =>
    match k with
    | .f128 =>
      if s.pvec < E.v ∧ named then pack E named k n (dst + 16) (fr + 16) { s with pvec := s.pvec + 16 } (m.wr dst (m.rd s.pvec 16))
      else pack E named k n (dst + 16) (fr + 16) s (m.wr dst (m.rd fr 16))
    | .f32 =>
      if s.pfr < E.f ∧ named then
        pack E named k n (dst + 4) (fr + 4) { s with pfr := s.pfr + 8 } (m.wr dst (leBytes 4 (sglOf (leNat (m.rd s.pfr 8)))))
      else pack E named k n (dst + 4) (fr + 4) s (m.wr dst (m.rd fr 4))
    | .f64 =>
      if s.pfr < E.f ∧ named then pack E named k n (dst + 8) (fr + 8) { s with pfr := s.pfr + 8 } (m.wr dst (m.rd s.pfr 8))
      else pack E named k n (dst + 8) (fr + 8) s (m.wr dst (m.rd fr 8))

/-- FFI_TYPE_STRUCT, src/powerpc/ffi_linux64.c:945-1057. -/
def closureStruct (E : Ends) (ld : LD) (named : Bool) (t : FType) (s : Nx) (m : Mem) : Nat × Nx × Mem :=
  let al := if t.align > 16 then 16 else t.align
  let s := if al > 1 then { s with pst := roundUp s.pst al } else s
  let w := 8 * ((t.size + 7) / 8)
  match discover ld t with
  | some (elt, n) =>
    let k : K := if elt = .longdouble ∧ ld = .ieee then .f128 else if elt = .float then .f32 else .f64
    let dst :=
      if k = .f128 then (if s.pvec + 16 * n ≤ E.v then s.pvec else s.pst)
      else if s.pfr + 8 * n ≤ E.f then s.pfr else s.pst
    let r := pack E named k n dst s.pst s m
    (dst, { r.1 with pst := s.pst + w }, r.2)
  | none => (s.pst, { s with pst := s.pst + w }, m)

/-- One round of the loop of `ffi_closure_helper_LINUX64`, src/powerpc/ffi_linux64.c:908-1139: `avalue[i]`.
`named` is `i < nfixedargs`, `next` is `i + 1 < nfixedargs`. -/
def closureArg (E : Ends) (ld : LD) (named next : Bool) (t : FType) (s : Nx) (m : Mem) : Nat × Nx × Mem :=
  let dbl : Nat × Nx × Mem :=
    if s.pfr < E.f ∧ named then (s.pfr, { s with pfr := s.pfr + 8, pst := s.pst + 8 }, m) else (s.pst, { s with pst := s.pst + 8 }, m)
  match t.tc with
  | .longdouble =>
    match ld with
    | .ieee =>
      let pst := if s.pst % 16 ≠ 0 then s.pst + 8 else s.pst
      if s.pvec < E.v ∧ named then (s.pvec, { s with pvec := s.pvec + 16, pst := pst + 16 }, m)
      else (pst, { s with pst := pst + 16 }, m)
    | .ibm =>
      if s.pfr + 8 < E.f ∧ next then (s.pfr, { s with pfr := s.pfr + 16, pst := s.pst + 16 }, m)
      else if s.pfr < E.f ∧ named then (s.pst, { s with pfr := s.pfr + 8, pst := s.pst + 16 }, m.wr s.pst (m.rd s.pfr 8))
      else (s.pst, { s with pst := s.pst + 16 }, m)
    | .dbl => dbl
  | .double => dbl
  | .float =>
    if s.pfr < E.f ∧ named then
      (s.pfr, { s with pfr := s.pfr + 8, pst := s.pst + 8 }, m.wr s.pfr (leBytes 4 (sglOf (leNat (m.rd s.pfr 8)))))
    else (s.pst, { s with pst := s.pst + 8 }, m)
  | .struct => closureStruct E ld named t s m
  | .int | .void | .complex => (0, s, m)
  | _ => (s.pst, { s with pst := s.pst + 8 }, m)

def closureLoop (E : Ends) (ld : LD) : Nat → List FType → Nx → Mem → List Nat × Mem
  | _, [], _, m => ([], m)
  | k, t :: ts, s, m =>
    let r := closureArg E ld (decide (0 < k)) (decide (1 < k)) t s m
    let q := closureLoop E ld (k - 1) ts r.2.1 r.2.2
    (r.1 :: q.1, q.2)

/-- What the handler gets: `rvalue`, `avalue`, and memory, src/powerpc/ffi_linux64.c:866-1141; `pst`, `pfr`, `pvec`
and `rvalue` are the arguments of `ffi_closure_helper_LINUX64`. -/
def closureView (ld : LD) (cif : Cif) (rt : FType) (ats : List FType) (rvalue pst pfr pvec : Nat) (m : Mem) : Nat × List Nat × Mem :=
  let E : Ends := ⟨pfr + 8 * numFpr, pvec + 16 * numVec⟩
  if rt.tc = .struct ∧ cif.flags &&& flagSmst = 0 then (leNat (m.rd pst 8), closureLoop E ld cif.nfixed ats ⟨pst + 8, pfr, pvec⟩ m)
  else (rvalue, closureLoop E ld cif.nfixed ats ⟨pst, pfr, pvec⟩ m)

/-- FFI_TYPE_*, include/ffi.h.in:60-79. -/
def tcCode : TC → Nat
  | .void => 0 | .int => 1 | .float => 2 | .double => 3 | .longdouble => 4
  | .uint8 => 5 | .sint8 => 6 | .uint16 => 7 | .sint16 => 8 | .uint32 => 9 | .sint32 => 10
  | .uint64 => 11 | .sint64 => 12 | .struct => 13 | .pointer => 14 | .complex => 15

/-- FFI_V2_TYPE_*, src/powerpc/ffitarget.h:174-178. -/
def v2Vector : Nat := 15
def v2VectorHomog : Nat := 16
def v2FloatHomog : Nat := 17
def v2DoubleHomog : Nat := 18
def v2SmallStruct : Nat := 19

/-- What the helper returns, src/powerpc/ffi_linux64.c:1143-1157. -/
def closureCode (cif : Cif) (rt : FType) : Nat :=
  if cif.flags &&& flagSmst ≠ 0 then
    if cif.flags &&& (flagFp ||| flagVec) = 0 then v2SmallStruct + rt.size - 1
    else if cif.flags &&& flagVec ≠ 0 then v2VectorHomog
    else if cif.flags &&& flag64 ≠ 0 then v2DoubleHomog
    else v2FloatHomog
  else if cif.flags &&& flagVec ≠ 0 then v2Vector
  else tcCode rt.tc

end Verif.Ppc
