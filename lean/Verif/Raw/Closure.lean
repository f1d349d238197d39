import Verif.Raw.Model

/-
Model of raw closures: ffi_prep_raw_closure_loc and ffi_translate_args of src/raw_api.c
(and the same code in src/java_raw_api.c), on virtual memory.  A closure may be mapped
at two virtual addresses (writable and executable), so virtual addresses are translated.
-/
namespace Verif.Raw
open Verif

/-- Physical memory and the address map of the process. -/
structure VM where
  phys : Mem
  tr : Nat → Nat

/-- Memory as seen by the program. -/
def VM.view (v : VM) : Mem := fun a => v.phys (v.tr a)

/-- Store through virtual addresses, byte by byte. -/
def VM.wr (v : VM) : Nat → List Byte → VM
  | _, [] => v
  | a, b :: bs => VM.wr { v with phys := fun p => if p = v.tr a then b else v.phys p } (a + 1) bs

/-- What the machine-dependent `ffi_prep_closure_loc` writes below the closure fields:
the trampoline bytes (dynamic trampolines, e.g. src/x86/ffi64.c:802-803), or nothing
in the closure (static trampolines, src/x86/ffi64.c:796: the parameters go to the
trampoline's own parameter block, modelled in `Verif.X64.TrampModel`). -/
inductive Kind
  | dynamic (code : List Byte)
  | static

/-- The bytes written to the trampoline area of the closure. -/
def Kind.put (k : Kind) (v : VM) (cl : Nat) : VM :=
  match k with
  | .dynamic code => v.wr cl code
  | .static => v

/-- `ffi_prep_raw_closure_loc`, src/raw_api.c:222-245, and
`ffi_prep_java_raw_closure_loc`, src/java_raw_api.c:336-358; `ts` is `FFI_TRAMPOLINE_SIZE`,
`k` is `sizeof (void*)`, `translate` the address of `ffi_translate_args`.  Field
offsets: include/ffi.h.in:372-400.  The stores of `ffi_prep_closure_loc` to `cif`,
`fun`, `user_data` (src/x86/ffi64.c:808-810) land on `cif`, `translate_args`,
`this_closure`.  Only the `FFI_OK` path. -/
def prepRaw (c : Cfg) (ts translate : Nat) (kind : Kind) (v : VM) (cl cif fn ud codeloc : Nat) : VM :=
  let v := kind.put v cl
  let v := v.wr (cl + ts) (enc c.be c.ptr cif)
  let v := v.wr (cl + ts + c.ptr) (enc c.be c.ptr translate)
  let v := v.wr (cl + ts + 2 * c.ptr) (enc c.be c.ptr codeloc)
  let v := v.wr (cl + ts + 3 * c.ptr) (enc c.be c.ptr fn)
  v.wr (cl + ts + 4 * c.ptr) (enc c.be c.ptr ud)

/-- Read a pointer field. -/
def field (c : Cfg) (m : Mem) (a : Nat) : Nat := dec c.be (m.rd a c.ptr)

/-- What the user's handler is called with. -/
structure HandlerCall where
  fn : Nat
  cif : Nat
  raw : Nat
  ud : Nat
  mem : Mem

/-- Which of the two raw APIs: they differ in the conversion only. -/
inductive Api
  | raw
  | java

def Api.conv (c : Cfg) : Api → List FType → List Nat → Nat → Mem → Except Abn (Mem × Nat)
  | .raw => ptrarrayToRaw c
  | .java => javaToRaw c

/-- `ffi_translate_args`, src/raw_api.c:211-220, and `ffi_java_translate_args`,
src/java_raw_api.c:324-334 (up to the call of the handler); `raw` is the `alloca` block (stack
memory, mapped once, hence plain memory). -/
def translateArgs (api : Api) (c : Cfg) (ts : Nat) (tys : List FType) (avalue : List Nat) (m : Mem)
    (cif ud raw : Nat) : Except Abn HandlerCall :=
  match api.conv c tys avalue raw m with
  | .error e => .error e
  | .ok (m', _) =>
    .ok { fn := field c m' (ud + ts + 3 * c.ptr), cif := cif, raw := raw,
          ud := field c m' (ud + ts + 4 * c.ptr), mem := m' }

/-- Entering a closure whose entry code found the closure object at `cl` (the value of
`%r10` in src/x86/unix64.S:285-303): the handler stored in the object is called with the
stored `cif` and `user_data`.  `none` if that handler is not `ffi_translate_args`. -/
def enter (api : Api) (c : Cfg) (ts translate : Nat) (tys : List FType) (avalue : List Nat) (m : Mem)
    (cl raw : Nat) : Option (Except Abn HandlerCall) :=
  if field c m (cl + ts + c.ptr) = translate then
    some (translateArgs api c ts tys avalue m (field c m (cl + ts)) (field c m (cl + ts + 2 * c.ptr)) raw)
  else none

end Verif.Raw
