import Verif.Base.BufLemmas

/-
A small x86-64 machine, enough to execute the trampolines of libffi: the dynamic
one written by `ffi_prep_closure_loc` (src/x86/ffi64.c:763-772) and the static
ones of src/x86/unix64.S:522-547.  Instruction encodings follow the Intel SDM.
-/
namespace Verif.X64
open Verif

/-- Memory is byte addressed; addresses are 64-bit values. -/
structure MState where
  rip : Nat
  r10 : Nat
  rsp : Nat
  mem : Nat → Byte

/-- Address arithmetic is modulo 2^64. -/
def w64 (n : Nat) : Nat := n % 2 ^ 64

/-- `n` bytes at address `a`. -/
def MState.bytes (m : Nat → Byte) (a n : Nat) : List Byte := (List.range n).map fun i => m (w64 (a + i))

/-- 64-bit load. -/
def load64 (m : Nat → Byte) (a : Nat) : Nat := leNat (MState.bytes m a 8)

/-- 64-bit store. -/
def store64 (m : Nat → Byte) (a v : Nat) : Nat → Byte := fun x =>
  if w64 (x + 2 ^ 64 - w64 a) < 8 then (leBytes 8 v).getD (w64 (x + 2 ^ 64 - w64 a)) 0 else m x

/-- A sign-extended 32-bit displacement as a 64-bit value. -/
def disp32 (bs : List Byte) : Nat :=
  let v := leNat bs
  if v < 2 ^ 31 then v else v + 2 ^ 64 - 2 ^ 32

/-- One instruction.  `none`: an instruction outside the modelled subset. -/
def step (s : MState) : Option MState :=
  match MState.bytes s.mem s.rip 7 with
  | [b0, b1, b2, b3, b4, b5, b6] =>
    let d3 := disp32 [b3, b4, b5, b6]
    let d2 := disp32 [b2, b3, b4, b5]
    if b0 = 0xf3 ∧ b1 = 0x0f ∧ b2 = 0x1e ∧ b3 = 0xfa then          -- endbr64
      some { s with rip := w64 (s.rip + 4) }
    else if b0 = 0x4c ∧ b1 = 0x8d ∧ b2 = 0x15 then                  -- lea d(%rip),%r10
      some { s with rip := w64 (s.rip + 7), r10 := w64 (s.rip + 7 + d3) }
    else if b0 = 0x4c ∧ b1 = 0x8b ∧ b2 = 0x15 then                  -- mov d(%rip),%r10
      some { s with rip := w64 (s.rip + 7), r10 := load64 s.mem (w64 (s.rip + 7 + d3)) }
    else if b0 = 0xff ∧ b1 = 0x25 then                              -- jmp *d(%rip)
      some { s with rip := load64 s.mem (w64 (s.rip + 6 + d2)) }
    else if b0 = 0x48 ∧ b1 = 0x83 ∧ b2 = 0xec ∧ b3.toNat < 128 then -- sub $b,%rsp
      some { s with rip := w64 (s.rip + 4), rsp := w64 (s.rsp + 2 ^ 64 - b3.toNat) }
    else if b0 = 0x4c ∧ b1 = 0x89 ∧ b2 = 0x14 ∧ b3 = 0x24 then      -- mov %r10,(%rsp)
      some { s with rip := w64 (s.rip + 4), mem := store64 s.mem s.rsp s.r10 }
    else if b0 = 0x4c ∧ b1 = 0x89 ∧ b2 = 0x54 ∧ b3 = 0x24 ∧ b4.toNat < 128 then -- mov %r10,b(%rsp)
      some { s with rip := w64 (s.rip + 5), mem := store64 s.mem (w64 (s.rsp + b4.toNat)) s.r10 }
    else if b0 = 0x41 ∧ b1 = 0xff ∧ b2 = 0xe2 then                  -- jmp *%r10
      some { s with rip := s.r10 }
    else none
  | _ => none

/-- Several instructions. -/
def steps : Nat → MState → Option MState
  | 0, s => some s
  | n + 1, s => (step s).bind (steps n)

/-- `trampoline[24]`, src/x86/ffi64.c:763-772. -/
def dynTramp : List Byte :=
  [0xf3, 0x0f, 0x1e, 0xfa,
   0x4c, 0x8d, 0x15, 0xf5, 0xff, 0xff, 0xff,
   0xff, 0x25, 0x07, 0x00, 0x00, 0x00,
   0x0f, 0x1f, 0x80, 0x00, 0x00, 0x00, 0x00]

/-- The closure object as initialised by `ffi_prep_closure_loc` in the dynamic case,
src/x86/ffi64.c:756-813, with the layout of `ffi_closure` (include/ffi.h.in:324-340):
trampoline, destination, cif, fun, user_data. -/
def closureImage (dest cif fn userData : Nat) : List Byte :=
  dynTramp ++ leBytes 8 dest ++ leBytes 8 cif ++ leBytes 8 fn ++ leBytes 8 userData

/-- Slot of the static trampoline table, src/x86/unix64.S:526-544, LP64, encoded.
`endbr`: built with CET (`_CET_ENDBR`, `ENDBR_PRESENT`); data and code
offsets are `X86_DATA_OFFSET`, `X86_CODE_OFFSET` (lines 506-520).  `.align 8` pads to
the slot size; the padding is not executed. -/
def staticTramp (endbr : Bool) : List Byte :=
  (if endbr then [0xf3, 0x0f, 0x1e, 0xfa] else []) ++
  [0x48, 0x83, 0xec, 0x10] ++                                   -- subq $16,%rsp
  [0x4c, 0x89, 0x14, 0x24] ++                                   -- movq %r10,(%rsp)
  [0x4c, 0x8b, 0x15] ++ leBytes 4 (if endbr then 4077 else 4081) ++ -- movq DATA(%rip),%r10
  [0x4c, 0x89, 0x54, 0x24, 0x08] ++                             -- movq %r10,8(%rsp)
  [0x4c, 0x8b, 0x15] ++ leBytes 4 (if endbr then 4073 else 4077) ++ -- movq CODE(%rip),%r10
  [0x41, 0xff, 0xe2]                                            -- jmp *%r10

/-- `UNIX64_TRAMP_SIZE`, src/x86/internal64.h:31-35. -/
def trampSize (endbr : Bool) : Nat := if endbr then 40 else 32

/-- `UNIX64_TRAMP_MAP_SIZE`, src/x86/internal64.h:29-30. -/
def trampMapSize : Nat := 4096

/-- Memory holds the bytes `bs` at address `a`. -/
def Holds (m : Nat → Byte) (a : Nat) (bs : List Byte) : Prop :=
  ∀ i, i < bs.length → m (w64 (a + i)) = bs.getD i 0

/-- `ffi_closure_unix64(_sse)_alt`, src/x86/unix64.S:459-481: load the closure from
8(%rsp) and drop the 16 bytes. -/
def altEntry (s : MState) : MState :=
  { s with r10 := load64 s.mem (w64 (s.rsp + 8)), rsp := w64 (s.rsp + 16) }

end Verif.X64
