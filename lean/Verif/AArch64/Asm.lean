import Verif.AArch64.Model

/-
Instructions of src/aarch64/sysv.S: `ffi_call_SYSV`, `ffi_closure_SYSV(_V)` and
`ffi_go_closure_SYSV(_V)` with the macros for pointer authentication of
src/aarch64/internal.h:82-146.  LP64, little endian.  Address arithmetic is not
wrapped: sums beyond 2^64 do not occur under the theorems' hypotheses.  Landing pads
(`BTI_C`, `BTI_J`) and the signing of function pointers on arm64e (`blraaz`) have no
effect here.
-/
namespace Verif.A64.Asm
open Verif Verif.A64

/-- Registers (31 is the stack pointer), vector registers and memory. -/
structure AState where
  x : Nat → Nat
  v : Nat → List Byte
  mem : Mem

def upd {α : Type} (x : Nat → α) (n : Nat) (v : α) : Nat → α := fun i => if i = n then v else x i

/-- Pointer authentication: `pac*` and `aut*` with a modifier; a pointer that fails
authentication makes the following return fault. -/
structure Pac where
  sign : Nat → Nat → Nat
  auth : Nat → Nat → Option Nat

inductive Ins
  | mov (d a : Nat)
  | addi (d a k : Nat)
  | andi (d a : Nat)           -- and wd, wa, #AARCH64_RET_MASK
  | addl (d a b : Nat)         -- add xd, xa, xb, lsl #4
  | adr (d : Nat)              -- adr xd, 0f
  | br (a : Nat)
  | tbz (a b n : Nat)          -- over the next n instructions
  | nop
  | brk
  | b99                        -- b 99f
  | stp (a b n k : Nat)        -- stp xa, xb, [xn, #k]
  | str (a n k : Nat)
  | ldp (a b n k : Nat)
  | ldr (z : Nat) (sg : Bool) (a n k : Nat)  -- ldr, ldrb, ldrsb, ...: z bytes
  | stpPre (a b k : Nat)       -- stp xa, xb, [sp, #-k]!
  | ldpPost (a b k : Nat)      -- ldp xa, xb, [sp], #k
  | stpv (z a b n k : Nat)     -- z bytes of each vector register
  | strv (z a n k : Nat)
  | stn (z c n : Nat)          -- st3, st4 {v0.s, ...}[0], [xn]
  | ldpv (z a b n k : Nat)
  | ldrv (z a n k : Nat)
  | ext (z : Nat) (sg : Bool) (d a : Nat)    -- uxtb, sxth, mov wd, wa, ...
  | pac (m : Nat)              -- pacia x30, xm
  | aut (m : Nat)
  deriving DecidableEq, Repr

def AState.set (s : AState) (d v : Nat) : AState := { s with x := upd s.x d v }

/-- Effect of an instruction: how many of the following instructions are left out
(`none`: to the label 99), and the new state; nothing if it faults.  `T` is the
address of the label 0. -/
def exec (P : Pac) (T : Nat) (i : Ins) (s : AState) : Option (Option Nat × AState) :=
  match i with
  | .mov d a => some (some 0, s.set d (s.x a))
  | .addi d a k => some (some 0, s.set d (s.x a + k))
  | .andi d a => some (some 0, s.set d (s.x a % 32))
  | .addl d a b => some (some 0, s.set d (s.x a + 16 * s.x b))
  | .adr d => some (some 0, s.set d T)
  | .br a => if T ≤ s.x a ∧ (s.x a - T) % 4 = 0 then some (some ((s.x a - T) / 4), s) else none
  | .tbz a b n => some (some (if (s.x a).testBit b then 0 else n), s)
  | .nop => some (some 0, s)
  | .brk => none
  | .b99 => some (none, s)
  | .stp a b n k => some (some 0, { s with mem := s.mem.wr (s.x n + k) (leBytes 8 (s.x a) ++ leBytes 8 (s.x b)) })
  | .str a n k => some (some 0, { s with mem := s.mem.wr (s.x n + k) (leBytes 8 (s.x a)) })
  | .ldp a b n k => some (some 0,
      { s with x := upd (upd s.x a (leNat (s.mem.rd (s.x n + k) 8))) b (leNat (s.mem.rd (s.x n + k + 8) 8)) })
  | .ldr z sg a n k => some (some 0, s.set a (widen sg (s.mem.rd (s.x n + k) z)))
  | .stpPre a b k =>
    if k ≤ s.x 31 then some (some 0, { s with
      mem := s.mem.wr (s.x 31 - k) (leBytes 8 (s.x a) ++ leBytes 8 (s.x b)), x := upd s.x 31 (s.x 31 - k) })
    else none
  | .ldpPost a b k => some (some 0, { s with
      x := upd (upd (upd s.x a (leNat (s.mem.rd (s.x 31) 8))) b (leNat (s.mem.rd (s.x 31 + 8) 8))) 31 (s.x 31 + k) })
  | .stpv z a b n k => some (some 0, { s with mem := s.mem.wr (s.x n + k) ((s.v a).take z ++ (s.v b).take z) })
  | .strv z a n k => some (some 0, { s with mem := s.mem.wr (s.x n + k) ((s.v a).take z) })
  | .stn z c n => some (some 0, { s with mem := s.mem.wr (s.x n) (lanes s.v z c) })
  | .ldpv z a b n k => some (some 0, { s with
      v := upd (upd s.v a (ldv s.mem (s.x n + k) z)) b (ldv s.mem (s.x n + k + z) z) })
  | .ldrv z a n k => some (some 0, { s with v := upd s.v a (ldv s.mem (s.x n + k) z) })
  | .ext z sg d a => some (some 0, s.set d (widen sg ((leBytes 8 (s.x a)).take z)))
  | .pac m => some (some 0, s.set 30 (P.sign (s.x 30) (s.x m)))
  | .aut m => (P.auth (s.x 30) (s.x m)).map fun p => (some 0, s.set 30 p)

/-- Executes a list of instructions, leaving out the first `k`. -/
def run (P : Pac) (T : Nat) : List Ins → Nat → AState → Option AState
  | [], _, s => some s
  | _ :: is, k + 1, s => run P T is k s
  | i :: is, 0, s =>
    match exec P T i s with
    | none => none
    | some (none, s') => some s'
    | some (some k, s') => run P T is k s'

/-- The same with interruptions: between any two instructions a signal handler may run
on the same stack, which extends down to `lo`, and change what is below the stack
pointer. -/
inductive Runs (P : Pac) (T lo : Nat) : List Ins → Nat → AState → AState → Prop
  | done {k s} : Runs P T lo [] k s s
  | skip {i is k s t} : Runs P T lo is k s t → Runs P T lo (i :: is) (k + 1) s t
  | stop {i is s t} : exec P T i s = some (none, t) → Runs P T lo (i :: is) 0 s t
  | step {i is k s s' t} : exec P T i s = some (some k, s') → Runs P T lo is k s' t → Runs P T lo (i :: is) 0 s t
  | irq {is k s m t} : (∀ a, a < lo ∨ s.x 31 ≤ a → m a = s.mem a) → Runs P T lo is k { s with mem := m } t → Runs P T lo is k s t

/-! ## Macros, src/aarch64/internal.h:82-146 -/

inductive Mode
  /-- no pointer authentication -/
  | plain
  /-- `__ARM_FEATURE_PAC_DEFAULT` -/
  | linux
  /-- `HAVE_ARM64E_PTRAUTH` -/
  | arm64e
  deriving DecidableEq, Repr

/-- `SIGN_LR`: `paciasp` or `pacibsp`. -/
def signLr : Mode → List Ins
  | .plain => []
  | _ => [.pac 31]

/-- `SIGN_LR_LINUX_ONLY` -/
def signLrLinux : Mode → List Ins
  | .linux => [.pac 31]
  | _ => []

/-- `SIGN_LR_WITH_REG` (`_sign_lr_with_reg`: there is no instruction in the hint space
that takes another modifier than sp). -/
def signWith (r : Nat) : Mode → List Ins
  | .plain => []
  | .linux => [.mov 9 31, .mov 31 r, .pac 31, .mov 31 9]
  | .arm64e => [.pac r]

/-- `AUTH_LR_WITH_REG` -/
def authWith (r : Nat) : Mode → List Ins
  | .plain => []
  | .linux => [.mov 9 31, .mov 31 r, .aut 31, .mov 31 9]
  | .arm64e => [.aut r]

/-- `AUTH_LR_AND_RET`, without the return. -/
def authRet : Mode → List Ins
  | .plain => []
  | _ => [.aut 31]

/-! ## Calls, src/aarch64/sysv.S:92-302 -/

/-- The frame, src/aarch64/sysv.S:107-122; `go` is `FFI_GO_CLOSURES`. -/
def callFrame (go : Bool) : List Ins :=
  [.stp 29 30 1 0, .mov 9 31, .str 9 1 32, .mov 29 1, .mov 31 0, .mov 9 2, .mov 8 3] ++
    (if go then [.mov 18 5] else []) ++ [.stp 3 4 29 16]

/-- The loads, src/aarch64/sysv.S:124-139. -/
def callLoads : List Ins :=
  [.tbz 4 7 4, .ldpv 16 0 1 31 0, .ldpv 16 2 3 31 32, .ldpv 16 4 5 31 64, .ldpv 16 6 7 31 96,
    .ldp 0 1 31 128, .ldp 2 3 31 144, .ldp 4 5 31 160, .ldp 6 7 31 176, .addi 31 31 192]

/-- `ffi_call_SYSV` up to the call through x9. -/
def callIn (mode : Mode) (go : Bool) : List Ins := signWith 1 mode ++ (callFrame go ++ callLoads)

/-- src/aarch64/sysv.S:163-290 -/
def callTable : List Ins :=
  [.nop, .b99, .nop, .nop,                       -- VOID
    .nop, .str 0 3 0, .b99, .nop,                -- INT64
    .nop, .stp 0 1 3 0, .b99, .nop,              -- INT128
    .brk, .b99, .nop, .nop,
    .brk, .b99, .nop, .nop,
    .brk, .b99, .nop, .nop,
    .brk, .b99, .nop, .nop,
    .brk, .b99, .nop, .nop,
    .nop, .stn 4 4 3, .b99, .nop,                -- S4
    .nop, .stn 4 3 3, .b99, .nop,
    .nop, .stpv 4 0 1 3 0, .b99, .nop,
    .nop, .strv 4 0 3 0, .b99, .nop,
    .nop, .stn 8 4 3, .b99, .nop,                -- D4
    .nop, .stn 8 3 3, .b99, .nop,
    .nop, .stpv 8 0 1 3 0, .b99, .nop,
    .nop, .strv 8 0 3 0, .b99, .nop,
    .nop, .strv 16 3 3 48, .nop, .nop,           -- Q4
    .nop, .strv 16 2 3 32, .nop, .nop,
    .nop, .stpv 16 0 1 3 0, .b99, .nop,
    .nop, .strv 16 0 3 0, .b99, .nop,
    .nop, .ext 1 false 0 0, .str 0 3 0, .nop,    -- UINT8
    .b99, .nop, .nop, .nop,
    .nop, .ext 2 false 0 0, .str 0 3 0, .nop,
    .b99, .nop, .nop, .nop,
    .nop, .ext 4 false 0 0, .str 0 3 0, .nop,
    .b99, .nop, .nop, .nop,
    .nop, .ext 1 true 0 0, .str 0 3 0, .nop,     -- SINT8
    .b99, .nop, .nop, .nop,
    .nop, .ext 2 true 0 0, .str 0 3 0, .nop,
    .b99, .nop, .nop, .nop,
    .nop, .ext 4 true 0 0, .str 0 3 0, .nop,
    .b99, .nop, .nop, .nop]

/-- After the call, src/aarch64/sysv.S:143-156. -/
def callBack : List Ins :=
  [.ldp 3 4 29 16, .ldr 8 false 9 29 32, .mov 31 9, .mov 2 29, .ldp 29 30 29 0, .adr 5, .andi 4 4, .addl 5 5 4, .br 5]

/-- `ffi_call_SYSV` after the call: to the label 99, and from there to the return,
src/aarch64/sysv.S:143-295. -/
def callOut (P : Pac) (T : Nat) (mode : Mode) (s : AState) : Option AState :=
  (run P T (callBack ++ callTable) 0 s).bind (run P T (authWith 2 mode) 0)

/-! ## Closures, src/aarch64/sysv.S:325-519, 626-671 -/

/-- The vector registers, src/aarch64/sysv.S:336-339, 635-638. -/
def saveV : List Ins := [.stpv 16 0 1 31 16, .stpv 16 2 3 31 48, .stpv 16 4 5 31 80, .stpv 16 6 7 31 112]

/-- src/aarch64/sysv.S:361-367, 660-666 -/
def saveX : List Ins := [.mov 29 31, .stp 0 1 31 144, .stp 2 3 31 160, .stp 4 5 31 176, .stp 6 7 31 192]

/-- `do_closure` up to the call, src/aarch64/sysv.S:375-378 -/
def doClosure : List Ins := [.addi 3 31 16, .addi 4 31 272, .addi 5 31 208, .mov 6 8]

/-- `ffi_closure_SYSV_V` (`vec`) and `ffi_closure_SYSV` up to the call of
`ffi_closure_SYSV_inner`, src/aarch64/sysv.S:325-378; `off` is
`FFI_TRAMPOLINE_CLOSURE_OFFSET`, src/aarch64/ffitarget.h:67, 74. -/
def closureIn (mode : Mode) (vec : Bool) (off : Nat) : List Ins :=
  signLr mode ++ [.stpPre 29 30 272] ++ (if vec then saveV else []) ++ saveX ++
    [.ldp 0 1 17 off, .ldr 8 false 2 17 (off + 16)] ++ doClosure

/-- `ffi_go_closure_SYSV_V`, src/aarch64/sysv.S:626-639, which does not sign, and
`ffi_go_closure_SYSV`, src/aarch64/sysv.S:650-671. -/
def goIn (mode : Mode) (vec : Bool) : List Ins :=
  (if vec then [] else signLrLinux mode) ++ [.stpPre 29 30 272] ++ (if vec then saveV else []) ++ saveX ++
    [.ldp 0 1 18 8, .mov 2 18] ++ doClosure

/-- src/aarch64/sysv.S:390-514 -/
def closureTable : List Ins :=
  [.nop, .b99, .nop, .nop,                       -- VOID
    .nop, .ldr 8 false 0 3 0, .b99, .nop,        -- INT64
    .nop, .ldp 0 1 3 0, .b99, .nop,              -- INT128
    .brk, .nop, .nop, .nop,
    .brk, .nop, .nop, .nop,
    .brk, .nop, .nop, .nop,
    .brk, .nop, .nop, .nop,
    .brk, .nop, .nop, .nop,
    .nop, .ldrv 4 3 3 12, .nop, .nop,            -- S4
    .nop, .ldrv 4 2 3 8, .nop, .nop,
    .nop, .ldpv 4 0 1 3 0, .b99, .nop,
    .nop, .ldrv 4 0 3 0, .b99, .nop,
    .nop, .ldrv 8 3 3 24, .nop, .nop,            -- D4
    .nop, .ldrv 8 2 3 16, .nop, .nop,
    .nop, .ldpv 8 0 1 3 0, .b99, .nop,
    .nop, .ldrv 8 0 3 0, .b99, .nop,
    .nop, .ldrv 16 3 3 48, .nop, .nop,           -- Q4
    .nop, .ldrv 16 2 3 32, .nop, .nop,
    .nop, .ldpv 16 0 1 3 0, .b99, .nop,
    .nop, .ldrv 16 0 3 0, .b99, .nop,
    .nop, .ldr 1 false 0 3 0, .b99, .nop,        -- UINT8
    .brk, .nop, .nop, .nop,
    .nop, .ldr 2 false 0 3 0, .b99, .nop,
    .brk, .nop, .nop, .nop,
    .nop, .ldr 4 false 0 3 0, .b99, .nop,
    .brk, .nop, .nop, .nop,
    .nop, .ldr 1 true 0 3 0, .b99, .nop,         -- SINT8
    .brk, .nop, .nop, .nop,
    .nop, .ldr 2 true 0 3 0, .b99, .nop,
    .brk, .nop, .nop, .nop,
    .nop, .ldr 4 true 0 3 0, .nop, .nop]

/-- After `ffi_closure_SYSV_inner`, src/aarch64/sysv.S:382-386. -/
def closureBack : List Ins := [.adr 1, .andi 0 0, .addl 1 1 0, .addi 3 31 208, .br 1]

/-- `ffi_closure_SYSV` after the call, src/aarch64/sysv.S:382-519. -/
def closureOut (P : Pac) (T : Nat) (mode : Mode) (s : AState) : Option AState :=
  (run P T (closureBack ++ closureTable) 0 s).bind (run P T ([.ldpPost 29 30 272] ++ authRet mode) 0)

end Verif.A64.Asm
