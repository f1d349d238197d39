import Verif.Win64.AsmExit
import Verif.Win64.AsmClosure
import Verif.Win64.ClosureLemmas
import Verif.X64.TrampLemmas

/-! The parts of `callEntry` and `closureEntry` that are C, and those that win64.S executes. -/
namespace Verif.Win64
open Verif Spec.Win64

/-- What `ffi_call_int` has prepared when it calls `ffi_call_win64`. -/
structure Marshalled where
  mem : Mem
  stack : Nat
  frame : Nat
  flags : Flag
  rvalue : Nat
  avalue : List Nat

/-- The C part of `callEntry`, src/x86/ffiw64.c:118-195. -/
def marshal (fl : Flag) (bytes : Nat) (rt : FType) (ats : List FType) (I : CallIn) : Marshalled :=
  let (avalue, sp, m) := copyArgs ats I.avalue I.sp I.mem
  let flags := callFlags fl I.rvalue
  let rsize := callRsize fl rt I.rvalue
  let stack := alloca sp (bytes + 40 + rsize)
  let frame := stack + bytes
  let rvalue := if rsize ≠ 0 then frame + 40 else I.rvalue.getD 0
  let m := m.wr (frame + 16) (leBytes 8 I.fn)
  let m := m.wr (frame + 24) (leBytes 8 flags.code)
  let m := m.wr (frame + 32) (leBytes 8 rvalue)
  let m := if flags = .tc .struct then m.wr stack (leBytes 8 rvalue) else m
  ⟨fillSlots stack ats avalue (if flags = .tc .struct then 1 else 0) m, stack, frame, flags, rvalue, avalue⟩

/-- `callEntry` is `marshal` and then `ffi_call_win64`. -/
theorem callEntry_marshal (fl : Flag) (bytes : Nat) (rt : FType) (ats : List FType) (I : CallIn) :
    callEntry fl bytes rt ats I =
      { entry := ⟨(Asm.framed (marshal fl bytes rt ats I).mem (marshal fl bytes rt ats I).frame I.rbp I.raddr).wr
            ((marshal fl bytes rt ats I).stack - 8) (leBytes 8 I.raddr2), (marshal fl bytes rt ats I).stack,
          fun k => (Asm.framed (marshal fl bytes rt ats I).mem (marshal fl bytes rt ats I).frame I.rbp I.raddr).rd
            ((marshal fl bytes rt ats I).stack + 8 * k) 8,
          fun k => (Asm.framed (marshal fl bytes rt ats I).mem (marshal fl bytes rt ats I).frame I.rbp I.raddr).rd
            ((marshal fl bytes rt ats I).stack + 8 * k) 8, I.closure⟩
        frame := (marshal fl bytes rt ats I).frame, flags := (marshal fl bytes rt ats I).flags
        rvalue := (marshal fl bytes rt ats I).rvalue, avalue := (marshal fl bytes rt ats I).avalue } := by
  unfold callEntry marshal
  rfl

/-- `ffi_closure_win64_inner` up to the user function, src/x86/ffiw64.c:311-354: the C part of `closureEntry`;
`args` is the array `args` of the frame. -/
def innerView (fl : Flag) (ats : List FType) (m : Mem) (args : Nat) : View :=
  let inMem := fl = .tc .struct
  let m' := if inMem then m.wr (args - 56) (m.rd args 8) else m
  { mem := m'
    rvalue := if inMem then leNat (m.rd args 8) else args - 56
    avalue := closureArgs m' args (args - 40) ats (if inMem then 1 else 0) }

theorem closureEntry_inner (fl : Flag) (ats : List FType) (E : Entry) :
    closureEntry fl ats E = innerView fl ats (store4 (store4 E.mem E.args E.gpr) (E.args - 40) E.xmm) E.args := rfl

/-- `trampoline[24]`, src/x86/ffiw64.c:231-240. -/
def trampoline : List Byte :=
  [0xf3, 0x0f, 0x1e, 0xfa,                               -- endbr64
   0x4c, 0x8d, 0x15, 0xf5, 0xff, 0xff, 0xff,             -- leaq -0xb(%rip),%r10
   0xff, 0x25, 0x07, 0x00, 0x00, 0x00,                   -- jmpq *0x7(%rip)
   0x0f, 0x1f, 0x80, 0x00, 0x00, 0x00, 0x00]             -- nopl 0(%rax)

/-- The closure object as `ffi_prep_closure_loc` leaves it with a dynamic trampoline, src/x86/ffiw64.c:262-271;
`dest` is `ffi_closure_win64`. -/
def closureObj (dest cif fn userData : Nat) : List Byte :=
  trampoline ++ leBytes 8 dest ++ leBytes 8 cif ++ leBytes 8 fn ++ leBytes 8 userData

/-- The bytes are those of the SysV trampoline. -/
theorem closureObj_eq (dest cif fn ud : Nat) : closureObj dest cif fn ud = X64.closureImage dest cif fn ud := rfl

/-- Storing what is there already. -/
theorem store4_same {m : Mem} {a : Nat} {v : Nat → List Byte} (hv : ∀ k, k < 4 → (v k).length = 8)
    (h : ∀ k, k < 4 → m.rd (a + 8 * k) 8 = v k) : store4 m a v = m := by
  obtain ⟨h1, h2⟩ := store4_spec m a v hv
  funext x
  by_cases hx : x < a ∨ a + 32 ≤ x
  · exact h1 x hx
  · have hk : (x - a) / 8 < 4 := by omega
    have e := (h2 _ hk).trans (h _ hk).symm
    have := congrArg (fun l => l.getD ((x - a) % 8) 0) e
    have g : ∀ n : Mem, (n.rd (a + 8 * ((x - a) / 8)) 8).getD ((x - a) % 8) 0 = n x := by
      intro n
      have : (x - a) % 8 < 8 := Nat.mod_lt _ (by omega)
      rw [List.getD_eq_getElem?_getD, Mem.rd]
      simp [this]
      congr 1
      omega
    simpa only [g] using this

theorem innerView_entry {fl : Flag} {ats : List FType} {m : Mem} {args : Nat} {g x : Nat → List Byte} {k : Nat}
    (hg : ∀ k, k < 4 → (g k).length = 8) (hx : ∀ k, k < 4 → (x k).length = 8)
    (h1 : ∀ k, k < 4 → m.rd (args + 8 * k) 8 = g k) (h2 : ∀ k, k < 4 → m.rd (args - 40 + 8 * k) 8 = x k) :
    innerView fl ats m args = closureEntry fl ats ⟨m, args, g, x, k⟩ := by
  rw [closureEntry_inner]
  dsimp only
  rw [store4_same hg h1, store4_same hx h2]

/-- Passing depends on the registers, the slots and the object. -/
theorem passed_congr {R R' : Spec.Win64.Regs} {t : FType} {v : List Byte} {k : Nat} (ha : R'.args = R.args)
    (hg : ∀ k, k < 4 → R'.gpr k = R.gpr k) (hx : ∀ k, k < 4 → R'.xmm k = R.xmm k)
    (hm : ∀ y, R.args + 32 ≤ y → R'.mem y = R.mem y)
    (hr : ¬ByValue t.size → ∀ y, leNat (slot R false k) ≤ y → y < leNat (slot R false k) + t.size → R'.mem y = R.mem y)
    (h : PassedAt R t v k) : PassedAt R' t v k := by
  have hs : ∀ fp, slot R' fp k = slot R fp k := by
    intro fp
    unfold slot
    split
    · rename_i hk
      rw [hg k hk, hx k hk]
    · rename_i hk
      rw [ha]
      exact Mem.rd_congr fun i hi => hm _ (by omega)
  unfold PassedAt at h ⊢
  split at h
  · rename_i hb
    rw [if_pos hb, hs]
    exact h
  · rename_i hb
    rw [if_neg hb, hs, ← h]
    exact Mem.rd_congr fun i hi => hr hb _ (by omega) (by omega)

theorem slot_congr {R R' : Spec.Win64.Regs} {k : Nat} (ha : R'.args = R.args)
    (hg : ∀ k, k < 4 → R'.gpr k = R.gpr k) (hm : ∀ y, R.args + 32 ≤ y → R'.mem y = R.mem y) :
    slot R' false k = slot R false k := by
  unfold slot
  split
  · rename_i hk
    simp [hg k hk]
  · rename_i hk
    rw [ha]
    exact Mem.rd_congr fun i hi => hm _ (by omega)

end Verif.Win64

namespace Verif.Win64.Asm
open Verif

theorem width_le (fl : Flag) : width fl ≤ 8 := by
  cases fl with
  | tc c => cases c <;> decide
  | _ => decide

theorem width_flags (fl : Flag) (h : fl = .tc .struct ∨ fl = .tc .void) : width fl = 0 := by
  rcases h with rfl | rfl <;> rfl

/-- The two calls: the unwind tables at the call instruction and at the return address. -/
theorem row_call (cfg : Cfg) : fetch cfg (eo cfg + 62) = some (3, .callm 5 16) ∧ rows cfg (eo cfg + 62) rowB = true ∧
    rows cfg (eo cfg + 65) rowB = true := by
  obtain ⟨_ | _, _ | _, _ | _⟩ := cfg <;> decide +kernel

theorem row_inner (cfg : Cfg) : fetch cfg (off cfg .doClos + 33) = some (5, .callx 1) ∧ rows cfg (off cfg .doClos + 33) rowC = true ∧
    rows cfg (off cfg .doClos + 38) rowC = true := by
  obtain ⟨_ | _, _ | _, _ | _⟩ := cfg <;> decide +kernel

/-- `ffi_closure_win64_alt` has no call frame information, and unwind information without codes; its last two
instructions are an epilogue. -/
theorem row_alt (cfg : Cfg) : dwarf cfg (off cfg .alt) = none ∧ dwarf cfg (off cfg .alt + eo cfg) = none ∧
    dwarf cfg (off cfg .alt + eo cfg + 5) = none ∧
    sehRow cfg (off cfg .alt) = some rowA ∧ sehRow cfg (off cfg .alt + eo cfg) = some rowA ∧
    sehRow cfg (off cfg .alt + eo cfg + 5) = some ⟨4, 24, []⟩ := by
  obtain ⟨_ | _, _ | _, _ | _⟩ := cfg <;> decide +kernel

end Verif.Win64.Asm
