import Verif.RiscV.RetLemmas
import Verif.RiscV.Slots
import Verif.Spec.Build

/-
Properties C42-C44, C52 and C53: RISC-V.
-/
namespace Verif.Props
open Verif Spec Spec.RV RV

/-! ## Types used in the examples -/

theorem rvScalar_plain {tab : ScalarTab} {tc : TC} (h : (tab tc).isSome = true) : Plain tab (mkScalar tab tc) := by
  obtain ⟨⟨s, a⟩, hs⟩ := Option.isSome_iff_exists.1 h
  unfold mkScalar
  rw [hs]
  exact .scalar hs

theorem rvStruct_plain {w : Nat} (hw : w = 4 ∨ w = 8) {es : List FType} (hne : es ≠ [])
    (h : ∀ e ∈ es, Plain (tab w) e) : Plain (tab w) (mkStruct es) := by
  have hpos : ∀ m ∈ es.map (fun e => (e.size, e.align)), 0 < m.2 := by
    intro m hm
    obtain ⟨e, he, rfl⟩ := List.mem_map.1 hm
    exact (plain_wf (h e he)).align_pos (tab_ok hw)
  have hal := build_align (es.map fun e => (e.size, e.align)) (by simpa using hne)
  refine .struct (offs := buildOffs 0 (es.map fun e => (e.size, e.align))) h ⟨_, build_placed _ hpos 0, hal, ?_⟩
  obtain ⟨⟨m, hm, hma⟩, _⟩ := hal
  exact isLeastMult_roundUp (by rw [← hma]; exact hpos m hm)

def rvVoid : FType := .mk 1 1 .void []
def rvI64 := mkScalar (tab 8) .sint64
def rvI32 := mkScalar (tab 8) .sint32
def rvU32 := mkScalar (tab 8) .uint32
def rvI8 := mkScalar (tab 8) .sint8
def rvF32 := mkScalar (tab 8) .float
def rvF64 := mkScalar (tab 8) .double
def rvLD := mkScalar (tab 8) .longdouble
/-- `struct { double x; }` -/
def rvS1 := mkStruct [rvF64]
/-- `struct { float x; struct { int y; } s; }` -/
def rvMixed := mkStruct [rvF32, mkStruct [rvI32]]
/-- `struct { long a, b, c; }` -/
def rvS24 := mkStruct [rvI64, rvI64, rvI64]
/-- `struct { long double a; int b; }` -/
def rvS32 := mkStruct [rvLD, rvI32]
/-- `struct { int a, b, c; }` -/
def rvS12 := mkStruct [rvI32, rvI32, rvI32]

theorem plain_rvI64 : Plain (tab 8) rvI64 := rvScalar_plain rfl
theorem plain_rvI32 : Plain (tab 8) rvI32 := rvScalar_plain rfl
theorem plain_rvU32 : Plain (tab 8) rvU32 := rvScalar_plain rfl
theorem plain_rvI8 : Plain (tab 8) rvI8 := rvScalar_plain rfl
theorem plain_rvF32 : Plain (tab 8) rvF32 := rvScalar_plain rfl
theorem plain_rvF64 : Plain (tab 8) rvF64 := rvScalar_plain rfl
theorem plain_rvLD : Plain (tab 8) rvLD := rvScalar_plain rfl
theorem plain_rvS1 : Plain (tab 8) rvS1 := rvStruct_plain (.inr rfl) (by simp) (by simpa using plain_rvF64)
theorem plain_rvMixed : Plain (tab 8) rvMixed :=
  rvStruct_plain (.inr rfl) (by simp)
    (by simpa using ⟨plain_rvF32, rvStruct_plain (.inr rfl) (by simp) (by simpa using plain_rvI32)⟩)
theorem plain_rvS24 : Plain (tab 8) rvS24 := rvStruct_plain (.inr rfl) (by simp) (by simpa using plain_rvI64)
theorem plain_rvS32 : Plain (tab 8) rvS32 :=
  rvStruct_plain (.inr rfl) (by simp) (by simpa using ⟨plain_rvLD, plain_rvI32⟩)
theorem plain_rvS12 : Plain (tab 8) rvS12 := rvStruct_plain (.inr rfl) (by simp) (by simpa using plain_rvI32)

/-- LP64D, at most 100 named arguments. -/
def rvD : Cfg := ⟨8, 8, 100⟩
/-- LP64D, two named arguments. -/
def rvVar : Cfg := ⟨8, 8, 2⟩

/-- Distinct bytes in memory; `n` argument objects from 8192 on, 64 bytes apart. -/
def rvIn (n : Nat) : CallIn :=
  ⟨4096, fun x => BitVec.ofNat 8 (x % 251), (List.range n).map fun i => 8192 + 64 * i, none, 0, 0,
    fun _ => List.replicate 16 0⟩

/-! ## Calls -/

/-- A prepared call: the target, the types, as many values as types, `cif->bytes` not
wrapped, and enough stack, in which there are no argument objects yet. -/
structure RvCall (c : Cfg) (rt : FType) (ats : List FType) (I : CallIn) : Prop where
  ok : (c.w = 4 ∨ c.w = 8) ∧ (c.fl = 0 ∨ c.fl = 4 ∨ c.fl = 8)
  rtOk : RetType c.w rt
  atsOk : ∀ t ∈ ats, Plain (tab c.w) t
  len : I.avalue.length = ats.length
  junk : ∀ i, (I.junk i).length = 2 * c.w
  fits : reserve c.w (if rt.tc = .struct then c.w else 0) ats < 2 ^ 32
  n : ats.length < 2 ^ 32
  size : rt.size < 2 ^ 61
  sp : I.sp < 2 ^ 62 ∧ I.sp ≤ 256 ^ c.w
  room : blockBytes c (coreBytes c rt ats) rt ats.length I.rvalue + 16 ≤ I.sp
  out : ∀ q ∈ ats.zip I.avalue,
    q.2 + q.1.size ≤ I.sp - (blockBytes c (coreBytes c rt ats) rt ats.length I.rvalue + 16) ∨ I.sp ≤ q.2
  rv : ∀ a, I.rvalue = some a → a < 256 ^ c.w

/-- No named struct of a single real is met when all floating-point registers are in use. -/
def RvSingles (c : Cfg) (rt : FType) (ats : List FType) : Prop :=
  SinglesOk (abi c) c.nfixed ats 0 (start (abi c) (retOf rt))

theorem rv_pre {c : Cfg} {rt : FType} {ats : List FType} {I : CallIn} (h : RvCall c rt ats I)
    (hs : RvSingles c rt ats) : CallPre c (coreBytes c rt ats) rt ats I := by
  have hw := h.ok.1
  have hb : coreBytes c rt ats = reserve c.w (if rt.tc = .struct then c.w else 0) ats :=
    foldl_addArgBytes hw (fun t ht => (plain_wf (h.atsOk t ht)).align_cases (tab_ok hw)) h.fits
  have hcl := copies_le (A := abi c) (nfixed := c.nfixed) (ts := ats)
    (fun t ht => (plain_wf (h.atsOk t ht)).align_pos (tab_ok hw)) (if rt.tc = .struct then c.w else 0) 0
    (start (abi c) (retOf rt))
  have hcl : (if rt.tc = .struct then c.w else 0) + copies (abi c) c.nfixed ats 0 (start (abi c) (retOf rt)) ≤
      reserve c.w (if rt.tc = .struct then c.w else 0) ats := hcl
  refine ⟨h.ok, h.rtOk, h.atsOk, h.n, h.len, h.junk, ⟨?_, ?_⟩, h.size, h.sp, ?_, ?_, h.rv, hs⟩
  · rw [hb]; omega
  · rw [hb]; exact h.fits
  · have := h.room; omega
  · intro q hq
    have h1 := h.out q hq
    have h2 := h.room
    have e : (callEntry c (coreBytes c rt ats) rt ats I).base =
        (I.sp - blockBytes c (coreBytes c rt ats) rt ats.length I.rvalue) / 16 * 16 := rfl
    rw [e]
    omega

theorem rvSingles_soft {c : Cfg} (hf : c.fl = 0) (rt : FType) (ats : List FType) : RvSingles c rt ats := by
  have : ∀ (ts : List FType) (i : Nat) (p : Pos), SinglesOk (abi c) c.nfixed ts i p := by
    intro ts
    induction ts with
    | nil => intro _ _; trivial
    | cons t ts ih =>
      intro i p
      refine ⟨?_, ih _ _⟩
      intro _ _ l _ hr
      have e : (abi c).flen = 0 := hf
      exfalso
      revert hr
      cases l.tc <;> simp [Abi.real, e]
  exact this _ _ _

theorem rv_passed {A : Abi} {nf : Nat} {R : Regs} {ts : List FType} :
    ∀ {vs : List (List Byte)} {i : Nat} {p : Pos} {ss : Nat}, AllArgs A nf R ts vs i p ss →
      AllPassed A R ts vs (placeFrom A nf ts i p) ∧ AllExtended A R ts vs (placeFrom A nf ts i p) := by
  induction ts with
  | nil =>
    intro vs i p ss h
    cases vs with
    | nil => exact ⟨trivial, trivial⟩
    | cons => cases h
  | cons t ts ih =>
    intro vs i p ss h
    cases vs with
    | nil => cases h
    | cons v vs =>
      obtain ⟨h1, h2⟩ := h
      have := ih h2
      exact ⟨⟨h1.passed, this.1⟩, ⟨h1.ext, this.2⟩⟩

theorem rv_aligned {c : Cfg} (hw : c.w = 4 ∨ c.w = 8) {R : Regs} {ts : List FType} :
    ∀ {vs : List (List Byte)} {i : Nat} {p : Pos} {ss : Nat}, AllArgs (abi c) c.nfixed R ts vs i p ss → c.w ∣ ss →
      (∀ t ∈ ts, Plain (tab c.w) t) → (∀ t ∈ ts, t.align ≤ c.w) →
      AllAligned (abi c) R ts (placeFrom (abi c) c.nfixed ts i p) := by
  induction ts with
  | nil =>
    intro vs i p ss _ _ _ _
    trivial
  | cons t ts ih =>
    intro vs i p ss h hd hp ha
    cases vs with
    | nil => cases h
    | cons v vs =>
      obtain ⟨h1, h2⟩ := h
      refine ⟨?_, ih h2 (Nat.dvd_add hd (copySize_dvd _ _ _)) (fun x hx => hp x (by simp [hx])) (fun x hx => ha x (by simp [hx]))⟩
      have hr := h1.ref
      have hal : t.align ∣ c.w := by
        have h1 := ha t (by simp)
        rcases (plain_wf (hp t (by simp))).align_cases (tab_ok hw) with h | h | h | h | h <;> rw [h] at h1 ⊢ <;>
          rcases hw with hw | hw <;> rw [hw] at h1 ⊢ <;> first | decide | omega
      generalize (placeArg (abi c) (decide (c.nfixed ≤ i)) t p).1 = pl at hr
      cases pl with
      | direct => trivial
      | ref l =>
        show t.align ∣ leNat (R.at (abi c) l)
        rw [show leNat (R.at (abi c) l) = ss from hr]
        exact hal.trans hd

theorem rv_above {A : Abi} {nf : Nat} {R : Regs} {lo hi : Nat} {ts : List FType} :
    ∀ {vs : List (List Byte)} {i : Nat} {p : Pos} {ss : Nat}, AllArgs A nf R ts vs i p ss → hi ≤ ss →
      AllOut A R lo hi ts (placeFrom A nf ts i p) := by
  induction ts with
  | nil => intro vs i p ss _ _; trivial
  | cons t ts ih =>
    intro vs i p ss h hs
    cases vs with
    | nil => cases h
    | cons v vs =>
      obtain ⟨h1, h2⟩ := h
      refine ⟨?_, ih h2 (by omega)⟩
      have hr := h1.ref
      generalize (placeArg A (decide (nf ≤ i)) t p).1 = pl at hr
      cases pl with
      | direct => trivial
      | ref l =>
        show leNat (R.at A l) + t.size ≤ lo ∨ hi ≤ leNat (R.at A l)
        rw [show leNat (R.at A l) = ss from hr]
        exact .inr hs

theorem rv_sized {m : Mem} {ts : List FType} : ∀ {as : List Nat}, as.length = ts.length → Sized ts (argVals m ts as) := by
  induction ts with
  | nil => intro as _; cases as <;> trivial
  | cons t ts ih =>
    intro as h
    cases as with
    | nil => cases h
    | cons a as => exact ⟨Mem.rd_length _ _ _, ih (by simpa using h)⟩

/-! ## C52 — arguments as the standard prescribes -/

/-- C52 (partial: no struct of one real beyond the eighth floating-point register;
references only known to be aligned for types of alignment up to XLEN): the called
function finds the stack pointer aligned, every argument in the place the standard
assigns, widened and NaN-boxed, and the address of the result in `a0`. -/
theorem C52_args_partial {c : Cfg} {rt : FType} {ats : List FType} {I : CallIn} (h : RvCall c rt ats I)
    (hs : RvSingles c rt ats) :
    let O := callEntry c (coreBytes c rt ats) rt ats I
    let ps := placeFrom (abi c) c.nfixed ats 0 (start (abi c) (retOf rt))
    16 ∣ O.entry.sp ∧
    AllPassed (abi c) O.entry.regs ats (argVals I.mem ats I.avalue) ps ∧
    AllExtended (abi c) O.entry.regs ats (argVals I.mem ats I.avalue) ps ∧
    ((∀ t ∈ ats, t.align ≤ c.w) → AllAligned (abi c) O.entry.regs ats ps) ∧
    (∀ t, retOf rt = some t → (retPlace (abi c) t).isRef = true → leNat (O.entry.a 0) = O.rvalue ∧
      ∀ a, I.rvalue = some a → O.rvalue = a) := by
  dsimp only
  have P := callEntry_spec (rv_pre h hs)
  generalize callEntry c (coreBytes c rt ats) rt ats I = O at P
  obtain ⟨ss, _, hd, hall, _⟩ := P.copyBase
  have := rv_passed hall
  refine ⟨P.align, this.1, this.2, fun ha => rv_aligned h.ok.1 hall hd h.atsOk ha, ?_⟩
  intro t ht hr
  have hb : O.byRef = true := by rw [P.byRef, ht]; exact hr
  refine ⟨P.ret hb, fun a ha => ?_⟩
  rw [P.rvalue, ha]
  simp [rvalBytes]

/-- C52 for targets without floating-point argument registers: no restriction on the
types apart from alignment. -/
theorem C52_args_soft {c : Cfg} {rt : FType} {ats : List FType} {I : CallIn} (h : RvCall c rt ats I) (hf : c.fl = 0) :
    let O := callEntry c (coreBytes c rt ats) rt ats I
    let ps := placeFrom (abi c) c.nfixed ats 0 (start (abi c) (retOf rt))
    16 ∣ O.entry.sp ∧
    AllPassed (abi c) O.entry.regs ats (argVals I.mem ats I.avalue) ps ∧
    AllExtended (abi c) O.entry.regs ats (argVals I.mem ats I.avalue) ps ∧
    ((∀ t ∈ ats, t.align ≤ c.w) → AllAligned (abi c) O.entry.regs ats ps) := by
  have := C52_args_partial h (rvSingles_soft hf rt ats)
  exact ⟨this.1, this.2.1, this.2.2.1, this.2.2.2.1⟩

/-- A call with everything: integers, structs in two kinds of registers, in integer
registers, and by reference. -/
def rvSig : List FType := [rvI8, rvMixed, rvS24, rvF64, rvS1, rvS12, rvF32]

theorem rvSig_plain : ∀ t ∈ rvSig, Plain (tab 8) t := by
  simpa [rvSig] using ⟨plain_rvI8, plain_rvMixed, plain_rvS24, plain_rvF64, plain_rvS1, plain_rvS12, plain_rvF32⟩

theorem rvSig_call : RvCall rvD rvS24 rvSig (rvIn 7) where
  ok := ⟨.inr rfl, .inr (.inr rfl)⟩
  rtOk := .obj plain_rvS24
  atsOk := rvSig_plain
  len := rfl
  junk := fun _ => rfl
  fits := by decide +kernel
  n := by decide
  size := by decide
  sp := by decide
  room := by decide +kernel
  out := by decide +kernel
  rv := by intro a h; cases h

theorem rvVarSig_call : RvCall rvVar rvS24 rvSig (rvIn 7) where
  ok := ⟨.inr rfl, .inr (.inr rfl)⟩
  rtOk := .obj plain_rvS24
  atsOk := rvSig_plain
  len := rfl
  junk := fun _ => rfl
  fits := by decide +kernel
  n := by decide
  size := by decide
  sp := by decide
  room := by decide +kernel
  out := by decide +kernel
  rv := by intro a h; cases h

/-- The number of floating-point registers in use stays small. -/
theorem rv_singles_small {A : Abi} {nf : Nat} {ts : List FType} :
    ∀ {i : Nat} {p : Pos}, p.nf + 2 * ts.length ≤ 8 → SinglesOk A nf ts i p := by
  have hnf : ∀ (var : Bool) (t : FType) (p : Pos), (placeArg A var t p).2.nf ≤ p.nf + 2 := by
    intro var t p
    have := intConv_nf A var t p
    unfold placeArg
    split
    · omega
    · split
      · split
        · dsimp only; omega
        · omega
      · split
        · dsimp only; omega
        · split
          · dsimp only; omega
          · split
            · dsimp only; omega
            · omega
      · omega
  induction ts with
  | nil => intro _ _ _; trivial
  | cons t ts ih =>
    intro i p h
    rw [List.length_cons] at h
    refine ⟨fun _ _ _ _ _ => by omega, ih ?_⟩
    have := hnf (decide (nf ≤ i)) t p
    omega

example : RvSingles rvD rvS24 rvSig := by
  have hdec : (callEntry rvD (coreBytes rvD rvS24 rvSig) rvS24 rvSig (rvIn 7)).uf ≤ 8 := by decide +kernel
  exact (call_slots ⟨.inr rfl, .inr (.inr rfl)⟩ (.obj plain_rvS24) rvSig_plain rfl).1 hdec

example : placeFrom (abi rvD) 100 rvSig 0 (start (abi rvD) (retOf rvS24)) =
    [.direct [⟨0, 1, .a 1⟩], .direct [⟨0, 4, .fa 0⟩, ⟨4, 4, .a 2⟩], .ref (.a 3), .direct [⟨0, 8, .fa 1⟩],
      .direct [⟨0, 8, .fa 2⟩], .direct [⟨0, 8, .a 4⟩, ⟨8, 4, .a 5⟩], .direct [⟨0, 4, .fa 3⟩]] := by
  decide +kernel

/-- C52 violated: copies are aligned to XLEN only.  On LP64, after a struct of 24 bytes
the copy of a `struct { long double; int; }` is at an odd multiple of 8. -/
theorem C52_misaligned : ∃ (I : CallIn), RvCall rvD rvVoid [rvS24, rvS32] I ∧ RvSingles rvD rvVoid [rvS24, rvS32] ∧
    ¬ AllAligned (abi rvD) (callEntry rvD (coreBytes rvD rvVoid [rvS24, rvS32]) rvVoid [rvS24, rvS32] I).entry.regs
      [rvS24, rvS32] (placeFrom (abi rvD) rvD.nfixed [rvS24, rvS32] 0 (start (abi rvD) (retOf rvVoid))) := by
  refine ⟨rvIn 2, ?_, rv_singles_small (by decide), ?_⟩
  · exact ⟨⟨.inr rfl, .inr (.inr rfl)⟩, .void, by simpa using ⟨plain_rvS24, plain_rvS32⟩, rfl, fun _ => rfl, by decide +kernel,
      by decide, by decide, by decide, by decide +kernel, by decide +kernel, by intro a h; cases h⟩
  · have hp : placeFrom (abi rvD) rvD.nfixed [rvS24, rvS32] 0 (start (abi rvD) (retOf rvVoid)) =
        [.ref (.a 0), .ref (.a 1)] := by decide +kernel
    rw [hp]
    intro h
    have h2 : rvS32.align ∣ leNat ((callEntry rvD (coreBytes rvD rvVoid [rvS24, rvS32]) rvVoid [rvS24, rvS32] (rvIn 2)).entry.a 1) :=
      h.2.1
    revert h2
    decide +kernel

/-! ## C43 — stores of a call -/

/-- C43: `cb.used_float`, hence the number of the last floating-point slot written, stays
within the register image exactly if no named struct of one real is met with all eight
registers in use. -/
theorem C43_slots {c : Cfg} {rt : FType} {ats : List FType} {I : CallIn} (h : RvCall c rt ats I) :
    (callEntry c (coreBytes c rt ats) rt ats I).uf ≤ 8 ↔ RvSingles c rt ats :=
  call_slots h.ok h.rtOk h.atsOk h.len

/-- C43 (partial: in that case): memory outside of the allocated block is unchanged; in
it, the stack arguments fit in front, then the result, then the copies, then the
register image. -/
theorem C43_stores_partial {c : Cfg} {rt : FType} {ats : List FType} {I : CallIn} (h : RvCall c rt ats I)
    (hs : RvSingles c rt ats) :
    let O := callEntry c (coreBytes c rt ats) rt ats I
    (∀ x, x < O.entry.sp ∨ I.sp ≤ x → O.entry.mem x = I.mem x) ∧
    ∃ args result copied,
      O.entry.sp + args + result + copied = O.ctx ∧ O.ctx + ctxSize c ≤ I.sp ∧
      (endFrom (abi c) c.nfixed ats 0 (start (abi c) (retOf rt))).ns ≤ args ∧
      (I.rvalue = none → 2 * c.w < rt.size → O.rvalue = O.entry.sp + args ∧ rt.size ≤ result) ∧
      AllOut (abi c) O.entry.regs 0 (O.entry.sp + args + result) ats
        (placeFrom (abi c) c.nfixed ats 0 (start (abi c) (retOf rt))) := by
  dsimp only
  have P := callEntry_spec (rv_pre h hs)
  generalize callEntry c (coreBytes c rt ats) rt ats I = O at P
  obtain ⟨ss, hss, hd, hall, htop⟩ := P.copyBase
  have hb := P.block
  refine ⟨fun x hx => P.frame x (by omega), argBytes c ats.length, rvalBytes c rt I.rvalue,
    ffiAlign (coreBytes c rt ats) 16, ?_, ?_, P.stack, ?_, ?_⟩
  · have := hb.2.2
    unfold blockBytes at this
    omega
  · omega
  · intro hn hbig
    have e : rvalBytes c rt I.rvalue = roundUp rt.size 16 := by
      unfold rvalBytes
      rw [if_pos ⟨hn, hbig⟩, align_small (by omega) (by have := h.size; omega)]
    have hge : rt.size ≤ roundUp rt.size 16 := roundUp_ge (by decide)
    rw [P.rvalue, e, if_pos (by omega)]
    exact ⟨rfl, hge⟩
  · rw [hss]
    exact rv_above hall (Nat.le_refl _)

/-- C43 without floating-point argument registers. -/
theorem C43_stores_soft {c : Cfg} {rt : FType} {ats : List FType} {I : CallIn} (h : RvCall c rt ats I) (hf : c.fl = 0)
    (x : Nat) (hx : x < (callEntry c (coreBytes c rt ats) rt ats I).entry.sp ∨ I.sp ≤ x) :
    (callEntry c (coreBytes c rt ats) rt ats I).entry.mem x = I.mem x :=
  (C43_stores_partial h (rvSingles_soft hf rt ats)).1 x hx

/-- C43 violated: on LP64D nineteen arguments of type `struct { double x; }` make
`ffi_call` write above the block it has allocated. -/
theorem C43_overrun : ∃ (ats : List FType) (I : CallIn), RvCall rvD rvVoid ats I ∧
    ∃ x, I.sp ≤ x ∧ (callEntry rvD (coreBytes rvD rvVoid ats) rvVoid ats I).entry.mem x ≠ I.mem x := by
  refine ⟨List.replicate 19 rvS1, rvIn 19, ?_, 4096, by decide, by decide +kernel⟩
  exact ⟨⟨.inr rfl, .inr (.inr rfl)⟩, .void, by intro t h; rw [List.eq_of_mem_replicate h]; exact plain_rvS1, rfl,
    fun _ => rfl, by decide +kernel, by decide, by decide, by decide, by decide +kernel, by decide +kernel,
    by intro a h; cases h⟩

example : RvCall rvD rvS24 rvSig (rvIn 7) := rvSig_call

/-! ## C42 — from call to closure -/

/-- C42 (partial: no struct of one real beyond the eighth floating-point register): the
handler of a closure entered from `ffi_call` with the same signature finds every
argument; if it returns in memory, it gets the caller's address.  The arguments stay
while it writes the result. -/
theorem C42_arguments_partial {c : Cfg} {rt : FType} {ats : List FType} {I : CallIn} (h : RvCall c rt ats I)
    (hs : RvSingles c rt ats) (fp ra : Nat)
    (hroom : closureFrame c rt.size ats.length ≤ (callEntry c (coreBytes c rt ats) rt ats I).entry.sp) :
    let O := callEntry c (coreBytes c rt ats) rt ats I
    let V := closureEntry c rt ats fp ra O.entry
    AllFound V.mem ats (argVals I.mem ats I.avalue) V.avalue ∧
    (∀ m : Mem, (∀ x, ¬ (V.byRef = false ∧ V.rvalue ≤ x ∧ x < V.rvalue + max rt.size 16) → m x = V.mem x) →
      AllFound m ats (argVals I.mem ats I.avalue) V.avalue) ∧
    ((∀ t ∈ ats, t.align ≤ c.w) → AllPtrs ats V.avalue) ∧
    (∀ x, O.entry.sp ≤ x → V.mem x = O.entry.mem x) ∧
    V.byRef = O.byRef ∧ (V.byRef = true → V.rvalue = O.rvalue) := by
  dsimp only
  have hp := C52_args_partial h hs
  dsimp only at hp
  have P := callEntry_spec (rv_pre h hs)
  generalize callEntry c (coreBytes c rt ats) rt ats I = O at P hroom hp
  obtain ⟨ss, hss, hd, hall, _⟩ := P.copyBase
  have hb := P.block
  have hst := P.stack
  have hsp := h.sp
  have pre : ClosurePre c rt ats (argVals I.mem ats I.avalue) O.entry := by
    refine ⟨h.ok, h.rtOk, h.atsOk, ?_, ?_, P.align, ?_, hroom, rv_sized h.len, hp.2.1, rv_above hall (by omega), hs⟩
    · intro k
      have := congrArg (fun R : Regs => R.fa k) P.regs
      rw [show O.entry.fa k = O.entry.regs.fa k from rfl, this]
      exact Mem.rd_length _ _ _
    · intro k
      have := congrArg (fun R : Regs => R.a k) P.regs
      rw [show O.entry.a k = O.entry.regs.a k from rfl, this]
      exact Mem.rd_length _ _ _
    · have := hb.2.1
      unfold blockBytes at this
      omega
  have Q := closureEntry_spec pre fp ra
  have hbr : (closureEntry c rt ats fp ra O.entry).byRef = O.byRef := by rw [Q.byRef, P.byRef]
  refine ⟨Q.found _ (fun _ _ => rfl), Q.found, fun ha => Q.ptrs (rv_aligned h.ok.1 hall hd h.atsOk ha), ?_, hbr, ?_⟩
  · intro x hx
    exact Q.frame x (.inr hx)
  · intro hv
    rw [Q.ret hv]
    exact P.ret (by rw [← hbr]; exact hv)

/-- C42 without floating-point argument registers. -/
theorem C42_arguments_soft {c : Cfg} {rt : FType} {ats : List FType} {I : CallIn} (h : RvCall c rt ats I)
    (hf : c.fl = 0) (fp ra : Nat)
    (hroom : closureFrame c rt.size ats.length ≤ (callEntry c (coreBytes c rt ats) rt ats I).entry.sp) :
    let V := closureEntry c rt ats fp ra (callEntry c (coreBytes c rt ats) rt ats I).entry
    AllFound V.mem ats (argVals I.mem ats I.avalue) V.avalue :=
  (C42_arguments_partial h (rvSingles_soft hf rt ats) fp ra hroom).1

example : closureFrame rvD rvS24.size rvSig.length ≤
    (callEntry rvD (coreBytes rvD rvS24 rvSig) rvS24 rvSig (rvIn 7)).entry.sp := by decide +kernel
example : closureFrame rvVar rvS24.size rvSig.length ≤
    (callEntry rvVar (coreBytes rvVar rvS24 rvSig) rvS24 rvSig (rvIn 7)).entry.sp := by decide +kernel
example : RvSingles rvVar rvS24 rvSig :=
  (call_slots ⟨.inr rfl, .inr (.inr rfl)⟩ (.obj plain_rvS24) rvSig_plain (I := rvIn 7) (bytes := 0) rfl).1
    (by decide +kernel)

/-- Computed check of `AllFound`. -/
def rvFound (m : Mem) : List FType → List (List Byte) → List Nat → Bool
  | t :: ts, v :: vs, a :: as =>
    (leaves t 0).all (fun l => ((m.rd a t.size).drop l.off).take l.size == (v.drop l.off).take l.size) &&
      rvFound m ts vs as
  | [], [], [] => true
  | _, _, _ => false

theorem rvFound_of {m : Mem} {ts : List FType} :
    ∀ {vs : List (List Byte)} {as : List Nat}, AllFound m ts vs as → rvFound m ts vs as = true := by
  induction ts with
  | nil => intro vs as h; cases vs <;> cases as <;> first | rfl | cases h
  | cons t ts ih =>
    intro vs as h
    cases vs with
    | nil => cases h
    | cons v vs =>
      cases as with
      | nil => cases h
      | cons a as =>
        rw [rvFound, ih h.2, Bool.and_true, List.all_eq_true]
        intro l hl
        rw [beq_iff_eq]
        exact h.1 l hl

/-- C42 violated: on LP64D the ninth `struct { double x; }` is passed in `a0` by accident,
where a following integer overwrites it. -/
theorem C42_lost : ∃ (ats : List FType) (I : CallIn), RvCall rvD rvVoid ats I ∧
    closureFrame rvD rvVoid.size ats.length ≤ (callEntry rvD (coreBytes rvD rvVoid ats) rvVoid ats I).entry.sp ∧
    ¬ AllFound (closureEntry rvD rvVoid ats 0 0 (callEntry rvD (coreBytes rvD rvVoid ats) rvVoid ats I).entry).mem ats
      (argVals I.mem ats I.avalue)
      (closureEntry rvD rvVoid ats 0 0 (callEntry rvD (coreBytes rvD rvVoid ats) rvVoid ats I).entry).avalue := by
  refine ⟨List.replicate 9 rvS1 ++ [rvI64], rvIn 10, ?_, by decide +kernel, ?_⟩
  · refine ⟨⟨.inr rfl, .inr (.inr rfl)⟩, .void, ?_, rfl, fun _ => rfl, by decide +kernel,
      by decide, by decide, by decide, by decide +kernel, by decide +kernel, by intro a h; cases h⟩
    intro t h
    rw [List.mem_append, List.mem_singleton] at h
    rcases h with h | h
    · rw [List.eq_of_mem_replicate h]; exact plain_rvS1
    · rw [h]; exact plain_rvI64
  · intro h
    have := rvFound_of h
    revert this
    decide +kernel

/-! ## C53 — results -/

/-- C53, calls: if the function leaves its result in the registers the standard assigns,
all members of the object at `rvalue` have its value afterwards, and nothing outside of
it (or of the word there) and of the register image has changed. -/
theorem C53_call {c : Cfg} (hc : (c.w = 4 ∨ c.w = 8) ∧ (c.fl = 0 ∨ c.fl = 4 ∨ c.fl = 8)) {rt : FType}
    (h : Plain (tab c.w) rt) {rvalue ctx : Nat} {R : RetRegs} (hl : RetLens c R) (m : Mem) (hr : rvalue ≠ 0)
    (hnr : (retPlace (abi c) rt).isRef = false) (hd : rvalue + 16 ≤ ctx ∨ ctx + ctxSize c ≤ rvalue) {v : List Byte}
    (hv : v.length = rt.size) (hp : PassedAt (abi c) (R.regs m) rt v (retPlace (abi c) rt)) :
    SameMembers rt ((finishCall c rt rvalue false ctx R m).rd rvalue rt.size) v ∧
    ∀ x, (x < rvalue ∨ rvalue + max rt.size c.w ≤ x) → (x < ctx ∨ ctx + ctxSize c ≤ x) →
      finishCall c rt rvalue false ctx R m x = m x :=
  finish_spec hc h hl m hr hnr hd hv hp

/-- C53, calls whose result is in memory or not wanted: nothing but the register image
changes after the function has returned. -/
theorem C53_memory {c : Cfg} {rt : FType} {rvalue ctx : Nat} {R : RetRegs} {byRef : Bool} (hl : RetLens c R) (m : Mem)
    (h : byRef = true ∨ rvalue = 0) (x : Nat) (hx : x < ctx ∨ ctx + ctxSize c ≤ x) :
    finishCall c rt rvalue byRef ctx R m x = m x := by
  rw [finish_none m h, saved_out hl m x hx]

/-- C53, closures: the value the handler has stored is in the registers the standard
assigns, widened and NaN-boxed. -/
theorem C53_closure {c : Cfg} (hc : (c.w = 4 ∨ c.w = 8) ∧ (c.fl = 0 ∨ c.fl = 4 ∨ c.fl = 8)) {rt : FType}
    (h : Plain (tab c.w) rt) {rvalue ctx : Nat} (hnr : (retPlace (abi c) rt).isRef = false)
    (hctx : ctx < 2 ^ 62 ∧ ctx ≤ 256 ^ c.w) {junk : List Byte} (hj : junk.length = 2 * c.w) (m m' : Mem) :
    let R := closureExit c rt rvalue false ctx junk m
    RetLens c R ∧
    PassedAt (abi c) (R.regs m') rt (m.rd rvalue rt.size) (retPlace (abi c) rt) ∧
    ExtendedAt (abi c) (R.regs m') rt (m.rd rvalue rt.size) (retPlace (abi c) rt) :=
  closureExit_spec hc h hnr hctx.1 hctx.2 hj m m'

/-- C53: a result survives the way from the handler of a closure to the caller of
`ffi_call`. -/
theorem C53_roundtrip {c : Cfg} (hc : (c.w = 4 ∨ c.w = 8) ∧ (c.fl = 0 ∨ c.fl = 4 ∨ c.fl = 8)) {rt : FType}
    (h : Plain (tab c.w) rt) (hnr : (retPlace (abi c) rt).isRef = false) {buf ctx' : Nat}
    (hctx : ctx' < 2 ^ 62 ∧ ctx' ≤ 256 ^ c.w) {junk : List Byte} (hj : junk.length = 2 * c.w) (m m' : Mem)
    {rvalue ctx : Nat} (hr : rvalue ≠ 0) (hd : rvalue + 16 ≤ ctx ∨ ctx + ctxSize c ≤ rvalue) :
    SameMembers rt ((finishCall c rt rvalue false ctx (closureExit c rt buf false ctx' junk m) m').rd rvalue rt.size)
      (m.rd buf rt.size) := by
  have hx := closureExit_spec hc h (rvalue := buf) hnr hctx.1 hctx.2 hj m m'
  exact (finish_spec hc h hx.1 m' hr hnr hd (Mem.rd_length _ _ _) hx.2.1).1

example : Plain (tab 8) rvMixed ∧ retPlace (abi rvD) rvMixed = .direct [⟨0, 4, .fa 0⟩, ⟨4, 4, .a 0⟩] :=
  ⟨plain_rvMixed, by decide +kernel⟩
example : (retPlace (abi rvD) rvS24).isRef = true := by decide +kernel
example : RetLens rvD ⟨fun _ => List.replicate 8 1, fun _ => List.replicate 8 2⟩ :=
  ⟨fun _ => rfl, fun _ => rfl⟩

/-- C53 violated: `rvalue` is to be ignored for `void` functions (doc/libffi.texi:213-215),
but one byte of `a0` is stored there. -/
theorem C53_void_stores : ∃ (R : RetRegs) (m : Mem) (rvalue ctx : Nat), RetLens rvD R ∧ rvalue + 16 ≤ ctx ∧
    finishCall rvD rvVoid rvalue false ctx R m rvalue ≠ m rvalue :=
  ⟨⟨fun _ => List.replicate 8 1, fun _ => List.replicate 8 2⟩, fun _ => 0, 16, 64, ⟨fun _ => rfl, fun _ => rfl⟩, by decide,
    by decide +kernel⟩

/-! ## C44 — widened integer results -/

/-- The bytes are the value as an `ffi_arg`: zero- or sign-extended according to the type. -/
def RvFfiArg (tc : TC) (v stored : List Byte) : Prop :=
  (intVal (signed tc) v - leNat stored) % 256 ^ stored.length = 0

/-- C44 (partial: not for `uint32_t` on 64-bit targets): an integer result narrower than
`ffi_arg`, returned as the standard prescribes, is stored as a whole `ffi_arg`, extended
according to its type; nothing else changes but the register image. -/
theorem C44_widened_partial {c : Cfg} (hc : (c.w = 4 ∨ c.w = 8) ∧ (c.fl = 0 ∨ c.fl = 4 ∨ c.fl = 8)) {rt : FType}
    (h : Plain (tab c.w) rt) (hi : (abi c).integer rt.tc = true) (hs : rt.size < c.w) (hu : rt.tc ≠ .uint32)
    {rvalue ctx : Nat} {R : RetRegs} (hl : RetLens c R) (m : Mem) (hr : rvalue ≠ 0)
    {v : List Byte} (hv : v.length = rt.size) (hw : Widened rt.tc v (R.a 0)) :
    RvFfiArg rt.tc v ((finishCall c rt rvalue false ctx R m).rd rvalue c.w) ∧
    ∀ x, (x < rvalue ∨ rvalue + c.w ≤ x) → (x < ctx ∨ ctx + ctxSize c ≤ x) →
      finishCall c rt rvalue false ctx R m x = m x := by
  have hst : rt.tc ≠ .struct := by
    intro h'; rw [h'] at hi; cases hi
  have ht := scalar_of h hst
  rw [finish_small hc hl m hi hs hr]
  constructor
  · have e := Mem.rd_wr_same (savedRets c ctx R m) rvalue (R.a 0)
    rw [hl.a] at e
    rw [e]
    unfold Widened at hw
    unfold RvFfiArg
    have hsg : (signed rt.tc || decide (v.length = 4)) = signed rt.tc := by
      rw [hv]
      generalize rt.size = s at ht
      generalize rt.tc = tc at ht hu hi
      cases tc <;> first | exact absurd rfl hu | exact Bool.noConfusion hi | rfl |
        (simp [tab] at ht; simp [signed]; omega)
    rw [hsg] at hw
    exact hw
  · intro x hx hx'
    rw [Mem.wr_out _ _ _ _ (by rw [hl.a]; omega), saved_out hl m x hx']

/-- C44 on 32-bit targets: no exception. -/
theorem C44_widened_rv32 {c : Cfg} (hc : c.w = 4 ∧ (c.fl = 0 ∨ c.fl = 4 ∨ c.fl = 8)) {rt : FType}
    (h : Plain (tab c.w) rt) (hi : (abi c).integer rt.tc = true) (hs : rt.size < c.w)
    {rvalue ctx : Nat} {R : RetRegs} (hl : RetLens c R) (m : Mem) (hr : rvalue ≠ 0)
    {v : List Byte} (hv : v.length = rt.size) (hw : Widened rt.tc v (R.a 0)) :
    RvFfiArg rt.tc v ((finishCall c rt rvalue false ctx R m).rd rvalue c.w) := by
  refine (C44_widened_partial ⟨.inl hc.1, hc.2⟩ h hi hs ?_ hl m hr hv hw (ctx := ctx)).1
  intro hu
  have hst : rt.tc ≠ .struct := by rw [hu]; decide
  have ht := scalar_of h hst
  rw [hu] at ht
  have : (4, 4) = (rt.size, rt.align) := Option.some.inj ht
  have := congrArg Prod.fst this
  dsimp only at this
  omega

/-- C44 from closure to call. -/
theorem C44_roundtrip_partial {c : Cfg} (hc : (c.w = 4 ∨ c.w = 8) ∧ (c.fl = 0 ∨ c.fl = 4 ∨ c.fl = 8)) {rt : FType}
    (h : Plain (tab c.w) rt) (hi : (abi c).integer rt.tc = true) (hs : rt.size < c.w) (hu : rt.tc ≠ .uint32)
    {buf ctx' : Nat} (hctx : ctx' < 2 ^ 62 ∧ ctx' ≤ 256 ^ c.w) {junk : List Byte} (hj : junk.length = 2 * c.w)
    (m m' : Mem) {rvalue ctx : Nat} (hr : rvalue ≠ 0) :
    RvFfiArg rt.tc (m.rd buf rt.size)
      ((finishCall c rt rvalue false ctx (closureExit c rt buf false ctx' junk m) m').rd rvalue c.w) := by
  have hpl := ret_int_place hc h hi hs
  have hx := closureExit_spec hc h (rvalue := buf) (by rw [hpl]; rfl) hctx.1 hctx.2 hj m m'
  rw [hpl] at hx
  exact (C44_widened_partial hc h hi hs hu hx.1 m' hr (Mem.rd_length _ _ _) ((hx.2.2 ⟨0, rt.size, .a 0⟩ (by simp)).1 hi)
    (ctx := ctx)).1

example : (abi rvD).integer rvI8.tc = true ∧ rvI8.size < rvD.w ∧ rvI8.tc ≠ .uint32 ∧
    Widened .sint8 [0x80] [0x80, 0xff, 0xff, 0xff, 0xff, 0xff, 0xff, 0xff] := by
  refine ⟨rfl, by decide, by decide, ?_⟩
  unfold Widened; decide

/-- C44 violated: a `uint32_t` result of 2^31 on a 64-bit target, sign-extended by the
function as the standard demands, is stored as 2^64 - 2^31. -/
theorem C44_uint32_sign_extended : ∃ (R : RetRegs) (v : List Byte) (m : Mem) (rvalue ctx : Nat), RetLens rvD R ∧
    v.length = 4 ∧ Widened .uint32 v (R.a 0) ∧ rvalue + 16 ≤ ctx ∧
    ¬ RvFfiArg .uint32 v ((finishCall rvD rvU32 rvalue false ctx R m).rd rvalue 8) := by
  refine ⟨⟨fun _ => List.replicate 8 0, fun _ => [0, 0, 0, 0x80, 0xff, 0xff, 0xff, 0xff]⟩, [0, 0, 0, 0x80], fun _ => 0, 16, 64,
    ⟨fun _ => rfl, fun _ => rfl⟩, rfl, ?_, by decide, ?_⟩
  · unfold Widened; decide
  · unfold RvFfiArg; decide +kernel

end Verif.Props
