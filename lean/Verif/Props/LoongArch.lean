import Verif.LoongArch.RetLemmas
import Verif.LoongArch.Room
import Verif.Spec.LoongArch
import Verif.Props.RiscV

/-
Properties C72-C75: LoongArch64.
-/
namespace Verif.Props
open Verif Spec Spec.RV Spec.LA RV

/-! ## Calls -/

/-- A prepared call: the target, the types, as many values as types, `cif->bytes` not
wrapped, and enough stack, in which there are no argument objects yet.  No variadic
argument is a `float` (C says they are promoted; `ffi_prep_cif_var` checks for
`ffi_type_float`). -/
structure LaCall (c : Cfg) (rt : FType) (ats : List FType) (I : CallIn) : Prop where
  ok : c.w = 8 ∧ (c.fl = 0 ∨ c.fl = 8)
  rtOk : RetType c.w rt
  atsOk : ∀ t ∈ ats, Plain (tab c.w) t
  promoted : ∀ t ∈ ats.drop c.nfixed, t.tc ≠ .float
  len : I.avalue.length = ats.length
  junk : ∀ i, (I.junk i).length = 16
  fits : reserve 8 (if rt.tc = .struct then 8 else 0) ats < 2 ^ 32
  size : rt.size < 2 ^ 61
  sp : I.sp < 2 ^ 62
  room : LA.blockBytes c (coreBytes c rt ats) rt I.rvalue + 16 ≤ I.sp
  out : ∀ q ∈ ats.zip I.avalue,
    q.2 + q.1.size ≤ I.sp - (LA.blockBytes c (coreBytes c rt ats) rt I.rvalue + 16) ∨ I.sp ≤ q.2
  rv : ∀ a, I.rvalue = some a → a < 2 ^ 64

/-- The area of `cif->bytes` bytes at the stack pointer has room for the arguments on the
stack, from the bottom, and for the copies of those passed by reference, from the top. -/
def LaRoom (c : Cfg) (rt : FType) (ats : List FType) : Prop :=
  LA.Room (abi c) c.nfixed ats 0 (start (abi c) (retOf rt)) (coreBytes c rt ats)

theorem la_abi {c : Cfg} (h : c.w = 8 ∧ (c.fl = 0 ∨ c.fl = 8)) : (abi c).Ok :=
  ⟨.inr h.1, by rcases h.2 with h | h; exact .inl h; exact .inr (.inr h)⟩

theorem la_bytes {c : Cfg} {rt : FType} {ats : List FType} {I : CallIn} (h : LaCall c rt ats I) :
    coreBytes c rt ats = reserve 8 (if rt.tc = .struct then 8 else 0) ats := by
  have hw := h.ok.1
  have e := foldl_addArgBytes (w := 8) (.inr rfl) (ts := ats) (b := if rt.tc = .struct then 8 else 0)
    (fun t ht => (plain_wf (h.atsOk t ht)).align_cases (tab_ok (.inr hw))) h.fits
  rw [← e, coreBytes, hw]

theorem la_pre {c : Cfg} {rt : FType} {ats : List FType} {I : CallIn} (h : LaCall c rt ats I)
    (hs : RvSingles c rt ats) (hr : LaRoom c rt ats) : LA.CallPre c (coreBytes c rt ats) rt ats I := by
  have hw := h.ok.1
  have hp : 256 ^ c.w = 2 ^ 64 := by rw [hw]; decide
  refine ⟨la_abi h.ok, h.rtOk, h.atsOk, h.len, fun i => by rw [h.junk i, hw], ⟨h.sp, ?_⟩, ?_, ?_, ?_, hs, hr⟩
  · have := h.sp; omega
  · have := h.room; omega
  · intro q hq
    have h1 := h.out q hq
    have h2 := h.room
    have e : (LA.callEntry c (coreBytes c rt ats) rt ats I).base =
        (I.sp - LA.blockBytes c (coreBytes c rt ats) rt I.rvalue) / 16 * 16 := rfl
    rw [e]
    omega
  · rw [hp]; exact h.rv

theorem la_args {c : Cfg} {R : Regs} {base : Nat} (hw : c.w = 8) (hb : 16 ∣ base) {ts : List FType} :
    ∀ {vs : List (List Byte)} {i : Nat} {p : Pos} {low : Nat},
      LA.AllArgs (abi c) c.nfixed R base ts vs i p low → LA.Room (abi c) c.nfixed ts i p low →
      (∀ t ∈ ts, Plain (tab c.w) t) →
      AllPassed (abi c) R ts vs (placeFrom (abi c) c.nfixed ts i p) ∧
      AllWidened (abi c) R ts vs (placeFrom (abi c) c.nfixed ts i p) ∧
      AllAligned (abi c) R ts (placeFrom (abi c) c.nfixed ts i p) ∧
      AllIn (abi c) R (base + (endFrom (abi c) c.nfixed ts i p).ns) (base + low) ts
        (placeFrom (abi c) c.nfixed ts i p) := by
  induction ts with
  | nil =>
    intro vs i p low h _ _
    cases vs with
    | nil => exact ⟨trivial, trivial, trivial, trivial⟩
    | cons => cases h
  | cons t ts ih =>
    intro vs i p low h hr hp
    cases vs with
    | nil => cases h
    | cons v vs =>
      obtain ⟨h1, h2⟩ := h
      have hp' : ∀ x ∈ ts, Plain (tab c.w) x := fun x hx => hp x (by simp [hx])
      obtain ⟨i1, i2, i3, i4⟩ := ih h2 hr.2 hp'
      have hns := LA.room_ns (by omega) hr.2
      have hle := LA.endLow_le (abi c) c.nfixed ts (i + 1) (placeArg (abi c) (decide (c.nfixed ≤ i)) t p).2
        (LA.lowAfter t (placeArg (abi c) (decide (c.nfixed ≤ i)) t p).1 low)
      have hlow := LA.lowAfter_le t (placeArg (abi c) (decide (c.nfixed ≤ i)) t p).1 low
      have hin : AllIn (abi c) R (base + (endFrom (abi c) c.nfixed (t :: ts) i p).ns) (base + low) ts
          (placeFrom (abi c) c.nfixed ts (i + 1) (placeArg (abi c) (decide (c.nfixed ≤ i)) t p).2) := by
        have hmono : ∀ {ts : List FType} {ps : List Place} {lo hi hi' : Nat}, hi ≤ hi' →
            AllIn (abi c) R lo hi ts ps → AllIn (abi c) R lo hi' ts ps := by
          intro ts
          induction ts with
          | nil => intro ps lo hi hi' _ h; cases ps <;> exact h
          | cons t ts ih =>
            intro ps lo hi hi' hh h
            cases ps with
            | nil => exact h
            | cons pl ps =>
              refine ⟨?_, ih hh h.2⟩
              have := h.1
              cases pl with
              | direct => trivial
              | ref l => exact ⟨this.1, Nat.le_trans this.2 hh⟩
        exact hmono (by omega) i4
      refine ⟨⟨h1.passed, i1⟩, ⟨?_, i2⟩, ⟨?_, i3⟩, ⟨?_, hin⟩⟩
      · have he := h1.ext
        cases hpl : (placeArg (abi c) (decide (c.nfixed ≤ i)) t p).1 with
        | direct ps => intro hi q hq; exact he ps hpl hi q hq
        | ref l => trivial
      · have hre := h1.ref
        cases hpl : (placeArg (abi c) (decide (c.nfixed ≤ i)) t p).1 with
        | direct => trivial
        | ref l =>
          rw [hpl] at hre
          show t.align ∣ leNat (R.at (abi c) l)
          rw [show leNat (R.at (abi c) l) = base + LA.lowAfter t (.ref l) low from hre]
          have hal : t.align ∣ 16 := by
            rcases (plain_wf (hp t (by simp))).align_cases (tab_ok (.inr hw)) with h | h | h | h | h <;> rw [h] <;> decide
          exact Nat.dvd_add (hal.trans hb) (Nat.dvd_mul_left _ _)
      · have hre := h1.ref
        have hfit := hr.1
        cases hpl : (placeArg (abi c) (decide (c.nfixed ≤ i)) t p).1 with
        | direct => trivial
        | ref l =>
          rw [hpl] at hre hfit hns hle
          have hfit := hfit rfl
          have e : leNat (R.at (abi c) l) = base + LA.lowAfter t (.ref l) low := hre
          have hlow : LA.lowAfter t (.ref l) low + t.size ≤ low := by
            have e : LA.lowAfter t (.ref l) low = (low - t.size) / t.align * t.align := rfl
            have := Nat.div_mul_le_self (low - t.size) t.align
            omega
          show base + (endFrom (abi c) c.nfixed ts (i + 1) _).ns ≤ leNat (R.at (abi c) l) ∧ _
          rw [e]
          omega

/-! ## C72 — arguments as the standard prescribes -/

/-- C72 (partial: no struct of one real beyond the eighth floating-point register, and
room for the copies): the called function finds the stack pointer aligned, every argument
in the place the standard assigns, widened, references to aligned copies, and the address
of the result in `a0`. -/
theorem C72_args_partial {c : Cfg} {rt : FType} {ats : List FType} {I : CallIn} (h : LaCall c rt ats I)
    (hs : RvSingles c rt ats) (hr : LaRoom c rt ats) :
    let O := LA.callEntry c (coreBytes c rt ats) rt ats I
    let ps := placeFrom (abi c) c.nfixed ats 0 (start (abi c) (retOf rt))
    16 ∣ O.entry.sp ∧
    AllPassed (abi c) O.entry.regs ats (argVals I.mem ats I.avalue) ps ∧
    AllWidened (abi c) O.entry.regs ats (argVals I.mem ats I.avalue) ps ∧
    AllAligned (abi c) O.entry.regs ats ps ∧
    (∀ t, retOf rt = some t → (retPlace (abi c) t).isRef = true → leNat (O.entry.a 0) = O.rvalue ∧
      ∀ a, I.rvalue = some a → O.rvalue = a) := by
  dsimp only
  have P := LA.callEntry_spec (la_pre h hs hr)
  generalize LA.callEntry c (coreBytes c rt ats) rt ats I = O at P
  obtain ⟨h1, h2, h3, _⟩ := la_args h.ok.1 P.align P.args hr h.atsOk
  refine ⟨P.align, h1, h2, h3, ?_⟩
  intro t ht hr
  have hb : O.byRef = true := by rw [P.byRef, ht]; exact hr
  refine ⟨P.ret hb, fun a ha => ?_⟩
  rw [P.rvalue, ha]
  simp [rvalBytes]

/-- When there is room (1): no argument is passed by reference. -/
theorem C72_room_direct {c : Cfg} {rt : FType} {ats : List FType} {I : CallIn} (h : LaCall c rt ats I)
    (hd : ∀ t ∈ ats, t.size ≤ 16) : LaRoom c rt ats := by
  have hw := h.ok.1
  have hst : (start (abi c) (retOf rt)).ns = 0 := by
    rw [start_eq (la_abi h.ok) h.rtOk 0 0]; split <;> rfl
  have hb : 8 ∣ (if rt.tc = .struct then 8 else 0) := by split <;> decide
  unfold LaRoom
  rw [la_bytes h]
  exact LA.room_of hw h.atsOk (LA.reserve_dvd (by rw [← hw]; exact h.atsOk) hb) (Nat.le_refl _)
    (LA.needs_noRef hw h.atsOk hd (by rw [hst]; exact Nat.zero_le _))

/-- When there is room (2): no type is aligned to more than eight bytes, and no reference
is passed on the stack (one may be, if the function returns a struct). -/
theorem C72_room_registers {c : Cfg} {rt : FType} {ats : List FType} {I : CallIn} (h : LaCall c rt ats I)
    (ha : ∀ t ∈ ats, t.align ≤ 8)
    (hn : LA.stackRefs (abi c) c.nfixed ats 0 (start (abi c) (retOf rt)) ≤ if rt.tc = .struct then 1 else 0) :
    LaRoom c rt ats := by
  have hw := h.ok.1
  have hst : (start (abi c) (retOf rt)).ns = 0 := by
    rw [start_eq (la_abi h.ok) h.rtOk 0 0]; split <;> rfl
  have hb : 8 ∣ (if rt.tc = .struct then 8 else 0) := by split <;> decide
  unfold LaRoom
  rw [la_bytes h]
  refine LA.room_of hw h.atsOk (LA.reserve_dvd (by rw [← hw]; exact h.atsOk) hb) (Nat.le_refl _) ?_
  have := LA.needs_small hw (ts := ats) (i := 0) (p := start (abi c) (retOf rt)) (b := if rt.tc = .struct then 8 else 0)
    (C := if rt.tc = .struct then 8 else 0) h.atsOk ha (by omega)
  split at this <;> rename_i hx
  · rw [if_pos hx] at hn ⊢; omega
  · rw [if_neg hx] at hn ⊢; omega

/-- There is no room if stack arguments and copies together are larger than the area;
for types of at most eight-byte alignment whose sizes are multiples of eight that is
the only case. -/
theorem C72_room_exact {c : Cfg} {rt : FType} {ats : List FType} {I : CallIn} (h : LaCall c rt ats I) :
    (LaRoom c rt ats →
      (endFrom (abi c) c.nfixed ats 0 (start (abi c) (retOf rt))).ns +
        LA.copySizes (abi c) c.nfixed ats 0 (start (abi c) (retOf rt)) ≤ coreBytes c rt ats) ∧
    ((∀ t ∈ ats, t.align ≤ 8 ∧ 8 ∣ t.size) →
      (endFrom (abi c) c.nfixed ats 0 (start (abi c) (retOf rt))).ns +
        LA.copySizes (abi c) c.nfixed ats 0 (start (abi c) (retOf rt)) ≤ coreBytes c rt ats → LaRoom c rt ats) := by
  have hw := h.ok.1
  have hb : 8 ∣ (if rt.tc = .struct then 8 else 0) := by split <;> decide
  refine ⟨LA.room_needs, fun ha hle => ?_⟩
  rw [← LA.needs_eq ha] at hle
  refine LA.room_of hw h.atsOk ?_ (Nat.le_refl _) hle
  rw [la_bytes h]
  exact LA.reserve_dvd (by rw [← hw]; exact h.atsOk) hb

/-- C72 without floating-point argument registers, for arguments up to two words: no
further condition. -/
theorem C72_args_soft {c : Cfg} {rt : FType} {ats : List FType} {I : CallIn} (h : LaCall c rt ats I) (hf : c.fl = 0)
    (hd : ∀ t ∈ ats, t.size ≤ 16) :
    let O := LA.callEntry c (coreBytes c rt ats) rt ats I
    let ps := placeFrom (abi c) c.nfixed ats 0 (start (abi c) (retOf rt))
    AllPassed (abi c) O.entry.regs ats (argVals I.mem ats I.avalue) ps ∧
    AllWidened (abi c) O.entry.regs ats (argVals I.mem ats I.avalue) ps :=
  have := C72_args_partial h (rvSingles_soft hf rt ats) (C72_room_direct h hd)
  ⟨this.2.1, this.2.2.1⟩

theorem laSig_call : LaCall rvD rvS24 rvSig (rvIn 7) where
  ok := ⟨rfl, .inr rfl⟩
  rtOk := .obj plain_rvS24
  atsOk := rvSig_plain
  promoted := by intro t h; simp [rvSig, rvD] at h
  len := rfl
  junk := fun _ => rfl
  fits := by decide +kernel
  size := by decide
  sp := by decide
  room := by decide +kernel
  out := by decide +kernel
  rv := by intro a h; cases h

/-- Variadic: all but the first two. -/
theorem laVarSig_call : LaCall rvVar rvS24 [rvI8, rvF32, rvMixed, rvS24, rvF64, rvLD, rvS12, rvI64] (rvIn 8) where
  ok := ⟨rfl, .inr rfl⟩
  rtOk := .obj plain_rvS24
  atsOk := by
    simpa using ⟨plain_rvI8, plain_rvF32, plain_rvMixed, plain_rvS24, plain_rvF64, plain_rvLD, plain_rvS12, plain_rvI64⟩
  promoted := by
    intro t h
    simp [rvVar] at h
    rcases h with rfl | rfl | rfl | rfl | rfl | rfl <;> decide
  len := rfl
  junk := fun _ => rfl
  fits := by decide +kernel
  size := by decide
  sp := by decide
  room := by decide +kernel
  out := by decide +kernel
  rv := by intro a h; cases h

theorem laSig_room : LaRoom rvD rvS24 rvSig := C72_room_registers laSig_call (by decide +kernel) (by decide +kernel)
example : RvSingles rvD rvS24 rvSig :=
  (LA.call_slots ⟨.inr rfl, .inr (.inr rfl)⟩ (.obj plain_rvS24) rvSig_plain (I := rvIn 7) (bytes := 216) rfl).1
    (by decide +kernel)
/-- The area is `8 + 8 + … + 24 + …` bytes, the only copy is at its top. -/
example : coreBytes rvD rvS24 rvSig = 88 := by decide +kernel

/-- C72 violated: `ffi_call` does not reserve space for references on the stack.  With
nine structs of 24 bytes the ninth copy and the reference to it share a word. -/
theorem C72_lost_copy : ∃ (ats : List FType) (I : CallIn), LaCall rvD rvVoid ats I ∧ RvSingles rvD rvVoid ats ∧
    ¬ AllPassed (abi rvD) (LA.callEntry rvD (coreBytes rvD rvVoid ats) rvVoid ats I).entry.regs ats
      (argVals I.mem ats I.avalue) (placeFrom (abi rvD) rvD.nfixed ats 0 (start (abi rvD) (retOf rvVoid))) := by
  refine ⟨List.replicate 9 rvS24, rvIn 9, ?_, ?_, ?_⟩
  · exact ⟨⟨rfl, .inr rfl⟩, .void, by intro t h; rw [List.eq_of_mem_replicate h]; exact plain_rvS24,
      by intro t h; rw [List.eq_of_mem_replicate (List.mem_of_mem_drop h)]; decide,
      rfl, fun _ => rfl, by decide +kernel, by decide, by decide, by decide +kernel, by decide +kernel,
      by intro a h; cases h⟩
  · exact (LA.call_slots ⟨.inr rfl, .inr (.inr rfl)⟩ .void
      (by intro t h; rw [List.eq_of_mem_replicate h]; exact plain_rvS24) (I := rvIn 9) (bytes := 216) rfl).1
      (by decide +kernel)
  · have hp : placeFrom (abi rvD) rvD.nfixed (List.replicate 9 rvS24) 0 (start (abi rvD) (retOf rvVoid)) =
        [.ref (.a 0), .ref (.a 1), .ref (.a 2), .ref (.a 3), .ref (.a 4), .ref (.a 5), .ref (.a 6), .ref (.a 7),
          .ref (.stk 0)] := by decide +kernel
    rw [hp]
    intro h
    have h9 := h.2.2.2.2.2.2.2.2.1
    revert h9
    unfold PassedAt
    decide +kernel

/-! ## C73 — stores of a call -/

/-- C73: `cb.used_float`, hence the number of the last floating-point slot written, stays
within the register image exactly if no named struct of one real is met with all eight
registers in use. -/
theorem C73_slots {c : Cfg} {rt : FType} {ats : List FType} {I : CallIn} (h : LaCall c rt ats I) :
    (LA.callEntry c (coreBytes c rt ats) rt ats I).uf ≤ 8 ↔ RvSingles c rt ats :=
  LA.call_slots (la_abi h.ok) h.rtOk h.atsOk h.len

/-- C73 (partial: in that case, and with room for the copies): memory outside of the
allocated block is unchanged; in it there are, from the stack pointer on, the stack
arguments, the copies, the result and the register image. -/
theorem C73_stores_partial {c : Cfg} {rt : FType} {ats : List FType} {I : CallIn} (h : LaCall c rt ats I)
    (hs : RvSingles c rt ats) (hr : LaRoom c rt ats) :
    let O := LA.callEntry c (coreBytes c rt ats) rt ats I
    (∀ x, x < O.entry.sp ∨ I.sp ≤ x → O.entry.mem x = I.mem x) ∧
    ∃ result,
      O.entry.sp + coreBytes c rt ats + result = O.ctx ∧ O.ctx + ctxSize c ≤ I.sp ∧
      AllIn (abi c) O.entry.regs (O.entry.sp + (endFrom (abi c) c.nfixed ats 0 (start (abi c) (retOf rt))).ns)
        (O.entry.sp + coreBytes c rt ats) ats (placeFrom (abi c) c.nfixed ats 0 (start (abi c) (retOf rt))) ∧
      (I.rvalue = none → 16 < rt.size → O.rvalue = O.entry.sp + coreBytes c rt ats ∧ rt.size ≤ result) := by
  dsimp only
  have P := LA.callEntry_spec (la_pre h hs hr)
  generalize LA.callEntry c (coreBytes c rt ats) rt ats I = O at P
  have hb := P.block
  refine ⟨fun x hx => P.frame x (by omega), rvalBytes c rt I.rvalue, ?_, ?_, ?_, ?_⟩
  · have := hb.2.2
    unfold LA.blockBytes at this
    omega
  · omega
  · exact (la_args h.ok.1 P.align P.args hr h.atsOk).2.2.2
  · intro hn hbig
    have e : rvalBytes c rt I.rvalue = roundUp rt.size 16 := by
      unfold rvalBytes
      rw [if_pos ⟨hn, by rw [h.ok.1]; omega⟩, align_small (by omega) (by have := h.size; omega)]
    have hge : rt.size ≤ roundUp rt.size 16 := roundUp_ge (by decide)
    rw [P.rvalue, e, if_pos (by omega)]
    exact ⟨rfl, hge⟩

/-- C73 violated: the copies are placed downwards from the end of the area, with the
alignment they need, which the area was not made for.  The second copy of
`f (struct { long double a; int b; }, struct { long a, b, c; })` lies partly below the
stack pointer of the called function. -/
theorem C73_below : ∃ (ats : List FType) (I : CallIn), LaCall rvD rvVoid ats I ∧ RvSingles rvD rvVoid ats ∧
    ∃ x, x < (LA.callEntry rvD (coreBytes rvD rvVoid ats) rvVoid ats I).entry.sp ∧
      (LA.callEntry rvD (coreBytes rvD rvVoid ats) rvVoid ats I).entry.mem x ≠ I.mem x := by
  refine ⟨[rvS32, rvS24], rvIn 2, ?_, rv_singles_small (by decide),
    (LA.callEntry rvD (coreBytes rvD rvVoid [rvS32, rvS24]) rvVoid [rvS32, rvS24] (rvIn 2)).entry.sp - 8,
    by decide +kernel, by decide +kernel⟩
  exact ⟨⟨rfl, .inr rfl⟩, .void, by simpa using ⟨plain_rvS32, plain_rvS24⟩, by intro t h; simp [rvD] at h,
    rfl, fun _ => rfl, by decide +kernel, by decide, by decide, by decide +kernel, by decide +kernel,
    by intro a h; cases h⟩

/-- `struct { long a, b, c, d; }` -/
def laS32 : FType := mkStruct [rvI64, rvI64, rvI64, rvI64]
theorem plain_laS32 : Plain (tab 8) laS32 := rvStruct_plain (.inr rfl) (by simp) (by simpa using plain_rvI64)

/-- C73 violated even with all references in registers: the space between a `long` and a
`long double` on the stack is not reserved if the size of the copies is not a multiple
of sixteen. -/
theorem C73_overlap : ∃ (ats : List FType) (I : CallIn), LaCall rvD rvVoid ats I ∧ RvSingles rvD rvVoid ats ∧
    (∀ t ∈ ats, 16 < t.size → t.align ≤ 8) ∧
    LA.stackRefs (abi rvD) rvD.nfixed ats 0 (start (abi rvD) (retOf rvVoid)) = 0 ∧ ¬ LaRoom rvD rvVoid ats := by
  have hpl : ∀ t ∈ List.replicate 7 rvS24 ++ [laS32, rvI64, rvLD], Plain (tab 8) t := by
    intro t h
    simp at h
    rcases h with rfl | rfl | rfl | rfl
    · exact plain_rvS24
    · exact plain_laS32
    · exact plain_rvI64
    · exact plain_rvLD
  refine ⟨List.replicate 7 rvS24 ++ [laS32, rvI64, rvLD], rvIn 10, ?_, ?_, by decide +kernel, by decide +kernel, ?_⟩
  · exact ⟨⟨rfl, .inr rfl⟩, .void, hpl, by intro t h; simp [rvD] at h,
      rfl, fun _ => rfl, by decide +kernel, by decide, by decide, by decide +kernel, by decide +kernel,
      by intro a h; cases h⟩
  · exact (LA.call_slots ⟨.inr rfl, .inr (.inr rfl)⟩ .void hpl (I := rvIn 10) (bytes := 216) rfl).1
      (by decide +kernel)
  · intro h
    have := LA.room_needs h
    revert this
    decide +kernel

/-- C73 violated: twenty arguments of type `struct { double x; }` make `ffi_call` write
above the block it has allocated. -/
theorem C73_above : ∃ (ats : List FType) (I : CallIn), LaCall rvD rvVoid ats I ∧ LaRoom rvD rvVoid ats ∧
    ∃ x, I.sp ≤ x ∧ (LA.callEntry rvD (coreBytes rvD rvVoid ats) rvVoid ats I).entry.mem x ≠ I.mem x := by
  have hc : LaCall rvD rvVoid (List.replicate 20 rvS1) (rvIn 20) :=
    ⟨⟨rfl, .inr rfl⟩, .void, by intro t h; rw [List.eq_of_mem_replicate h]; exact plain_rvS1,
      by intro t h; rw [List.eq_of_mem_replicate (List.mem_of_mem_drop h)]; decide,
      rfl, fun _ => rfl, by decide +kernel, by decide, by decide, by decide +kernel, by decide +kernel,
      by intro a h; cases h⟩
  exact ⟨List.replicate 20 rvS1, rvIn 20, hc, C72_room_direct hc (by decide +kernel), 4096, by decide, by decide +kernel⟩

/-- C73 violated: the space for a result nobody wants is not aligned for its type. -/
theorem C73_result_misaligned : ∃ (rt : FType) (ats : List FType) (I : CallIn), LaCall rvD rt ats I ∧
    RvSingles rvD rt ats ∧ LaRoom rvD rt ats ∧ I.rvalue = none ∧
    ¬ rt.align ∣ (LA.callEntry rvD (coreBytes rvD rt ats) rt ats I).rvalue := by
  have hc : LaCall rvD rvS32 [] (rvIn 0) :=
    ⟨⟨rfl, .inr rfl⟩, .obj plain_rvS32, by simp, by simp,
      rfl, fun _ => rfl, by decide +kernel, by decide, by decide, by decide +kernel, by decide +kernel,
      by intro a h; cases h⟩
  exact ⟨rvS32, [], rvIn 0, hc, trivial, C72_room_direct hc (by simp), rfl, by decide +kernel⟩

/-! ## C75 — from call to closure -/

theorem la_out {A : Abi} {R : Regs} {lo hi b : Nat} {ts : List FType} :
    ∀ {ps : List Place}, AllIn A R lo hi ts ps → b ≤ lo → AllOut A R 0 b ts ps := by
  induction ts with
  | nil => intro ps h _; cases ps <;> exact h
  | cons t ts ih =>
    intro ps h hb
    cases ps with
    | nil => exact h
    | cons pl ps =>
      refine ⟨?_, ih h.2 hb⟩
      have := h.1
      cases pl with
      | direct => trivial
      | ref l => exact .inr (Nat.le_trans hb this.1)

/-- C75 (partial: no struct of one real beyond the eighth floating-point register, and
room for the copies): the handler of a closure entered from `ffi_call` with the same
signature finds every argument, aligned; if it returns in memory, it gets the caller's
address.  The arguments stay while it writes the result; nothing above the stack pointer
of the call is changed. -/
theorem C75_arguments_partial {c : Cfg} {rt : FType} {ats : List FType} {I : CallIn} (h : LaCall c rt ats I)
    (hs : RvSingles c rt ats) (hr : LaRoom c rt ats) (fp ra : Nat)
    (hroom : closureFrame c rt.size ats.length ≤ (LA.callEntry c (coreBytes c rt ats) rt ats I).entry.sp) :
    let O := LA.callEntry c (coreBytes c rt ats) rt ats I
    let V := LA.closureEntry c rt ats fp ra O.entry
    AllFound V.mem ats (argVals I.mem ats I.avalue) V.avalue ∧
    (∀ m : Mem, (∀ x, ¬ (V.byRef = false ∧ V.rvalue ≤ x ∧ x < V.rvalue + max rt.size 16) → m x = V.mem x) →
      AllFound m ats (argVals I.mem ats I.avalue) V.avalue) ∧
    AllPtrs ats V.avalue ∧
    (∀ x, O.entry.sp ≤ x → V.mem x = O.entry.mem x) ∧
    V.byRef = O.byRef ∧ (V.byRef = true → V.rvalue = O.rvalue) := by
  dsimp only
  have P := LA.callEntry_spec (la_pre h hs hr)
  generalize LA.callEntry c (coreBytes c rt ats) rt ats I = O at P hroom
  obtain ⟨h1, _, h3, h4⟩ := la_args h.ok.1 P.align P.args hr h.atsOk
  have hb := P.block
  have hsp := h.sp
  have hns := LA.room_ns (c := c) (by have := h.ok.1; omega) hr
  have hel := LA.endLow_le (abi c) c.nfixed ats 0 (start (abi c) (retOf rt)) (coreBytes c rt ats)
  have pre : ClosurePre c rt ats (argVals I.mem ats I.avalue) O.entry := by
    refine ⟨la_abi h.ok, h.rtOk, h.atsOk, ?_, ?_, P.align, ?_, hroom, rv_sized h.len, h1,
      allOut_mono (Nat.zero_le _) (Nat.le_refl _) (la_out h4 (Nat.le_add_right _ _)), hs⟩
    · intro k
      have := congrArg (fun R : Regs => R.fa k) P.regs
      rw [show O.entry.fa k = O.entry.regs.fa k from rfl, this]
      exact Mem.rd_length _ _ _
    · intro k
      have := congrArg (fun R : Regs => R.a k) P.regs
      rw [show O.entry.a k = O.entry.regs.a k from rfl, this]
      exact Mem.rd_length _ _ _
    · have := hb.2.1
      unfold LA.blockBytes at this
      omega
  have Q := LA.closureEntry_spec pre fp ra
  have hbr : (LA.closureEntry c rt ats fp ra O.entry).byRef = O.byRef := by rw [Q.byRef, P.byRef]
  refine ⟨Q.found _ (fun _ _ => rfl), Q.found, Q.ptrs h3, ?_, hbr, ?_⟩
  · intro x hx
    exact Q.frame x (.inr hx)
  · intro hv
    rw [Q.ret hv]
    exact P.ret (by rw [← hbr]; exact hv)

example : closureFrame rvD rvS24.size rvSig.length ≤
    (LA.callEntry rvD (coreBytes rvD rvS24 rvSig) rvS24 rvSig (rvIn 7)).entry.sp := by decide +kernel

/-- C75: closures called by any code that follows the standard: the handler finds every
argument (no struct of one real beyond the eighth floating-point register). -/
theorem C75_standard_partial {c : Cfg} {rt : FType} {ats : List FType} {vs : List (List Byte)} {E : Entry}
    (h : ClosurePre c rt ats vs E) (fp ra : Nat) :
    let V := LA.closureEntry c rt ats fp ra E
    AllFound V.mem ats vs V.avalue ∧
    (AllAligned (abi c) E.regs ats (placeFrom (abi c) c.nfixed ats 0 (start (abi c) (retOf rt))) →
      AllPtrs ats V.avalue) ∧
    (V.byRef = true → V.rvalue = leNat (E.a 0)) ∧
    (V.byRef = false → E.sp - closureFrame c rt.size ats.length ≤ V.rvalue ∧ V.rvalue + max rt.size 16 ≤ V.ctx) :=
  have Q := LA.closureEntry_spec h fp ra
  ⟨Q.found _ (fun _ _ => rfl), Q.ptrs, Q.ret, Q.buf⟩

/-- C75 violated: the ninth `struct { double x; }` is passed in `a0` by accident, where a
following integer overwrites it. -/
theorem C75_lost : ∃ (ats : List FType) (I : CallIn), LaCall rvD rvVoid ats I ∧ LaRoom rvD rvVoid ats ∧
    closureFrame rvD rvVoid.size ats.length ≤ (LA.callEntry rvD (coreBytes rvD rvVoid ats) rvVoid ats I).entry.sp ∧
    ¬ AllFound (LA.closureEntry rvD rvVoid ats 0 0 (LA.callEntry rvD (coreBytes rvD rvVoid ats) rvVoid ats I).entry).mem ats
      (argVals I.mem ats I.avalue)
      (LA.closureEntry rvD rvVoid ats 0 0 (LA.callEntry rvD (coreBytes rvD rvVoid ats) rvVoid ats I).entry).avalue := by
  have hc : LaCall rvD rvVoid (List.replicate 9 rvS1 ++ [rvI64]) (rvIn 10) := by
    refine ⟨⟨rfl, .inr rfl⟩, .void, ?_, by intro t h; simp [rvD] at h, rfl, fun _ => rfl, by decide +kernel,
      by decide, by decide, by decide +kernel, by decide +kernel, by intro a h; cases h⟩
    intro t h
    rw [List.mem_append, List.mem_singleton] at h
    rcases h with h | h
    · rw [List.eq_of_mem_replicate h]; exact plain_rvS1
    · rw [h]; exact plain_rvI64
  refine ⟨List.replicate 9 rvS1 ++ [rvI64], rvIn 10, hc, C72_room_direct hc (by decide +kernel), by decide +kernel, ?_⟩
  intro h
  have := rvFound_of h
  revert this
  decide +kernel

/-! ## C74 — results -/

/-- C74, calls: if the function leaves its result in the registers the standard assigns,
all members of the object at `rvalue` have its value afterwards; nothing outside of sixteen
bytes there and of the register image has changed; and nothing outside of the object (or
of the word there) if it is not a struct of a real and an integer with less than a word
from the integer on. -/
theorem C74_call_partial {c : Cfg} (hc : c.w = 8 ∧ (c.fl = 0 ∨ c.fl = 8)) {rt : FType}
    (h : Plain (tab c.w) rt) {rvalue ctx : Nat} {R : RetRegs} (hl : RetLens c R) (m : Mem) (hr : rvalue ≠ 0)
    (hnr : (retPlace (abi c) rt).isRef = false) (hd : rvalue + 16 ≤ ctx ∨ ctx + ctxSize c ≤ rvalue) {v : List Byte}
    (hv : v.length = rt.size) (hp : PassedAt (abi c) (R.regs m) rt v (retPlace (abi c) rt)) :
    SameMembers rt ((LA.finishCall c rt rvalue false ctx R m).rd rvalue rt.size) v ∧
    (∀ x, (x < rvalue ∨ rvalue + 16 ≤ x) → (x < ctx ∨ ctx + ctxSize c ≤ x) →
      LA.finishCall c rt rvalue false ctx R m x = m x) ∧
    (LA.TailOk c rt → ∀ x, (x < rvalue ∨ rvalue + max rt.size 8 ≤ x) → (x < ctx ∨ ctx + ctxSize c ≤ x) →
      LA.finishCall c rt rvalue false ctx R m x = m x) := by
  obtain ⟨h1, h2⟩ := LA.finish_spec (la_abi hc) h hl m hr hnr hd hv hp
  rw [hc.1] at h2
  exact ⟨h1, fun x hx hx' => h2 x (by omega) hx', fun ht x hx hx' => h2 x (by
    rcases hx with hx | hx
    · exact .inl hx
    · exact .inr (.inr ⟨hx, ht⟩)) hx'⟩

/-- C74: all types but structs of a real and an integer qualify. -/
theorem C74_tail {c : Cfg} {rt : FType} (h : ∀ l₁ l₂, leaves rt 0 = [l₁, l₂] →
    ¬ ((abi c).real l₁.tc = true ∧ (abi c).integer l₂.tc = true)) : LA.TailOk c rt :=
  fun l₁ l₂ hl h1 h2 => absurd ⟨h1, h2⟩ (h l₁ l₂ hl)

/-- C74, calls whose result is in memory or not wanted: nothing but the register image
changes after the function has returned. -/
theorem C74_memory {c : Cfg} {rt : FType} {rvalue ctx : Nat} {R : RetRegs} {byRef : Bool} (hl : RetLens c R) (m : Mem)
    (h : byRef = true ∨ rvalue = 0) (x : Nat) (hx : x < ctx ∨ ctx + ctxSize c ≤ x) :
    LA.finishCall c rt rvalue byRef ctx R m x = m x := by
  rw [LA.finish_none m h, saved_out hl m x hx]

/-- C74, integers (partial: not for `uint32_t`): an integer result, returned as the
standard prescribes, is stored as a whole `ffi_arg`, extended according to its type;
nothing else changes but the register image. -/
theorem C74_widened_partial {c : Cfg} (hc : c.w = 8 ∧ (c.fl = 0 ∨ c.fl = 8)) {rt : FType}
    (h : Plain (tab c.w) rt) (hi : (abi c).integer rt.tc = true) (hu : rt.tc ≠ .uint32)
    {rvalue ctx : Nat} {R : RetRegs} (hl : RetLens c R) (m : Mem) (hr : rvalue ≠ 0)
    {v : List Byte} (hv : v.length = rt.size) (hw : Widened rt.tc v (R.a 0)) :
    RvFfiArg rt.tc v ((LA.finishCall c rt rvalue false ctx R m).rd rvalue 8) ∧
    ∀ x, (x < rvalue ∨ rvalue + 8 ≤ x) → (x < ctx ∨ ctx + ctxSize c ≤ x) →
      LA.finishCall c rt rvalue false ctx R m x = m x := by
  have hst : rt.tc ≠ .struct := by
    intro h'; rw [h'] at hi; cases hi
  have ht := scalar_of h hst
  have hs : rt.size ≤ c.w := by
    rw [hc.1]
    generalize rt.size = s at ht
    generalize rt.tc = tc at ht hi
    cases tc <;> first | exact Bool.noConfusion hi | (simp [tab] at ht; omega)
  rw [LA.finish_int (la_abi hc) hl m hi hs hr]
  have ha8 : (R.a 0).length = 8 := by rw [hl.a, hc.1]
  constructor
  · have e := Mem.rd_wr_same (savedRets c ctx R m) rvalue (R.a 0)
    rw [ha8] at e
    rw [e]
    unfold Widened at hw
    unfold RvFfiArg
    have hsg : (signed rt.tc || decide (v.length = 4)) = signed rt.tc := by
      rw [hv]
      generalize rt.size = s at ht
      generalize rt.tc = tc at ht hu hi
      cases tc <;> first | exact absurd rfl hu | exact Bool.noConfusion hi | rfl |
        (simp [tab] at ht; simp [signed]; omega)
    rw [hsg] at hw
    exact hw
  · intro x hx hx'
    rw [Mem.wr_out _ _ _ _ (by rw [ha8]; omega), saved_out hl m x hx']

/-- C74, closures: the value the handler has stored is in the registers the standard
assigns, widened. -/
theorem C74_closure {c : Cfg} (hc : c.w = 8 ∧ (c.fl = 0 ∨ c.fl = 8)) {rt : FType}
    (h : Plain (tab c.w) rt) {rvalue ctx : Nat} (hnr : (retPlace (abi c) rt).isRef = false)
    (hctx : ctx < 2 ^ 62) {junk : List Byte} (hj : junk.length = 16) (m m' : Mem) :
    let R := LA.closureExit c rt rvalue false ctx junk m
    RetLens c R ∧
    PassedAt (abi c) (R.regs m') rt (m.rd rvalue rt.size) (retPlace (abi c) rt) ∧
    WidenedAt (abi c) (R.regs m') rt (m.rd rvalue rt.size) (retPlace (abi c) rt) := by
  have hcw : ctx ≤ 256 ^ c.w := by rw [hc.1]; omega
  obtain ⟨h1, h2, h3⟩ := LA.closureExit_spec (la_abi hc) h (rvalue := rvalue) hnr hctx hcw
    (junk := junk) (by rw [hj, hc.1]) m m'
  refine ⟨h1, h2, ?_⟩
  cases hpl : retPlace (abi c) rt with
  | direct ps => intro hi q hq; exact h3 ps hpl hi q hq
  | ref l => trivial

/-- C74: a result survives the way from the handler of a closure to the caller of
`ffi_call`. -/
theorem C74_roundtrip {c : Cfg} (hc : c.w = 8 ∧ (c.fl = 0 ∨ c.fl = 8)) {rt : FType}
    (h : Plain (tab c.w) rt) (hnr : (retPlace (abi c) rt).isRef = false) {buf ctx' : Nat}
    (hctx : ctx' < 2 ^ 62) {junk : List Byte} (hj : junk.length = 16) (m m' : Mem)
    {rvalue ctx : Nat} (hr : rvalue ≠ 0) (hd : rvalue + 16 ≤ ctx ∨ ctx + ctxSize c ≤ rvalue) :
    SameMembers rt
      ((LA.finishCall c rt rvalue false ctx (LA.closureExit c rt buf false ctx' junk m) m').rd rvalue rt.size)
      (m.rd buf rt.size) := by
  have hx := C74_closure hc h (rvalue := buf) hnr hctx hj m m'
  exact (LA.finish_spec (la_abi hc) h hx.1 m' hr hnr hd (Mem.rd_length _ _ _) hx.2.1).1

example : LA.TailOk rvD rvS1 ∧ LA.TailOk rvD rvI32 ∧ LA.TailOk rvD (mkStruct [rvI32, rvF32]) := by
  refine ⟨C74_tail ?_, C74_tail ?_, C74_tail ?_⟩
  · intro l₁ l₂ h
    have e : leaves rvS1 0 = [⟨0, 8, .double⟩] := by decide +kernel
    rw [e] at h; cases h
  · intro l₁ l₂ h
    have e : leaves rvI32 0 = [⟨0, 4, .sint32⟩] := by decide +kernel
    rw [e] at h; cases h
  · intro l₁ l₂ h
    have e : leaves (mkStruct [rvI32, rvF32]) 0 = [⟨0, 4, .sint32⟩, ⟨4, 4, .float⟩] := by decide +kernel
    rw [e] at h
    cases h
    decide

/-- C74 violated: a `struct { float x; int y; }` is eight bytes long, but the whole of
`a0` is stored at its second member, four bytes of it behind the object. -/
theorem C74_beyond : ∃ (R : RetRegs) (m : Mem) (rvalue ctx : Nat), Plain (tab 8) rvMixed ∧ RetLens rvD R ∧ rvalue ≠ 0 ∧
    (retPlace (abi rvD) rvMixed).isRef = false ∧ rvalue + 16 ≤ ctx ∧ rvMixed.size = 8 ∧
    LA.finishCall rvD rvMixed rvalue false ctx R m (rvalue + 8) ≠ m (rvalue + 8) :=
  ⟨⟨fun _ => List.replicate 8 1, fun _ => List.replicate 8 2⟩, fun _ => 0, 16, 64, plain_rvMixed,
    ⟨fun _ => rfl, fun _ => rfl⟩, by decide, by decide +kernel, by decide, by decide +kernel, by decide +kernel⟩

/-- C74 violated: `rvalue` is to be ignored for `void` functions (doc/libffi.texi:213-215),
but one byte of `a0` is stored there. -/
theorem C74_void_stores : ∃ (R : RetRegs) (m : Mem) (rvalue ctx : Nat), RetLens rvD R ∧ rvalue + 16 ≤ ctx ∧
    LA.finishCall rvD rvVoid rvalue false ctx R m rvalue ≠ m rvalue :=
  ⟨⟨fun _ => List.replicate 8 1, fun _ => List.replicate 8 2⟩, fun _ => 0, 16, 64, ⟨fun _ => rfl, fun _ => rfl⟩, by decide,
    by decide +kernel⟩

/-- C74 violated: a `uint32_t` result of 2^31, sign-extended by the function as the
standard demands, is stored as 2^64 - 2^31. -/
theorem C74_uint32_sign_extended : ∃ (R : RetRegs) (v : List Byte) (m : Mem) (rvalue ctx : Nat), RetLens rvD R ∧
    v.length = 4 ∧ Widened .uint32 v (R.a 0) ∧ rvalue + 16 ≤ ctx ∧
    ¬ RvFfiArg .uint32 v ((LA.finishCall rvD rvU32 rvalue false ctx R m).rd rvalue 8) := by
  refine ⟨⟨fun _ => List.replicate 8 0, fun _ => [0, 0, 0, 0x80, 0xff, 0xff, 0xff, 0xff]⟩, [0, 0, 0, 0x80], fun _ => 0, 16, 64,
    ⟨fun _ => rfl, fun _ => rfl⟩, rfl, ?_, by decide, ?_⟩
  · unfold Widened; decide
  · unfold RvFfiArg; decide +kernel

end Verif.Props
