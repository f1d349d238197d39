import Verif.X64.ResultLemmas
import Verif.X64.TrampLemmas
import Verif.Spec.Build

/-
Property theorems for SysV x86-64: C08–C21.
-/
namespace Verif.Props
open Verif Spec Spec.X64 Verif.X64

/-! ## Concrete types used to show that hypotheses are satisfiable -/

def tI8 := mkScalar lp64 .sint8
def tI32 := mkScalar lp64 .sint32
def tI64 := mkScalar lp64 .sint64
def tF := mkScalar lp64 .float
def tD := mkScalar lp64 .double
def tLD := mkScalar lp64 .longdouble
/-- `void`, src/types.c. -/
def tVoid : FType := .mk 1 1 .void []
/-- `struct { int; struct { float; float }; }` -/
def exMix := mkStruct [tI32, mkStruct [tF, tF]]
/-- `struct { double; struct { char; int } }` -/
def exMix2 := mkStruct [tD, mkStruct [tI8, tI32]]
/-- `struct { long; char; long }` -/
def exBig := mkStruct [tI64, tI8, tI64]
/-- `struct { long double }` -/
def exLd := mkStruct [tLD]

theorem wfI8 : WF lp64 tI8 := mkScalar_wf rfl
theorem wfI32 : WF lp64 tI32 := mkScalar_wf rfl
theorem wfI64 : WF lp64 tI64 := mkScalar_wf rfl
theorem wfF : WF lp64 tF := mkScalar_wf rfl
theorem wfD : WF lp64 tD := mkScalar_wf rfl
theorem wfLD : WF lp64 tLD := mkScalar_wf rfl
theorem wfMix : WF lp64 exMix :=
  mkStruct_wf lp64_ok (by simp) (by simpa using ⟨wfI32, mkStruct_wf lp64_ok (by simp) (by simpa using wfF)⟩)
theorem wfMix2 : WF lp64 exMix2 :=
  mkStruct_wf lp64_ok (by simp)
    (by simpa using ⟨wfD, mkStruct_wf lp64_ok (by simp) (by simpa using ⟨wfI8, wfI32⟩)⟩)
theorem wfBig : WF lp64 exBig :=
  mkStruct_wf lp64_ok (by simp) (by simpa using ⟨wfI64, wfI8, wfI64⟩)
theorem wfLd : WF lp64 exLd := mkStruct_wf lp64_ok (by simp) (by simpa using wfLD)

/-! ## C08 — classification -/

/-- Register class of libffi and of the psABI mean the same kind of register. -/
def SameClass : Cls → EB → Prop
  | .integer, .int | .integersi, .int => True
  | .sse, .sse | .ssesf, .sse | .ssedf, .sse => True
  | _, _ => False

/-- C08: `examine_argument` passes a type in memory exactly if the psABI says MEMORY,
and otherwise finds the psABI class of every eightbyte and the numbers of
registers needed. -/
theorem C08_classification {t : FType} (hwf : WF lp64 t) :
    (examine t false = .ok .mem ↔ argClass t = none) ∧
    ∀ cs, argClass t = some cs →
      ∃ cls, examine t false = .ok (.regs cls (nInt cs) (nSse cs)) ∧ List.Forall₂ SameClass cls cs := by
  rcases examine_spec hwf false with ⟨h1, h2⟩ | ⟨cls, hr, h1, h2⟩
  · exact ⟨by simp [h1, h2], by simp [h1]⟩
  · refine ⟨by simp [h1, h2], ?_⟩
    intro cs hcs
    rw [h1] at hcs
    injection hcs with hcs
    subst hcs
    refine ⟨cls, h2, ?_⟩
    have hrng := hr.rng
    clear h1 h2 hr
    induction cls with
    | nil => exact .nil
    | cons c cs ih =>
      refine .cons ?_ (ih fun c hc => hrng c (by simp [hc]))
      rcases hrng c (by simp) with rfl | rfl | rfl | rfl | rfl <;> trivial

example : argClass exMix = some [.int, .sse] ∧ argClass exMix2 = some [.sse, .int] ∧
    argClass exBig = none ∧ argClass exLd = none := by decide +kernel

/-! ## C09 — class array -/

/-- C09: classification of a well-formed type succeeds (a fifth class would be a
`fault`, an unknown type code an `abort`) and fills at most four entries. -/
theorem C09_classes_bounded {t : FType} (hwf : WF lp64 t) :
    ∃ cls, classify t 0 = .ok cls ∧ cls.length ≤ 4 := by
  obtain ⟨cls, hc, hs⟩ := classify_spec hwf 0 (by omega) (Nat.dvd_zero _) (by omega)
  refine ⟨cls, hc, ?_⟩
  by_cases h16 : 16 < t.size
  · by_cases hst : t.tc = .struct
    · rw [hs.large (by omega) hst]; simp
    · rw [hs.cx87 hst (by omega)]; simp
  · rcases hwf.align_cases lp64_ok with h | h | h | h | h
    case inr.inr.inr.inr => rw [hs.x87 h (by omega)]; simp
    all_goals
      rw [(hs.small (by omega) (by omega)).1]
      omega

/-- C09: neither preparation nor any later use of the signature aborts. -/
theorem C09_examine_total {t : FType} (hwf : WF lp64 t) (b : Bool) : ∃ ex, examine t b = .ok ex := by
  obtain ⟨cls, hc, hs⟩ := classify_spec hwf 0 (by omega) (Nat.dvd_zero _) (by omega)
  cases b with
  | false =>
    rcases examine_spec hwf false with ⟨_, h⟩ | ⟨cls, _, _, h⟩
    · exact ⟨_, h⟩
    · exact ⟨_, h⟩
  | true =>
    rcases examine_spec hwf true with ⟨h, _⟩ | ⟨cls, _, _, h⟩
    · unfold examine
      rw [hc]
      by_cases h16 : 16 < t.size
      · by_cases hst : t.tc = .struct
        · rw [hs.large (by omega) hst]; exact ⟨_, rfl⟩
        · rw [hs.cx87 hst (by omega)]; exact ⟨_, rfl⟩
      · have hal : t.align = 16 := by
          unfold argClass at h
          rw [← any_x87_iff hwf]
          by_contra hx
          rw [if_neg (by simp only [not_or]; exact ⟨h16, hx⟩)] at h
          simp at h
        rw [hs.x87 hal (by omega)]
        exact ⟨_, rfl⟩
    · exact ⟨_, h⟩

example : classify exMix2 0 = .ok [.ssedf, .integer] ∧ classify exLd 0 = .ok [.x87, .x87up] ∧
    classify exBig 0 = .ok [] := by decide +kernel

/-! ## C10, C11, C14 — the call -/

/-- The memory set aside for a call: `sizeof (struct register_args) + cif->bytes + 32`
bytes at the 16-byte aligned address `sp`. -/
structure CallArea (bytes sp : Nat) (mem0 : Buf) (saved : List Byte) : Prop where
  size : mem0.size = 192 + bytes + 32
  align : sp % 16 = 0
  space : sp + mem0.size + 16 < 2 ^ 63
  saved : saved.length = 32

/-- C10: `ffi_call` marshals the arguments of any prepared signature without reading
outside the argument objects or writing outside the area it reserved (any such
access is a `fault` in the model), and no `abort`. -/
theorem C10_call_safe {rt : FType} {ats : List FType} {as : List (List Byte)} (hrt : RetOk rt)
    (hok : ArgsOk ats as) (hb : stackBytes rt ats + 8 < 2 ^ 32) :
    ∃ fl bytes, prep rt ats = .ok (some (fl, bytes)) ∧ stackBytes rt ats ≤ bytes ∧
      ∀ rvalue closure sp mem0 saved oldXmm, closure < 2 ^ 64 → CallArea bytes sp mem0 saved →
        ∃ E, callEntry fl bytes ats as rvalue closure sp mem0 saved oldXmm = .ok E ∧ E.stk.size = bytes := by
  obtain ⟨_, fl, bytes, _, hp, _, _, hg, _, hle, _⟩ := prep_spec hrt hok.wf hb
  refine ⟨fl, bytes, hp, hle, ?_⟩
  intro rvalue closure sp mem0 saved oldXmm hc ha
  obtain ⟨E, h1, h2, _⟩ := callEntry_spec (rvalue := rvalue) (oldXmm := oldXmm) hok
    (by rw [hg]; exact hle) ha.size ha.align ha.space ha.saved hc
  exact ⟨E, h1, h2⟩

/-- C11: on entry of the target function every argument is where the psABI puts it,
integers narrower than a register are sign- or zero-extended to the whole
register, and the static chain is in `%r10`. -/
theorem C11_placement {rt : FType} {ats : List FType} {as : List (List Byte)} (hrt : RetOk rt)
    (hok : ArgsOk ats as) (hb : stackBytes rt ats + 8 < 2 ^ 32) {fl : Flags} {bytes : Nat}
    (hp : prep rt ats = .ok (some (fl, bytes))) {rvalue closure sp : Nat} {mem0 : Buf}
    {saved : List Byte} {oldXmm : Nat → Nat → Byte} (hc : closure < 2 ^ 64)
    (ha : CallArea bytes sp mem0 saved) {E : Entry}
    (hE : callEntry fl bytes ats as rvalue closure sp mem0 saved oldXmm = .ok E) :
    AllPassed ⟨E.gpr, E.xmm, E.stk⟩ ats as (argPlaces rt ats) ∧
    (∀ (i : Nat) t a p, ats[i]? = some t → as[i]? = some a → (argPlaces rt ats)[i]? = some p →
      WidenedAt ⟨E.gpr, E.xmm, E.stk⟩ t a p) ∧
    E.r10 = closure := by
  obtain ⟨_, fl', bytes', _, hp', _, _, hg, _, hle, _⟩ := prep_spec hrt hok.wf hb
  rw [hp] at hp'
  simp only [Except.ok.injEq, Option.some.injEq, Prod.mk.injEq] at hp'
  obtain ⟨rfl, rfl⟩ := hp'
  obtain ⟨E', h1, h2, h3, h4, h5, h6, h7⟩ := callEntry_spec (rvalue := rvalue) (oldXmm := oldXmm) hok
    (by rw [hg]; exact hle) ha.size ha.align ha.space ha.saved hc
  rw [hE] at h1
  injection h1 with h1
  subst h1
  rw [hg] at h3 h4
  exact ⟨h3, h4, h6⟩

/-- C14: `%al` is the number of vector registers that carry arguments, at most eight.
(That they are loaded whenever one is used is part of `C11_placement`.) -/
theorem C14_vector_count {rt : FType} {ats : List FType} {as : List (List Byte)} (hrt : RetOk rt)
    (hok : ArgsOk ats as) (hb : stackBytes rt ats + 8 < 2 ^ 32) {fl : Flags} {bytes : Nat}
    (hp : prep rt ats = .ok (some (fl, bytes))) {rvalue closure sp : Nat} {mem0 : Buf}
    {saved : List Byte} {oldXmm : Nat → Nat → Byte} (hc : closure < 2 ^ 64)
    (ha : CallArea bytes sp mem0 saved) {E : Entry}
    (hE : callEntry fl bytes ats as rvalue closure sp mem0 saved oldXmm = .ok E) :
    E.eax = sseUsed (argPlaces rt ats) ∧ E.eax ≤ 8 ∧ (fl.xmm = true ↔ E.eax ≠ 0) := by
  obtain ⟨_, fl', bytes', _, hp', hfl, _, hg, _, hle, _⟩ := prep_spec hrt hok.wf hb
  rw [hp] at hp'
  simp only [Except.ok.injEq, Option.some.injEq, Prod.mk.injEq] at hp'
  obtain ⟨rfl, rfl⟩ := hp'
  obtain ⟨E', h1, h2, h3, h4, h5, h6, h7⟩ := callEntry_spec (rvalue := rvalue) (oldXmm := oldXmm) hok
    (by rw [hg]; exact hle) ha.size ha.align ha.space ha.saved hc
  rw [hE] at h1
  injection h1 with h1
  subst h1
  rw [hg] at h5
  have ht := totals_sse ats (firstReg rt) 0 0
  have hl := totals_le ats (firstReg rt) 0 0 (by unfold firstReg; split <;> omega) (by omega)
  refine ⟨h5, by rw [h5]; omega, ?_⟩
  rw [hfl, h5]
  simp only [decide_eq_true_eq]
  rw [ht]
  omega

/-- A signature that exhausts the general registers: the fourth argument no longer
fits, a later one does. -/
def exSig : List FType := [exMix, tI64, exBig, tLD, tI32, tI64, mkStruct [tI64, tI64], tI8, tD]

theorem exSig_wf : ∀ t ∈ exSig, WF lp64 t := by
  simpa [exSig] using ⟨wfMix, wfI64, wfBig, wfLD, wfI32, wfI64,
    mkStruct_wf lp64_ok (by simp) (by simpa using wfI64), wfI8, wfD⟩

example : argPlaces tVoid exSig = [.regs [.gpr 0, .sse 0], .regs [.gpr 1], .stack 0, .stack 32,
    .regs [.gpr 2], .regs [.gpr 3], .regs [.gpr 4, .gpr 5], .stack 48, .regs [.sse 1]] ∧
    stackBytes tVoid exSig = 49 ∧ sseUsed (argPlaces tVoid exSig) = 2 := by decide +kernel

example : RetOk tVoid ∧ ArgsOk exSig (exSig.map fun t => List.replicate t.size 7) :=
  ⟨.inl rfl, exSig_wf, by simp, by
    intro i t a h1 h2
    rw [List.getElem?_map, h1] at h2
    simp only [Option.map_some, Option.some.injEq] at h2
    rw [← h2]; simp⟩

/-! ## C12, C13 — closures -/

/-- The handler can read the whole object through the pointer, and every byte that is
not padding is the caller's. -/
def HandlerSees (V : ClosureView) (stk : Buf) (t : FType) (a : List Byte) (p : CPtr) : Prop :=
  ∃ d, p.deref V.frame stk t.size = some d ∧ ∀ q, dataByte t q → d.getD q 0 = a.getD q 0

/-- C12: whatever the register and stack contents, if the caller passed the arguments
according to the psABI the handler gets one pointer per argument, each showing the
argument. -/
theorem C12_closure_args {rt : FType} {ats : List FType} {as : List (List Byte)} (hrt : RetOk rt)
    (hok : ArgsOk ats as) (hb : stackBytes rt ats + 8 < 2 ^ 32) {fl : Flags} {bytes : Nat}
    (hp : prep rt ats = .ok (some (fl, bytes))) {E : Entry} {sp : Nat} {frame0 tmp0 : Buf}
    (hsp : sp % 16 = 0) (hspace : sp + E.stk.size + 16 < 2 ^ 63) (hf : frame0.size = 216)
    (ht : tmp0.size = 16)
    (hpass : AllPassed ⟨E.gpr, E.xmm, E.stk⟩ ats as (argPlaces rt ats)) :
    ∃ V, closureEntry fl ats E sp frame0 tmp0 = .ok V ∧ V.avalue.length = ats.length ∧
      ∀ (i : Nat) t a p, ats[i]? = some t → as[i]? = some a → V.avalue[i]? = some p →
        HandlerSees V E.stk t a p := by
  obtain ⟨_, fl', bytes', _, hp', hfl, _, hg, _, hle, _⟩ := prep_spec hrt hok.wf hb
  rw [hp] at hp'
  simp only [Except.ok.injEq, Option.some.injEq, Prod.mk.injEq] at hp'
  obtain ⟨rfl, rfl⟩ := hp'
  have hl := totals_le ats (firstReg rt) 0 0 (by unfold firstReg; split <;> omega) (by omega)
  have hS : (totals ats (firstReg rt) 0 0).2.1 ≤ (if fl.xmm then 8 else 0) := by
    by_cases hx : fl.xmm = true
    · rw [if_pos hx]; omega
    · rw [if_neg hx]
      rw [hfl] at hx
      simp at hx
      omega
  obtain ⟨ps, h1, h2, h3⟩ := closureLoop_spec sp hsp (spill E fl.xmm frame0) tmp0 (regsOfEntry E)
    (if fl.xmm then 8 else 0) (spill_holds E fl.xmm frame0 hf) ht hspace ats as (firstReg rt) 0 0 hok
    (by unfold firstReg; split <;> omega) hS (Nat.zero_le _) hpass
  refine ⟨⟨spill E fl.xmm frame0, ps, if fl.inMem then ((spill E fl.xmm frame0).read 0 8).map leNat else none⟩,
    ?_, h2, h3⟩
  unfold closureEntry
  have : (if fl.inMem then 1 else 0) = firstReg rt := by rw [← hg]; rfl
  simp only [this, h1]

/-- C13: calling a closure through `ffi_call` with the same cif delivers the caller's
argument values to the handler. -/
theorem C13_call_closure {rt : FType} {ats : List FType} {as : List (List Byte)} (hrt : RetOk rt)
    (hok : ArgsOk ats as) (hb : stackBytes rt ats + 8 < 2 ^ 32) :
    ∃ fl bytes, prep rt ats = .ok (some (fl, bytes)) ∧
      ∀ rvalue closure sp mem0 saved oldXmm frame0 tmp0, closure < 2 ^ 64 →
        CallArea bytes sp mem0 saved → frame0.size = 216 → tmp0.size = 16 →
        ∃ E V, callEntry fl bytes ats as rvalue closure sp mem0 saved oldXmm = .ok E ∧
          closureEntry fl ats E (sp + 192) frame0 tmp0 = .ok V ∧ V.avalue.length = ats.length ∧
          ∀ (i : Nat) t a p, ats[i]? = some t → as[i]? = some a → V.avalue[i]? = some p →
            HandlerSees V E.stk t a p := by
  obtain ⟨fl, bytes, hp, hle, hcall⟩ := C10_call_safe hrt hok hb
  refine ⟨fl, bytes, hp, ?_⟩
  intro rvalue closure sp mem0 saved oldXmm frame0 tmp0 hc ha hf ht
  obtain ⟨E, h1, h2⟩ := hcall rvalue closure sp mem0 saved oldXmm hc ha
  have h3 := C11_placement hrt hok hb hp hc ha h1
  obtain ⟨V, v1, v2, v3⟩ := C12_closure_args hrt hok hb hp (sp := sp + 192) (frame0 := frame0) (tmp0 := tmp0)
    (by have := ha.align; omega) (by have := ha.space; have := ha.size; omega) hf ht h3.1
  exact ⟨E, V, h1, v1, v2, v3⟩

/-! ## C15 — where results come from -/

/-- C15 (part): a result returned according to the psABI is found in the result
object after `ffi_call`; a result in memory is left as the callee stored it.
Missing: a struct consisting of one `long double`, for which this is false, see
`C15_struct_long_double`. -/
theorem C15_fetch_partial {rt : FType} {ats : List FType} (hrt : RetOk rt)
    (hats : ∀ t ∈ ats, WF lp64 t) (hb : stackBytes rt ats + 8 < 2 ^ 32) {fl : Flags} {bytes : Nat}
    (hp : prep rt ats = .ok (some (fl, bytes))) (hld : ¬LdStruct rt) {R : RetRegs} {frame rv : Buf}
    {v : Nat → Byte} (hf : frame.size = 32) (hrv : resultBytes rt ≤ rv.size)
    (hret : ReturnedIn (rregs R) rt v) :
    ∃ rv' frame', callReturn fl R frame (some rv) = .ok (some rv', frame') ∧
      (rt.tc ≠ .void → retPlace rt ≠ .mem → ∀ q, sigByte rt q → rv'.at_ q = v q) ∧
      (rt.tc = .void ∨ retPlace rt = .mem → rv' = rv) := by
  have hr := resFlags hrt hats hb hp
  rw [callReturn_some hr]
  by_cases hsil : rt.tc = .void ∨ retPlace rt = .mem
  · rw [hr.silent hsil]
    exact ⟨rv, frame, rfl, fun h1 h2 => absurd hsil (by tauto), fun _ => rfl⟩
  · have hs := not_or.1 hsil
    obtain ⟨rv', frame', h1, _, _, _, h5, _⟩ := (hr.good hs.1 hs.2 hld).1 R frame rv v hf
      (by unfold resultBytes at hrv; rw [if_neg hsil] at hrv; exact hrv) hret
    exact ⟨rv', frame', by rw [h1]; rfl, fun _ _ => h5, fun h => absurd h hsil⟩

/-- C15 (part): a closure leaves the value its handler stored in the result area
where the psABI wants it.  Missing: as above. -/
theorem C15_leave_partial {rt : FType} {ats : List FType} (hrt : RetOk rt)
    (hats : ∀ t ∈ ats, WF lp64 t) (hb : stackBytes rt ats + 8 < 2 ^ 32) {fl : Flags} {bytes : Nat}
    (hp : prep rt ats = .ok (some (fl, bytes))) (hld : ¬LdStruct rt) {R : RetRegs} {area : Buf}
    (ha : area.size = 32) :
    ∃ R', closureReturn fl R area = .ok R' ∧ ReturnedIn (rregs R') rt area.at_ := by
  have hr := resFlags hrt hats hb hp
  by_cases hm : retPlace rt = .mem
  · obtain ⟨bs, h1, _⟩ := Buf.read_spec (b := area) (off := 0) (n := 8) (by omega)
    refine ⟨{ R with rax := setLow R.rax bs }, ?_, ?_⟩
    · unfold closureReturn
      rw [decodeInMem_pack fl hr.size, hr.inMem, decide_eq_true hm]
      simp only [if_true, loadRet, h1]
    · unfold ReturnedIn; rw [hm]; trivial
  · rw [closureReturn_regs hr hm]
    by_cases hv : rt.tc = .void
    · rw [hr.silent (.inl hv)]
      refine ⟨R, rfl, ?_⟩
      have : retPlace rt = .void := by unfold retPlace; rw [if_pos hv]
      unfold ReturnedIn; rw [this]; trivial
    · exact (hr.good hv hm hld).2 R area area.at_ ha (fun _ _ => rfl)

/-- C15 fails for `struct { long double }`: the psABI returns it in `%st(0)`, but
`ffi_call` stores `%rax:%rdx`, and a closure leaves it in `%rax:%rdx`. -/
theorem C15_struct_long_double :
    WF lp64 exLd ∧ retPlace exLd = .x87 ∧
    ∃ fl, prep exLd [] = .ok (some (fl, 0)) ∧
      (∃ R frame rv v rv' frame', frame.size = 32 ∧ rv.size = 16 ∧ ReturnedIn (rregs R) exLd v ∧
        callReturn fl R frame (some rv) = .ok (some rv', frame') ∧ rv'.at_ 0 ≠ v 0) ∧
      (∃ R area R', area.size = 32 ∧ closureReturn fl R area = .ok R' ∧
        ¬ReturnedIn (rregs R') exLd area.at_) := by
  refine ⟨wfLd, by decide +kernel, ⟨.stRaxRdx, false, false, 16⟩, by decide +kernel, ?_, ?_⟩
  · let R : RetRegs := ⟨fun _ => 0, fun _ => 0, fun _ => 0, fun _ => 0, fun _ => 1, fun _ => 0⟩
    refine ⟨R, ⟨32, fun _ => 0⟩, ⟨16, fun _ => 0⟩, fun _ => 1, _, _, rfl, rfl, ?_, rfl, ?_⟩
    · unfold ReturnedIn
      rw [show retPlace exLd = .x87 by decide +kernel]
      intro q _; rfl
    · decide
  · let R : RetRegs := ⟨fun _ => 0, fun _ => 0, fun _ => 0, fun _ => 0, fun _ => 1, fun _ => 0⟩
    refine ⟨R, ⟨32, fun _ => 0⟩, _, rfl, rfl, ?_⟩
    unfold ReturnedIn
    rw [show retPlace exLd = .x87 by decide +kernel]
    intro h
    have := h 0 (by omega)
    revert this
    decide

example : retPlace exMix = .regs [.gpr 0, .sse 0] ∧ retPlace exMix2 = .regs [.sse 0, .gpr 0] ∧
    retPlace exBig = .mem ∧ ¬LdStruct exMix2 ∧ stackBytes exMix2 exSig + 8 < 2 ^ 32 := by decide +kernel

/-! ## C16 — result bytes -/

/-- C16: for every return type and every register content, `ffi_call` writes no byte
of the result object beyond `resultBytes`, leaves its own return address alone, and
stores an integer result as a full sign- or zero-extended `ffi_arg`. -/
theorem C16_result_bytes {rt : FType} {ats : List FType} (hrt : RetOk rt)
    (hats : ∀ t ∈ ats, WF lp64 t) (hb : stackBytes rt ats + 8 < 2 ^ 32) {fl : Flags} {bytes : Nat}
    (hp : prep rt ats = .ok (some (fl, bytes))) (R : RetRegs) {frame rv : Buf}
    (hf : frame.size = 32) (hrv : resultBytes rt ≤ rv.size) :
    ∃ rv' frame', callReturn fl R frame (some rv) = .ok (some rv', frame') ∧ rv'.size = rv.size ∧
      (∀ q, resultBytes rt ≤ q → rv'.at_ q = rv.at_ q) ∧
      (∀ k, 24 ≤ k → frame'.at_ k = frame.at_ k) ∧
      (isIntTC rt.tc = true → ∀ j, j < 8 →
        rv'.at_ j = (leBytes 8 (extend64 rt.tc (low R.rax rt.size))).getD j 0) := by
  have hr := resFlags hrt hats hb hp
  rw [callReturn_some hr]
  by_cases hsil : rt.tc = .void ∨ retPlace rt = .mem
  · rw [hr.silent hsil]
    refine ⟨rv, frame, rfl, rfl, fun _ _ => rfl, fun _ _ => rfl, ?_⟩
    intro hi
    exfalso
    rcases hsil with h | h
    · rw [h] at hi; simp [isIntTC] at hi
    · rcases hrt with hv | hwf
      · rw [hv] at hi; simp [isIntTC] at hi
      · cases hwf with
        | @scalar tc s a h' => exact (good_scalar h').choose_spec.2.2.2.2.1 h
        | complex => simp [isIntTC] at hi
        | struct => simp [isIntTC] at hi
  · have hs := not_or.1 hsil
    have hrb : resultBytes rt = need rt := by unfold resultBytes need; rw [if_neg hsil]
    have hwf : WF lp64 rt := by
      rcases hrt with h | h
      · exact absurd h hs.1
      · exact h
    by_cases hld : LdStruct rt
    · obtain ⟨k1, k2, k3⟩ := hr.ld hld
      have hni : isIntTC rt.tc = false := by rw [hld.1]; rfl
      have hn : need rt = 16 := by unfold need; rw [hni, k3]; rfl
      rw [k1, k2, storeRet_pair (p := (.gpr 0, .gpr 1)) rfl]
      obtain ⟨rv', frame', j1, j2, j3, j4, j5⟩ := storeStruct_spec (frame := frame) (rv := rv)
        (lo := rreg R (.gpr 0)) (hi := rreg R (.gpr 1)) (size := 16) hf (by omega) (by omega)
      refine ⟨rv', frame', by rw [j1]; rfl, j2, ?_, fun k hk => j4 k (by omega), ?_⟩
      · intro q hq
        rw [j5, if_neg (by omega)]
      · rw [hni]; simp
    · obtain ⟨v, hv⟩ : ∃ v, ReturnedIn (rregs R) rt v ∧ (isIntTC rt.tc = true → low v rt.size = low R.rax rt.size) := by
        by_cases hi : isIntTC rt.tc = true
        · obtain ⟨tc, s, a, htab, rfl⟩ : ∃ tc s a, lp64 tc = some (s, a) ∧ rt = .mk s a tc [] := by
            cases hwf with
            | scalar h' => exact ⟨_, _, _, h', rfl⟩
            | complex => simp [isIntTC] at hi
            | struct => simp [isIntTC] at hi
          refine ⟨R.rax, ?_, fun _ => rfl⟩
          have hpl : retPlace (.mk s a tc []) = .regs [.gpr 0] := by
            simp only [FType.tc_mk] at hi
            cases tc <;> simp [lp64, isIntTC] at htab hi <;> obtain ⟨rfl, rfl⟩ := htab <;> decide
          rw [returned_regs hpl]
          intro q hq
          rw [scalar_data htab] at hq
          have h8 : s ≤ 8 := by
            simp only [FType.tc_mk] at hi
            cases tc <;> simp [lp64, isIntTC] at htab hi <;> omega
          exact ⟨.gpr 0, by rw [show q / 8 = 0 by omega]; rfl, by rw [Nat.mod_eq_of_lt (by omega)]; rfl⟩
        · obtain ⟨v, hv⟩ := exists_returned R hwf
          exact ⟨v, hv, fun h => absurd h hi⟩
      obtain ⟨rv', frame', h1, h2, h3, h4, h5, h6, h7⟩ := (hr.good hs.1 hs.2 hld).1 R frame rv v hf
        (by rw [← hrb]; exact hrv) hv.1
      refine ⟨rv', frame', by rw [h1]; rfl, h2, by rw [hrb]; exact h7, h4, ?_⟩
      intro hi j hj
      rw [h6 hi j hj, hv.2 hi]

/-- C16: with `rvalue == NULL` nothing is stored. -/
theorem C16_null (fl : Flags) (R : RetRegs) (frame : Buf) :
    callReturn fl R frame none = .ok (none, frame) := rfl

example : resultBytes tI8 = 8 ∧ resultBytes tF = 4 ∧ resultBytes exMix = 12 ∧ resultBytes exBig = 0 := by
  decide +kernel

/-! ## C17 — closure results -/

/-- C17: what the handler of a closure stores in its result area is what the caller
of `ffi_call` finds in its result object: every significant byte, and for integers
the whole widened `ffi_arg`. -/
theorem C17_result_round_trip {rt : FType} {ats : List FType} (hrt : RetOk rt)
    (hats : ∀ t ∈ ats, WF lp64 t) (hb : stackBytes rt ats + 8 < 2 ^ 32) {fl : Flags} {bytes : Nat}
    (hp : prep rt ats = .ok (some (fl, bytes))) (hv : rt.tc ≠ .void) (hm : retPlace rt ≠ .mem)
    (R : RetRegs) {area frame rv : Buf} (ha : area.size = 32) (hf : frame.size = 32)
    (hrv : resultBytes rt ≤ rv.size) :
    ∃ R' rv' frame', closureReturn fl R area = .ok R' ∧
      callReturn fl R' frame (some rv) = .ok (some rv', frame') ∧
      (∀ q, sigByte rt q → rv'.at_ q = area.at_ q) ∧
      (∀ bs, bs.length = rt.size → isIntTC rt.tc = true →
        (∀ j, j < 8 → area.at_ j = (leBytes 8 (extend64 rt.tc bs)).getD j 0) →
        ∀ j, j < 8 → rv'.at_ j = area.at_ j) := by
  have hr := resFlags hrt hats hb hp
  have hsil : ¬(rt.tc = .void ∨ retPlace rt = .mem) := by tauto
  have hrb : resultBytes rt = need rt := by unfold resultBytes need; rw [if_neg hsil]
  have hwf : WF lp64 rt := by
    rcases hrt with h | h
    · exact absurd h hv
    · exact h
  by_cases hld : LdStruct rt
  · obtain ⟨k1, k2, k3⟩ := hr.ld hld
    have hni : isIntTC rt.tc = false := by rw [hld.1]; rfl
    have hn : need rt = 16 := by unfold need; rw [hni, k3]; rfl
    obtain ⟨R', l1, l2⟩ := loadRet_pair (r := .stRaxRdx) (p := (.gpr 0, .gpr 1)) rfl R ha
    obtain ⟨rv', frame', j1, j2, j3, j4, j5⟩ := storeStruct_spec (frame := frame) (rv := rv)
      (lo := rreg R' (.gpr 0)) (hi := rreg R' (.gpr 1)) (size := 16) hf (by omega) (by omega)
    refine ⟨R', rv', frame', ?_, ?_, ?_, ?_⟩
    · rw [closureReturn_regs hr hm, k1]; exact l1
    · rw [callReturn_some hr, k1, k2, storeRet_pair (p := (.gpr 0, .gpr 1)) rfl, j1]; rfl
    · intro q hq
      have hlt := dataByte_lt hwf (sig_data hwf hq)
      rw [j5, if_pos (by omega)]
      by_cases h8 : q < 8
      · rw [if_pos h8]; exact (l2 q h8).1
      · rw [if_neg h8]
        have := (l2 (q - 8) (by omega)).2
        simp only at this
        rw [this, show 8 + (q - 8) = q by omega]
    · intro bs _ hi; rw [hni] at hi; simp at hi
  · obtain ⟨R', l1, l2⟩ := C15_leave_partial hrt hats hb hp hld (R := R) ha
    obtain ⟨rv', frame', h1, h2, h3, h4, h5, h6, h7⟩ := (hr.good hv hm hld).1 R' frame rv area.at_ hf
      (by rw [← hrb]; exact hrv) l2
    refine ⟨R', rv', frame', l1, by rw [callReturn_some hr, h1]; rfl, h5, ?_⟩
    intro bs hlen hi harea j hj
    rw [h6 hi j hj, harea j hj]
    obtain ⟨tc, s, a, htab, rfl⟩ : ∃ tc s a, lp64 tc = some (s, a) ∧ rt = .mk s a tc [] := by
      cases hwf with
      | scalar h' => exact ⟨_, _, _, h', rfl⟩
      | complex => simp [isIntTC] at hi
      | struct => simp [isIntTC] at hi
    simp only [FType.tc_mk, FType.size_mk] at hi hlen harea ⊢
    have h8 : s ≤ 8 := by cases tc <;> simp [lp64, isIntTC] at htab hi <;> omega
    have : low area.at_ s = bs := by
      apply bytes_ext
      · simp [hlen]
      · intro i hi'
        rw [low_length] at hi'
        rw [low_getD hi', harea i (by omega), extend64_low htab hi bs hlen i hi']
    rw [this]

/-! ## C18 — results in memory -/

/-- C18: when the psABI returns a struct in memory, the target gets the caller's
pointer (or a library buffer for NULL) in the first integer register, arguments
start at the second one, a closure hands that pointer to its handler and returns
it in `%rax` whatever the handler does, and `ffi_call` stores nothing itself. -/
theorem C18_memory_result {rt : FType} {ats : List FType} {as : List (List Byte)} (hrt : WF lp64 rt)
    (hok : ArgsOk ats as) (hb : stackBytes rt ats + 8 < 2 ^ 32) (hm : retPlace rt = .mem) {fl : Flags}
    {bytes : Nat} (hp : prep rt ats = .ok (some (fl, bytes))) {rvalue : Option Nat}
    {fresh closure sp : Nat} {mem0 : Buf} {saved : List Byte} {oldXmm : Nat → Nat → Byte}
    (hfresh : fresh < 2 ^ 64) (hrva : ∀ a, rvalue = some a → a < 2 ^ 64)
    (hc : closure < 2 ^ 64) (ha : CallArea bytes sp mem0 saved) {E : Entry}
    (hE : callEntry fl bytes ats as (callRvalue fl rvalue fresh) closure sp mem0 saved oldXmm = .ok E)
    {frame0 tmp0 area0 : Buf} (hf : frame0.size = 216) (ht : tmp0.size = 16) (ha0 : area0.size = 32) :
    (∀ j, j < 8 → E.gpr 0 j = (leBytes 8 (rvalue.getD fresh)).getD j 0) ∧
    AllPassed ⟨E.gpr, E.xmm, E.stk⟩ ats as (place ats 1 0 0) ∧
    ∃ V, closureEntry fl ats E (sp + 192) frame0 tmp0 = .ok V ∧ V.retPtr = some (rvalue.getD fresh) ∧
      ∀ R, ∃ R', closureReturn fl R (closureArea V area0) = .ok R' ∧
        (∀ j, j < 8 → R'.rax j = (leBytes 8 (rvalue.getD fresh)).getD j 0) ∧
        ∀ frame rv, callReturn fl R' frame (some rv) = .ok (some rv, frame) := by
  have hr := resFlags (.inr hrt) hok.wf hb hp
  have hfr : firstReg rt = 1 := by unfold firstReg; rw [if_pos hm]
  have him : fl.inMem = true := by rw [hr.inMem, decide_eq_true hm]
  have hcr : callRvalue fl rvalue fresh = rvalue.getD fresh := by
    unfold callRvalue
    rw [decodeInMem_pack fl hr.size, him]
    cases rvalue <;> rfl
  have hlt : rvalue.getD fresh < 2 ^ 64 := by
    cases rvalue with
    | none => exact hfresh
    | some a => exact hrva a rfl
  rw [hcr] at hE
  have h11 := C11_placement (.inr hrt) hok hb hp hc ha hE
  obtain ⟨_, fl', bytes', _, hp', hfl, _, hg, _, hle, _⟩ := prep_spec (.inr hrt) hok.wf hb
  rw [hp] at hp'
  simp only [Except.ok.injEq, Option.some.injEq, Prod.mk.injEq] at hp'
  obtain ⟨rfl, rfl⟩ := hp'
  obtain ⟨E', h1, h2, h3, h4, h5, h6, h7⟩ := callEntry_spec (rvalue := rvalue.getD fresh) (oldXmm := oldXmm)
    hok (by rw [hg]; exact hle) ha.size ha.align ha.space ha.saved hc
  rw [hE] at h1
  injection h1 with h1
  subst h1
  have hg0 := h7 him
  refine ⟨hg0, ?_, ?_⟩
  · have := h11.1
    unfold argPlaces at this
    rwa [hfr] at this
  obtain ⟨V, v1, v2, v3⟩ := C12_closure_args (.inr hrt) hok hb hp (sp := sp + 192) (frame0 := frame0)
    (tmp0 := tmp0) (by have := ha.align; omega) (by have := ha.space; have := ha.size; omega) hf ht h11.1
  have hptr : V.retPtr = some (rvalue.getD fresh) := by
    unfold closureEntry at v1
    simp only at v1
    split at v1
    · simp at v1
    · injection v1 with v1
      rw [← v1]
      simp only [him, if_true]
      have hsz : (spill E fl.xmm frame0).size = 216 := hf
      obtain ⟨bs, b1, b2, b3⟩ := Buf.read_spec (b := spill E fl.xmm frame0) (off := 0) (n := 8) (by omega)
      rw [b1]
      have : bs = leBytes 8 (rvalue.getD fresh) := by
        apply bytes_ext
        · simp [b2]
        · intro i hi
          rw [b2] at hi
          rw [b3 i hi, ← hg0 i hi]
          simp only [spill, Nat.zero_add]
          rw [if_pos (by omega), Nat.div_eq_of_lt hi, Nat.mod_eq_of_lt hi]
      rw [this, Option.map_some, leNat_leBytes_of_lt]
      exact hlt
  refine ⟨V, v1, hptr, ?_⟩
  intro R
  have hsz : (closureArea V area0).size = 32 := by
    unfold closureArea; rw [hptr]; exact ha0
  obtain ⟨bs, b1, b2, b3⟩ := Buf.read_spec (b := closureArea V area0) (off := 0) (n := 8) (by omega)
  refine ⟨{ R with rax := setLow R.rax bs }, ?_, ?_, ?_⟩
  · unfold closureReturn
    rw [decodeInMem_pack fl hr.size, him]
    simp only [if_true, loadRet, b1]
  · intro j hj
    simp only
    rw [setLow_lt (by omega), b3 j hj, Nat.zero_add]
    unfold closureArea
    rw [hptr]
    simp only
    rw [if_pos hj]
  · intro frame rv
    rw [callReturn_some hr, hr.silent (.inr hm)]
    rfl

example : retPlace exBig = .mem ∧ argPlaces exBig [tI64, tD, exMix] =
    [.regs [.gpr 1], .regs [.sse 0], .regs [.gpr 2, .sse 1]] := by decide +kernel

/-! ## C19 — the argument vector -/

/-- C19 (part): signatures without structs larger than 16 bytes leave the caller's
argument vector intact.  Missing: larger structs, for which it is false, see
`C19_overwritten`. -/
theorem C19_avalue_partial (fresh : Nat → Nat) (ats : List FType) (avalue : List Nat)
    (h : ∀ t ∈ ats, t.tc = .struct → t.size ≤ 16) : callAvalue fresh ats avalue = avalue := by
  unfold callAvalue
  suffices ∀ i, copyLarge 16 fresh i ats avalue = avalue from this 0
  intro i
  induction ats generalizing i avalue with
  | nil => cases avalue <;> rfl
  | cons t ts ih =>
    cases avalue with
    | nil => rfl
    | cons p ps =>
      simp only [copyLarge]
      rw [if_neg (by rintro ⟨h1, h2⟩; have := h t (by simp) h1; omega), ih ps (fun x hx => h x (by simp [hx]))]

/-- C19 fails: after a call with a struct larger than 16 bytes, the caller's array
element points to the library's (dead) stack copy. -/
theorem C19_overwritten (fresh : Nat → Nat) (ats : List FType) (avalue : List Nat) (i : Nat) (t : FType)
    (p : Nat) (ht : ats[i]? = some t) (hp : avalue[i]? = some p) (hst : t.tc = .struct) (hsz : 16 < t.size) :
    (callAvalue fresh ats avalue)[i]? = some (fresh i) := by
  unfold callAvalue
  suffices ∀ k, (copyLarge 16 fresh k ats avalue)[i]? = some (fresh (k + i)) by simpa using this 0
  intro k
  induction ats generalizing i k avalue with
  | nil => simp at ht
  | cons t' ts ih =>
    cases avalue with
    | nil => simp at hp
    | cons p' ps =>
      simp only [copyLarge]
      cases i with
      | zero =>
        simp only [List.getElem?_cons_zero, Option.some.injEq] at ht
        subst ht
        simp [hst, hsz]
      | succ i =>
        rw [List.getElem?_cons_succ] at ht hp ⊢
        rw [ih ps i ht hp, show k + 1 + i = k + (i + 1) by omega]

example : (callAvalue (fun _ => 0x7ffc0) [tI32, exBig] [0x1000, 0x2000]) = [0x1000, 0x7ffc0] := by decide +kernel

/-! ## C20 — dynamic trampoline -/

/-- C20: for every placement, executing the trampoline bytes written by
`ffi_prep_closure_loc` reaches the entry point with the closure in `%r10`, the stack
and memory untouched, and the closure's cif, function and user data at the offsets
the entry code loads them from. -/
theorem C20_dynamic_trampoline {m : Nat → Byte} {c dest cif fn ud r sp : Nat} (hc : c < 2 ^ 64)
    (hd : dest < 2 ^ 64) (h1 : cif < 2 ^ 64) (h2 : fn < 2 ^ 64) (h3 : ud < 2 ^ 64)
    (h : Holds m c (closureImage dest cif fn ud)) :
    steps 3 ⟨c, r, sp, m⟩ = some ⟨dest, c, sp, m⟩ ∧
    load64 m (w64 (c + 32)) = cif ∧ load64 m (w64 (c + 40)) = fn ∧ load64 m (w64 (c + 48)) = ud :=
  ⟨dyn_run hc hd h, dyn_fields h1 h2 h3 h⟩

example : Holds (fun x => (closureImage 0x401000 0x601000 0x402000 7).getD (x - 0x7f0000001000) 0)
    0x7f0000001000 (closureImage 0x401000 0x601000 0x402000 7) := by
  intro i hi
  have hl : (closureImage 0x401000 0x601000 0x402000 7).length = 56 := by decide
  rw [w64_of_lt (by omega)]
  simp only
  rw [show 0x7f0000001000 + i - 0x7f0000001000 = i by omega]

/-! ## C21 — static trampolines -/

/-- A mapped trampoline table at `P`: every slot holds the trampoline code, and the
parameter block of slot `i` (the page after the code, same offset) holds data and
target. -/
structure TrampPage (endbr : Bool) (P : Nat) (data target : Nat → Nat) (m : Nat → Byte) : Prop where
  code : ∀ i, i < trampMapSize / trampSize endbr → Holds m (P + i * trampSize endbr) (staticTramp endbr)
  parm : ∀ i, i < trampMapSize / trampSize endbr →
    Holds m (P + trampMapSize + i * trampSize endbr) (leBytes 8 (data i) ++ leBytes 8 (target i))

/-- C21: every slot of the table, at every mapping address and in both layouts, jumps
to its own target with its own data at 8(%rsp) and the old `%r10` at (%rsp); the
entry code then finds the data in `%r10` with the stack pointer restored, and no
memory but the 16 bytes below the stack pointer has changed. -/
theorem C21_static_trampoline {endbr : Bool} {P : Nat} {data target : Nat → Nat} {m : Nat → Byte}
    (h : TrampPage endbr P data target m) {i : Nat} (hi : i < trampMapSize / trampSize endbr)
    (hP : P + 2 * trampMapSize ≤ 2 ^ 64) {r sp : Nat} (hr : r < 2 ^ 64) (hd : data i < 2 ^ 64)
    (ht : target i < 2 ^ 64) (hsp : 16 ≤ sp) (hsp' : sp < 2 ^ 64)
    (hstk : sp ≤ P ∨ P + 2 * trampMapSize ≤ sp - 16) :
    ∃ s, steps (if endbr then 7 else 6) ⟨P + i * trampSize endbr, r, sp, m⟩ = some s ∧
      s.rip = target i ∧ s.rsp = sp - 16 ∧ load64 s.mem s.rsp = r ∧ load64 s.mem (s.rsp + 8) = data i ∧
      (altEntry s).r10 = data i ∧ (altEntry s).rsp = sp ∧
      ∀ x, x < 2 ^ 64 → x < sp - 16 ∨ sp ≤ x → s.mem x = m x := by
  have hfit : (i + 1) * trampSize endbr ≤ trampMapSize :=
    (Nat.mul_le_mul_right _ hi).trans (Nat.div_mul_le_self _ _)
  have hts : 16 ≤ trampSize endbr := by cases endbr <;> simp [trampSize]
  rw [Nat.add_mul, Nat.one_mul] at hfit
  have hms : trampMapSize = 4096 := rfl
  have hparm := h.parm i hi
  rw [show P + trampMapSize + i * trampSize endbr = P + i * trampSize endbr + 4096 by omega] at hparm
  refine ⟨_, static_run hd ht (by omega) (h.code i hi) hparm hsp hsp' (by omega) (by omega), rfl, rfl, ?_, ?_, ?_, ?_, ?_⟩
  · simp only
    rw [load_store64_other (by omega) (by omega) (by omega), load_store64 (by omega) hr]
  · simp only
    rw [show sp - 16 + 8 = sp - 8 by omega, load_store64 (by omega) hd]
  · simp only [altEntry]
    rw [show sp - 16 + 8 = sp - 8 by omega, w64_of_lt (by omega), load_store64 (by omega) hd]
  · simp only [altEntry]
    rw [show sp - 16 + 16 = sp by omega, w64_of_lt hsp']
  · intro x hx hx'
    simp only
    rw [store64_other (by omega) hx (by omega), store64_other (by omega) hx (by omega)]

/-- C21: parameter blocks lie in the parameter page and those of different slots do
not overlap; the code of a slot fits in the slot. -/
theorem C21_blocks_disjoint (endbr : Bool) :
    (staticTramp endbr).length ≤ trampSize endbr ∧
    ∀ i j, i < trampMapSize / trampSize endbr → j < trampMapSize / trampSize endbr → i ≠ j →
      i * trampSize endbr + 16 ≤ trampMapSize ∧
      (i * trampSize endbr + 16 ≤ j * trampSize endbr ∨ j * trampSize endbr + 16 ≤ i * trampSize endbr) := by
  have hts : 16 ≤ trampSize endbr := by cases endbr <;> simp [trampSize]
  refine ⟨by cases endbr <;> decide, ?_⟩
  intro i j hi hj hne
  have hfit : (i + 1) * trampSize endbr ≤ trampMapSize :=
    (Nat.mul_le_mul_right _ hi).trans (Nat.div_mul_le_self _ _)
  rw [Nat.add_mul, Nat.one_mul] at hfit
  refine ⟨by omega, ?_⟩
  rcases Nat.lt_or_gt_of_ne hne with h | h
  · have : (i + 1) * trampSize endbr ≤ j * trampSize endbr := Nat.mul_le_mul_right _ h
    rw [Nat.add_mul, Nat.one_mul] at this
    omega
  · have : (j + 1) * trampSize endbr ≤ i * trampSize endbr := Nat.mul_le_mul_right _ h
    rw [Nat.add_mul, Nat.one_mul] at this
    omega

/-- A page with all slots in use. -/
def exPage (endbr : Bool) (P : Nat) : Nat → Byte := fun x =>
  if x - P < trampMapSize then (staticTramp endbr).getD ((x - P) % trampSize endbr) 0
  else (leBytes 8 (100 + (x - P - trampMapSize) / trampSize endbr) ++ leBytes 8 0x401000).getD
    ((x - P - trampMapSize) % trampSize endbr) 0

example (endbr : Bool) : TrampPage endbr 0x7f0000000000 (fun i => 100 + i) (fun _ => 0x401000)
    (exPage endbr 0x7f0000000000) := by
  have hlen : (staticTramp endbr).length ≤ trampSize endbr := by cases endbr <;> decide
  have hts : 16 ≤ trampSize endbr := by cases endbr <;> simp [trampSize]
  have hms : trampMapSize = 4096 := rfl
  constructor
  · intro i hi k hk
    have hfit : (i + 1) * trampSize endbr ≤ trampMapSize :=
      (Nat.mul_le_mul_right _ hi).trans (Nat.div_mul_le_self _ _)
    rw [Nat.add_mul, Nat.one_mul] at hfit
    rw [w64_of_lt (by omega)]
    unfold exPage
    rw [if_pos (by omega), show 0x7f0000000000 + i * trampSize endbr + k - 0x7f0000000000 =
      k + i * trampSize endbr by omega, Nat.add_mul_mod_self_right, Nat.mod_eq_of_lt (by omega)]
  · intro i hi k hk
    have hk' : k < 16 := by simpa using hk
    have hfit : (i + 1) * trampSize endbr ≤ trampMapSize :=
      (Nat.mul_le_mul_right _ hi).trans (Nat.div_mul_le_self _ _)
    rw [Nat.add_mul, Nat.one_mul] at hfit
    rw [w64_of_lt (by omega)]
    unfold exPage
    rw [if_neg (by omega), show 0x7f0000000000 + trampMapSize + i * trampSize endbr + k - 0x7f0000000000 -
      trampMapSize = k + i * trampSize endbr by omega, Nat.add_mul_mod_self_right, Nat.mod_eq_of_lt (by omega),
      Nat.add_mul_div_right _ _ (by omega), Nat.div_eq_of_lt (by omega), Nat.zero_add]

end Verif.Props
