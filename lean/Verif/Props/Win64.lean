import Verif.Win64.ResultLemmas
import Verif.Spec.Build

/-
Property theorems for the Windows x64 convention: C22–C24.
-/
namespace Verif.Props
open Verif Spec Spec.Win64 Verif.Win64

/-- A call that can happen: as many argument objects as types, enough stack below
`I.sp` (everything used lies in `[lo, I.sp)`), and the caller's argument objects are
not in that unused stack.  `vs` are the argument values. -/
structure W64Call (abi : Abi) (rt : FType) (ats : List FType) (I : CallIn) (lo : Nat)
    (vs : List (List Byte)) : Prop where
  types : ∀ t ∈ ats, SizeOk t
  nargs : ats.length < 2 ^ 28
  len : I.avalue.length = ats.length
  room : lo + 96 + need ats + ((prep abi rt ats).2 + 40 + rt.size + 15) ≤ I.sp
  obj : ∀ (i : Nat) t a, ats[i]? = some t → I.avalue[i]? = some a → Disj a t.size lo I.sp ∧ a < 2 ^ 64
  addr : I.sp < 2 ^ 64
  vals : ∀ (i : Nat) t a v, ats[i]? = some t → I.avalue[i]? = some a → vs[i]? = some v →
    I.mem.rd a t.size = v
  ret : ∀ a, I.rvalue = some a → a < 2 ^ 64

/-- The entry state in terms of the specification. -/
def w64Regs (E : Entry) : Spec.Win64.Regs := ⟨E.mem, E.args, E.gpr, E.xmm⟩

/-- `ffi_call` on a prepared signature. -/
def w64Call (abi : Abi) (rt : FType) (ats : List FType) (I : CallIn) : CallOut :=
  callEntry (prep abi rt ats).1 (prep abi rt ats).2 rt ats I

theorem prep_bytes (abi : Abi) (rt : FType) (ats : List FType) (h : ats.length < 2 ^ 28) :
    (prep abi rt ats).2 = 8 * max 4 (ats.length + firstSlot abi.gnu rt) := by
  unfold prep nSlots firstSlot
  simp only [retFlag_struct]
  split_ifs <;> omega

theorem callFlags_struct (abi : Abi) (rt : FType) (rv : Option Nat) :
    callFlags (retFlag abi rt) rv = .tc .struct ↔ retPlace abi.gnu rt = .mem := by
  rw [← retFlag_struct]
  unfold callFlags
  split_ifs with h
  · simp [h.2]
  · rfl

theorem entrySpec {abi : Abi} {rt : FType} {ats : List FType} {I : CallIn} {lo : Nat} {vs : List (List Byte)}
    (h : W64Call abi rt ats I lo vs) :
    EntrySpec (retFlag abi rt) (prep abi rt ats).2 rt ats I (lo + 88) (w64Call abi rt ats I) := by
  have hb := prep_bytes abi rt ats h.nargs
  have hr := h.room
  have hrs : callRsize (retFlag abi rt) rt I.rvalue ≤ rt.size := by unfold callRsize; split_ifs <;> omega
  apply callEntry_spec h.len
  · rw [hb]
    simp only [callFlags_struct]
    unfold firstSlot
    split_ifs <;> omega
  · omega
  · omega
  · intro i t a h1 h2
    rcases (h.obj i t a h1 h2).1 with h | h
    · left; omega
    · right; omega

theorem entry_slot {fl : Flag} {bytes : Nat} {rt : FType} {ats : List FType} {I : CallIn} {lo : Nat}
    {O : CallOut} (hE : EntrySpec fl bytes rt ats I lo O) (k : Nat) (fp : Bool) :
    slot (w64Regs O.entry) fp k = O.entry.mem.rd (O.entry.args + 8 * k) 8 := by
  unfold slot w64Regs
  simp only
  split_ifs with h1 h2
  · exact hE.xmm k h1
  · exact hE.gpr k h1
  · rfl

theorem hid_eq {abi : Abi} {rt : FType} {ats : List FType} {I : CallIn} {lo : Nat} {vs : List (List Byte)}
    (h : W64Call abi rt ats I lo vs) :
    (if (w64Call abi rt ats I).flags = .tc .struct then 1 else 0) = firstSlot abi.gnu rt := by
  rw [(entrySpec h).flags]
  simp only [callFlags_struct]
  rfl

/-- C22: on entry of the target every argument is in its slot, in register or stack, by
value or by reference; the hidden result pointer is in the first register, the static
chain in `%r10`; the stack is 16-byte aligned; nothing outside the free stack has
changed; and the frame holds what the code after the call needs. -/
theorem C22_call {abi : Abi} {rt : FType} {ats : List FType} {I : CallIn} {lo : Nat} {vs : List (List Byte)}
    (h : W64Call abi rt ats I lo vs) :
    (∀ (i : Nat) t v, ats[i]? = some t → vs[i]? = some v →
      PassedAt (w64Regs (w64Call abi rt ats I).entry) t v (firstSlot abi.gnu rt + i)) ∧
    (retPlace abi.gnu rt = .mem →
      leNat ((w64Call abi rt ats I).entry.gpr 0) = (w64Call abi rt ats I).rvalue) ∧
    (∀ a, I.rvalue = some a → (w64Call abi rt ats I).rvalue = a) ∧
    (w64Call abi rt ats I).entry.r10 = I.closure ∧
    (w64Call abi rt ats I).entry.args % 16 = 0 ∧
    (∀ x, x < lo ∨ I.sp ≤ x → (w64Call abi rt ats I).entry.mem x = I.mem x) ∧
    (w64Call abi rt ats I).entry.mem.rd ((w64Call abi rt ats I).frame + 16) 8 = leBytes 8 I.fn := by
  have hE := entrySpec h
  have hh := hid_eq h
  generalize w64Call abi rt ats I = O at hE hh
  have hfr := hE.frame
  have htop := hE.top
  have haddr := h.addr
  have hsl := entry_slot hE
  refine ⟨?_, ?_, ?_, hE.r10, hE.align, fun x hx => hE.outside x (by omega), hE.fn⟩
  · intro i t v h1 h2
    have hi := (List.getElem?_eq_some_iff.1 h1).1
    obtain ⟨a, ha⟩ : ∃ a, I.avalue[i]? = some a := ⟨_, List.getElem?_eq_getElem (by rw [h.len]; exact hi)⟩
    obtain ⟨b, hb⟩ : ∃ b, O.avalue[i]? = some b := ⟨_, List.getElem?_eq_getElem (by rw [hE.len]; exact hi)⟩
    have hs := hE.slots i t a b h1 ha hb
    rw [hh] at hs
    have hv := h.vals i t a v h1 ha h2
    unfold PassedAt
    split_ifs with hby
    · rw [hsl, ← hv]; exact hs.val hby
    · rw [hsl, hs.ref hby, leNat_leBytes]
      have : b < 256 ^ 8 := by
        by_cases hc : t.tc = .struct ∧ intGt8 t.size = true
        · have := hs.copied hc.1 hc.2
          rw [show 256 ^ 8 = 2 ^ 64 from rfl]
          omega
        · rw [hs.same hc]
          exact (h.obj i t a h1 ha).2
      rw [Nat.mod_eq_of_lt this, ← hv]
      exact hs.obj
  · intro hm
    have h1 := hE.gpr 0 (by omega)
    rw [Nat.mul_zero, Nat.add_zero] at h1
    rw [h1, hE.hidden (by rw [hE.flags]; exact (callFlags_struct _ _ _).2 hm), leNat_leBytes]
    apply Nat.mod_eq_of_lt
    rw [show 256 ^ 8 = 2 ^ 64 from rfl, hE.rvalue]
    split_ifs
    · omega
    · cases hr : I.rvalue with
      | none => decide
      | some a => exact h.ret a hr
  · intro a ha
    rw [hE.rvalue, if_neg (by unfold callRsize; simp [ha]), ha]
    rfl

/-- C22: with `rvalue == NULL` and a result in memory, `ffi_call` supplies a block of
its own, large enough and not overlapping the argument area or the frame. -/
theorem C22_null_result {abi : Abi} {rt : FType} {ats : List FType} {I : CallIn} {lo : Nat}
    {vs : List (List Byte)} (h : W64Call abi rt ats I lo vs) (hn : I.rvalue = none)
    (hm : retPlace abi.gnu rt = .mem) (h0 : rt.size ≠ 0) :
    (w64Call abi rt ats I).frame + 40 ≤ (w64Call abi rt ats I).rvalue ∧
    (w64Call abi rt ats I).rvalue + rt.size ≤ I.sp := by
  have hE := entrySpec h
  have hrs : callRsize (retFlag abi rt) rt I.rvalue = rt.size := by
    unfold callRsize
    rw [if_pos ⟨hn, retFlag_struct.2 hm⟩]
  have := hE.top
  rw [hE.rvalue, hrs, if_pos h0]
  rw [hrs] at this
  omega

/-- C22: whatever the machine state, if the arguments were passed according to the
convention the handler of a closure sees them. -/
theorem C22_closure {abi : Abi} {rt : FType} {ats : List FType} {E : Entry} {vs : List (List Byte)}
    (hsz : ∀ t ∈ ats, SizeOk t) (h56 : 56 ≤ E.args) (hg : ∀ k, k < 4 → (E.gpr k).length = 8)
    (hx : ∀ k, k < 4 → (E.xmm k).length = 8)
    (hp : ∀ (i : Nat) t v, ats[i]? = some t → vs[i]? = some v →
      PassedAt (w64Regs E) t v (firstSlot abi.gnu rt + i))
    (href : ∀ (i : Nat) t, ats[i]? = some t → ¬ByValue t.size →
      Disj (leNat (slot (w64Regs E) false (firstSlot abi.gnu rt + i))) t.size (E.args - 56) (E.args + 32)) :
    (closureEntry (retFlag abi rt) ats E).avalue.length = ats.length ∧
    (∀ (i : Nat) t v p, ats[i]? = some t → vs[i]? = some v →
      (closureEntry (retFlag abi rt) ats E).avalue[i]? = some p →
      (closureEntry (retFlag abi rt) ats E).mem.rd p t.size = v) ∧
    (retPlace abi.gnu rt = .mem → (closureEntry (retFlag abi rt) ats E).rvalue = leNat (E.gpr 0)) := by
  have hV := closureEntry_spec (fl := retFlag abi rt) (ats := ats) h56 hg hx
  have hh : (if retFlag abi rt = .tc .struct then 1 else 0) = firstSlot abi.gnu rt := by
    simp only [retFlag_struct]; rfl
  refine ⟨hV.len, ?_, ?_⟩
  · intro i t v p h1 h2 h3
    have := hV.args i t p h1 h3
    rw [hh] at this
    rw [this]
    exact view_arg hV h56 (hsz t (List.mem_of_getElem? h1)) (hp i t v h1 h2) (href i t h1)
  · intro hm
    rw [hV.rvalue, if_pos (retFlag_struct.2 hm)]

/-- C22: calling a closure through `ffi_call` with the same signature shows the caller's
argument values to the handler, and hands it the caller's result address. -/
theorem C22_round_trip {abi : Abi} {rt : FType} {ats : List FType} {I : CallIn} {lo : Nat}
    {vs : List (List Byte)} (h : W64Call abi rt ats I lo vs) :
    let V := closureEntry (prep abi rt ats).1 ats (w64Call abi rt ats I).entry
    V.avalue.length = ats.length ∧
    (∀ (i : Nat) t v p, ats[i]? = some t → vs[i]? = some v → V.avalue[i]? = some p →
      V.mem.rd p t.size = v) ∧
    (∀ a, retPlace abi.gnu rt = .mem → I.rvalue = some a → V.rvalue = a) := by
  have hC := C22_call h
  have hE := entrySpec h
  have hh := hid_eq h
  generalize w64Call abi rt ats I = O at hE hC hh
  have hlow := hE.low
  have htop := hE.top
  have hfr := hE.frame
  have hb := prep_bytes abi rt ats h.nargs
  have haddr := h.addr
  have hg : ∀ k, k < 4 → (O.entry.gpr k).length = 8 := by intro k hk; rw [hE.gpr k hk]; simp
  have hx : ∀ k, k < 4 → (O.entry.xmm k).length = 8 := by intro k hk; rw [hE.xmm k hk]; simp
  have key := C22_closure (abi := abi) (rt := rt) h.types (by omega) hg hx hC.1 (by
    intro i t h1 hby
    have hi := (List.getElem?_eq_some_iff.1 h1).1
    obtain ⟨a, ha⟩ : ∃ a, I.avalue[i]? = some a := ⟨_, List.getElem?_eq_getElem (by rw [h.len]; exact hi)⟩
    obtain ⟨b, hb'⟩ : ∃ b, O.avalue[i]? = some b := ⟨_, List.getElem?_eq_getElem (by rw [hE.len]; exact hi)⟩
    have hs := hE.slots i t a b h1 ha hb'
    rw [hh] at hs
    have e : slot (w64Regs O.entry) false (firstSlot abi.gnu rt + i) = leBytes 8 b := by
      rw [← hs.ref hby, entry_slot hE]
    have hobj := h.obj i t a h1 ha
    have hlt : b < 2 ^ 64 ∧ (b + t.size ≤ lo ∨ O.entry.args + 32 ≤ b) := by
      by_cases hc : t.tc = .struct ∧ intGt8 t.size = true
      · have := hs.copied hc.1 hc.2
        omega
      · rw [hs.same hc]
        refine ⟨hobj.2, ?_⟩
        rcases hobj.1 with h | h <;> omega
    rw [e, leNat_leBytes, show 256 ^ 8 = 2 ^ 64 from rfl, Nat.mod_eq_of_lt hlt.1]
    rcases hlt.2 with h | h
    · left; omega
    · right; exact h)
  refine ⟨key.1, key.2.1, ?_⟩
  intro a hm ha
  have := key.2.2 hm
  rw [hC.2.1 hm, hC.2.2.1 a ha] at this
  exact this

/-! ## Concrete types -/

/-- `struct { char; char; char }` -/
def w3 : FType := mkStruct [mkScalar lp64 .sint8, mkScalar lp64 .sint8, mkScalar lp64 .sint8]
/-- `struct { long; double; int }` -/
def w24 : FType := mkStruct [mkScalar lp64 .sint64, mkScalar lp64 .double, mkScalar lp64 .sint32]
/-- `struct { float; float }` -/
def w8 : FType := mkStruct [mkScalar lp64 .float, mkScalar lp64 .float]
def wSig : List FType := [mkScalar lp64 .double, w24, w3, mkScalar lp64 .sint16, w8, mkScalar lp64 .float,
  mkComplex lp64 .double]

/-- Objects of `wSig` at addresses above the stack pointer. -/
def wCall : CallIn :=
  { sp := 100000, mem := fun x => BitVec.ofNat 8 x, avalue := [100000, 100008, 100032, 100036, 100040, 100048, 100056],
    rvalue := none, fn := 5000, closure := 77, rbp := 1, raddr := 2, raddr2 := 3 }

theorem wCall_ok : W64Call .win64 w24 wSig wCall 90000
    ((wSig.zip wCall.avalue).map fun x => wCall.mem.rd x.2 x.1.size) where
  types := by
    intro t ht n hn
    simp only [wSig, List.mem_cons, List.not_mem_nil, or_false] at ht
    rcases ht with rfl | rfl | rfl | rfl | rfl | rfl | rfl <;>
      simp_all [w24, w3, w8, mkStruct, mkScalar, mkComplex, stdSize, lp64]
  nargs := by decide
  len := rfl
  room := by decide +kernel
  obj := by
    intro i t a h1 h2
    have hi : i < 7 := (List.getElem?_eq_some_iff.1 h2).1
    have : 100000 ≤ a ∧ a < 2 ^ 64 := by
      interval_cases i <;> simp [wCall] at h2 <;> omega
    exact ⟨.inr this.1, this.2⟩
  addr := by decide
  vals := by
    intro i t a v h1 h2 h3
    rw [List.getElem?_map, show (wSig.zip wCall.avalue)[i]? = some (t, a) from List.getElem?_zip_eq_some.2 ⟨h1, h2⟩] at h3
    simpa using h3
  ret := by simp [wCall]

example : (w64Call .win64 w24 wSig wCall).avalue = [100000, 99968, 100032, 100036, 100040, 100048, 100056] ∧
    (w64Call .win64 w24 wSig wCall).entry.args = 99840 ∧ firstSlot false w24 = 1 := by decide +kernel

/-! ## C23 — isolation -/

/-- C23 (part): if every argument passed by reference is a struct larger than 8 bytes,
a callee that writes only to its own stack and through its arguments leaves all memory
of the caller as it was.  Missing: the other types passed by reference, for which this
is false, see `C23_shared`. -/
theorem C23_isolated_partial {abi : Abi} {rt : FType} {ats : List FType} {I : CallIn} {lo : Nat}
    {vs : List (List Byte)} (h : W64Call abi rt ats I lo vs)
    (hsafe : ∀ t ∈ ats, ByValue t.size ∨ (t.tc = .struct ∧ 8 < t.size ∧ t.size < 2 ^ 31)) (m' : Mem)
    (hm : ∀ x, m' x ≠ (w64Call abi rt ats I).entry.mem x →
      (lo ≤ x ∧ x < (w64Call abi rt ats I).entry.args) ∨
      ∃ i : Nat, ∃ t, ats[i]? = some t ∧
        calleeOwns (w64Regs (w64Call abi rt ats I).entry) t (firstSlot abi.gnu rt + i) x) :
    ∀ x, x < lo ∨ I.sp ≤ x → m' x = I.mem x := by
  have hC := C22_call h
  have hE := entrySpec h
  have hh := hid_eq h
  generalize w64Call abi rt ats I = O at hE hC hh hm
  have hlow := hE.low
  have htop := hE.top
  have hfr := hE.frame
  have hb := prep_bytes abi rt ats h.nargs
  have haddr := h.addr
  intro x hx
  rw [← hC.2.2.2.2.2.1 x hx]
  by_contra hne
  rcases hm x hne with h1 | ⟨i, t, h1, h2⟩
  · omega
  · have hi := (List.getElem?_eq_some_iff.1 h1).1
    have hslot : O.entry.args + 8 * (firstSlot abi.gnu rt + i) + 8 ≤ O.frame := by omega
    unfold calleeOwns at h2
    split_ifs at h2 with hby
    · simp only [w64Regs] at h2; omega
    · rcases h2 with h2 | h2
      · simp only [w64Regs] at h2; omega
      · obtain ⟨a, ha⟩ : ∃ a, I.avalue[i]? = some a := ⟨_, List.getElem?_eq_getElem (by rw [h.len]; exact hi)⟩
        obtain ⟨b, hb'⟩ : ∃ b, O.avalue[i]? = some b := ⟨_, List.getElem?_eq_getElem (by rw [hE.len]; exact hi)⟩
        have hs := hE.slots i t a b h1 ha hb'
        rw [hh] at hs
        have e : slot (w64Regs O.entry) false (firstSlot abi.gnu rt + i) = leBytes 8 b := by
          rw [← hs.ref hby, entry_slot hE]
        rcases hsafe t (List.mem_of_getElem? h1) with hc | ⟨hc1, hc2, hc3⟩
        · exact hby hc
        · have hg : intGt8 t.size = true := by
            unfold intGt8
            simp only [decide_eq_true_eq]
            omega
          have := hs.copied hc1 hg
          rw [e, leNat_leBytes, show 256 ^ 8 = 2 ^ 64 from rfl, Nat.mod_eq_of_lt (by omega)] at h2
          omega

/-- C23 fails for every other type passed by reference (structs of 3, 5, 6 or 7 bytes,
`complex double`, 16-byte `long double`): the callee gets the address of the caller's
own object and owns all its bytes. -/
theorem C23_shared {abi : Abi} {rt : FType} {ats : List FType} {I : CallIn} {lo : Nat}
    {vs : List (List Byte)} (h : W64Call abi rt ats I lo vs) {i : Nat} {t : FType} {a : Nat}
    (h1 : ats[i]? = some t) (h2 : I.avalue[i]? = some a) (hby : ¬ByValue t.size)
    (hc : ¬(t.tc = .struct ∧ 8 < t.size)) :
    ∀ x, a ≤ x → x < a + t.size →
      calleeOwns (w64Regs (w64Call abi rt ats I).entry) t (firstSlot abi.gnu rt + i) x := by
  have hE := entrySpec h
  have hh := hid_eq h
  generalize w64Call abi rt ats I = O at hE hh
  have hi := (List.getElem?_eq_some_iff.1 h1).1
  obtain ⟨b, hb'⟩ : ∃ b, O.avalue[i]? = some b := ⟨_, List.getElem?_eq_getElem (by rw [hE.len]; exact hi)⟩
  have hs := hE.slots i t a b h1 h2 hb'
  rw [hh] at hs
  have e : slot (w64Regs O.entry) false (firstSlot abi.gnu rt + i) = leBytes 8 b := by
    rw [← hs.ref hby, entry_slot hE]
  have hba : b = a := hs.same (by
    intro hc'
    apply hc
    refine ⟨hc'.1, ?_⟩
    have := hc'.2
    unfold intGt8 at this
    simp only [decide_eq_true_eq] at this
    have := Nat.mod_le t.size (2 ^ 32)
    omega)
  intro x hx1 hx2
  unfold calleeOwns
  rw [if_neg hby, e, leNat_leBytes, show 256 ^ 8 = 2 ^ 64 from rfl, Nat.mod_eq_of_lt
    (by rw [hba]; exact (h.obj i t a h1 h2).2), hba]
  exact .inr ⟨hx1, hx2⟩

/-- Two arguments of `wCall` are affected: the 3-byte struct and the complex number. -/
example : wSig[2]? = some w3 ∧ wSig[6]? = some (mkComplex lp64 .double) := ⟨rfl, rfl⟩

example : ¬ByValue w3.size ∧ ¬(w3.tc = .struct ∧ 8 < w3.size) ∧
    ¬ByValue (mkComplex lp64 .double).size := by decide +kernel

/-- The first two arguments alone satisfy the hypothesis of `C23_isolated_partial`. -/
example : ∀ t ∈ wSig.take 2, ByValue t.size ∨ (t.tc = .struct ∧ 8 < t.size ∧ t.size < 2 ^ 31) := by
  decide +kernel

/-! ## C24 — results -/

/-- C24: a result returned in a register is stored as a full `ffi_arg` (sign- or
zero-extended) for integers and with exactly its size otherwise; nothing else changes.
Results in memory and `void` are not touched.  An 80-bit `long double` with the
Microsoft ABI aborts. -/
theorem C24_result {abi : Abi} {rt : FType} (hs : SizeOk rt) {R : RetRegs} (h1 : R.rax.length = 8)
    (h2 : R.xmm0.length = 8) (a : Nat) (m : Mem) :
    (∀ v, ReturnedIn abi.gnu R.rax R.xmm0 rt v →
      (retPlace abi.gnu rt = .rax ∨ retPlace abi.gnu rt = .xmm0) →
      ∃ m', storeRet (retFlag abi rt) R a m = .ok m' ∧
        m'.rd a (resultObj rt.tc v).length = resultObj rt.tc v ∧
        ∀ x, x < a ∨ a + (resultObj rt.tc v).length ≤ x → m' x = m x) ∧
    (retPlace abi.gnu rt = .void ∨ retPlace abi.gnu rt = .mem → storeRet (retFlag abi rt) R a m = .ok m) ∧
    (retPlace abi.gnu rt = .unsupported ↔ storeRet (retFlag abi rt) R a m = .error .abort) := by
  refine ⟨?_, ?_, ?_⟩
  · intro v hv hp
    refine ⟨_, storeRet_spec hs h1 h2 hv hp a m, Mem.rd_wr_same _ _ _, ?_⟩
    intro x hx
    exact Mem.wr_out _ _ _ _ hx
  · rintro (hv | hv)
    · have : rt.tc = .void := by
        unfold retPlace at hv
        cases h : rt.tc <;> simp [h] at hv ⊢ <;> split_ifs at hv
      simp [retFlag, this, storeRet]
    · rw [retFlag_struct.2 hv, storeRet]
  · unfold retPlace retFlag structFlag
    cases h : rt.tc <;> cases abi <;> simp [Abi.gnu, storeRet] <;> split_ifs <;> simp [storeRet]

/-- C24: with `rvalue == NULL` a result in a register is not stored at all. -/
theorem C24_null {abi : Abi} {rt : FType} (hm : retPlace abi.gnu rt ≠ .mem) (R : RetRegs) (a : Nat) (m : Mem) :
    storeRet (callFlags (retFlag abi rt) none) R a m = .ok m := by
  have : callFlags (retFlag abi rt) none = .tc .void := by
    unfold callFlags
    rw [if_pos ⟨rfl, fun h => hm (retFlag_struct.1 h)⟩]
  rw [this, storeRet]

/-- C24: a closure returns in the register of its return type the value its handler
stored in the result area, and for a result in memory the address it was passed. -/
theorem C24_closure {abi : Abi} {rt : FType} {ats : List FType} {E : Entry} (h56 : 56 ≤ E.args)
    (hg : ∀ k, k < 4 → (E.gpr k).length = 8) (hx : ∀ k, k < 4 → (E.xmm k).length = 8) (hs : SizeOk rt) :
    let V := closureEntry (retFlag abi rt) ats E
    (∀ m v, retPlace abi.gnu rt = .rax ∨ retPlace abi.gnu rt = .xmm0 → v.length = rt.size →
      m.rd V.rvalue rt.size = v →
      ReturnedIn abi.gnu (closureReturn m E.args).rax (closureReturn m E.args).xmm0 rt v) ∧
    (∀ m, retPlace abi.gnu rt = .mem → (∀ x, E.args - 56 ≤ x → x < E.args - 48 → m x = V.mem x) →
      (closureReturn m E.args).rax = E.gpr 0) := by
  have hV := closureEntry_spec (fl := retFlag abi rt) (ats := ats) h56 hg hx
  refine ⟨?_, ?_⟩
  · intro m v hp hl hv
    rw [hV.rvalue, if_neg (by rw [retFlag_struct]; rcases hp with h | h <;> rw [h] <;> decide)] at hv
    have h8 : rt.size ≤ 8 := by
      unfold retPlace at hp
      cases h : rt.tc <;> simp only [h] at hp
      case void => simp at hp
      case longdouble => split_ifs at hp <;> simp at hp
      case struct | complex =>
        by_cases hb : ByValue rt.size
        · unfold ByValue at hb; omega
        · simp [hb] at hp
      all_goals
        have := hs _ (by rw [h]; rfl)
        omega
    have e : (m.rd (E.args - 56) 8).take rt.size = v := by rw [Mem.rd_take _ _ h8, hv]
    exact ⟨hl, fun _ => e, fun _ => e⟩
  · intro m hm hsame
    have := hV.rslot (retFlag_struct.2 hm)
    unfold closureReturn
    rw [← this]
    exact Mem.rd_congr fun i hi => hsame _ (by omega) (by omega)

/-- C24: the value a handler stores is the value the caller of `ffi_call` finds in its
result object. -/
theorem C24_round_trip {abi : Abi} {rt : FType} {ats : List FType} {E : Entry} (h56 : 56 ≤ E.args)
    (hg : ∀ k, k < 4 → (E.gpr k).length = 8) (hx : ∀ k, k < 4 → (E.xmm k).length = 8) (hs : SizeOk rt)
    (hp : retPlace abi.gnu rt = .rax ∨ retPlace abi.gnu rt = .xmm0) (m m2 : Mem) (v : List Byte)
    (hl : v.length = rt.size) (hv : m.rd (closureEntry (retFlag abi rt) ats E).rvalue rt.size = v) (a : Nat) :
    ∃ m', storeRet (retFlag abi rt) (closureReturn m E.args) a m2 = .ok m' ∧ m'.rd a rt.size = v := by
  have h1 := (C24_closure (abi := abi) (rt := rt) (ats := ats) h56 hg hx hs).1 m v hp hl hv
  have h2 := storeRet_spec (abi := abi) hs (R := closureReturn m E.args) (by simp [closureReturn])
    (by simp [closureReturn]) h1 hp a m2
  refine ⟨_, h2, ?_⟩
  have hle : rt.size ≤ (resultObj rt.tc v).length := by
    have := congrArg List.length (resultObj_take hs hl)
    rw [List.length_take, hl] at this
    omega
  rw [Mem.rd_wr_prefix _ _ _ hle, resultObj_take hs hl]

example : retPlace false w8 = .rax ∧ retPlace false w24 = .mem ∧ retPlace true (mkScalar lp64 .longdouble) = .mem ∧
    retPlace false (mkScalar lp64 .longdouble) = .unsupported ∧ retPlace false (mkScalar lp64 .sint16) = .rax ∧
    resultObj .sint16 [0xfe, 0xff] = [0xfe, 0xff, 0xff, 0xff, 0xff, 0xff, 0xff, 0xff] := by decide +kernel

end Verif.Props
