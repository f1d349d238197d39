import Verif.X64.Ret
import Verif.X64.EntryLemmas
import Mathlib.Data.Nat.Bitwise

namespace Verif.X64
open Verif Spec Spec.X64

/-! ## The flags word -/

theorem pack_eq (f : Flags) (hs : f.size < 2 ^ 20) :
    f.pack = f.ret.code + (if f.inMem then 1024 else 0) + (if f.xmm then 2048 else 0) + 4096 * f.size := by
  obtain ⟨r, im, xm, size⟩ := f
  simp only at hs
  have hlow : r.code ||| (if im then 1 <<< 10 else 0) ||| (if xm then 1 <<< 11 else 0) =
      r.code + (if im then 1024 else 0) + (if xm then 2048 else 0) := by
    cases r <;> cases im <;> cases xm <;> rfl
  have hlt : r.code + (if im then 1024 else 0) + (if xm then 2048 else 0) < 2 ^ 12 := by
    cases r <;> cases im <;> cases xm <;> decide
  unfold Flags.pack
  simp only
  rw [hlow, Nat.shiftLeft_eq, Nat.or_comm, Nat.mul_comm size, ← Nat.two_pow_add_eq_or_of_lt hlt,
    Nat.mod_eq_of_lt (by omega)]
  omega

theorem decodeRet_pack (f : Flags) (hs : f.size < 2 ^ 20) : decodeRet f.pack = some f.ret := by
  unfold decodeRet
  rw [pack_eq f hs, show (255 : Nat) = 2 ^ 8 - 1 by rfl, Nat.and_two_pow_sub_one_eq_mod]
  have : (f.ret.code + (if f.inMem then 1024 else 0) + (if f.xmm then 2048 else 0) + 4096 * f.size) % 2 ^ 8
      = f.ret.code := by
    have : f.ret.code < 16 := by cases f.ret <;> decide
    split <;> split <;> omega
  rw [this]
  cases f.ret <;> rfl

theorem decodeInMem_pack (f : Flags) (hs : f.size < 2 ^ 20) : decodeInMem f.pack = f.inMem := by
  unfold decodeInMem
  rw [pack_eq f hs, Nat.shiftLeft_eq, Nat.one_mul, Nat.and_comm, Nat.two_pow_and, Nat.testBit_eq_decide_div_mod_eq]
  have hc : f.ret.code < 16 := by cases f.ret <;> decide
  cases f.inMem <;> cases f.xmm <;> simp <;> omega

theorem decodeXmm_pack (f : Flags) (hs : f.size < 2 ^ 20) : decodeXmm f.pack = f.xmm := by
  unfold decodeXmm
  rw [pack_eq f hs, Nat.shiftLeft_eq, Nat.one_mul, Nat.and_comm, Nat.two_pow_and, Nat.testBit_eq_decide_div_mod_eq]
  have hc : f.ret.code < 16 := by cases f.ret <;> decide
  cases f.inMem <;> cases f.xmm <;> simp <;> omega

theorem decodeSize_pack (f : Flags) (hs : f.size < 2 ^ 20) : decodeSize f.pack = f.size := by
  unfold decodeSize
  rw [pack_eq f hs, Nat.shiftRight_eq_div_pow]
  have hc : f.ret.code < 16 := by cases f.ret <;> decide
  split <;> split <;> omega

/-! ## Stores -/

/-- Result registers as the specification sees them. -/
def rregs (R : RetRegs) : RRegs :=
  ⟨fun i => if i = 0 then R.rax else R.rdx, fun i => if i = 0 then R.xmm0 else R.xmm1,
   fun i => if i = 0 then R.st0 else R.st1⟩

theorem low_getD {r : Nat → Byte} {n i : Nat} (h : i < n) : (low r n).getD i 0 = r i := by
  simp [low, List.getD_eq_getElem?_getD, h]

@[simp] theorem low_length (r : Nat → Byte) (n : Nat) : (low r n).length = n := by simp [low]

theorem store_spec {rv frame : Buf} {bs : List Byte} (h : bs.length ≤ rv.size) :
    ∃ rv', (wr rv 0 bs).map (·, frame) = .ok (rv', frame) ∧ rv'.size = rv.size ∧
      ∀ q, rv'.at_ q = if q < bs.length then bs.getD q 0 else rv.at_ q := by
  obtain ⟨m, h1, h2, h3⟩ := wr_spec (m := rv) (off := 0) (bs := bs) (by omega)
  refine ⟨m, by rw [h1]; rfl, h2, fun q => ?_⟩
  rw [h3]
  simp

theorem storeStruct_spec {frame rv : Buf} {lo hi : Nat → Byte} {size : Nat} (hf : frame.size = 32)
    (hs : size ≤ 16) (hrv : size ≤ rv.size) :
    ∃ rv' frame', storeStruct frame rv lo hi size = .ok (rv', frame') ∧ rv'.size = rv.size ∧
      frame'.size = 32 ∧ (∀ k, 20 ≤ k → frame'.at_ k = frame.at_ k) ∧
      ∀ q, rv'.at_ q = if q < size then (if q < 8 then lo q else hi (q - 8)) else rv.at_ q := by
  unfold storeStruct
  obtain ⟨f1, a1, a2, a3⟩ := wr_spec (m := frame) (off := 12) (bs := low hi 8) (by simp; omega)
  rw [a1]; simp only
  obtain ⟨f2, b1, b2, b3⟩ := wr_spec (m := f1) (off := 4) (bs := low lo 8) (by simp; omega)
  rw [b1]; simp only
  obtain ⟨bs, c1, c2, c3⟩ := Buf.read_spec (b := f2) (off := 4) (n := size) (by omega)
  rw [c1]; simp only
  obtain ⟨rv', d1, d2, d3⟩ := store_spec (rv := rv) (frame := f2) (bs := bs) (by omega)
  simp only [low_length] at a3 b3
  refine ⟨rv', f2, d1, d2, by omega, ?_, ?_⟩
  · intro k hk
    rw [b3, if_neg (by omega), a3, if_neg (by omega)]
  · intro q
    rw [d3, c2]
    by_cases hq : q < size
    · rw [if_pos hq, if_pos hq, c3 q hq, b3]
      by_cases h8 : q < 8
      · rw [if_pos h8, if_pos (by omega), show 4 + q - 4 = q by omega, low_getD h8]
      · rw [if_neg h8, if_neg (by omega), a3, if_pos (by omega), low_getD (by omega), show 4 + q - 12 = q - 8 by omega]
    · rw [if_neg hq, if_neg hq]

/-- Number of bytes of the result object `ffi_call` may write. -/
def need (t : FType) : Nat := if isIntTC t.tc then 8 else t.size

/-- Storing a returned value. -/
def GoodStore (t : FType) (fl : Flags) : Prop :=
  ∀ (R : RetRegs) (frame rv : Buf) (v : Nat → Byte), frame.size = 32 → need t ≤ rv.size →
    ReturnedIn (rregs R) t v →
    ∃ rv' frame', storeRet fl.ret fl.size R frame rv = .ok (rv', frame') ∧ rv'.size = rv.size ∧
      frame'.size = 32 ∧ (∀ k, 24 ≤ k → frame'.at_ k = frame.at_ k) ∧
      (∀ q, sigByte t q → rv'.at_ q = v q) ∧
      (isIntTC t.tc = true → ∀ j, j < 8 →
        rv'.at_ j = (leBytes 8 (extend64 t.tc (low v t.size))).getD j 0) ∧
      (∀ q, need t ≤ q → rv'.at_ q = rv.at_ q)

/-- Leaving a value for the caller. -/
def GoodLoad (t : FType) (fl : Flags) : Prop :=
  ∀ (R : RetRegs) (rv : Buf) (v : Nat → Byte), rv.size = 32 → (∀ q, sigByte t q → rv.at_ q = v q) →
    ∃ R', loadRet fl.ret R rv = .ok R' ∧ ReturnedIn (rregs R') t v

theorem setLow_lt {r : Nat → Byte} {bs : List Byte} {i : Nat} (h : i < bs.length) :
    setLow r bs i = bs.getD i 0 := by simp [setLow, h]

/-- `leaves` of a scalar. -/
theorem leaves_scalar {tc : TC} {s a : Nat} (h : lp64 tc = some (s, a)) (o : Nat) :
    leaves (.mk s a tc []) o = [⟨o, s, tc⟩] := by
  cases tc <;> simp [lp64] at h <;> simp [leaves]

theorem low_congr {v w : Nat → Byte} {n : Nat} (h : ∀ i, i < n → v i = w i) : low v n = low w n := by
  unfold low
  apply List.map_congr_left
  intro i hi
  exact h i (List.mem_range.1 hi)

theorem leNat_low_leBytes (bs : List Byte) (h : bs.length ≤ 8) (i : Nat) (hi : i < bs.length) :
    (leBytes 8 (leNat bs)).getD i 0 = bs.getD i 0 := by
  have h1 : (leBytes 8 (leNat bs)).take bs.length = bs := by
    rw [leBytes_take _ h, leBytes_leNat]
  have h2 : ((leBytes 8 (leNat bs)).take bs.length).getD i 0 = (leBytes 8 (leNat bs)).getD i 0 := by
    simp [List.getD_eq_getElem?_getD, hi]
  rw [← h2, h1]

theorem sext64_getD (bs : List Byte) (h0 : 0 < bs.length) (h : bs.length ≤ 8) (i : Nat) (hi : i < bs.length) :
    (sext64 bs).getD i 0 = bs.getD i 0 := by
  have h1 := sext64_take h0 h
  have h2 : ((sext64 bs).take bs.length).getD i 0 = (sext64 bs).getD i 0 := by
    simp [List.getD_eq_getElem?_getD, hi]
  rw [← h2, h1]

/-- A scalar whose place is the first general or SSE register. -/
theorem scalar_sig {tc : TC} {s a : Nat} (h : lp64 tc = some (s, a)) (q : Nat) :
    sigByte (.mk s a tc []) q ↔ q < (if tc = .longdouble then 10 else s) := by
  unfold sigByte
  rw [leaves_scalar h]
  simp

theorem scalar_data {tc : TC} {s a : Nat} (h : lp64 tc = some (s, a)) (q : Nat) :
    dataByte (.mk s a tc []) q ↔ q < s := by
  unfold dataByte
  rw [leaves_scalar h]
  simp

/-- Store of an integer scalar. -/
theorem store_int {tc : TC} {s a : Nat} (h : lp64 tc = some (s, a)) (hi : isIntTC tc = true)
    (hpl : retPlace (.mk s a tc []) = .regs [.gpr 0]) {fl : Flags} (bsf : List Byte → List Byte)
    (hst : ∀ R frame rv, storeRet fl.ret fl.size R frame rv = (wr rv 0 (bsf (low R.rax s))).map (·, frame))
    (hb : ∀ bs : List Byte, bs.length = s → bsf bs = leBytes 8 (extend64 tc bs)) (h0 : 0 < s) (h8 : s ≤ 8)
    (hx : ∀ bs : List Byte, bs.length = s → ∀ i, i < s → (leBytes 8 (extend64 tc bs)).getD i 0 = bs.getD i 0)
    (hld : tc ≠ .longdouble) :
    GoodStore (.mk s a tc []) fl := by
  intro R frame rv v hf hrv hret
  simp only [need, FType.tc_mk, hi, if_true] at hrv ⊢
  have hv : low R.rax s = low v s := by
    apply low_congr
    intro i hi'
    unfold ReturnedIn at hret
    rw [hpl] at hret
    obtain ⟨r, hr, he⟩ := hret i ((scalar_data h i).2 hi')
    rw [show i / 8 = 0 by omega] at hr
    simp only [List.getElem?_cons_zero, Option.some.injEq] at hr
    subst hr
    simp only [rregs, if_true] at he
    rw [Nat.mod_eq_of_lt (by omega)] at he
    exact he
  have hbs := hb (low R.rax s) (by simp)
  have hlen : (bsf (low R.rax s)).length = 8 := by rw [hbs]; simp
  obtain ⟨rv', k1, k2, k3⟩ := store_spec (rv := rv) (frame := frame) (bs := bsf (low R.rax s)) (by omega)
  refine ⟨rv', frame, by rw [hst, k1], k2, hf, fun _ _ => rfl, ?_, ?_, ?_⟩
  · intro q hq
    rw [scalar_sig h, if_neg hld] at hq
    rw [k3, if_pos (by omega), hbs, hx _ (by simp) q hq, hv, low_getD hq]
  · intro _ j hj
    rw [k3, if_pos (by omega), hbs, hv]; rfl
  · intro q hq
    rw [k3, if_neg (by omega)]

theorem extend64_low {tc : TC} {s a : Nat} (h : lp64 tc = some (s, a)) (hi : isIntTC tc = true)
    (bs : List Byte) (hl : bs.length = s) (i : Nat) (hlt : i < s) :
    (leBytes 8 (extend64 tc bs)).getD i 0 = bs.getD i 0 := by
  have h8 : 0 < s ∧ s ≤ 8 := by cases tc <;> simp [lp64, isIntTC] at h hi <;> omega
  unfold extend64
  simp only
  have := sext64_getD bs (by omega) (by omega) i (by omega)
  rw [sext64_spec (by omega) (by omega)] at this
  have h2 := leNat_low_leBytes bs (by omega) i (by omega)
  split
  all_goals first | exact this | exact h2

theorem good_scalar {tc : TC} {s a : Nat} (h : lp64 tc = some (s, a)) :
    ∃ fl, retFlags (.mk s a tc []) = .ok (some (fl, 0)) ∧ fl.inMem = false ∧ fl.xmm = false ∧
      fl.size < 2 ^ 20 ∧ retPlace (.mk s a tc []) ≠ .mem ∧ GoodStore (.mk s a tc []) fl ∧
      GoodLoad (.mk s a tc []) fl := by
  have hint : isIntTC tc = true → retPlace (.mk s a tc []) = .regs [.gpr 0] := by
    intro hi
    cases tc <;> simp [lp64, isIntTC] at h hi <;> obtain ⟨rfl, rfl⟩ := h <;> decide
  have hwide : isIntTC tc = true → ∀ bs : List Byte, bs.length = s → s < 8 →
      extend64 tc bs = if tc = .sint8 ∨ tc = .sint16 ∨ tc = .sint32 then
        (if 2 * leNat bs < 256 ^ bs.length then leNat bs else leNat bs + 2 ^ 64 - 256 ^ bs.length) else leNat bs := by
    intro hi bs hl h8
    cases tc <;> simp [lp64, isIntTC] at h hi <;> first | omega | rfl
  -- loading an integer
  have hload : ∀ fl : Flags, isIntTC tc = true → (∀ (R : RetRegs) (rv : Buf), rv.size = 32 →
      ∃ R', loadRet fl.ret R rv = .ok R' ∧ ∀ q, q < s → R'.rax q = rv.at_ q) → GoodLoad (.mk s a tc []) fl := by
    intro fl hi hl R rv v hrv hsig
    obtain ⟨R', h1, h2⟩ := hl R rv hrv
    refine ⟨R', h1, ?_⟩
    unfold ReturnedIn
    rw [hint hi]
    intro q hq
    rw [scalar_data h] at hq
    have hld : tc ≠ .longdouble := by rintro rfl; simp [isIntTC] at hi
    have h8 : s ≤ 8 := by cases tc <;> simp [lp64, isIntTC] at h hi <;> omega
    refine ⟨.gpr 0, by rw [show q / 8 = 0 by omega]; rfl, ?_⟩
    simp only [rregs, if_true]
    rw [Nat.mod_eq_of_lt (by omega), h2 q hq]
    exact hsig q ((scalar_sig h q).2 (by rw [if_neg hld]; exact hq))
  have ldz : ∀ (R : RetRegs) (rv : Buf) (n : Nat), n ≤ 8 → rv.size = 32 →
      ∃ bs, rv.read 0 n = some bs ∧
      ∀ q, q < n → setLow R.rax (leBytes 8 (leNat bs)) q = rv.at_ q := by
    intro R rv n hn hrv
    obtain ⟨bs, b1, b2, b3⟩ := Buf.read_spec (b := rv) (off := 0) (n := n) (by omega)
    refine ⟨bs, b1, fun q hq => ?_⟩
    rw [setLow_lt (by simp; omega), leNat_low_leBytes bs (by omega) q (by omega), b3 q hq, Nat.zero_add]
  have lds : ∀ (R : RetRegs) (rv : Buf) (n : Nat), 0 < n → n ≤ 4 → rv.size = 32 →
      ∃ bs, rv.read 0 n = some bs ∧
      ∀ q, q < n → setLow R.rax ((sext64 bs).take 4 ++ [0, 0, 0, 0]) q = rv.at_ q := by
    intro R rv n hn0 hn hrv
    obtain ⟨bs, b1, b2, b3⟩ := Buf.read_spec (b := rv) (off := 0) (n := n) (by omega)
    refine ⟨bs, b1, fun q hq => ?_⟩
    have hlen : (sext64 bs).length = 8 := by simp [sext64]
    rw [setLow_lt (by simp [hlen]; omega)]
    have : ((sext64 bs).take 4 ++ [0, 0, 0, 0]).getD q 0 = (sext64 bs).getD q 0 := by
      simp only [List.getD_eq_getElem?_getD]
      rw [List.getElem?_append_left (by simp [hlen]; omega), List.getElem?_take, if_pos (by omega)]
    rw [this, sext64_getD bs (by omega) (by omega) q (by omega), b3 q hq, Nat.zero_add]
  have hlen1 : ∀ bs : List Byte, bs.length = s → s < 8 → (tc = .sint8 ∨ tc = .sint16 ∨ tc = .sint32) →
      sext64 bs = leBytes 8 (extend64 tc bs) := by
    intro bs hl h8 htc
    have h0 : 0 < s := by cases tc <;> simp [lp64] at h <;> omega
    rw [sext64_spec (by omega) (by omega), hwide (by rcases htc with rfl | rfl | rfl <;> rfl) bs hl h8, if_pos htc]
  have zcase : ∀ r : Ret, isIntTC tc = true → (tc = .uint8 ∨ tc = .uint16 ∨ tc = .uint32) →
      retFlags (.mk s a tc []) = .ok (some (.ofRet r, 0)) →
      (∀ R frame rv, storeRet r 0 R frame rv = (wr rv 0 (leBytes 8 (leNat (low R.rax s)))).map (·, frame)) →
      (∀ (R : RetRegs) (rv : Buf), rv.size = 32 →
        ∃ R', loadRet r R rv = .ok R' ∧ ∀ q, q < s → R'.rax q = rv.at_ q) →
      ∃ fl, retFlags (.mk s a tc []) = .ok (some (fl, 0)) ∧ fl.inMem = false ∧ fl.xmm = false ∧
        fl.size < 2 ^ 20 ∧ retPlace (.mk s a tc []) ≠ .mem ∧ GoodStore (.mk s a tc []) fl ∧
        GoodLoad (.mk s a tc []) fl := by
    intro r hi htc hrf hst hl
    have h4 : 0 < s ∧ s ≤ 4 := by rcases htc with rfl | rfl | rfl <;> simp [lp64] at h <;> omega
    refine ⟨.ofRet r, hrf, rfl, rfl, by simp [Flags.ofRet], by rw [hint hi]; simp, ?_, hload _ hi hl⟩
    refine store_int h hi (hint hi) (fun bs => leBytes 8 (leNat bs)) hst ?_ h4.1 (by omega)
      (extend64_low h hi) (by rintro rfl; simp [isIntTC] at hi)
    intro bs hl
    rw [hwide hi bs hl (by omega), if_neg (by rcases htc with rfl | rfl | rfl <;> simp)]
  have scase : ∀ r : Ret, isIntTC tc = true → (tc = .sint8 ∨ tc = .sint16 ∨ tc = .sint32) →
      retFlags (.mk s a tc []) = .ok (some (.ofRet r, 0)) →
      (∀ R frame rv, storeRet r 0 R frame rv = (wr rv 0 (sext64 (low R.rax s))).map (·, frame)) →
      (∀ (R : RetRegs) (rv : Buf), rv.size = 32 →
        ∃ R', loadRet r R rv = .ok R' ∧ ∀ q, q < s → R'.rax q = rv.at_ q) →
      ∃ fl, retFlags (.mk s a tc []) = .ok (some (fl, 0)) ∧ fl.inMem = false ∧ fl.xmm = false ∧
        fl.size < 2 ^ 20 ∧ retPlace (.mk s a tc []) ≠ .mem ∧ GoodStore (.mk s a tc []) fl ∧
        GoodLoad (.mk s a tc []) fl := by
    intro r hi htc hrf hst hl
    have h4 : 0 < s ∧ s ≤ 4 := by rcases htc with rfl | rfl | rfl <;> simp [lp64] at h <;> omega
    refine ⟨.ofRet r, hrf, rfl, rfl, by simp [Flags.ofRet], by rw [hint hi]; simp, ?_, hload _ hi hl⟩
    exact store_int h hi (hint hi) sext64 hst (fun bs hl => hlen1 bs hl (by omega) htc) h4.1 (by omega)
      (extend64_low h hi) (by rintro rfl; simp [isIntTC] at hi)
  have qcase : isIntTC tc = true → s = 8 →
      retFlags (.mk s a tc []) = .ok (some (.ofRet .int64, 0)) →
      ∃ fl, retFlags (.mk s a tc []) = .ok (some (fl, 0)) ∧ fl.inMem = false ∧ fl.xmm = false ∧
        fl.size < 2 ^ 20 ∧ retPlace (.mk s a tc []) ≠ .mem ∧ GoodStore (.mk s a tc []) fl ∧
        GoodLoad (.mk s a tc []) fl := by
    intro hi hs hrf
    refine ⟨.ofRet .int64, hrf, rfl, rfl, by simp [Flags.ofRet], by rw [hint hi]; simp, ?_, hload _ hi ?_⟩
    · refine store_int h hi (hint hi) id (fun R frame rv => by rw [hs]; rfl) ?_ (by omega) (by omega)
        (extend64_low h hi) (by rintro rfl; simp [isIntTC] at hi)
      intro bs hl
      simp only [id]
      have h1 : leNat bs < 256 ^ 8 := by have := leNat_lt bs; rw [hl, hs] at this; exact this
      have h2 : extend64 tc bs = leNat bs := by
        unfold extend64
        simp only
        have h3 : (if 2 * leNat bs < 256 ^ 8 then leNat bs else leNat bs + 2 ^ 64 - 256 ^ 8) = leNat bs := by
          have : (256 : Nat) ^ 8 = 2 ^ 64 := rfl
          split <;> omega
        rw [hl, hs]
        split
        all_goals first | rfl | exact h3
      rw [h2]
      conv => lhs; rw [← leBytes_leNat bs, hl, hs]
    · intro R rv hrv
      obtain ⟨bs, b1, b2, b3⟩ := Buf.read_spec (b := rv) (off := 0) (n := 8) (by omega)
      refine ⟨{ R with rax := setLow R.rax bs }, by simp only [Flags.ofRet, loadRet, b1], fun q hq => ?_⟩
      simp only
      rw [setLow_lt (by omega), b3 q (by omega), Nat.zero_add]
  -- SSE scalars
  have fcase : ∀ (r : Ret), (tc = .float ∨ tc = .double) →
      retFlags (.mk s a tc []) = .ok (some (.ofRet r, 0)) →
      retPlace (.mk s a tc []) = .regs [.sse 0] →
      (∀ R frame rv, storeRet r 0 R frame rv = (wr rv 0 (low R.xmm0 s)).map (·, frame)) →
      (∀ (R : RetRegs) (rv : Buf), rv.size = 32 →
        ∃ R', loadRet r R rv = .ok R' ∧ ∀ q, q < s → R'.xmm0 q = rv.at_ q) →
      ∃ fl, retFlags (.mk s a tc []) = .ok (some (fl, 0)) ∧ fl.inMem = false ∧ fl.xmm = false ∧
        fl.size < 2 ^ 20 ∧ retPlace (.mk s a tc []) ≠ .mem ∧ GoodStore (.mk s a tc []) fl ∧
        GoodLoad (.mk s a tc []) fl := by
    intro r htc hrf hpl hst hl
    have hni : isIntTC tc = false := by rcases htc with rfl | rfl <;> rfl
    have hld : tc ≠ .longdouble := by rcases htc with rfl | rfl <;> decide
    have h8 : s ≤ 8 := by rcases htc with rfl | rfl <;> simp [lp64] at h <;> omega
    refine ⟨.ofRet r, hrf, rfl, rfl, by simp [Flags.ofRet], by rw [hpl]; simp, ?_, ?_⟩
    · intro R frame rv v hf hrv hret
      simp only [need, FType.tc_mk, hni] at hrv ⊢
      simp only [FType.size_mk, Bool.false_eq_true, if_false] at hrv ⊢
      obtain ⟨rv', k1, k2, k3⟩ := store_spec (rv := rv) (frame := frame) (bs := low R.xmm0 s) (by simpa using hrv)
      simp only [low_length] at k3
      refine ⟨rv', frame, by simp only [Flags.ofRet]; rw [hst, k1], k2, hf, fun _ _ => rfl, ?_, by simp, ?_⟩
      · intro q hq
        rw [scalar_sig h, if_neg hld] at hq
        unfold ReturnedIn at hret
        rw [hpl] at hret
        obtain ⟨r, hr, he⟩ := hret q ((scalar_data h q).2 hq)
        rw [show q / 8 = 0 by omega] at hr
        simp only [List.getElem?_cons_zero, Option.some.injEq] at hr
        subst hr
        simp only [rregs, if_true] at he
        rw [Nat.mod_eq_of_lt (by omega)] at he
        rw [k3, if_pos hq, low_getD hq, he]
      · intro q hq
        rw [k3, if_neg (by omega)]
    · intro R rv v hrv hsig
      obtain ⟨R', h1, h2⟩ := hl R rv hrv
      refine ⟨R', h1, ?_⟩
      unfold ReturnedIn
      rw [hpl]
      intro q hq
      rw [scalar_data h] at hq
      refine ⟨.sse 0, by rw [show q / 8 = 0 by omega]; rfl, ?_⟩
      simp only [rregs, if_true]
      rw [Nat.mod_eq_of_lt (by omega), h2 q hq]
      exact hsig q ((scalar_sig h q).2 (by rw [if_neg hld]; exact hq))
  cases tc with
  | uint8 =>
    simp [lp64] at h; obtain ⟨rfl, rfl⟩ := h
    refine zcase .uint8 rfl (by simp) rfl (fun _ _ _ => rfl) (fun R rv hrv => ?_)
    obtain ⟨bs, b1, b2⟩ := ldz R rv 1 (by omega) hrv
    exact ⟨{ R with rax := setLow R.rax (leBytes 8 (leNat bs)) }, by simp only [loadRet, b1], b2⟩
  | uint16 =>
    simp [lp64] at h; obtain ⟨rfl, rfl⟩ := h
    refine zcase .uint16 rfl (by simp) rfl (fun _ _ _ => rfl) (fun R rv hrv => ?_)
    obtain ⟨bs, b1, b2⟩ := ldz R rv 2 (by omega) hrv
    exact ⟨{ R with rax := setLow R.rax (leBytes 8 (leNat bs)) }, by simp only [loadRet, b1], b2⟩
  | uint32 =>
    simp [lp64] at h; obtain ⟨rfl, rfl⟩ := h
    refine zcase .uint32 rfl (by simp) rfl (fun _ _ _ => rfl) (fun R rv hrv => ?_)
    obtain ⟨bs, b1, b2⟩ := ldz R rv 4 (by omega) hrv
    exact ⟨{ R with rax := setLow R.rax (leBytes 8 (leNat bs)) }, by simp only [loadRet, b1], b2⟩
  | sint8 =>
    simp [lp64] at h; obtain ⟨rfl, rfl⟩ := h
    refine scase .sint8 rfl (by simp) rfl (fun _ _ _ => rfl) (fun R rv hrv => ?_)
    obtain ⟨bs, b1, b2⟩ := lds R rv 1 (by omega) (by omega) hrv
    exact ⟨{ R with rax := setLow R.rax ((sext64 bs).take 4 ++ [0, 0, 0, 0]) }, by simp only [loadRet, b1], b2⟩
  | sint16 =>
    simp [lp64] at h; obtain ⟨rfl, rfl⟩ := h
    refine scase .sint16 rfl (by simp) rfl (fun _ _ _ => rfl) (fun R rv hrv => ?_)
    obtain ⟨bs, b1, b2⟩ := lds R rv 2 (by omega) (by omega) hrv
    exact ⟨{ R with rax := setLow R.rax ((sext64 bs).take 4 ++ [0, 0, 0, 0]) }, by simp only [loadRet, b1], b2⟩
  | sint32 =>
    simp [lp64] at h; obtain ⟨rfl, rfl⟩ := h
    refine scase .sint32 rfl (by simp) rfl (fun _ _ _ => rfl) (fun R rv hrv => ?_)
    obtain ⟨bs, b1, b2⟩ := ldz R rv 4 (by omega) hrv
    exact ⟨{ R with rax := setLow R.rax (leBytes 8 (leNat bs)) }, by simp only [loadRet, b1], b2⟩
  | uint64 => simp [lp64] at h; obtain ⟨rfl, rfl⟩ := h; exact qcase rfl rfl rfl
  | sint64 => simp [lp64] at h; obtain ⟨rfl, rfl⟩ := h; exact qcase rfl rfl rfl
  | pointer => simp [lp64] at h; obtain ⟨rfl, rfl⟩ := h; exact qcase rfl rfl rfl
  | float =>
    simp [lp64] at h; obtain ⟨rfl, rfl⟩ := h
    refine fcase .xmm32 (by simp) rfl (by decide) (fun _ _ _ => rfl) (fun R rv hrv => ?_)
    obtain ⟨bs, b1, b2, b3⟩ := Buf.read_spec (b := rv) (off := 0) (n := 4) (by omega)
    refine ⟨{ R with xmm0 := setLow R.xmm0 (bs ++ [0, 0, 0, 0]) }, by simp only [loadRet, b1], fun q hq => ?_⟩
    simp only
    rw [setLow_lt (by simp; omega)]
    have : (bs ++ [0, 0, 0, 0]).getD q 0 = bs.getD q 0 := by
      simp only [List.getD_eq_getElem?_getD]
      rw [List.getElem?_append_left (by omega)]
    rw [this, b3 q hq, Nat.zero_add]
  | double =>
    simp [lp64] at h; obtain ⟨rfl, rfl⟩ := h
    refine fcase .xmm64 (by simp) rfl (by decide) (fun _ _ _ => rfl) (fun R rv hrv => ?_)
    obtain ⟨bs, b1, b2, b3⟩ := Buf.read_spec (b := rv) (off := 0) (n := 8) (by omega)
    refine ⟨{ R with xmm0 := setLow R.xmm0 bs }, by simp only [loadRet, b1], fun q hq => ?_⟩
    simp only
    rw [setLow_lt (by omega), b3 q hq, Nat.zero_add]
  | longdouble =>
    have h' := h
    simp [lp64] at h'; obtain ⟨rfl, rfl⟩ := h'
    have hpl : retPlace (.mk 16 16 .longdouble []) = .x87 := by decide
    refine ⟨.ofRet .x87, rfl, rfl, rfl, by simp [Flags.ofRet], by rw [hpl]; simp, ?_, ?_⟩
    · intro R frame rv v hf hrv hret
      simp only [need, FType.tc_mk, isIntTC, FType.size_mk, Bool.false_eq_true, if_false] at hrv ⊢
      obtain ⟨rv', k1, k2, k3⟩ := store_spec (rv := rv) (frame := frame) (bs := low R.st0 10) (by simp; omega)
      simp only [low_length] at k3
      refine ⟨rv', frame, k1, k2, hf, fun _ _ => rfl, ?_, by simp, ?_⟩
      · intro q hq
        rw [scalar_sig h, if_pos rfl] at hq
        unfold ReturnedIn at hret
        rw [hpl] at hret
        have := hret q hq
        simp only [rregs, if_true] at this
        rw [k3, if_pos hq, low_getD hq, this]
      · intro q hq
        rw [k3, if_neg (by omega)]
    · intro R rv v hrv hsig
      obtain ⟨bs, b1, b2, b3⟩ := Buf.read_spec (b := rv) (off := 0) (n := 10) (by omega)
      refine ⟨{ R with st0 := setLow R.st0 bs }, by simp only [Flags.ofRet, loadRet, b1], ?_⟩
      unfold ReturnedIn
      rw [hpl]
      intro q hq
      simp only [rregs, if_true]
      rw [setLow_lt (by omega), b3 q hq, Nat.zero_add]
      exact hsig q ((scalar_sig h q).2 (by rw [if_pos rfl]; exact hq))
  | _ => simp [lp64] at h

/-- Registers of the two halves in the structure cases. -/
def pairOf : Ret → Option (Reg × Reg)
  | .stXmm0Rax => some (.sse 0, .gpr 0)
  | .stRaxXmm0 => some (.gpr 0, .sse 0)
  | .stXmm0Xmm1 => some (.sse 0, .sse 1)
  | .stRaxRdx => some (.gpr 0, .gpr 1)
  | _ => none

/-- Contents of a result register. -/
def rreg (R : RetRegs) : Reg → Nat → Byte
  | .gpr i => (rregs R).gpr i
  | .sse i => (rregs R).sse i

theorem returned_regs {R : RetRegs} {t : FType} {v : Nat → Byte} {rs : List Reg}
    (hpl : retPlace t = .regs rs) : ReturnedIn (rregs R) t v ↔
    ∀ q, dataByte t q → ∃ r, rs[q / 8]? = some r ∧ rreg R r (q % 8) = v q := by
  unfold ReturnedIn
  rw [hpl]
  have : ∀ r q, (match r with | .gpr i => (rregs R).gpr i (q % 8) | .sse i => (rregs R).sse i (q % 8)) =
      rreg R r (q % 8) := by intro r q; cases r <;> rfl
  constructor
  · intro h q hq
    obtain ⟨r, h1, h2⟩ := h q hq
    exact ⟨r, h1, (this r q) ▸ h2⟩
  · intro h q hq
    obtain ⟨r, h1, h2⟩ := h q hq
    exact ⟨r, h1, (this r q).trans h2⟩

theorem storeRet_pair {r : Ret} {p : Reg × Reg} (hp : pairOf r = some p) (size : Nat) (R : RetRegs) (frame rv : Buf) :
    storeRet r size R frame rv = storeStruct frame rv (rreg R p.1) (rreg R p.2) size := by
  cases r <;> simp only [pairOf, Option.some.injEq, reduceCtorEq] at hp <;> subst hp <;> rfl

theorem loadRet_pair {r : Ret} {p : Reg × Reg} (hp : pairOf r = some p) (R : RetRegs) {rv : Buf}
    (hrv : rv.size = 32) : ∃ R', loadRet r R rv = .ok R' ∧
      ∀ q, q < 8 → rreg R' p.1 q = rv.at_ q ∧ rreg R' p.2 q = rv.at_ (8 + q) := by
  obtain ⟨b0, c1, c2, c3⟩ := Buf.read_spec (b := rv) (off := 0) (n := 8) (by omega)
  obtain ⟨b1, d1, d2, d3⟩ := Buf.read_spec (b := rv) (off := 8) (n := 8) (by omega)
  have h0 : ∀ f q, q < 8 → setLow f b0 q = rv.at_ q := by
    intro f q hq; rw [setLow_lt (by omega), c3 q hq, Nat.zero_add]
  have h1 : ∀ f q, q < 8 → setLow f b1 q = rv.at_ (8 + q) := by
    intro f q hq; rw [setLow_lt (by omega), d3 q hq]
  cases r <;> simp only [pairOf, Option.some.injEq, reduceCtorEq] at hp <;> subst hp
  · exact ⟨{ R with rax := setLow R.rax b1, xmm0 := setLow R.xmm0 b0 }, by simp only [loadRet, c1, d1],
      fun q hq => ⟨h0 _ q hq, h1 _ q hq⟩⟩
  · exact ⟨{ R with xmm0 := setLow R.xmm0 b1, rax := setLow R.rax b0 }, by simp only [loadRet, c1, d1],
      fun q hq => ⟨h0 _ q hq, h1 _ q hq⟩⟩
  · exact ⟨{ R with xmm1 := setLow R.xmm1 b1, xmm0 := setLow R.xmm0 b0 }, by simp only [loadRet, c1, d1],
      fun q hq => ⟨h0 _ q hq, h1 _ q hq⟩⟩
  · exact ⟨{ R with rdx := setLow R.rdx b1, rax := setLow R.rax b0 }, by simp only [loadRet, c1, d1],
      fun q hq => ⟨h0 _ q hq, h1 _ q hq⟩⟩

theorem sig_data {t : FType} (hwf : WF lp64 t) {q : Nat} (h : sigByte t q) : dataByte t q := by
  obtain ⟨l, hl, h1, h2⟩ := h
  refine ⟨l, hl, h1, ?_⟩
  by_cases hld : l.tc = .longdouble
  · rw [if_pos hld] at h2
    obtain ⟨a, k1, k2⟩ := hwf.leaves_tab lp64_ok 0 l hl
    rw [hld] at k1
    simp only [lp64, Option.some.injEq, Prod.mk.injEq] at k1
    omega
  · rw [if_neg hld] at h2
    exact h2

theorem data_sig {t : FType} (hx : (leaves t 0).any isX87 = false) {q : Nat} (h : dataByte t q) :
    sigByte t q := by
  obtain ⟨l, hl, h1, h2⟩ := h
  refine ⟨l, hl, h1, ?_⟩
  have : l.tc ≠ .longdouble := by
    intro hld
    have := List.any_eq_false.1 hx l hl
    simp [isX87, hld] at this
  rw [if_neg this]
  exact h2

/-- Results stored by one of the structure cases. -/
theorem good_pair {t : FType} (hwf : WF lp64 t) (hni : isIntTC t.tc = false) {fl : Flags} {p : Reg × Reg}
    (hp : pairOf fl.ret = some p) (hsz : fl.size = t.size) (h16 : t.size ≤ 16)
    (hx : (leaves t 0).any isX87 = false)
    (hpl : (retPlace t = .regs [p.1] ∧ t.size ≤ 8) ∨ retPlace t = .regs [p.1, p.2]) :
    GoodStore t fl ∧ GoodLoad t fl := by
  have hrs : ∃ rs, retPlace t = .regs rs ∧ (∀ q, dataByte t q → rs[q / 8]? = some (if q < 8 then p.1 else p.2)) := by
    rcases hpl with ⟨h1, h2⟩ | h1
    · refine ⟨_, h1, fun q hq => ?_⟩
      have := dataByte_lt hwf hq
      rw [show q / 8 = 0 by omega, if_pos (by omega)]; rfl
    · refine ⟨_, h1, fun q hq => ?_⟩
      have := dataByte_lt hwf hq
      by_cases h8 : q < 8
      · rw [show q / 8 = 0 by omega, if_pos h8]; rfl
      · rw [show q / 8 = 1 by omega, if_neg h8]; rfl
  obtain ⟨rs, hrs, hget⟩ := hrs
  constructor
  · intro R frame rv v hf hrv hret
    simp only [need, hni, Bool.false_eq_true, if_false] at hrv ⊢
    rw [returned_regs hrs] at hret
    rw [storeRet_pair hp, hsz]
    obtain ⟨rv', frame', k1, k2, k3, k4, k5⟩ := storeStruct_spec (frame := frame) (rv := rv)
      (lo := rreg R p.1) (hi := rreg R p.2) hf h16 hrv
    refine ⟨rv', frame', k1, k2, k3, fun k hk => k4 k (by omega), ?_, by simp, ?_⟩
    · intro q hq
      have hq := sig_data hwf hq
      have hlt := dataByte_lt hwf hq
      obtain ⟨r, h1, h2⟩ := hret q hq
      rw [hget q hq, Option.some.injEq] at h1
      subst h1
      rw [k5, if_pos hlt]
      by_cases h8 : q < 8
      · rw [if_pos h8] at h2 ⊢
        rw [← h2, Nat.mod_eq_of_lt h8]
      · rw [if_neg h8] at h2 ⊢
        rw [← h2]; congr 1; omega
    · intro q hq
      rw [k5, if_neg (by omega)]
  · intro R rv v hrv hsig
    obtain ⟨R', h1, h2⟩ := loadRet_pair hp R hrv
    refine ⟨R', h1, ?_⟩
    rw [returned_regs hrs]
    intro q hq
    have hlt := dataByte_lt hwf hq
    refine ⟨_, hget q hq, ?_⟩
    rw [← hsig q (data_sig hx hq)]
    by_cases h8 : q < 8
    · rw [if_pos h8, (h2 _ (by omega)).1, Nat.mod_eq_of_lt h8]
    · rw [if_neg h8, (h2 _ (by omega)).2]; congr 1; omega

/-- Results in a single register, stored with their exact size. -/
theorem good_one {t : FType} (hwf : WF lp64 t) (hni : isIntTC t.tc = false) {fl : Flags} {r : Reg}
    (hr : (fl.ret = .int64 ∧ r = .gpr 0 ∧ t.size = 8) ∨ (fl.ret = .xmm64 ∧ r = .sse 0 ∧ t.size = 8) ∨
      (fl.ret = .xmm32 ∧ r = .sse 0 ∧ t.size = 4))
    (hx : (leaves t 0).any isX87 = false) (hpl : retPlace t = .regs [r]) :
    GoodStore t fl ∧ GoodLoad t fl := by
  have hs8 : t.size ≤ 8 := by rcases hr with ⟨_, _, h⟩ | ⟨_, _, h⟩ | ⟨_, _, h⟩ <;> omega
  have hget : ∀ q, dataByte t q → [r][q / 8]? = some r := by
    intro q hq
    have := dataByte_lt hwf hq
    rw [show q / 8 = 0 by omega]; rfl
  constructor
  · intro R frame rv v hf hrv hret
    simp only [need, hni, Bool.false_eq_true, if_false] at hrv ⊢
    rw [returned_regs hpl] at hret
    have hst : storeRet fl.ret fl.size R frame rv = (wr rv 0 (low (rreg R r) t.size)).map (·, frame) := by
      rcases hr with ⟨h1, rfl, h2⟩ | ⟨h1, rfl, h2⟩ | ⟨h1, rfl, h2⟩ <;> rw [h1, h2] <;> rfl
    rw [hst]
    obtain ⟨rv', k1, k2, k3⟩ := store_spec (rv := rv) (frame := frame) (bs := low (rreg R r) t.size) (by simpa using hrv)
    simp only [low_length] at k3
    refine ⟨rv', frame, k1, k2, hf, fun _ _ => rfl, ?_, by simp, ?_⟩
    · intro q hq
      have hq := sig_data hwf hq
      have hlt := dataByte_lt hwf hq
      obtain ⟨r', h1, h2⟩ := hret q hq
      rw [hget q hq, Option.some.injEq] at h1
      subst h1
      rw [k3, if_pos hlt, low_getD hlt, ← h2, Nat.mod_eq_of_lt (by omega)]
    · intro q hq
      rw [k3, if_neg (by omega)]
  · intro R rv v hrv hsig
    obtain ⟨R', h1, h2⟩ : ∃ R', loadRet fl.ret R rv = .ok R' ∧ ∀ q, q < t.size → rreg R' r q = rv.at_ q := by
      obtain ⟨b4, d1, d2, d3⟩ := Buf.read_spec (b := rv) (off := 0) (n := 4) (by omega)
      obtain ⟨b0, c1, c2, c3⟩ := Buf.read_spec (b := rv) (off := 0) (n := 8) (by omega)
      have h0 : ∀ f q, q < 8 → setLow f b0 q = rv.at_ q := by
        intro f q hq; rw [setLow_lt (by omega), c3 q hq, Nat.zero_add]
      rcases hr with ⟨h1, rfl, h2⟩ | ⟨h1, rfl, h2⟩ | ⟨h1, rfl, h2⟩
      · exact ⟨{ R with rax := setLow R.rax b0 }, by rw [h1]; simp only [loadRet, c1], fun q hq => h0 _ q (by omega)⟩
      · exact ⟨{ R with xmm0 := setLow R.xmm0 b0 }, by rw [h1]; simp only [loadRet, c1], fun q hq => h0 _ q (by omega)⟩
      · refine ⟨{ R with xmm0 := setLow R.xmm0 (b4 ++ [0, 0, 0, 0]) }, by rw [h1]; simp only [loadRet, d1], fun q hq => ?_⟩
        simp only [rreg, rregs, if_true]
        rw [setLow_lt (by simp; omega)]
        have : (b4 ++ [0, 0, 0, 0]).getD q 0 = b4.getD q 0 := by
          simp only [List.getD_eq_getElem?_getD]
          rw [List.getElem?_append_left (by omega)]
        rw [this, d3 q (by omega), Nat.zero_add]
    refine ⟨R', h1, ?_⟩
    rw [returned_regs hpl]
    intro q hq
    have hlt := dataByte_lt hwf hq
    refine ⟨_, hget q hq, ?_⟩
    rw [← hsig q (data_sig hx hq), Nat.mod_eq_of_lt (by omega), h2 q hlt]

theorem good_complex {tc : TC} {s a : Nat} (hb : complexBase tc = true) (h : lp64 tc = some (s, a)) :
    ∃ fl, retFlags (.mk (2 * s) a .complex [.mk s a tc []]) = .ok (some (fl, 0)) ∧ fl.inMem = false ∧
      fl.xmm = false ∧ fl.size < 2 ^ 20 ∧ retPlace (.mk (2 * s) a .complex [.mk s a tc []]) ≠ .mem ∧
      GoodStore (.mk (2 * s) a .complex [.mk s a tc []]) fl ∧
      GoodLoad (.mk (2 * s) a .complex [.mk s a tc []]) fl := by
  have hwf : WF lp64 (.mk (2 * s) a .complex [.mk s a tc []]) := .complex hb h
  cases tc with
  | void => simp [lp64] at h
  | int => simp [lp64] at h
  | struct => simp [lp64] at h
  | complex => simp [lp64] at h
  | pointer => simp [complexBase] at hb
  | longdouble =>
    simp [lp64] at h; obtain ⟨rfl, rfl⟩ := h
    have hpl : retPlace (.mk (2 * 16) 16 .complex [.mk 16 16 .longdouble []]) = .x87x2 := by decide
    have hlv : leaves (.mk (2 * 16) 16 .complex [.mk 16 16 .longdouble []]) 0 =
      [⟨0, 16, .longdouble⟩, ⟨16, 16, .longdouble⟩] := by simp [leaves]
    have hsigq : ∀ q, sigByte (.mk (2 * 16) 16 .complex [.mk 16 16 .longdouble []]) q ↔
        (q < 10 ∨ (16 ≤ q ∧ q < 26)) := by
      intro q
      unfold sigByte
      rw [hlv]
      simp
    refine ⟨.ofRet .x87_2, rfl, rfl, rfl, by simp [Flags.ofRet], by rw [hpl]; simp, ?_, ?_⟩
    · intro R frame rv v hf hrv hret
      simp only [need, FType.tc_mk, isIntTC, FType.size_mk, Bool.false_eq_true, if_false] at hrv ⊢
      unfold ReturnedIn at hret
      rw [hpl] at hret
      simp only [rregs, if_true, one_ne_zero, if_false] at hret
      simp only [Flags.ofRet, storeRet]
      obtain ⟨m1, a1, a2, a3⟩ := wr_spec (m := rv) (off := 0) (bs := low R.st0 10) (by simp; omega)
      rw [a1]; simp only
      obtain ⟨m2, b1, b2, b3⟩ := wr_spec (m := m1) (off := 16) (bs := low R.st1 10) (by simp; omega)
      rw [b1]
      simp only [low_length] at a3 b3
      refine ⟨m2, frame, rfl, by omega, hf, fun _ _ => rfl, ?_, by simp, ?_⟩
      · intro q hq
        rw [hsigq] at hq
        rw [b3]
        rcases hq with hq | hq
        · rw [if_neg (by omega), a3, if_pos (by omega), Nat.sub_zero, low_getD hq]
          exact (hret q hq).1
        · rw [if_pos (by omega), low_getD (by omega)]
          rw [(hret (q - 16) (by omega)).2]; congr 1; omega
      · intro q hq
        rw [b3, if_neg (by omega), a3, if_neg (by omega)]
    · intro R rv v hrv hsig
      obtain ⟨b0, c1, c2, c3⟩ := Buf.read_spec (b := rv) (off := 0) (n := 10) (by omega)
      obtain ⟨b1, d1, d2, d3⟩ := Buf.read_spec (b := rv) (off := 16) (n := 10) (by omega)
      refine ⟨{ R with st0 := setLow R.st0 b0, st1 := setLow R.st1 b1 },
        by simp only [Flags.ofRet, loadRet, c1, d1], ?_⟩
      unfold ReturnedIn
      rw [hpl]
      intro q hq
      simp only [rregs, if_true, one_ne_zero, if_false]
      rw [setLow_lt (by omega), setLow_lt (by omega), c3 q hq, d3 q hq, Nat.zero_add]
      exact ⟨hsig q ((hsigq q).2 (.inl hq)), hsig _ ((hsigq _).2 (.inr (by omega)))⟩
  | float =>
    simp [lp64] at h; obtain ⟨rfl, rfl⟩ := h
    have hpl : retPlace (.mk (2 * 4) 4 .complex [.mk 4 4 .float []]) = .regs [.sse 0] := by decide
    have := good_one hwf rfl (fl := .ofRet .xmm64) (r := .sse 0) (by simp [Flags.ofRet]) (by decide) hpl
    exact ⟨.ofRet .xmm64, rfl, rfl, rfl, by simp [Flags.ofRet], by rw [hpl]; simp, this.1, this.2⟩
  | double =>
    simp [lp64] at h; obtain ⟨rfl, rfl⟩ := h
    have hpl : retPlace (.mk (2 * 8) 8 .complex [.mk 8 8 .double []]) = .regs [.sse 0, .sse 1] := by decide
    have := good_pair hwf rfl (fl := ⟨.stXmm0Xmm1, false, false, 16⟩) (p := (.sse 0, .sse 1)) rfl rfl
      (by simp) (by decide) (.inr hpl)
    exact ⟨_, rfl, rfl, rfl, by simp, by rw [hpl]; simp, this.1, this.2⟩
  | uint64 =>
    simp [lp64] at h; obtain ⟨rfl, rfl⟩ := h
    have hpl : retPlace (.mk (2 * 8) 8 .complex [.mk 8 8 .uint64 []]) = .regs [.gpr 0, .gpr 1] := by decide
    have := good_pair hwf rfl (fl := ⟨.stRaxRdx, false, false, 16⟩) (p := (.gpr 0, .gpr 1)) rfl rfl
      (by simp) (by decide) (.inr hpl)
    exact ⟨_, rfl, rfl, rfl, by simp, by rw [hpl]; simp, this.1, this.2⟩
  | sint64 =>
    simp [lp64] at h; obtain ⟨rfl, rfl⟩ := h
    have hpl : retPlace (.mk (2 * 8) 8 .complex [.mk 8 8 .sint64 []]) = .regs [.gpr 0, .gpr 1] := by decide
    have := good_pair hwf rfl (fl := ⟨.stRaxRdx, false, false, 16⟩) (p := (.gpr 0, .gpr 1)) rfl rfl
      (by simp) (by decide) (.inr hpl)
    exact ⟨_, rfl, rfl, rfl, by simp, by rw [hpl]; simp, this.1, this.2⟩
  | uint8 =>
    simp [lp64] at h; obtain ⟨rfl, rfl⟩ := h
    have hpl : retPlace (.mk (2 * 1) 1 .complex [.mk 1 1 .uint8 []]) = .regs [.gpr 0] := by decide
    have := good_pair hwf rfl (fl := ⟨.stRaxRdx, false, false, 2⟩) (p := (.gpr 0, .gpr 1)) rfl rfl
      (by simp) (by decide) (.inl ⟨hpl, by simp⟩)
    exact ⟨_, rfl, rfl, rfl, by simp, by rw [hpl]; simp, this.1, this.2⟩
  | sint8 =>
    simp [lp64] at h; obtain ⟨rfl, rfl⟩ := h
    have hpl : retPlace (.mk (2 * 1) 1 .complex [.mk 1 1 .sint8 []]) = .regs [.gpr 0] := by decide
    have := good_pair hwf rfl (fl := ⟨.stRaxRdx, false, false, 2⟩) (p := (.gpr 0, .gpr 1)) rfl rfl
      (by simp) (by decide) (.inl ⟨hpl, by simp⟩)
    exact ⟨_, rfl, rfl, rfl, by simp, by rw [hpl]; simp, this.1, this.2⟩
  | uint16 =>
    simp [lp64] at h; obtain ⟨rfl, rfl⟩ := h
    have hpl : retPlace (.mk (2 * 2) 2 .complex [.mk 2 2 .uint16 []]) = .regs [.gpr 0] := by decide
    have := good_pair hwf rfl (fl := ⟨.stRaxRdx, false, false, 4⟩) (p := (.gpr 0, .gpr 1)) rfl rfl
      (by simp) (by decide) (.inl ⟨hpl, by simp⟩)
    exact ⟨_, rfl, rfl, rfl, by simp, by rw [hpl]; simp, this.1, this.2⟩
  | sint16 =>
    simp [lp64] at h; obtain ⟨rfl, rfl⟩ := h
    have hpl : retPlace (.mk (2 * 2) 2 .complex [.mk 2 2 .sint16 []]) = .regs [.gpr 0] := by decide
    have := good_pair hwf rfl (fl := ⟨.stRaxRdx, false, false, 4⟩) (p := (.gpr 0, .gpr 1)) rfl rfl
      (by simp) (by decide) (.inl ⟨hpl, by simp⟩)
    exact ⟨_, rfl, rfl, rfl, by simp, by rw [hpl]; simp, this.1, this.2⟩
  | uint32 =>
    simp [lp64] at h; obtain ⟨rfl, rfl⟩ := h
    have hpl : retPlace (.mk (2 * 4) 4 .complex [.mk 4 4 .uint32 []]) = .regs [.gpr 0] := by decide
    have := good_pair hwf rfl (fl := ⟨.stRaxRdx, false, false, 8⟩) (p := (.gpr 0, .gpr 1)) rfl rfl
      (by simp) (by decide) (.inl ⟨hpl, by simp⟩)
    exact ⟨_, rfl, rfl, rfl, by simp, by rw [hpl]; simp, this.1, this.2⟩
  | sint32 =>
    simp [lp64] at h; obtain ⟨rfl, rfl⟩ := h
    have hpl : retPlace (.mk (2 * 4) 4 .complex [.mk 4 4 .sint32 []]) = .regs [.gpr 0] := by decide
    have := good_pair hwf rfl (fl := ⟨.stRaxRdx, false, false, 8⟩) (p := (.gpr 0, .gpr 1)) rfl rfl
      (by simp) (by decide) (.inl ⟨hpl, by simp⟩)
    exact ⟨_, rfl, rfl, rfl, by simp, by rw [hpl]; simp, this.1, this.2⟩

/-- A 16-byte type with x87 alignment is a single `long double`. -/
theorem x87_leaves {t : FType} (hwf : WF lp64 t) : t.align = 16 → t.size ≤ 16 →
    ∀ o, leaves t o = [⟨o, 16, .longdouble⟩] := by
  induction hwf with
  | @scalar tc s a h =>
    intro ha hs o
    cases tc <;> simp [lp64] at h <;> simp only [FType.align_mk] at ha <;> obtain ⟨rfl, rfl⟩ := h <;>
      first | omega | simp [leaves]
  | @complex tc s a hb h =>
    intro ha hs o
    cases tc <;> simp [lp64] at h <;> simp only [FType.align_mk, FType.size_mk] at ha hs <;> omega
  | @struct es s a offs hwf hl ih =>
    intro ha hs o
    obtain ⟨e, rfl, he1, he2, rfl⟩ := struct_x87_single hwf hl ha hs
    have := ih e (by simp) he1 (by omega) o
    simp only [leaves, leavesL, he1]
    rw [show roundUp 0 16 = 0 by decide, Nat.add_zero, this]
    rfl

theorem examine_true_mem {t : FType} (hwf : WF lp64 t) (hst : t.tc = .struct) (hm : argClass t = none)
    (hld : leaves t 0 ≠ [⟨0, 16, .longdouble⟩]) : examine t true = .ok .mem := by
  obtain ⟨cls, hc, hs⟩ := classify_spec hwf 0 (by omega) (Nat.dvd_zero _) (by omega)
  have hm' : 16 < t.size ∨ t.align = 16 := by
    by_contra hcon
    unfold argClass at hm
    rw [if_neg (by rw [any_x87_iff hwf]; exact hcon)] at hm
    simp at hm
  have h16 : 16 < t.size := by
    by_contra hcon
    exact hld (x87_leaves hwf (by omega) (by omega) 0)
  unfold examine
  rw [hc, hs.large (by omega) hst]
  rfl

/-- Structures: the in-register result flags. -/
theorem good_struct {t : FType} (hwf : WF lp64 t) (hst : t.tc = .struct)
    (hld : leaves t 0 ≠ [⟨0, 16, .longdouble⟩]) :
    (retPlace t = .mem ∧ retFlags t = .ok (some (⟨.void, true, false, 0⟩, 1))) ∨
    ∃ fl, retFlags t = .ok (some (fl, 0)) ∧ fl.inMem = false ∧ fl.xmm = false ∧ fl.size < 2 ^ 20 ∧
      retPlace t ≠ .mem ∧ GoodStore t fl ∧ GoodLoad t fl := by
  have hni : isIntTC t.tc = false := by rw [hst]; rfl
  rcases examine_spec hwf true with ⟨h1, _⟩ | ⟨cls, hr, h1, h2⟩
  · left
    have hpl : retPlace t = .mem := by
      unfold retPlace
      rw [if_neg (by rw [hst]; simp), if_neg hld, if_neg (by rw [hst]; simp), h1]
    refine ⟨hpl, ?_⟩
    unfold retFlags
    rw [hst]
    simp only [examine_true_mem hwf hst h1 hld]
  · right
    have hpl : retPlace t = .regs (assign (cls.map toEB) 0 0) := by
      unfold retPlace
      rw [if_neg (by rw [hst]; simp), if_neg hld, if_neg (by rw [hst]; simp), h1]
    have hx : (leaves t 0).any isX87 = false := by
      unfold argClass at h1
      split at h1
      · simp at h1
      · rename_i h; simpa using fun hc => h (.inr hc)
    have hlen := hr.len
    have hsz := hr.size
    have hszp := hwf.size_pos lp64_ok
    have hrng := hr.rng
    have hrf : retFlags t = (
      let sse0 := (cls.getD 0 .no).isSse
      if t.size = 4 ∧ sse0 then .ok (some (.ofRet .xmm32, 0))
      else if t.size = 8 then .ok (some (.ofRet (if sse0 then .xmm64 else .int64), 0))
      else
        let sse1 := cls.length = 2 ∧ (cls.getD 1 .no).isSse
        let r := if sse0 ∧ sse1 then Ret.stXmm0Xmm1 else if sse0 then .stXmm0Rax
          else if sse1 then .stRaxXmm0 else .stRaxRdx
        .ok (some (⟨r, false, false, t.size⟩, 0))) := by
      unfold retFlags
      rw [hst]
      simp only [h2]
    have hne : retPlace t ≠ .mem := by rw [hpl]; simp
    have one : ∀ r fl, retFlags t = .ok (some (.ofRet fl, 0)) → retPlace t = .regs [r] →
        ((fl = .int64 ∧ r = .gpr 0 ∧ t.size = 8) ∨ (fl = .xmm64 ∧ r = .sse 0 ∧ t.size = 8) ∨
          (fl = .xmm32 ∧ r = .sse 0 ∧ t.size = 4)) →
        ∃ fl, retFlags t = .ok (some (fl, 0)) ∧ fl.inMem = false ∧ fl.xmm = false ∧ fl.size < 2 ^ 20 ∧
          retPlace t ≠ .mem ∧ GoodStore t fl ∧ GoodLoad t fl := by
      intro r fl k1 k2 k3
      have := good_one hwf hni (fl := .ofRet fl) (r := r) k3 hx k2
      exact ⟨_, k1, rfl, rfl, by simp [Flags.ofRet], hne, this.1, this.2⟩
    have two : ∀ r p, retFlags t = .ok (some (⟨r, false, false, t.size⟩, 0)) → pairOf r = some p →
        ((retPlace t = .regs [p.1] ∧ t.size ≤ 8) ∨ retPlace t = .regs [p.1, p.2]) →
        ∃ fl, retFlags t = .ok (some (fl, 0)) ∧ fl.inMem = false ∧ fl.xmm = false ∧ fl.size < 2 ^ 20 ∧
          retPlace t ≠ .mem ∧ GoodStore t fl ∧ GoodLoad t fl := by
      intro r p k1 k2 k3
      have := good_pair hwf hni (fl := ⟨r, false, false, t.size⟩) (p := p) k2 rfl hsz hx k3
      exact ⟨_, k1, rfl, rfl, by simp only; omega, hne, this.1, this.2⟩
    have hl12 : cls.length = 1 ∨ cls.length = 2 := by omega
    rcases hl12 with hl | hl
    · obtain ⟨c, rfl⟩ := List.length_eq_one_iff.1 hl
      have hc := isSse_toEB (hrng c (by simp))
      simp only [List.length_singleton] at hlen
      simp only [List.getD_cons_zero, List.length_singleton] at hrf
      simp only [show ¬ (1 = 2) by omega, false_and, and_false, if_false] at hrf
      cases he : toEB c with
      | sse =>
        rw [he] at hc
        simp only [decide_true] at hc
        rw [hc] at hrf
        simp only [List.map_cons, List.map_nil, he, assign] at hpl
        by_cases h4 : t.size = 4
        · rw [if_pos ⟨h4, rfl⟩] at hrf
          exact one _ _ hrf hpl (by simp [h4])
        · rw [if_neg (by simp [h4])] at hrf
          by_cases h8 : t.size = 8
          · rw [if_pos h8] at hrf
            exact one _ _ hrf hpl (by simp [h8])
          · rw [if_neg h8] at hrf
            exact two _ _ hrf rfl (.inl ⟨hpl, by omega⟩)
      | int =>
        rw [he] at hc
        simp only [reduceCtorEq, decide_false] at hc
        rw [hc] at hrf
        simp only [List.map_cons, List.map_nil, he, assign] at hpl
        rw [if_neg (by simp)] at hrf
        by_cases h8 : t.size = 8
        · rw [if_pos h8] at hrf
          exact one _ _ hrf hpl (by simp [h8])
        · rw [if_neg h8] at hrf
          exact two _ _ hrf rfl (.inl ⟨hpl, by omega⟩)
    · obtain ⟨c, c', rfl⟩ : ∃ c c', cls = [c, c'] := by
        match cls, hl with
        | [c, c'], _ => exact ⟨c, c', rfl⟩
      have hc := isSse_toEB (hrng c (by simp))
      have hc' := isSse_toEB (hrng c' (by simp))
      have hs9 : 8 < t.size := by simp only [List.length_cons, List.length_nil] at hlen; omega
      simp only [List.getD_cons_zero, List.getD_cons_succ, List.length_cons, List.length_nil, true_and] at hrf
      rw [if_neg (by omega), if_neg (by omega)] at hrf
      simp only [List.map_cons, List.map_nil] at hpl
      cases he : toEB c <;> cases he' : toEB c' <;> rw [he] at hc <;> rw [he'] at hc' <;>
        simp only [reduceCtorEq, decide_true, decide_false] at hc hc' <;> rw [hc, hc'] at hrf <;>
        simp only [he, he', assign] at hpl
      · exact two _ _ hrf rfl (.inr hpl)
      · exact two _ _ hrf rfl (.inr hpl)
      · exact two _ _ hrf rfl (.inr hpl)
      · exact two _ _ hrf rfl (.inr hpl)

end Verif.X64
