import Verif.RiscV.CallLoop

/-! `ffi_call_int` up to the call. -/
namespace Verif.RV
open Verif Verif.Spec Verif.Spec.RV

/-- Machine state at the entry of the function. -/
def Entry.regs (E : Entry) : Regs := ⟨E.fa, E.a, E.mem, E.sp⟩

/-- Return types: `void`, or an object type. -/
inductive RetType (w : Nat) : FType → Prop
  | void : RetType w (.mk 1 1 .void [])
  | obj {t} : Plain (tab w) t → RetType w t

/-- The result as the standard sees it. -/
def retOf (rt : FType) : Option FType := if rt.tc = .void then none else some rt

theorem plain_notVoid {w : Nat} {t : FType} (h : Plain (tab w) t) : t.tc ≠ .void := by
  cases h with
  | @scalar tc s a h => intro h'; rw [show tc = TC.void from h'] at h; cases h
  | struct => intro h; cases h

theorem singleOk_zero (A : Abi) (var : Bool) (t : FType) (n s : Nat) : SingleOk A var t ⟨n, 0, s⟩ :=
  fun _ _ _ _ _ => by dsimp only; omega

theorem passedByRef_eq {c : Cfg} (hc : (abi c).Ok) {t : FType} (h : Plain (tab c.w) t) (x y : Nat) :
    passedByRef c t ⟨0, 0, x, y⟩ = (retPlace (abi c) t).isRef := by
  have hw : c.w = 4 ∨ c.w = 8 := hc.1
  unfold passedByRef retPlace
  cases classify hc h (var := false) (p := ⟨0, 0, 0⟩) (st := ⟨0, 0, x, y⟩) rfl rfl (by dsimp only; omega)
    (singleOk_zero _ _ _ _ _) with
  | one s a tc hvar ht hsz hal hlv hr hn hp hf =>
    rw [hp]
    rcases hf with hf | ⟨hf, htc⟩
    · rw [hf]; rfl
    · rw [hf]
      have : s ≤ 8 := by
        cases tc <;> simp [Abi.real] at hr <;> simp [tab] at ht <;> omega
      show decide _ = false
      rw [decide_eq_false_iff_not]
      omega
  | two s a s' a' tc tc' hvar ht ht' hlv h1 h2 hp hf => rw [hp, hf]; rfl
  | int hp hf hn =>
    rw [hp, hf]
    unfold intConv
    have ex : (abi c).xlen = c.w := rfl
    rw [ex]
    by_cases hb : 2 * c.w < t.size
    · rw [if_pos hb]; simp [hb, Place.isRef]
    · rw [if_neg hb]
      have e : decide (2 * c.w < t.size) = false := by simpa using hb
      show decide (2 * c.w < t.size) = _
      rw [e]
      split <;> rfl

theorem start_eq {c : Cfg} (hc : (abi c).Ok) {rt : FType} (h : RetType c.w rt) (x y : Nat) :
    start (abi c) (retOf rt) = if passedByRef c rt ⟨0, 0, x, y⟩ then ⟨1, 0, 0⟩ else ⟨0, 0, 0⟩ := by
  have hw : c.w = 4 ∨ c.w = 8 := hc.1
  cases h with
  | void =>
    have e : passedByRef c (.mk 1 1 .void []) ⟨0, 0, x, y⟩ = false := by
      unfold passedByRef fsiOf
      rw [if_neg (by simp)]
      show decide (2 * c.w < 1) = false
      rw [decide_eq_false_iff_not]; omega
    rw [e]; rfl
  | obj hp =>
    have hnv := plain_notVoid hp
    rw [passedByRef_eq hc hp]
    unfold retOf
    rw [if_neg hnv]
    rfl

/-- Space `ffi_call_int` allocates. -/
def blockBytes (c : Cfg) (bytes : Nat) (rt : FType) (n : Nat) (rvalue : Option Nat) : Nat :=
  argBytes c n + rvalBytes c rt rvalue + ffiAlign bytes 16 + ctxSize c

/-- What a call needs: types, values, space.  The argument objects are not in the part
of the stack that is about to be used. -/
structure CallPre (c : Cfg) (bytes : Nat) (rt : FType) (ats : List FType) (I : CallIn) : Prop where
  ok : (abi c).Ok
  rtOk : RetType c.w rt
  atsOk : ∀ t ∈ ats, Plain (tab c.w) t
  n : ats.length < 2 ^ 32
  len : I.avalue.length = ats.length
  junk : ∀ i, (I.junk i).length = 2 * c.w
  fits : copies (abi c) c.nfixed ats 0 (start (abi c) (retOf rt)) ≤ bytes ∧ bytes < 2 ^ 32
  size : rt.size < 2 ^ 61
  sp : I.sp < 2 ^ 62 ∧ I.sp ≤ 256 ^ c.w
  room : blockBytes c bytes rt ats.length I.rvalue ≤ I.sp
  out : ∀ q ∈ ats.zip I.avalue, q.2 + q.1.size ≤ (callEntry c bytes rt ats I).base ∨ I.sp ≤ q.2
  rv : ∀ a, I.rvalue = some a → a < 256 ^ c.w
  single : SinglesOk (abi c) c.nfixed ats 0 (start (abi c) (retOf rt))

/-- What a call achieves. -/
structure CallPost (c : Cfg) (bytes : Nat) (rt : FType) (ats : List FType) (I : CallIn) (O : CallOut) : Prop where
  byRef : O.byRef = ((retOf rt).map fun t => (retPlace (abi c) t).isRef).getD false
  regs : O.entry.regs = img c O.ctx O.base O.entry.mem
  align : 16 ∣ O.entry.sp
  block : O.base = O.entry.sp ∧ O.entry.sp + blockBytes c bytes rt ats.length I.rvalue ≤ I.sp ∧
    O.ctx + ctxSize c = O.entry.sp + blockBytes c bytes rt ats.length I.rvalue
  frame : ∀ x, x < O.entry.sp ∨ O.ctx + ctxSize c ≤ x → O.entry.mem x = I.mem x
  ret : O.byRef = true → leNat (O.entry.a 0) = O.rvalue
  copyBase : ∃ ss, O.entry.sp + argBytes c ats.length + rvalBytes c rt I.rvalue = ss ∧ c.w ∣ ss ∧
    AllArgs (abi c) c.nfixed O.entry.regs ats (argVals I.mem ats I.avalue) 0 (start (abi c) (retOf rt)) ss ∧
    ss + copies (abi c) c.nfixed ats 0 (start (abi c) (retOf rt)) ≤ O.ctx
  stack : (endFrom (abi c) c.nfixed ats 0 (start (abi c) (retOf rt))).ns ≤ argBytes c ats.length
  rvalue : O.rvalue = if rvalBytes c rt I.rvalue ≠ 0 then O.entry.sp + argBytes c ats.length else I.rvalue.getD 0

theorem callEntry_spec {c : Cfg} {bytes : Nat} {rt : FType} {ats : List FType} {I : CallIn}
    (h : CallPre c bytes rt ats I) : CallPost c bytes rt ats I (callEntry c bytes rt ats I) := by
  have hc := h.ok
  have hw : c.w = 4 ∨ c.w = 8 := hc.1
  have hroom := h.room
  have hsp := h.sp
  have hout := h.out
  have hab : argBytes c ats.length = roundUp (argBytes c ats.length) 16 := by
    rw [argBytes_eq hc (by have := h.n; omega)]
    split
    · rfl
    · exact (roundUp_of_dvd (by decide) (dvd_roundUp _ _)).symm
  have hab16 : 16 ∣ argBytes c ats.length := by rw [hab]; exact dvd_roundUp _ _
  have hrb16 : 16 ∣ rvalBytes c rt I.rvalue := by
    unfold rvalBytes
    split
    · rw [align_small (by omega) (by have := h.size; omega)]; exact dvd_roundUp _ _
    · exact Nat.dvd_zero _
  have hsb : ffiAlign bytes 16 = roundUp bytes 16 := align_small (by omega) (by have := h.fits; omega)
  have hsb16 : 16 ∣ ffiAlign bytes 16 := by rw [hsb]; exact dvd_roundUp _ _
  have hsbge : bytes ≤ ffiAlign bytes 16 := by rw [hsb]; exact roundUp_ge (by decide)
  have hstack := stack_room hc (ts := ats) (by have := h.n; omega) (retOf rt)
  unfold blockBytes at hroom
  generalize hS : argBytes c ats.length + rvalBytes c rt I.rvalue + ffiAlign bytes 16 + ctxSize c = S at hroom
  have hS' : argBytes c ats.length + rvalBytes c rt I.rvalue + ffiAlign bytes 16 + ctxSize c = S := hS
  have hbase : ∃ base, alloca I.sp S = base ∧ 16 ∣ base ∧ base + S ≤ I.sp := by
    refine ⟨_, rfl, Nat.dvd_mul_left _ _, ?_⟩
    unfold alloca
    omega
  obtain ⟨base, hbe, hb16, hbs⟩ := hbase
  have hOb : (callEntry c bytes rt ats I).base = base := by rw [← hbe, ← hS]; rfl
  rw [hOb] at hout
  generalize hctx : base + argBytes c ats.length + rvalBytes c rt I.rvalue + ffiAlign bytes 16 = ctx
  have hctxs : ctx + ctxSize c = base + S := by omega
  generalize hrv : (if rvalBytes c rt I.rvalue ≠ 0 then base + argBytes c ats.length else I.rvalue.getD 0) = rv
  generalize hss : base + argBytes c ats.length + rvalBytes c rt I.rvalue = ss
  have hbyr := start_eq hc h.rtOk base ss
  have hcap : 0 < 256 ^ c.w := Nat.pow_pos (by decide)
  have hrvw : rv < 256 ^ c.w := by
    rw [← hrv]
    split
    · have : 0 < ctxSize c := by unfold ctxSize; omega
      omega
    · cases hr : I.rvalue with
      | none => exact hcap
      | some a => exact h.rv a hr
  have hws : c.w ∣ ss := by
    rw [← hss]
    have h16 : c.w ∣ 16 := by rcases hw with h | h <;> rw [h] <;> decide
    exact Nat.dvd_trans h16 (Nat.dvd_add (Nat.dvd_add hb16 hab16) hrb16)
  have hcpos : 0 < ctxSize c := by unfold ctxSize; omega
  have hcs := h.fits.1
  -- the result pointer
  have hfirst : ∃ P : Regs → Prop, (passedByRef c rt ⟨0, 0, base, ss⟩ = true → ∀ R, P R →
        (R.at (abi c) (.a 0)) = leBytes c.w rv) ∧
      Wrote c ctx base (argBytes c ats.length) ⟨0, 0, 0⟩ (start (abi c) (retOf rt)) ss ss I.mem
        (if passedByRef c rt ⟨0, 0, base, ss⟩ then
          marshalAtom c ctx .pointer (fun n => (leBytes c.w rv).take n) ⟨0, 0, base, ss⟩ I.mem
        else (⟨0, 0, base, ss⟩, I.mem)) P := by
    rw [hbyr]
    by_cases hr : passedByRef c rt ⟨0, 0, base, ss⟩ = true
    · rw [if_pos hr, if_pos hr]
      have w1 := one_step hc (pointer_tab c.w) (.inr (.inr rfl)) (ctx := ctx) (base := base)
        (ab := argBytes c ats.length) (ss := ss) (load := fun n => (leBytes c.w rv).take n)
        (st := ⟨0, 0, base, ss⟩) (p := ⟨0, 0, 0⟩) (by simp) ⟨rfl, rfl, rfl, by dsimp only; omega⟩
        (by intro h; cases h) rfl (by omega) (by omega) (Nat.zero_le _) I.mem
      refine ⟨_, ?_, w1⟩
      intro _ R hp
      have h1 : (R.at (abi c) (.a 0)).take c.w = (leBytes c.w rv).take c.w := hp.val
      have h2 : (R.at (abi c) (.a 0)).length = c.w := hp.len
      rw [List.take_of_length_le (by omega), List.take_of_length_le (by simp)] at h1
      exact h1
    · rw [if_neg hr, if_neg hr]
      exact ⟨fun _ => True, fun h => absurd h hr, ⟨rfl, rfl, rfl, by dsimp only; omega⟩, rfl, .refl _, fun _ _ => rfl,
        fun _ _ => trivial⟩
  obtain ⟨P, hP, w1⟩ := hfirst
  generalize hr : (if passedByRef c rt ⟨0, 0, base, ss⟩ then
          marshalAtom c ctx .pointer (fun n => (leBytes c.w rv).take n) ⟨0, 0, base, ss⟩ I.mem
        else (⟨0, 0, base, ss⟩, I.mem)) = r at w1
  have w2 := callLoop_spec hc (ctx := ctx) (base := base) (ab := argBytes c ats.length) hb16 (by omega) (by omega)
    h.junk (ts := ats) (as := I.avalue) (i := 0) (m := r.2) h.atsOk h.len w1.sim h.single w1.top (by omega) hws hstack
    (by omega) (fun q hq => by have := hout q hq; omega)
  have hvs : argVals r.2 ats I.avalue = argVals I.mem ats I.avalue := by
    apply argVals_congr
    intro q hq i hi
    apply w1.keep
    intro hf
    have h1 := fut_block (by omega) (by omega) hf
    have h2 := hout q hq
    omega
  rw [hvs] at w2
  have w := w1.chain (Nat.le_refl _) (by omega) w2
  generalize hq : callLoop c ctx I.junk ats I.avalue 0 r.1 r.2 = q at w
  -- the frame record
  have hm : ∃ m, q.2.wr (ctx + ctxSize c - 2 * c.w) (leBytes c.w I.fp ++ leBytes c.w I.ra) = m ∧
      Keep c ctx base (argBytes c ats.length) (endFrom (abi c) c.nfixed ats 0 (start (abi c) (retOf rt)))
        (ss + copies (abi c) c.nfixed ats 0 (start (abi c) (retOf rt))) q.2 m := by
    refine ⟨_, rfl, ?_⟩
    intro x hx
    apply Mem.wr_out
    apply Classical.byContradiction
    intro hn
    apply hx
    right; left
    have hni := w.sim.ni
    have hmul : c.w * (endFrom (abi c) c.nfixed ats 0 (start (abi c) (retOf rt))).ni ≤ c.w * 8 := Nat.mul_le_mul_left _ hni
    rw [List.length_append, leBytes_length, leBytes_length] at hn
    unfold ctxSize at hn ⊢
    omega
  obtain ⟨m, hme, hmk⟩ := hm
  have hO : callEntry c bytes rt ats I =
      { entry := ⟨m, base, fun k => m.rd (faAddr c ctx k) c.fl, fun k => m.rd (aAddr c ctx k) c.w⟩
        base := base, ctx := ctx, rvalue := rv, byRef := passedByRef c rt ⟨0, 0, base, ss⟩, uf := q.1.uf } := by
    rw [← hme, ← hq, ← hr]
    subst hss hrv hctx hbe hS
    rfl
  rw [hO]
  have hfin := w.stable m hmk
  have hkeep : Keep c ctx base (argBytes c ats.length) ⟨0, 0, 0⟩ ss I.mem m := w.keep.trans w.after (by omega) hmk
  refine ⟨?_, rfl, hb16, ⟨rfl, ?_, ?_⟩, ?_, ?_, ⟨ss, hss, hws, hfin.2, by dsimp only; omega⟩, hstack, ?_⟩
  · show passedByRef c rt ⟨0, 0, base, ss⟩ = _
    cases h.rtOk with
    | void =>
      show passedByRef c (.mk 1 1 .void []) ⟨0, 0, base, ss⟩ = false
      unfold passedByRef fsiOf
      rw [if_neg (by simp)]
      show decide (2 * c.w < 1) = false
      rw [decide_eq_false_iff_not]; omega
    | obj hp =>
      have hnv := plain_notVoid hp
      rw [passedByRef_eq hc hp]
      unfold retOf
      rw [if_neg hnv]
      rfl
  · show base + blockBytes c bytes rt ats.length I.rvalue ≤ I.sp
    unfold blockBytes; omega
  · show ctx + ctxSize c = base + blockBytes c bytes rt ats.length I.rvalue
    unfold blockBytes; omega
  · intro x hx
    apply hkeep
    intro hf
    have h1 := fut_block (by omega) (by omega) hf
    dsimp only at hx
    omega
  · intro hbr
    have := hP hbr _ hfin.1
    show leNat (m.rd (aAddr c ctx 0) c.w) = rv
    have e : (img c ctx base m).at (abi c) (.a 0) = m.rd (aAddr c ctx 0) c.w := rfl
    rw [← e, this, leNat_leBytes, Nat.mod_eq_of_lt hrvw]
  · exact hrv.symm

end Verif.RV
