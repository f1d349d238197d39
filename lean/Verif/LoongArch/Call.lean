import Verif.LoongArch.CallLemmas

/-! All arguments of a call, and `ffi_call_int` up to the call. -/
namespace Verif.LA
open Verif Verif.Spec Verif.Spec.RV RV

/-- The copies of arguments passed by reference, placed downwards from offset `low`, stay
above the arguments on the stack. -/
def Room (A : Abi) (nfixed : Nat) : List FType → Nat → Pos → Nat → Prop
  | [], _, p, low => p.ns ≤ low
  | t :: ts, i, p, low =>
      ((placeArg A (decide (nfixed ≤ i)) t p).1.isRef = true → t.size ≤ low) ∧
      Room A nfixed ts (i + 1) (placeArg A (decide (nfixed ≤ i)) t p).2
        (lowAfter t (placeArg A (decide (nfixed ≤ i)) t p).1 low)

/-- Offset of the lowest copy after all arguments. -/
def endLow (A : Abi) (nfixed : Nat) : List FType → Nat → Pos → Nat → Nat
  | [], _, _, low => low
  | t :: ts, i, p, low => endLow A nfixed ts (i + 1) (placeArg A (decide (nfixed ≤ i)) t p).2
      (lowAfter t (placeArg A (decide (nfixed ≤ i)) t p).1 low)

/-- All arguments are where they belong, with copies below `base + low`. -/
def AllArgs (A : Abi) (nfixed : Nat) (R : Regs) (base : Nat) :
    List FType → List (List Byte) → Nat → Pos → Nat → Prop
  | t :: ts, v :: vs, i, p, low =>
      Arg A t v (placeArg A (decide (nfixed ≤ i)) t p).1
        (base + lowAfter t (placeArg A (decide (nfixed ≤ i)) t p).1 low) R ∧
      AllArgs A nfixed R base ts vs (i + 1) (placeArg A (decide (nfixed ≤ i)) t p).2
        (lowAfter t (placeArg A (decide (nfixed ≤ i)) t p).1 low)
  | [], [], _, _, _ => True
  | _, _, _, _, _ => False

theorem endLow_le (A : Abi) (nfixed : Nat) (ts : List FType) (i : Nat) (p : Pos) (low : Nat) :
    endLow A nfixed ts i p low ≤ low := by
  induction ts generalizing i p low with
  | nil => exact Nat.le_refl _
  | cons t ts ih => exact (ih _ _ _).trans (lowAfter_le _ _ _)

theorem room_ns {c : Cfg} (hw : 0 < c.w) {ts : List FType} {i : Nat} {p : Pos} {low : Nat}
    (h : Room (abi c) c.nfixed ts i p low) :
    (endFrom (abi c) c.nfixed ts i p).ns ≤ endLow (abi c) c.nfixed ts i p low ∧ p.ns ≤ low := by
  induction ts generalizing i p low with
  | nil => exact ⟨h, h⟩
  | cons t ts ih =>
    obtain ⟨h1, h2⟩ := ih h.2
    refine ⟨h1, ?_⟩
    have := (placeArg_after hw (decide (c.nfixed ≤ i)) t p).ns
    have := lowAfter_le t (placeArg (abi c) (decide (c.nfixed ≤ i)) t p).1 low
    omega

theorem fut_block {c : Cfg} {ctx base low x : Nat} {p : Pos} (hs : base + low ≤ ctx)
    (h : Fut c ctx base p low x) : base ≤ x ∧ x < ctx + ctxSize c := by
  unfold Fut at h
  unfold ctxSize at *
  omega

theorem callLoop_spec {c : Cfg} (hc : (abi c).Ok) {ctx base : Nat} (hb : 16 ∣ base) (hctx : ctx < 2 ^ 62)
    (hcw : ctx ≤ 256 ^ c.w) {junk : Nat → List Byte} (hj : ∀ i, (junk i).length = 2 * c.w) {ts : List FType} :
    ∀ {as : List Nat} {i : Nat} {p : Pos} {st : St} {low : Nat} {m : Mem}, (∀ t ∈ ts, Plain (tab c.w) t) →
      as.length = ts.length → Sim base st p → SinglesOk (abi c) c.nfixed ts i p → st.ss = low → base + low ≤ ctx →
      Room (abi c) c.nfixed ts i p low →
      (∀ q ∈ ts.zip as, q.2 + q.1.size ≤ base ∨ ctx + ctxSize c ≤ q.2) →
      Wrote c ctx base p (endFrom (abi c) c.nfixed ts i p) low (endLow (abi c) c.nfixed ts i p low) m
        (callLoop c ctx base junk ts as i st m)
        (fun R => AllArgs (abi c) c.nfixed R base ts (argVals m ts as) i p low) := by
  have hw : c.w = 4 ∨ c.w = 8 := hc.1
  induction ts with
  | nil =>
    intro as i p st ss m _ hlen hs _ hss _ _ _
    cases as with
    | cons => simp at hlen
    | nil => exact ⟨hs, hss, .refl _, fun _ _ => rfl, fun _ _ => trivial⟩
  | cons t ts ih =>
    intro as i p st low m hp hlen hs hok hss hab hroom hout
    cases as with
    | nil => simp at hlen
    | cons a as =>
      rw [endFrom, endLow]
      rw [callLoop]
      have hle := lowAfter_le t (placeArg (abi c) (decide (c.nfixed ≤ i)) t p).1 low
      have w1 := marshal_step hc (hp t (by simp)) hs hok.1 hb hss hab hctx hcw hroom.1 (room_ns (by omega) hroom.2).2
        (load := fun o n => m.rd (a + o) n) (v := m.rd a t.size) (Mem.rd_length _ _ _) ?_ (hj i) m
      · generalize hr : marshal c ctx base t (decide (c.nfixed ≤ i)) (fun o n => m.rd (a + o) n) (junk i) st m = r at w1 ⊢
        have w2 := ih (as := as) (i := i + 1) (m := r.2) (fun x hx => hp x (by simp [hx])) (by simpa using hlen) w1.sim
          hok.2 w1.top (by omega) hroom.2 (fun q hq => hout q (by simp [hq]))
        have hvs : argVals r.2 ts as = argVals m ts as := by
          apply argVals_congr
          intro q hq i hi
          apply w1.keep
          intro hf
          have h1 := fut_block hab hf
          have h2 := hout q (by simp [hq])
          omega
        rw [hvs] at w2
        exact w1.chain hle (endLow_le _ _ _ _ _ _) w2
      · intro o n hon
        have : m.rd a (o + n) = m.rd a o ++ m.rd (a + o) n := Mem.rd_append _ _ _ _
        have h2 : (m.rd a t.size).take (o + n) = m.rd a (o + n) := Mem.rd_take _ _ hon
        rw [List.take_drop, h2, this, List.drop_left' (Mem.rd_length _ _ _)]

/-! ## The call -/

/-- Space `ffi_call_int` allocates. -/
def blockBytes (c : Cfg) (bytes : Nat) (rt : FType) (rvalue : Option Nat) : Nat :=
  bytes + rvalBytes c rt rvalue + ctxSize c

/-- What a call needs: types, values, space.  The argument objects are not in the part
of the stack that is about to be used. -/
structure CallPre (c : Cfg) (bytes : Nat) (rt : FType) (ats : List FType) (I : CallIn) : Prop where
  ok : (abi c).Ok
  rtOk : RetType c.w rt
  atsOk : ∀ t ∈ ats, Plain (tab c.w) t
  len : I.avalue.length = ats.length
  junk : ∀ i, (I.junk i).length = 2 * c.w
  sp : I.sp < 2 ^ 62 ∧ I.sp ≤ 256 ^ c.w
  room : blockBytes c bytes rt I.rvalue ≤ I.sp
  out : ∀ q ∈ ats.zip I.avalue, q.2 + q.1.size ≤ (callEntry c bytes rt ats I).base ∨ I.sp ≤ q.2
  rv : ∀ a, I.rvalue = some a → a < 256 ^ c.w
  single : SinglesOk (abi c) c.nfixed ats 0 (start (abi c) (retOf rt))
  copies : Room (abi c) c.nfixed ats 0 (start (abi c) (retOf rt)) bytes

/-- What a call achieves. -/
structure CallPost (c : Cfg) (bytes : Nat) (rt : FType) (ats : List FType) (I : CallIn) (O : CallOut) : Prop where
  byRef : O.byRef = ((retOf rt).map fun t => (retPlace (abi c) t).isRef).getD false
  regs : O.entry.regs = img c O.ctx O.base O.entry.mem
  align : 16 ∣ O.entry.sp
  block : O.base = O.entry.sp ∧ O.entry.sp + blockBytes c bytes rt I.rvalue ≤ I.sp ∧
    O.ctx + ctxSize c = O.entry.sp + blockBytes c bytes rt I.rvalue
  frame : ∀ x, x < O.entry.sp ∨ O.ctx + ctxSize c ≤ x → O.entry.mem x = I.mem x
  ret : O.byRef = true → leNat (O.entry.a 0) = O.rvalue
  args : AllArgs (abi c) c.nfixed O.entry.regs O.entry.sp ats (argVals I.mem ats I.avalue) 0
    (start (abi c) (retOf rt)) bytes
  rvalue : O.rvalue = if rvalBytes c rt I.rvalue ≠ 0 then O.entry.sp + bytes else I.rvalue.getD 0

theorem putWord_pointer {c : Cfg} (ctx v : Nat) (st : St) (m : Mem) :
    putWord c ctx (leBytes c.w v) st m = marshalAtom c ctx .pointer (fun n => (leBytes c.w v).take n) st m := by
  have e1 : isFloat c .pointer = false := rfl
  have e2 : atomLoad c .pointer = some (c.w, false) := rfl
  unfold marshalAtom
  rw [e1, e2]
  dsimp only
  rw [if_neg (by decide)]
  congr 1
  rw [List.take_of_length_le (by simp)]
  unfold extB
  simp

theorem notRef_void {c : Cfg} (hw : 0 < c.w) (st : St) : passedByRef c (.mk 1 1 .void []) st = false := by
  unfold passedByRef fsiOf
  rw [if_neg (by simp)]
  show decide (2 * c.w < 1) = false
  rw [decide_eq_false_iff_not]; omega

theorem byRef_eq' {c : Cfg} (hc : (abi c).Ok) {rt : FType} (h : RetType c.w rt) (x y : Nat) :
    passedByRef c rt ⟨0, 0, x, y⟩ = ((retOf rt).map fun t => (retPlace (abi c) t).isRef).getD false := by
  have hw : c.w = 4 ∨ c.w = 8 := hc.1
  cases h with
  | void => exact notRef_void (by omega) _
  | obj hp =>
    have hnv := plain_notVoid hp
    rw [passedByRef_eq hc hp]
    unfold retOf
    rw [if_neg hnv]
    rfl

theorem alloca_spec {sp n : Nat} (h : n ≤ sp) : 16 ∣ alloca sp n ∧ alloca sp n + n ≤ sp := by
  unfold alloca
  exact ⟨Nat.dvd_mul_left _ _, by omega⟩

theorem callEntry_spec {c : Cfg} {bytes : Nat} {rt : FType} {ats : List FType} {I : CallIn}
    (h : CallPre c bytes rt ats I) : CallPost c bytes rt ats I (callEntry c bytes rt ats I) := by
  have hc := h.ok
  have hw : c.w = 4 ∨ c.w = 8 := hc.1
  have hroom := h.room
  have hsp := h.sp
  have hout := h.out
  unfold blockBytes at hroom
  generalize hS : bytes + rvalBytes c rt I.rvalue + ctxSize c = S at hroom
  obtain ⟨hb16, hbs⟩ := alloca_spec hroom
  have hbase : ∃ base, alloca I.sp S = base := ⟨_, rfl⟩
  obtain ⟨base, hbe⟩ := hbase
  rw [hbe] at hb16 hbs
  have hOb : (callEntry c bytes rt ats I).base = base := by rw [← hbe, ← hS]; rfl
  rw [hOb] at hout
  generalize hctx : base + bytes + rvalBytes c rt I.rvalue = ctx
  have hctxs : ctx + ctxSize c = base + S := by omega
  generalize hrv : (if rvalBytes c rt I.rvalue ≠ 0 then base + bytes else I.rvalue.getD 0) = rv
  have hbyr := start_eq hc h.rtOk base bytes
  have hcap : 0 < 256 ^ c.w := Nat.pow_pos (by decide)
  have hcpos : 0 < ctxSize c := by unfold ctxSize; omega
  have hrvw : rv < 256 ^ c.w := by
    rw [← hrv]
    split
    · omega
    · cases hr : I.rvalue with
      | none => exact hcap
      | some a => exact h.rv a hr
  -- the result pointer
  have hfirst : ∃ P : Regs → Prop, (passedByRef c rt ⟨0, 0, base, bytes⟩ = true → ∀ R, P R →
        (R.at (abi c) (.a 0)) = leBytes c.w rv) ∧
      Wrote c ctx base ⟨0, 0, 0⟩ (start (abi c) (retOf rt)) bytes bytes I.mem
        (if passedByRef c rt ⟨0, 0, base, bytes⟩ then putWord c ctx (leBytes c.w rv) ⟨0, 0, base, bytes⟩ I.mem
        else (⟨0, 0, base, bytes⟩, I.mem)) P := by
    rw [hbyr]
    by_cases hr : passedByRef c rt ⟨0, 0, base, bytes⟩ = true
    · rw [if_pos hr, if_pos hr, putWord_pointer]
      have w1 := one_step hc (pointer_tab c.w) (.inr (.inr rfl)) (ctx := ctx) (base := base)
        (low := bytes) (load := fun n => (leBytes c.w rv).take n)
        (st := ⟨0, 0, base, bytes⟩) (p := ⟨0, 0, 0⟩) (by simp) ⟨rfl, rfl, rfl, by dsimp only; omega⟩
        (by intro h; cases h) rfl (by omega) (Nat.zero_le _) I.mem
      refine ⟨_, ?_, w1⟩
      intro _ R hp
      have h1 : (R.at (abi c) (.a 0)).take c.w = (leBytes c.w rv).take c.w := hp.val
      have h2 : (R.at (abi c) (.a 0)).length = c.w := hp.len
      rw [List.take_of_length_le (by omega), List.take_of_length_le (by simp)] at h1
      exact h1
    · rw [if_neg hr, if_neg hr]
      exact ⟨fun _ => True, fun h => absurd h hr, ⟨rfl, rfl, rfl, by dsimp only; omega⟩, rfl, .refl _, fun _ _ => rfl,
        fun _ _ => trivial⟩
  obtain ⟨P, hP, w1⟩ := hfirst
  generalize hr : (if passedByRef c rt ⟨0, 0, base, bytes⟩ then
          putWord c ctx (leBytes c.w rv) ⟨0, 0, base, bytes⟩ I.mem
        else (⟨0, 0, base, bytes⟩, I.mem)) = r at w1
  have w2 := callLoop_spec hc (ctx := ctx) (base := base) hb16 (by omega) (by omega)
    h.junk (ts := ats) (as := I.avalue) (i := 0) (m := r.2) h.atsOk h.len w1.sim h.single w1.top (by omega) h.copies
    (fun q hq => by have := hout q hq; omega)
  have hvs : argVals r.2 ats I.avalue = argVals I.mem ats I.avalue := by
    apply argVals_congr
    intro q hq i hi
    apply w1.keep
    intro hf
    have h1 := fut_block (by omega) hf
    have h2 := hout q hq
    omega
  rw [hvs] at w2
  have hel := endLow_le (abi c) c.nfixed ats 0 (start (abi c) (retOf rt)) bytes
  have w := w1.chain (Nat.le_refl _) hel w2
  generalize hq : callLoop c ctx base I.junk ats I.avalue 0 r.1 r.2 = q at w
  -- the frame record
  have hm : ∃ m, q.2.wr (ctx + ctxSize c - 2 * c.w) (leBytes c.w I.fp ++ leBytes c.w I.ra) = m ∧
      Keep c ctx base (endFrom (abi c) c.nfixed ats 0 (start (abi c) (retOf rt)))
        (endLow (abi c) c.nfixed ats 0 (start (abi c) (retOf rt)) bytes) q.2 m := by
    refine ⟨_, rfl, ?_⟩
    intro x hx
    apply Mem.wr_out
    apply Classical.byContradiction
    intro hn
    apply hx
    right; left
    have hni := w.sim.ni
    have hmul : c.w * (endFrom (abi c) c.nfixed ats 0 (start (abi c) (retOf rt))).ni ≤ c.w * 8 := Nat.mul_le_mul_left _ hni
    rw [List.length_append, leBytes_length, leBytes_length] at hn
    unfold ctxSize at hn ⊢
    omega
  obtain ⟨m, hme, hmk⟩ := hm
  have hO : callEntry c bytes rt ats I =
      { entry := ⟨m, base, fun k => m.rd (faAddr c ctx k) c.fl, fun k => m.rd (aAddr c ctx k) c.w⟩
        base := base, ctx := ctx, rvalue := rv, byRef := passedByRef c rt ⟨0, 0, base, bytes⟩, uf := q.1.uf } := by
    rw [← hme, ← hq, ← hr]
    subst hrv hctx hbe hS
    rfl
  rw [hO]
  have hfin := w.stable m hmk
  have hkeep : Keep c ctx base ⟨0, 0, 0⟩ bytes I.mem m := w.keep.trans w.after hel hmk
  refine ⟨byRef_eq' hc h.rtOk _ _, rfl, hb16, ⟨rfl, ?_, ?_⟩, ?_, ?_, hfin.2, hrv.symm⟩
  · show base + blockBytes c bytes rt I.rvalue ≤ I.sp
    unfold blockBytes; omega
  · show ctx + ctxSize c = base + blockBytes c bytes rt I.rvalue
    unfold blockBytes; omega
  · intro x hx
    apply hkeep
    intro hf
    have h1 := fut_block (by omega) hf
    dsimp only at hx
    omega
  · intro hbr
    have := hP hbr _ hfin.1
    show leNat (m.rd (aAddr c ctx 0) c.w) = rv
    have e : (img c ctx base m).at (abi c) (.a 0) = m.rd (aAddr c ctx 0) c.w := rfl
    rw [← e, this, leNat_leBytes, Nat.mod_eq_of_lt hrvw]

end Verif.LA
