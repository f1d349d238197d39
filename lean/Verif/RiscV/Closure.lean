import Verif.RiscV.ClosureLemmas

/-! `ffi_closure_asm` and `ffi_closure_inner` up to the handler. -/
namespace Verif.RV
open Verif Verif.Spec Verif.Spec.RV

theorem saveRegs_out (a z : Nat) (r : Nat → List Byte) (hr : ∀ k, (r k).length = z) (n : Nat) (m : Mem) (x : Nat)
    (hx : x < a ∨ a + z * n ≤ x) : saveRegs a z r n m x = m x := by
  induction n with
  | zero => rfl
  | succ n ih =>
    rw [Nat.mul_succ] at hx
    rw [saveRegs, Mem.wr_out _ _ _ _ (by rw [hr]; omega), ih (by omega)]

theorem saveRegs_rd (a z : Nat) (r : Nat → List Byte) (hr : ∀ k, (r k).length = z) (n : Nat) (m : Mem) {k : Nat}
    (hk : k < n) : (saveRegs a z r n m).rd (a + z * k) z = r k := by
  induction n with
  | zero => omega
  | succ n ih =>
    rw [saveRegs]
    by_cases h : k = n
    · subst h
      have := Mem.rd_wr_same (saveRegs a z r k m) (a + z * k) (r k)
      rw [hr] at this
      exact this
    · have hm : z * (k + 1) ≤ z * n := Nat.mul_le_mul_left _ (by omega)
      rw [Nat.mul_succ] at hm
      rw [Mem.rd_wr_disj _ _ _ _ _ (by omega), ih (by omega)]

theorem allOut_mono {A : Abi} {R : Regs} {lo hi lo' hi' : Nat} (hl : lo ≤ lo') (hh : hi' ≤ hi) {ts : List FType}
    {ps : List Place} (h : AllOut A R lo hi ts ps) : AllOut A R lo' hi' ts ps := by
  induction ts generalizing ps with
  | nil => cases ps <;> exact h
  | cons t ts ih =>
    cases ps with
    | nil => exact h
    | cons p ps =>
      refine ⟨?_, ih h.2⟩
      have := h.1
      cases p with
      | direct => trivial
      | ref l =>
        have h' : leNat (R.at A l) + t.size ≤ lo ∨ hi ≤ leNat (R.at A l) := this
        show leNat (R.at A l) + t.size ≤ lo' ∨ hi' ≤ leNat (R.at A l)
        omega

/-- Stack used by the closure code for a result of `z` bytes and `n` arguments, as far as
it is modelled. -/
def closureFrame (c : Cfg) (z n : Nat) : Nat := ctxSize c + 24 * n + z + 48

structure ClosurePre (c : Cfg) (rt : FType) (ats : List FType) (vs : List (List Byte)) (E : Entry) : Prop where
  ok : (abi c).Ok
  rtOk : RetType c.w rt
  atsOk : ∀ t ∈ ats, Plain (tab c.w) t
  fa : ∀ k, (E.fa k).length = c.fl
  a : ∀ k, (E.a k).length = c.w
  align : 16 ∣ E.sp
  top : E.sp + (endFrom (abi c) c.nfixed ats 0 (start (abi c) (retOf rt))).ns < 2 ^ 62
  room : closureFrame c rt.size ats.length ≤ E.sp
  sized : Sized ats vs
  passed : AllPassed (abi c) E.regs ats vs (placeFrom (abi c) c.nfixed ats 0 (start (abi c) (retOf rt)))
  out : AllOut (abi c) E.regs (E.sp - closureFrame c rt.size ats.length) E.sp ats
    (placeFrom (abi c) c.nfixed ats 0 (start (abi c) (retOf rt)))
  single : SinglesOk (abi c) c.nfixed ats 0 (start (abi c) (retOf rt))

structure ClosurePost (c : Cfg) (rt : FType) (ats : List FType) (vs : List (List Byte)) (E : Entry) (V : View) : Prop where
  found : ∀ m : Mem, (∀ x, ¬ (V.byRef = false ∧ V.rvalue ≤ x ∧ x < V.rvalue + max rt.size 16) → m x = V.mem x) →
    AllFound m ats vs V.avalue
  ptrs : AllAligned (abi c) E.regs ats (placeFrom (abi c) c.nfixed ats 0 (start (abi c) (retOf rt))) →
    AllPtrs ats V.avalue
  frame : ∀ x, x < E.sp - closureFrame c rt.size ats.length ∨ E.sp ≤ x → V.mem x = E.mem x
  ctx : V.ctx = E.sp - ctxSize c
  byRef : V.byRef = ((retOf rt).map fun t => (retPlace (abi c) t).isRef).getD false
  ret : V.byRef = true → V.rvalue = leNat (E.a 0)
  buf : V.byRef = false → E.sp - closureFrame c rt.size ats.length ≤ V.rvalue ∧ V.rvalue + max rt.size 16 ≤ V.ctx

theorem byRef_eq {c : Cfg} (hc : (abi c).Ok) {rt : FType} (h : RetType c.w rt) (x y : Nat) :
    passedByRef c rt ⟨0, 0, x, y⟩ = ((retOf rt).map fun t => (retPlace (abi c) t).isRef).getD false := by
  have hw : c.w = 4 ∨ c.w = 8 := hc.1
  cases h with
  | void =>
    show passedByRef c (.mk 1 1 .void []) ⟨0, 0, x, y⟩ = false
    unfold passedByRef fsiOf
    rw [if_neg (by simp)]
    show decide (2 * c.w < 1) = false
    rw [decide_eq_false_iff_not]; omega
  | obj hp =>
    have hnv := plain_notVoid hp
    rw [passedByRef_eq hc hp]
    unfold retOf
    rw [if_neg hnv]
    rfl

theorem closureEntry_spec {c : Cfg} {rt : FType} {ats : List FType} {vs : List (List Byte)} {E : Entry}
    (h : ClosurePre c rt ats vs E) (fp ra : Nat) :
    ClosurePost c rt ats vs E (closureEntry c rt ats fp ra E) := by
  have hc := h.ok
  have hw : c.w = 4 ∨ c.w = 8 := hc.1
  have hroom := h.room
  unfold closureFrame at hroom
  have hcs : ctxSize c = 8 * c.fl + 8 * c.w + 16 := rfl
  generalize hctx : E.sp - ctxSize c = ctx
  have hctx' : ctx + ctxSize c = E.sp := by omega
  -- the saved registers
  have hm0 : ∃ m0, saveRegs (aAddr c ctx 0) c.w E.a 8 (saveRegs (faAddr c ctx 0) c.fl E.fa 8
        (E.mem.wr (E.sp - 2 * c.w) (leBytes c.w fp ++ leBytes c.w ra))) = m0 ∧
      Reads Valid c ctx E.sp m0 E.regs ∧ (∀ x, x < ctx ∨ E.sp ≤ x → m0 x = E.mem x) := by
    refine ⟨_, rfl, ?_, ?_⟩
    · intro l hl
      cases l with
      | fa k =>
        have hk : k < 8 := hl
        have hm : c.fl * (k + 1) ≤ c.fl * 8 := Nat.mul_le_mul_left _ hk
        rw [Nat.mul_succ] at hm
        show Mem.rd _ (faAddr c ctx k) c.fl = E.fa k
        have e := saveRegs_rd (faAddr c ctx 0) c.fl E.fa h.fa 8
          (E.mem.wr (E.sp - 2 * c.w) (leBytes c.w fp ++ leBytes c.w ra)) hk
        have e0 : faAddr c ctx k = faAddr c ctx 0 + c.fl * k := by simp [faAddr]
        rw [e0]
        rw [← e]
        apply Mem.rd_congr
        intro i hi
        apply saveRegs_out _ _ _ h.a
        simp only [faAddr, aAddr]
        omega
      | a k =>
        show Mem.rd _ (aAddr c ctx k) c.w = E.a k
        have e0 : aAddr c ctx k = aAddr c ctx 0 + c.w * k := by simp [aAddr]
        rw [e0]
        exact saveRegs_rd _ _ _ h.a 8 _ hl
      | stk o =>
        show Mem.rd _ (E.sp + o) c.w = E.mem.rd (E.sp + o) c.w
        apply Mem.rd_congr
        intro i _
        rw [saveRegs_out _ _ _ h.a _ _ _ (by simp only [aAddr]; omega),
          saveRegs_out _ _ _ h.fa _ _ _ (by simp only [faAddr]; omega),
          Mem.wr_out _ _ _ _ (by simp only [List.length_append, leBytes_length]; omega)]
    · intro x hx
      rw [saveRegs_out _ _ _ h.a _ _ _ (by simp only [aAddr]; omega),
        saveRegs_out _ _ _ h.fa _ _ _ (by simp only [faAddr]; omega),
        Mem.wr_out _ _ _ _ (by simp only [List.length_append, leBytes_length]; omega)]
  obtain ⟨m0, hme, hreads, hm0out⟩ := hm0
  have hwn : c.w * ats.length ≤ 8 * ats.length := Nat.mul_le_mul_right _ (by omega)
  have hast : ∃ ast, alloca (alloca ctx (c.w * ats.length)) (16 * ats.length) = ast ∧ 16 ∣ ast ∧
      ast + 16 * ats.length ≤ ctx ∧ E.sp - closureFrame c rt.size ats.length + rt.size + 16 ≤ ast := by
    refine ⟨_, rfl, Nat.dvd_mul_left _ _, ?_, ?_⟩ <;> unfold alloca
    · omega
    · unfold closureFrame; omega
  obtain ⟨ast, haste, hast16, hastr, hastl⟩ := hast
  have hst := start_eq hc h.rtOk E.sp 0
  have hsingle := h.single
  have hfirst : ∃ r, (if passedByRef c rt ⟨0, 0, E.sp, 0⟩ then unmarshalAtom c ctx .pointer ⟨0, 0, E.sp, 0⟩ m0
      else ([], ⟨0, 0, E.sp, 0⟩)) = r ∧ Sim E.sp r.2 (start (abi c) (retOf rt)) ∧
      (passedByRef c rt ⟨0, 0, E.sp, 0⟩ = true → leNat r.1 = leNat (E.a 0)) := by
    rw [hst]
    refine ⟨_, rfl, ?_⟩
    by_cases hr : passedByRef c rt ⟨0, 0, E.sp, 0⟩ = true
    · rw [if_pos hr, if_pos hr]
      obtain ⟨st', e1, e2⟩ := atom_back hc (pointer_tab c.w) (.inr (.inr rfl)) hreads
        (st := ⟨0, 0, E.sp, 0⟩) (p := ⟨0, 0, 0⟩) ⟨rfl, rfl, rfl, by dsimp only; omega⟩ (show 0 < 8 by decide)
      rw [e1]
      refine ⟨e2, fun _ => ?_⟩
      show leNat ((E.a 0).take c.w) = leNat (E.a 0)
      rw [List.take_of_length_le (Nat.le_of_eq (h.a 0))]
    · rw [if_neg hr, if_neg hr]
      exact ⟨⟨rfl, rfl, rfl, by dsimp only; omega⟩, fun h => absurd h hr⟩
  obtain ⟨r, hre, hrs, hrv⟩ := hfirst
  obtain ⟨as, m', h1, h2, h3, h4⟩ := closureLoop_spec hc (ctx := ctx) (base := E.sp) (ast := ast) (n := ats.length)
    (lo := E.sp - closureFrame c rt.size ats.length) (R := E.regs) h.align (by omega) (by omega) hast16 hastr h.fa h.a (ts := ats) (vs := vs) (i := 0) (m := m0) h.atsOk (by omega)
    hrs hsingle hreads h.sized h.top h.passed (allOut_mono (Nat.le_refl _) (by omega) h.out)
    (fun x hx => by
      by_cases hc : x < ctx ∨ E.sp ≤ x
      · exact .inl (hm0out x hc)
      · exact .inr (by omega))
    (allOut_mono (lo := E.sp - closureFrame c rt.size ats.length) (hi := E.sp) (by omega) (by omega) h.out)
  have hV : closureEntry c rt ats fp ra E =
      { mem := m', rvalue := if passedByRef c rt ⟨0, 0, E.sp, 0⟩ then leNat r.1 else alloca ast rt.size, avalue := as,
        ctx := ctx, byRef := passedByRef c rt ⟨0, 0, E.sp, 0⟩ } := by
    unfold closureEntry closureFrameMem
    dsimp only
    rw [hctx, hme, haste, hre, h1]
  rw [hV]
  have hsz : 0 < rt.size := by
    cases h.rtOk with
    | void => decide
    | obj hp => exact (plain_wf hp).size_pos (tab_ok hw)
  have hbuf : E.sp - closureFrame c rt.size ats.length ≤ alloca ast rt.size ∧
      alloca ast rt.size + max rt.size 16 ≤ ast := by
    unfold alloca
    omega
  refine ⟨?_, h4, ?_, hctx.symm, byRef_eq hc h.rtOk _ _, ?_, ?_⟩
  · intro m hm
    refine h2 m fun x hx => hm x ?_
    rintro ⟨hb, h⟩
    dsimp only at hb h
    rw [hb, if_neg (by decide)] at h
    omega
  · intro x hx
    show m' x = E.mem x
    rw [h3 x (by omega), hm0out x (by omega)]
  · intro hb
    have hb' : passedByRef c rt ⟨0, 0, E.sp, 0⟩ = true := hb
    dsimp only
    rw [if_pos hb']
    exact hrv hb'
  · intro hb
    have hb' : ¬ passedByRef c rt ⟨0, 0, E.sp, 0⟩ = true := by
      have : passedByRef c rt ⟨0, 0, E.sp, 0⟩ = false := hb
      rw [this]; decide
    dsimp only
    rw [if_neg hb']
    omega

end Verif.RV
