import Verif.RiscV.Closure

/-! Results. -/
namespace Verif.RV
open Verif Verif.Spec Verif.Spec.RV

/-- Results are in the first two registers of each kind. -/
theorem ret_pos {c : Cfg} (hc : (abi c).Ok) (t : FType) : After (placeArg (abi c) false t ⟨0, 0, 0⟩).2 ⟨2, 2, 0⟩ := by
  have hw : c.w = 4 ∨ c.w = 8 := hc.1
  have ex : (abi c).xlen = c.w := rfl
  have hz : roundUp 0 (2 * c.w) = 0 := by
    unfold roundUp
    rw [Nat.div_eq_of_lt (by omega), Nat.zero_mul]
  have hint : After (intConv (abi c) false t ⟨0, 0, 0⟩).2 ⟨2, 2, 0⟩ := by
    unfold intConv
    have e1 : word (abi c) ⟨0, 0, 0⟩ = (.a 0, ⟨1, 0, 0⟩) := rfl
    have e2 : word (abi c) ⟨1, 0, 0⟩ = (.a 1, ⟨2, 0, 0⟩) := rfl
    have e3 : evenPos (abi c) false ⟨0, 0, 0⟩ = ⟨0, 0, 0⟩ := by
      unfold evenPos
      simp only [ex, hz, Bool.false_eq_true, if_false]
    rw [e1, e3]
    simp only [ite_self, e1, e2]
    split
    · exact ⟨by dsimp only; omega, by dsimp only; omega, by dsimp only; omega⟩
    · split <;> exact ⟨by dsimp only; omega, by dsimp only; omega, by dsimp only; omega⟩
  unfold placeArg
  rw [if_neg (by decide)]
  split
  · split
    · exact ⟨by dsimp only; omega, by dsimp only; omega, by dsimp only; omega⟩
    · exact hint
  · split
    · exact ⟨by dsimp only; omega, by dsimp only; omega, by dsimp only; omega⟩
    · split
      · exact ⟨by dsimp only; omega, by dsimp only; omega, by dsimp only; omega⟩
      · split
        · exact ⟨by dsimp only; omega, by dsimp only; omega, by dsimp only; omega⟩
        · exact hint
  · exact hint

/-- Results are not on the stack. -/
theorem noStack {c : Cfg} (hc : (abi c).Ok) {t : FType} (h : Plain (tab c.w) t) (ps : List Piece)
    (hp : retPlace (abi c) t = .direct ps) : ∀ q ∈ ps, ∀ o, q.loc ≠ .stk o := by
  have hw : c.w = 4 ∨ c.w = 8 := hc.1
  have hb := ret_pos hc t
  have hns : ∀ l, Used l ⟨2, 2, 0⟩ c.w → ∀ o, l ≠ .stk o := by
    intro l hu o ho
    subst ho
    have : o + c.w ≤ 0 := hu
    omega
  have hwu := fun p hp => (word_spec c p hp).2.2.2.2
  have h08 : (⟨0, 0, 0⟩ : Pos).ni ≤ 8 := by dsimp only; omega
  unfold retPlace at hp
  cases classify hc h (var := false) (p := ⟨0, 0, 0⟩) (st := ⟨0, 0, 0, 0⟩) rfl rfl h08 (singleOk_zero _ _ _ _ _) with
  | one s a tc hvar ht hsz hal hlv hr hn hpl hf =>
    rw [hpl] at hp hb
    obtain rfl := Place.direct.inj hp
    intro q hq
    rw [List.mem_singleton] at hq
    subst hq
    exact hns _ ((atomLoc_spec c tc _ h08 fun _ => hn).2.2.2.mono hb)
  | two s a s' a' tc tc' hvar ht ht' hlv h1 h2 hpl hf =>
    rw [hpl] at hp hb
    obtain rfl := Place.direct.inj hp
    have hn1 : (abi c).real tc = true → (⟨0, 0, 0⟩ : Pos).nf < 8 := fun _ => by dsimp only; omega
    have hn2 : (abi c).real tc' = true → (atomLoc (abi c) tc ⟨0, 0, 0⟩).2.nf < 8 := by
      intro hr
      rcases h2 with h2 | h2
      · exact h2.2
      · rw [real_not_int hr] at h2; cases h2.1
    have u1 := atomLoc_spec c tc _ h08 hn1
    have u2 := atomLoc_spec c tc' _ u1.2.1 hn2
    intro q hq
    rw [List.mem_cons, List.mem_singleton] at hq
    rcases hq with rfl | rfl
    · exact hns _ (u1.2.2.2.mono (u2.1.trans hb))
    · exact hns _ (u2.2.2.2.mono hb)
  | int hpl hf hn =>
    rw [hpl] at hp hb
    unfold intConv at hp hb
    have ex : (abi c).xlen = c.w := rfl
    rw [ex] at hp hb
    by_cases hbig : 2 * c.w < t.size
    · rw [if_pos hbig] at hp; cases hp
    · rw [if_neg hbig] at hp hb
      by_cases hsm : t.size ≤ c.w
      · rw [if_pos hsm] at hp hb
        obtain rfl := Place.direct.inj hp
        intro q hq
        rw [List.mem_singleton] at hq
        subst hq
        exact hns _ ((hwu _ h08).mono hb)
      · rw [if_neg hsm] at hp hb
        dsimp only at hp hb
        generalize hg : (if c.w < t.align then evenPos (abi c) false ⟨0, 0, 0⟩ else ⟨0, 0, 0⟩) = g at hp hb
        have hg8 : g.ni ≤ 8 := by
          rw [← hg]
          split
          · simp [evenPos]
          · decide
        obtain rfl := Place.direct.inj hp
        have w2 := word_spec c _ (word_spec c g hg8).2.1
        intro q hq
        rw [List.mem_cons, List.mem_singleton] at hq
        rcases hq with rfl | rfl
        · exact hns _ ((hwu _ hg8).mono (w2.1.trans hb))
        · exact hns _ (w2.2.2.2.2.mono hb)

/-- State with result registers. -/
def RetRegs.regs (R : RetRegs) (m : Mem) : Regs := ⟨R.fa, R.a, m, 0⟩

/-- The registers `ffi_call_asm` stores after the call. -/
def savedRets (c : Cfg) (ctx : Nat) (R : RetRegs) (m : Mem) : Mem :=
  (m.wr (faAddr c ctx 0) (R.fa 0 ++ R.fa 1)).wr (aAddr c ctx 0) (R.a 0 ++ R.a 1)

structure RetLens (c : Cfg) (R : RetRegs) : Prop where
  fa : ∀ k, (R.fa k).length = c.fl
  a : ∀ k, (R.a k).length = c.w

theorem saved_out {c : Cfg} {ctx : Nat} {R : RetRegs} (hl : RetLens c R) (m : Mem) (x : Nat)
    (hx : x < ctx ∨ ctx + ctxSize c ≤ x) : savedRets c ctx R m x = m x := by
  unfold savedRets
  have : ctxSize c = 8 * c.fl + 8 * c.w + 16 := rfl
  rw [Mem.wr_out _ _ _ _ (by simp only [List.length_append, hl.a, aAddr]; omega),
    Mem.wr_out _ _ _ _ (by simp only [List.length_append, hl.fa, faAddr]; omega)]

theorem used_two {l : Loc} {w : Nat} (hw : 0 < w) (h : Used l ⟨2, 2, 0⟩ w) : l = .fa 0 ∨ l = .fa 1 ∨ l = .a 0 ∨ l = .a 1 := by
  cases l with
  | fa k =>
    have : k < 2 := h.1
    rcases (by omega : k = 0 ∨ k = 1) with rfl | rfl <;> simp
  | a k =>
    have : k < 2 := h.1
    rcases (by omega : k = 0 ∨ k = 1) with rfl | rfl <;> simp
  | stk o =>
    have : o + w ≤ 0 := h
    omega

theorem saved_reads {c : Cfg} (hc : (abi c).Ok) {ctx : Nat} {R : RetRegs} (hl : RetLens c R) (m : Mem) :
    Reads (fun l => Used l ⟨2, 2, 0⟩ c.w) c ctx 0 (savedRets c ctx R m) (R.regs m) := by
  have hw : c.w = 4 ∨ c.w = 8 := hc.1
  intro l h
  have hfa : ∀ n, n ≤ 2 * c.fl → (savedRets c ctx R m).rd (faAddr c ctx 0) n = (R.fa 0 ++ R.fa 1).take n := by
    intro n hn
    unfold savedRets
    rw [Mem.rd_wr_disj _ _ _ _ _ (by simp only [faAddr, aAddr]; omega)]
    exact Mem.rd_wr_prefix _ _ _ (by simp only [List.length_append, hl.fa]; omega)
  have ha : ∀ n, n ≤ 2 * c.w → (savedRets c ctx R m).rd (aAddr c ctx 0) n = (R.a 0 ++ R.a 1).take n := by
    intro n hn
    unfold savedRets
    exact Mem.rd_wr_prefix _ _ _ (by simp only [List.length_append, hl.a]; omega)
  have hsnd : ∀ (x : Nat) (z : Nat) (u v : List Byte), u.length = z → v.length = z →
      (savedRets c ctx R m).rd x z = u → (savedRets c ctx R m).rd x (z + z) = u ++ v →
      (savedRets c ctx R m).rd (x + z) z = v := by
    intro x z u v hu hv h1 h2
    rw [Mem.rd_append, h1] at h2
    exact List.append_cancel_left h2
  have hf0 : (savedRets c ctx R m).rd (faAddr c ctx 0) c.fl = R.fa 0 := by
    rw [hfa _ (by omega), List.take_left' (hl.fa 0)]
  have ha0 : (savedRets c ctx R m).rd (aAddr c ctx 0) c.w = R.a 0 := by
    rw [ha _ (by omega), List.take_left' (hl.a 0)]
  rcases used_two (by omega) h with rfl | rfl | rfl | rfl
  · exact hf0
  · show (savedRets c ctx R m).rd (faAddr c ctx 1) c.fl = R.fa 1
    have e : faAddr c ctx 1 = faAddr c ctx 0 + c.fl := by simp [faAddr]
    rw [e]
    refine hsnd _ _ _ _ (hl.fa 0) (hl.fa 1) hf0 ?_
    rw [hfa _ (by omega), List.take_of_length_le (by simp [hl.fa])]
  · exact ha0
  · show (savedRets c ctx R m).rd (aAddr c ctx 1) c.w = R.a 1
    have e : aAddr c ctx 1 = aAddr c ctx 0 + c.w := by simp [aAddr]
    rw [e]
    refine hsnd _ _ _ _ (hl.a 0) (hl.a 1) ha0 ?_
    rw [ha _ (by omega), List.take_of_length_le (by simp [hl.a])]

theorem fut_ctx {c : Cfg} {ctx : Nat} (l : Loc) (h : Used l ⟨2, 2, 0⟩ c.w) (hw : 0 < c.w) :
    ctx ≤ locAddr c ctx 0 l ∧ locAddr c ctx 0 l + locLen c l ≤ ctx + ctxSize c := by
  have : ctxSize c = 8 * c.fl + 8 * c.w + 16 := rfl
  rcases used_two hw h with rfl | rfl | rfl | rfl <;> simp only [locAddr, locLen, faAddr, aAddr] <;> omega

/-- The whole register is stored for narrow integers. -/
theorem finish_small {c : Cfg} (hc : (abi c).Ok) {rt : FType} {rvalue ctx : Nat} {R : RetRegs} (hl : RetLens c R)
    (m : Mem) (hi : (abi c).integer rt.tc = true) (hs : rt.size < c.w) (hr : rvalue ≠ 0) :
    finishCall c rt rvalue false ctx R m = (savedRets c ctx R m).wr rvalue (R.a 0) := by
  have hw : c.w = 4 ∨ c.w = 8 := hc.1
  have hrd := saved_reads hc (ctx := ctx) hl m (.a 0) ⟨by decide, by decide⟩
  have hrd : (savedRets c ctx R m).rd (aAddr c ctx 0) c.w = R.a 0 := hrd
  unfold finishCall
  dsimp only
  rw [if_neg (by simp [hr]), isInt_eq hc, hi, if_pos (by simp [hs])]
  have e : (unmarshalAtom c ctx (if c.w = 8 then TC.sint64 else TC.sint32) ⟨0, 0, 0, 0⟩ (savedRets c ctx R m)).1 = R.a 0 := by
    rw [← hrd]
    rcases hw with h | h
    · rw [if_neg (by omega)]
      unfold unmarshalAtom
      rw [if_neg (by simp [isFloat])]
      simp only [atomLoad, getWord]
      rw [if_neg (by decide)]
      simp only
      rw [Mem.rd_take _ _ (by omega), h]
    · rw [if_pos h]
      unfold unmarshalAtom
      rw [if_neg (by simp [isFloat])]
      simp only [atomLoad, getWord, h, if_true]
      rw [if_neg (by decide)]
      simp only
      exact Mem.rd_take _ _ (Nat.le_refl _)
  unfold savedRets at e
  rw [e]
  rfl

theorem finish_none {c : Cfg} {rt : FType} {rvalue ctx : Nat} {R : RetRegs} {byRef : Bool} (m : Mem)
    (h : byRef = true ∨ rvalue = 0) : finishCall c rt rvalue byRef ctx R m = savedRets c ctx R m := by
  unfold finishCall
  dsimp only
  rw [if_pos (by rcases h with h | h <;> simp [h])]
  rfl

/-- A narrow integer result is in `a0`. -/
theorem ret_int_place {c : Cfg} (hc : (abi c).Ok) {rt : FType} (h : Plain (tab c.w) rt)
    (hi : (abi c).integer rt.tc = true) (hs : rt.size < c.w) : retPlace (abi c) rt = .direct [⟨0, rt.size, .a 0⟩] := by
  have hw : c.w = 4 ∨ c.w = 8 := hc.1
  have hst : rt.tc ≠ .struct := by
    intro h'; rw [h'] at hi; cases hi
  have hlv : leaves rt 0 = [⟨0, rt.size, rt.tc⟩] := by
    cases h with
    | scalar h => exact leaves_scalar (tab_ok hw) h 0
    | struct => exact absurd rfl hst
  have hnr : (abi c).real rt.tc = false := by
    cases hx : (abi c).real rt.tc with
    | false => rfl
    | true => rw [real_not_int hx] at hi; cases hi
  unfold retPlace placeArg
  rw [if_neg (by decide), hlv]
  dsimp only
  rw [if_neg (by simp [hnr])]
  unfold intConv
  have ex : (abi c).xlen = c.w := rfl
  rw [ex, if_neg (by omega), if_pos (by omega)]
  rfl

theorem finish_spec {c : Cfg} (hc : (abi c).Ok) {rt : FType} (h : Plain (tab c.w) rt) {rvalue ctx : Nat} {R : RetRegs}
    (hl : RetLens c R) (m : Mem) (hr : rvalue ≠ 0) (hnr : (retPlace (abi c) rt).isRef = false)
    (hd : rvalue + 16 ≤ ctx ∨ ctx + ctxSize c ≤ rvalue) {v : List Byte} (hv : v.length = rt.size)
    (hp : PassedAt (abi c) (R.regs m) rt v (retPlace (abi c) rt)) :
    SameMembers rt ((finishCall c rt rvalue false ctx R m).rd rvalue rt.size) v ∧
    ∀ x, (x < rvalue ∨ rvalue + max rt.size c.w ≤ x) → (x < ctx ∨ ctx + ctxSize c ≤ x) →
      finishCall c rt rvalue false ctx R m x = m x := by
  have hw : c.w = 4 ∨ c.w = 8 := hc.1
  have hpos := (plain_wf h).size_pos (tab_ok hw)
  have hcs : ctxSize c = 8 * c.fl + 8 * c.w + 16 := rfl
  by_cases hsmall : (abi c).integer rt.tc = true ∧ rt.size < c.w
  · rw [finish_small hc hl m hsmall.1 hsmall.2 hr]
    constructor
    · rw [Mem.rd_wr_prefix _ _ _ (by rw [hl.a]; omega)]
      have hpl := ret_int_place hc h hsmall.1 hsmall.2
      rw [hpl] at hp
      have := hp ⟨0, rt.size, .a 0⟩ (by simp)
      dsimp only at this
      rw [List.drop_zero, List.take_of_length_le (l := v) (by omega)] at this
      have this : (R.a 0).take rt.size = v := this
      rw [this]
      exact sameMembers_refl _ _
    · intro x hx hx'
      rw [Mem.wr_out _ _ _ _ (by rw [hl.a]; omega), saved_out hl m x hx']
  · have hb0 : After (placeArg (abi c) false rt ⟨0, 0, 0⟩).2 ⟨2, 2, 0⟩ := ret_pos hc rt
    have hreads := saved_reads hc (ctx := ctx) hl m
    have hns := hb0.ns
    have f := unmarshal_step (V := fun l => Used l ⟨2, 2, 0⟩ c.w) hc h (var := false) (p := ⟨0, 0, 0⟩) (st := ⟨0, 0, 0, 0⟩)
      (data := rvalue) (v := v) hreads
      ⟨rfl, rfl, rfl, by dsimp only; omega⟩ (Nat.dvd_zero _) (singleOk_zero _ _ _ _ _)
      (fun l hu => by have := fut_ctx (ctx := ctx) l hu (by omega); omega)
      (fun l hu => hu.mono hb0) (by dsimp only at hns; omega) hl.fa hl.a hv hp
    have hfe : finishCall c rt rvalue false ctx R m =
        (unmarshal c ctx rt false rvalue ⟨0, 0, 0, 0⟩ (savedRets c ctx R m)).2.2 := by
      unfold finishCall
      dsimp only
      rw [if_neg (by simp [hr]), isInt_eq hc, if_neg]
      · rfl
      · intro hx
        rw [Bool.and_eq_true, decide_eq_true_eq] at hx
        exact hsmall hx
    rw [hfe]
    constructor
    · have hg := f.got
      have hpl : (placeArg (abi c) false rt ⟨0, 0, 0⟩).1 = retPlace (abi c) rt := rfl
      rw [hpl] at hg
      cases hq : retPlace (abi c) rt with
      | direct ps => rw [hq] at hg; exact hg.2.2
      | ref l => rw [hq] at hnr; cases hnr
    · intro x hx hx'
      rw [f.frame x (by omega), saved_out hl m x hx']

/-- The result registers after a closure. -/
theorem closureExit_spec {c : Cfg} (hc : (abi c).Ok) {rt : FType} (h : Plain (tab c.w) rt) {rvalue ctx : Nat}
    (hnr : (retPlace (abi c) rt).isRef = false) (hctx : ctx < 2 ^ 62) (hcw : ctx ≤ 256 ^ c.w)
    {junk : List Byte} (hj : junk.length = 2 * c.w) (m m' : Mem) :
    RetLens c (closureExit c rt rvalue false ctx junk m) ∧
    PassedAt (abi c) ((closureExit c rt rvalue false ctx junk m).regs m') rt (m.rd rvalue rt.size) (retPlace (abi c) rt) ∧
    ExtendedAt (abi c) ((closureExit c rt rvalue false ctx junk m).regs m') rt (m.rd rvalue rt.size)
      (retPlace (abi c) rt) := by
  have hw : c.w = 4 ∨ c.w = 8 := hc.1
  have hb0 : After (placeArg (abi c) false rt ⟨0, 0, 0⟩).2 ⟨2, 2, 0⟩ := ret_pos hc rt
  have hns := hb0.ns
  dsimp only at hns
  have hcp : copySize (abi c) rt (placeArg (abi c) false rt ⟨0, 0, 0⟩).1 = 0 := by
    unfold copySize
    rw [if_neg]
    have : (placeArg (abi c) false rt ⟨0, 0, 0⟩).1.isRef = false := hnr
    rw [this]; decide
  have w := marshal_step hc h (var := false) (p := ⟨0, 0, 0⟩) (st := ⟨0, 0, 0, 0⟩) (ctx := ctx) (base := 0) (ab := 0) (ss := 0)
    ⟨rfl, rfl, rfl, by dsimp only; omega⟩ (singleOk_zero _ _ _ _ _) (Nat.dvd_zero _) rfl (Nat.le_refl _) hctx hcw
    (Nat.dvd_zero _) hns (by rw [hcp]; omega) (load := fun o n => m.rd (rvalue + o) n) (v := m.rd rvalue rt.size)
    (Mem.rd_length _ _ _) (fun o n hon => (rd_sub m rvalue hon).symm) hj m
  generalize hr : marshal c ctx rt false (fun o n => m.rd (rvalue + o) n) junk ⟨0, 0, 0, 0⟩ m = r at w
  have hE : closureExit c rt rvalue false ctx junk m =
      ⟨fun k => r.2.rd (faAddr c ctx k) c.fl, fun k => r.2.rd (aAddr c ctx k) c.w⟩ := by
    unfold closureExit
    dsimp only
    rw [if_pos (by simp [plain_notVoid h]), hr]
  have ha := w.stable r.2 (fun _ _ => rfl)
  have hpl : (placeArg (abi c) false rt ⟨0, 0, 0⟩).1 = retPlace (abi c) rt := rfl
  rw [hpl] at ha
  rw [hE]
  refine ⟨⟨fun k => Mem.rd_length _ _ _, fun k => Mem.rd_length _ _ _⟩, ?_⟩
  -- no stack locations
  have hnostk : ∀ ps, retPlace (abi c) rt = .direct ps → ∀ q ∈ ps,
      (img c ctx 0 r.2).at (abi c) q.loc =
        (RetRegs.regs ⟨fun k => r.2.rd (faAddr c ctx k) c.fl, fun k => r.2.rd (aAddr c ctx k) c.w⟩ m').at (abi c) q.loc := by
    intro ps hps q hq
    have hst := noStack hc h ps hps q hq
    cases hl : q.loc with
    | fa k => rfl
    | a k => rfl
    | stk o => exact absurd hl (hst o)
  cases hq : retPlace (abi c) rt with
  | ref l => rw [hq] at hnr; cases hnr
  | direct ps =>
    rw [hq] at ha
    have hn := hnostk ps hq
    constructor
    · intro q hqm
      rw [← hn q hqm]
      exact ha.passed q hqm
    · intro q hqm
      have := ha.ext q hqm
      rw [← hn q hqm]
      exact this

end Verif.RV
