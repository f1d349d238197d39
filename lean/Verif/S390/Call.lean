import Verif.S390.Layout

/-! The arguments that `ffi_call_int` stores. -/
namespace Verif.S390
open Verif Verif.Spec Verif.Spec.S390

/-- Bytes that are still to be written: stack arguments and copies, registers. -/
def Fut (c : Cfg) (F S : Nat) (p : Pos) (low x : Nat) : Prop :=
  (S + p.ns ≤ x ∧ x < low) ∨ (F + gprOff c p.ng ≤ x ∧ x < F + 7 * c.w) ∨ (F + fprOff c p.nf ≤ x ∧ x < F + frameSize c)

/-- Equal but for these. -/
def Keep (c : Cfg) (F S : Nat) (p : Pos) (low : Nat) (m m' : Mem) : Prop := ∀ x, ¬ Fut c F S p low x → m' x = m x

/-- Bytes that hold no argument. -/
def Out (c : Cfg) (F S x : Nat) : Prop := x < S ∨ (F ≤ x ∧ x < F + 2 * c.w) ∨ (F + 7 * c.w ≤ x ∧ x < F + 16 * c.w) ∨ F + frameSize c ≤ x

/-- Arguments that have been stored are the same. -/
def Same (c : Cfg) (F S : Nat) (p : Pos) (low : Nat) (m m' : Mem) : Prop := ∀ x, ¬ Fut c F S p low x → ¬ Out c F S x → m' x = m x

/-- The registers that `ffi_call_SYSV` will load. -/
def img (c : Cfg) (F sp : Nat) (m : Mem) : Regs := ⟨fun k => m.rd (F + gprOff c k) c.w, fun k => m.rd (F + fprOff c k) 8, m, sp⟩

def locAddr (c : Cfg) (F S : Nat) : Loc → Nat
  | .gpr k => F + gprOff c k
  | .stk o => S + o

theorem img_at {c : Cfg} {F S sp : Nat} (hS : S = sp + saveArea c.w) (m : Mem) (l : Loc) :
    (img c F sp m).at c.w l = m.rd (locAddr c F S l) c.w := by
  cases l with
  | gpr k => rfl
  | stk o => rw [hS]; rfl

theorem wr_stable {c : Cfg} {F S : Nat} {p : Pos} {low : Nat} {m m2 : Mem} {A n : Nat} {bs : List Byte} (hl : bs.length = n)
    (hA : ∀ x, A ≤ x → x < A + n → ¬ (Fut c F S p low x ∨ Out c F S x)) (h : Same c F S p low (m.wr A bs) m2) : m2.rd A n = bs := by
  have : m2.rd A n = (m.wr A bs).rd A n :=
    Mem.rd_congr fun i hi => h _ (fun h => hA _ (by omega) (by omega) (.inl h)) (fun h => hA _ (by omega) (by omega) (.inr h))
  rw [this, ← hl, Mem.rd_wr_same]

theorem wr_keep {c : Cfg} {F S : Nat} {p : Pos} {low : Nat} (m : Mem) {A n : Nat} {bs : List Byte} (hl : bs.length = n)
    (hA : ∀ x, A ≤ x → x < A + n → Fut c F S p low x) : Keep c F S p low m (m.wr A bs) := by
  intro x hx
  apply Mem.wr_out
  apply Classical.byContradiction
  intro hn
  exact hx (hA x (by omega) (by omega))

theorem two_writes (m : Mem) {A a n : Nat} (h : a + 8 ≤ A ∨ A + 8 ≤ a) (hn : n = 4) :
    (m.wr A (m.rd a 4)).wr (A + n) ((m.wr A (m.rd a 4)).rd (a + 4) 4) = m.wr A (m.rd a 8) := by
  subst hn
  have h1 : (m.wr A (m.rd a 4)).rd (a + 4) 4 = m.rd (a + 4) 4 := Mem.rd_wr_disj _ _ _ _ _ (by rw [Mem.rd_length]; omega)
  rw [h1]
  funext x
  by_cases hx : A ≤ x ∧ x < A + 8
  · obtain ⟨i, rfl⟩ := Nat.exists_eq_add_of_le hx.1
    rw [Mem.wr_in _ _ _ _ (by rw [Mem.rd_length]; omega), Mem.rd_getD _ _ _ _ (by omega)]
    by_cases hi : i < 4
    · rw [Mem.wr_out _ _ _ _ (by rw [Mem.rd_length]; omega), Mem.wr_in _ _ _ _ (by rw [Mem.rd_length]; omega), Mem.rd_getD _ _ _ _ hi]
    · obtain ⟨j, rfl⟩ := Nat.exists_eq_add_of_le (Nat.le_of_not_lt hi)
      rw [← Nat.add_assoc, Mem.wr_in _ _ _ _ (by rw [Mem.rd_length]; omega), Mem.rd_getD _ _ _ _ (by omega), Nat.add_assoc]
  · rw [Mem.wr_out _ _ _ _ (by rw [Mem.rd_length]; omega), Mem.wr_out _ _ _ _ (by rw [Mem.rd_length]; omega), Mem.wr_out _ _ _ _ (by rw [Mem.rd_length]; omega)]

/-- What a step achieves: `P` holds of the registers whatever is stored later. -/
structure Step (c : Cfg) (F S sp : Nat) (p p' : Pos) (low low' : Nat) (m : Mem) (r : St × Mem) (P : Regs → Prop) : Prop where
  sim : Sim c r.1.ng r.1.nf r.1.no p'
  ps : r.1.ps = low'
  keep : Keep c F S p low m r.2
  val : ∀ m2, Same c F S p' low' r.2 m2 → P (img c F sp m2)

theorem putWord_step {c : Cfg} (hc : c.Ok) {F S sp : Nat} (hS : S = sp + saveArea c.w) {v : Nat} (hv : v < 256 ^ c.w) {s : St} {p : Pos} (m : Mem)
    (hs : Sim c s.ng s.nf s.no p) (hr : S + (nextWord c.w p).2.ns ≤ s.ps) (hF : s.ps ≤ F) :
    Step c F S sp p (nextWord c.w p).2 s.ps s.ps m (putWord c F S v s m) (fun R => beNat (R.at c.w (nextWord c.w p).1) = v) := by
  obtain ⟨hw1, hw2⟩ := nextWord_sim hs
  obtain ⟨e1, e2, e3, e4, e5⟩ := hs
  have hb : beNat (beBytes c.w v) = v := by rw [beNat_beBytes, Nat.mod_eq_of_lt hv]
  unfold putWord
  by_cases hg : s.ng < maxGpr
  · rw [if_pos hg]
    obtain ⟨l1, l2⟩ := hw1 hg
    have hp' : (nextWord c.w p).2 = { p with ng := p.ng + 1 } := by
      unfold nextWord; rw [if_pos (by unfold maxGpr at hg; omega)]
    rw [hp'] at hr
    refine ⟨l2, rfl, wr_keep m (beBytes_length _ _) ?_, ?_⟩
    · intro x h1 h2
      obtain ⟨w⟩ := c
      rcases hc with rfl | rfl <;> (unfold Fut; try unfold Out) <;> unfold gprOff fprOff frameSize maxGpr at * <;> dsimp only at * <;> omega
    · intro m2 h2
      rw [img_at hS, l1]
      show beNat (m2.rd (F + gprOff c s.ng) c.w) = v
      rw [wr_stable (beBytes_length _ _) ?_ h2, hb]
      intro x h1 h2
      rw [hp']
      obtain ⟨w⟩ := c
      rcases hc with rfl | rfl <;> (unfold Fut; try unfold Out) <;> unfold gprOff fprOff frameSize maxGpr at * <;> dsimp only at * <;> omega
  · rw [if_neg hg]
    obtain ⟨l1, l2⟩ := hw2 hg
    have hp' : (nextWord c.w p).2 = { p with ns := p.ns + c.w } := by
      unfold nextWord; rw [if_neg (by unfold maxGpr at hg; omega)]
    rw [hp'] at hr
    refine ⟨l2, rfl, wr_keep m (beBytes_length _ _) ?_, ?_⟩
    · intro x h1 h2
      obtain ⟨w⟩ := c
      rcases hc with rfl | rfl <;> (unfold Fut; try unfold Out) <;> unfold gprOff fprOff frameSize maxGpr at * <;> dsimp only at * <;> omega
    · intro m2 h2
      rw [img_at hS, l1]
      show beNat (m2.rd (S + c.w * s.no) c.w) = v
      rw [wr_stable (beBytes_length _ _) ?_ h2, hb]
      intro x h1 h2
      rw [hp']
      obtain ⟨w⟩ := c
      rcases hc with rfl | rfl <;> (unfold Fut; try unfold Out) <;> unfold gprOff fprOff frameSize maxGpr at * <;> dsimp only at * <;> omega

theorem pow256 (n : Nat) : (256 : Nat) ^ n = 2 ^ (8 * n) := by
  rw [Nat.pow_mul]

theorem getInt_lt {c : Cfg} (sgn : Bool) {n : Nat} (hn : n ≤ c.w) (m : Mem) (a : Nat) : getInt c sgn n m a < 256 ^ c.w := by
  unfold getInt
  have h := beNat_lt (m.rd a n)
  rw [Mem.rd_length] at h
  have h2 : (256 : Nat) ^ n ≤ 256 ^ c.w := Nat.pow_le_pow_right (by decide) hn
  dsimp only
  split <;> omega

/-- The conversion to `unsigned long` gives the value. -/
theorem getInt_val {c : Cfg} {sgn : Bool} {n : Nat} {tc : TC} (hn : n ≤ c.w) (h1 : 1 ≤ n) (h : sgn = signed tc ∨ n = c.w) (m : Mem) (a : Nat) :
    (getInt c sgn n m a : Int) = intVal tc (m.rd a n) % 2 ^ (8 * c.w) := by
  have hlt := beNat_lt (m.rd a n)
  rw [Mem.rd_length] at hlt
  have h2 : (256 : Nat) ^ n ≤ 256 ^ c.w := Nat.pow_le_pow_right (by decide) hn
  have e1 : (2 : Int) ^ (8 * c.w) = ((256 ^ c.w : Nat) : Int) := by rw [pow256]; norm_num
  have e2 : (2 : Int) ^ (8 * n) = ((256 ^ n : Nat) : Int) := by rw [pow256]; norm_num
  have hg := getInt_lt sgn hn m a
  unfold getInt at hg ⊢
  unfold intVal
  rw [Mem.rd_length, e1, e2]
  generalize beNat (m.rd a n) = v at *
  dsimp only at hg ⊢
  generalize hB : (256 : Nat) ^ c.w = B at *
  generalize hb : (256 : Nat) ^ n = b at *
  have hmod : ∀ k : Int, 0 ≤ k → k < B → k % (B : Int) = k := fun k h1 h2 => Int.emod_eq_of_lt h1 h2
  rcases h with rfl | rfl
  · by_cases hc : signed tc = true ∧ 2 ^ (8 * n - 1) ≤ v
    · rw [if_pos hc, if_pos hc]
      rw [← Int.add_emod_right ((v : Int) - b) B, hmod _ (by omega) (by omega)]
      omega
    · rw [if_neg hc, if_neg hc, hmod _ (by omega) (by omega)]
  · have : b = B := by rw [← hB, ← hb]
    subst this
    have hl : ((if sgn = true ∧ 2 ^ (8 * c.w - 1) ≤ v then v + b - b else v : Nat) : Int) = v := by split <;> omega
    rw [hl]
    split
    · rw [← Int.add_emod_right ((v : Int) - b) b, Int.sub_add_cancel, hmod _ (by omega) (by omega)]
    · rw [hmod _ (by omega) (by omega)]

theorem float_take (bs : List Byte) (h : bs.length = 4) : (beBytes 8 (beNat bs * 2 ^ 32)).take 4 = bs := by
  have := beBytes_take 4 4 (beNat bs * 2 ^ 32)
  rw [this, show (256 : Nat) ^ 4 = 2 ^ 32 by norm_num, Nat.mul_div_cancel _ (by decide), beBytes_beNat' h]

theorem float_drop {w : Nat} (hw : w = 4 ∨ w = 8) (bs : List Byte) (h : bs.length = 4) : (beBytes w (beNat bs)).drop (w - 4) = bs := by
  rcases hw with rfl | rfl
  · rw [show (4 : Nat) - 4 = 0 from rfl, List.drop_zero, beBytes_beNat' h]
  · have := beBytes_drop 4 4 (beNat bs)
    rw [this, beBytes_beNat' h]

theorem roundSize_ge (n : Nat) : n ≤ roundSize n := by unfold roundSize; omega

/-- One argument. -/
theorem callArg_step {c : Cfg} (hc : c.Ok) {F S sp : Nat} (hS : S = sp + saveArea c.w) (hF4 : F + frameSize c < 256 ^ c.w) {t : FType} (ht : WF (tab c.w) t) {a : Nat}
    {s : St} {p : Pos} (m : Mem)
    (hs : Sim c s.ng s.nf s.no p) (hr : S + (placeArg c.w t p).2.ns + copyBytes t ≤ s.ps) (hF : s.ps ≤ F) (ha : a + t.size ≤ S ∨ F + frameSize c ≤ a) :
    Step c F S sp p (placeArg c.w t p).2 s.ps (s.ps - copyBytes t) m (callArg c F S t a s m)
      (fun R => PassedAt c.w R t (m.rd a t.size) (placeArg c.w t p).1 ∧
        ∀ l, (placeArg c.w t p).1 = .ref l → beNat (R.at c.w l) = s.ps - copyBytes t) := by
  have hcw : c.w = 4 ∨ c.w = 8 := hc
  have hs0 := hs
  obtain ⟨e1, e2, e3, e4, e5⟩ := hs
  unfold callArg
  rcases cls hc ht with ⟨sgn, h1, h2, h3, h4, h5, h6⟩ | ⟨h1, h2, h3, h4, h5⟩ | ⟨h1, h2, h3, h4⟩ | ⟨h1, h2, h3, h4⟩ | ⟨h1, h2, h3⟩
  · have hp : placeArg c.w t p = (.word (nextWord c.w p).1, (nextWord c.w p).2) := by
      unfold placeArg; rw [h2]; dsimp only; rw [if_pos h4]
    have hcb : copyBytes t = 0 := by unfold copyBytes; rw [h2]; rfl
    rw [hp, hcb] at hr ⊢
    rw [h1, if_neg (by decide), h3]
    have st := putWord_step hc hS (getInt_lt sgn h4 m a) (F := F) m hs0 (by exact hr) hF
    refine ⟨st.sim, st.ps, st.keep, fun m2 hk => ⟨?_, fun l hl => by cases hl⟩⟩
    show if kind t = .int then _ else _
    rw [if_pos h2, st.val m2 hk, getInt_val h4 h5 h6]
  · have hcb : copyBytes t = 0 := by unfold copyBytes; rw [h2]; rfl
    have hint : intType c (argType t) = none := by
      rcases h3 with h3 | h3 <;> rw [h3] <;> exact if_neg (by omega)
    have e : callArg c F S t a s m = putLong c F S a s m := by
      unfold callArg
      rw [h1, if_neg (by decide), hint]
      rcases h3 with h3 | h3 <;> rw [h3]
    rw [hcb] at hr ⊢
    rw [show (if byPtr t = true then _ else _) = callArg c F S t a s m from rfl, e]
    unfold putLong
    by_cases hg : p.ng + 2 ≤ 5
    · have hp : placeArg c.w t p = (.pair p.ng, { p with ng := p.ng + 2 }) := by
        unfold placeArg; rw [h2]; dsimp only; rw [if_neg (by omega), if_pos hg]
      rw [hp] at hr ⊢
      have : (if s.ng = maxGpr - 1 then maxGpr else s.ng) = s.ng := if_neg (by unfold maxGpr; omega)
      rw [this]
      dsimp only
      rw [if_pos (by unfold maxGpr; omega), show F + gprOff c (s.ng + 1) = F + gprOff c s.ng + c.w by unfold gprOff; rw [Nat.mul_add]; omega,
        two_writes m (by obtain ⟨w⟩ := c; rcases hc with rfl | rfl <;> unfold gprOff frameSize at * <;> dsimp only at * <;> omega) h4]
      refine ⟨⟨by dsimp only; omega, e2, e3, hg, e5⟩, rfl, wr_keep m (Mem.rd_length _ _ _) ?_, fun m2 hk => ⟨?_, fun l hl => by cases hl⟩⟩
      · intro x h1 h2
        obtain ⟨w⟩ := c
        rcases hc with rfl | rfl <;> (unfold Fut; try unfold Out) <;> unfold gprOff fprOff frameSize at * <;> dsimp only at * <;> omega
      · have := wr_stable (Mem.rd_length _ _ _) (fun x h1 h2 => ?_) hk
        · show m2.rd _ c.w ++ m2.rd _ c.w = _
          rw [show F + gprOff c (p.ng + 1) = F + gprOff c p.ng + c.w by unfold gprOff; rw [Nat.mul_add]; omega, ← Mem.rd_append, h4, h5, ← e1]
          exact this
        · obtain ⟨w⟩ := c
          rcases hc with rfl | rfl <;> (unfold Fut; try unfold Out) <;> unfold gprOff fprOff frameSize at * <;> dsimp only at * <;> omega
    · have hp : placeArg c.w t p = (.two p.ns, { p with ng := 5, ns := p.ns + 8 }) := by
        unfold placeArg; rw [h2]; dsimp only; rw [if_neg (by omega), if_neg hg]
      rw [hp] at hr ⊢
      have : (if s.ng = maxGpr - 1 then maxGpr else s.ng) = 5 := by unfold maxGpr; split <;> omega
      rw [this]
      dsimp only
      dsimp only at hr
      rw [if_neg (by unfold maxGpr; omega), show S + c.w * (s.no + 1) = S + c.w * s.no + c.w by rw [Nat.mul_add]; omega, e3,
        two_writes m (by obtain ⟨w⟩ := c; rcases hc with rfl | rfl <;> unfold frameSize at * <;> dsimp only at * <;> omega) h4]
      refine ⟨⟨rfl, e2, by dsimp only; rw [Nat.mul_add, e3, h4], Nat.le_refl _, e5⟩, rfl, wr_keep m (Mem.rd_length _ _ _) ?_, fun m2 hk => ⟨?_, fun l hl => by cases hl⟩⟩
      · intro x h1 h2
        obtain ⟨w⟩ := c
        rcases hc with rfl | rfl <;> (unfold Fut; try unfold Out) <;> unfold gprOff fprOff frameSize at * <;> dsimp only at * <;> omega
      · have := wr_stable (Mem.rd_length _ _ _) (fun x h1 h2 => ?_) hk
        · show m2.rd (sp + saveArea c.w + p.ns) 8 = _
          rw [← hS, h5]
          exact this
        · obtain ⟨w⟩ := c
          rcases hc with rfl | rfl <;> (unfold Fut; try unfold Out) <;> unfold gprOff fprOff frameSize at * <;> dsimp only at * <;> omega
  · have hcb : copyBytes t = 0 := by unfold copyBytes; rw [h2]; rfl
    rw [hcb] at hr ⊢
    have hint : intType c (argType t) = none := by rw [h3]; rfl
    rw [h1, if_neg (by decide), hint, h3]
    dsimp only
    unfold putFloat
    rw [maxFpr_eq]
    by_cases hf : p.nf < fprs c.w
    · have hp : placeArg c.w t p = (.fpr p.nf, { p with nf := p.nf + 1 }) := by
        unfold placeArg; rw [h2]; dsimp only; rw [if_pos hf]
      rw [hp] at hr ⊢
      rw [if_pos (by omega)]
      have hfp : p.nf < 4 := by unfold fprs at hf; split at hf <;> omega
      refine ⟨⟨e1, by dsimp only; omega, e3, e4, hf⟩, rfl, wr_keep m (beBytes_length _ _) ?_, fun m2 hk => ⟨?_, fun l hl => by cases hl⟩⟩
      · intro x h1 h2
        obtain ⟨w⟩ := c
        rcases hc with rfl | rfl <;> (unfold Fut; try unfold Out) <;> unfold gprOff fprOff frameSize at * <;> dsimp only at * <;> omega
      · have := wr_stable (beBytes_length _ _) (fun x h1 h2 => ?_) hk
        · show (m2.rd (F + fprOff c p.nf) 8).take t.size = _
          rw [← e2, this, h4, float_take _ (Mem.rd_length _ _ _)]
        · obtain ⟨w⟩ := c
          rcases hc with rfl | rfl <;> (unfold Fut; try unfold Out) <;> unfold gprOff fprOff frameSize at * <;> dsimp only at * <;> omega
    · have hp : placeArg c.w t p = (.word (.stk p.ns), { p with ns := p.ns + c.w }) := by
        unfold placeArg; rw [h2]; dsimp only; rw [if_neg hf, if_pos (by omega)]
      rw [hp] at hr ⊢
      rw [if_neg (by omega), e3]
      dsimp only at hr ⊢
      refine ⟨⟨e1, e2, by dsimp only; rw [Nat.mul_add, e3]; omega, e4, e5⟩, rfl, wr_keep m (beBytes_length _ _) ?_, fun m2 hk => ⟨?_, fun l hl => by cases hl⟩⟩
      · intro x h1 h2
        obtain ⟨w⟩ := c
        rcases hc with rfl | rfl <;> (unfold Fut; try unfold Out) <;> unfold gprOff fprOff frameSize at * <;> dsimp only at * <;> omega
      · have := wr_stable (beBytes_length _ _) (fun x h1 h2 => ?_) hk
        · show if kind t = .int then _ else _
          rw [if_neg (by rw [h2]; decide), img_at hS]
          show (m2.rd (S + p.ns) c.w).drop _ = _
          rw [this, h4, float_drop hcw _ (Mem.rd_length _ _ _)]
        · obtain ⟨w⟩ := c
          rcases hc with rfl | rfl <;> (unfold Fut; try unfold Out) <;> unfold gprOff fprOff frameSize at * <;> dsimp only at * <;> omega
  · have hcb : copyBytes t = 0 := by unfold copyBytes; rw [h2]; rfl
    rw [hcb] at hr ⊢
    have hint : intType c (argType t) = none := by rw [h3]; rfl
    rw [h1, if_neg (by decide), hint, h3]
    dsimp only
    unfold putDouble
    rw [maxFpr_eq]
    by_cases hf : p.nf < fprs c.w
    · have hp : placeArg c.w t p = (.fpr p.nf, { p with nf := p.nf + 1 }) := by
        unfold placeArg; rw [h2]; dsimp only; rw [if_pos hf]
      rw [hp] at hr ⊢
      rw [if_pos (by omega)]
      have hfp : p.nf < 4 := by unfold fprs at hf; split at hf <;> omega
      refine ⟨⟨e1, by dsimp only; omega, e3, e4, hf⟩, rfl, wr_keep m (Mem.rd_length _ _ _) ?_, fun m2 hk => ⟨?_, fun l hl => by cases hl⟩⟩
      · intro x h1 h2
        obtain ⟨w⟩ := c
        rcases hc with rfl | rfl <;> (unfold Fut; try unfold Out) <;> unfold gprOff fprOff frameSize at * <;> dsimp only at * <;> omega
      · have := wr_stable (Mem.rd_length _ _ _) (fun x h1 h2 => ?_) hk
        · show (m2.rd (F + fprOff c p.nf) 8).take t.size = _
          rw [← e2, this, h4, List.take_of_length_le (by rw [Mem.rd_length])]
        · obtain ⟨w⟩ := c
          rcases hc with rfl | rfl <;> (unfold Fut; try unfold Out) <;> unfold gprOff fprOff frameSize at * <;> dsimp only at * <;> omega
    · rw [if_neg (by omega)]
      by_cases h8 : c.w = 8
      · have hp : placeArg c.w t p = (.word (.stk p.ns), { p with ns := p.ns + c.w }) := by
          unfold placeArg; rw [h2]; dsimp only; rw [if_neg hf, if_pos (by omega)]
        rw [hp] at hr ⊢
        rw [if_pos h8, e3]
        dsimp only at hr ⊢
        refine ⟨⟨e1, e2, by dsimp only; rw [Nat.mul_add, e3]; omega, e4, e5⟩, rfl, wr_keep m (Mem.rd_length _ _ _) ?_, fun m2 hk => ⟨?_, fun l hl => by cases hl⟩⟩
        · intro x h1 h2
          obtain ⟨w⟩ := c
          rcases hc with rfl | rfl <;> (unfold Fut; try unfold Out) <;> unfold gprOff fprOff frameSize at * <;> dsimp only at * <;> omega
        · have := wr_stable (Mem.rd_length _ _ _) (fun x h1 h2 => ?_) hk
          · show if kind t = .int then _ else _
            rw [if_neg (by rw [h2]; decide), img_at hS]
            show (m2.rd (S + p.ns) c.w).drop _ = _
            rw [h8, this, h4]; rfl
          · obtain ⟨w⟩ := c
            rcases hc with rfl | rfl <;> (unfold Fut; try unfold Out) <;> unfold gprOff fprOff frameSize at * <;> dsimp only at * <;> omega
      · have hp : placeArg c.w t p = (.two p.ns, { p with ns := p.ns + 8 }) := by
          unfold placeArg; rw [h2]; dsimp only; rw [if_neg hf, if_neg (by omega)]
        have hw4 : c.w = 4 := by omega
        rw [hp] at hr ⊢
        rw [if_neg h8]
        dsimp only at hr ⊢
        rw [show S + c.w * (s.no + 1) = S + c.w * s.no + c.w by rw [Nat.mul_add]; omega, e3,
          two_writes m (by obtain ⟨w⟩ := c; rcases hc with rfl | rfl <;> unfold frameSize at * <;> dsimp only at * <;> omega) hw4]
        refine ⟨⟨e1, e2, by dsimp only; rw [Nat.mul_add, e3, hw4], e4, e5⟩, rfl, wr_keep m (Mem.rd_length _ _ _) ?_, fun m2 hk => ⟨?_, fun l hl => by cases hl⟩⟩
        · intro x h1 h2
          obtain ⟨w⟩ := c
          rcases hc with rfl | rfl <;> (unfold Fut; try unfold Out) <;> unfold gprOff fprOff frameSize at * <;> dsimp only at * <;> omega
        · have := wr_stable (Mem.rd_length _ _ _) (fun x h1 h2 => ?_) hk
          · show m2.rd (sp + saveArea c.w + p.ns) 8 = _
            rw [← hS, h4]
            exact this
          · obtain ⟨w⟩ := c
            rcases hc with rfl | rfl <;> (unfold Fut; try unfold Out) <;> unfold gprOff fprOff frameSize at * <;> dsimp only at * <;> omega
  · have hcb : copyBytes t = roundSize t.size := by unfold copyBytes; rw [h2]; rfl
    have hrs := roundSize_ge t.size
    have hp : placeArg c.w t p = (.ref (nextWord c.w p).1, (nextWord c.w p).2) := by
      unfold placeArg; rw [h2]
    have hn : p.ns ≤ (nextWord c.w p).2.ns := by unfold nextWord; split <;> dsimp only <;> omega
    rw [hcb, hp] at hr
    rw [hcb, hp]
    dsimp only at hr
    rw [h1, if_pos rfl]
    dsimp only
    generalize hq : s.ps - roundSize t.size = q at *
    have hv : q < 256 ^ c.w := by unfold frameSize at hF4; omega
    have st := putWord_step hc hS hv (F := F) (s := { s with ps := q }) (m.wr q (m.rd a t.size)) hs0 (by show _ ≤ q; omega) (by show q ≤ F; omega)
    refine ⟨st.sim, st.ps, ?_, fun m2 hk => ?_⟩
    · intro x hx
      have h1 := st.keep x (fun hf => hx (by unfold Fut at hf ⊢; dsimp only at hf; omega))
      rw [h1]
      exact Mem.wr_out _ _ _ _ (by rw [Mem.rd_length]; unfold Fut at hx; omega)
    · have h5 := st.val m2 hk
      refine ⟨?_, fun l hl => ?_⟩
      · show m2.rd (beNat _) t.size = _
        rw [h5]
        have : m2.rd q t.size = (m.wr q (m.rd a t.size)).rd q t.size := by
          apply Mem.rd_congr
          intro i hi
          have a1 : ¬ Fut c F S (nextWord c.w p).2 q (q + i) := by
            unfold Fut
            obtain ⟨w⟩ := c
            rcases hc with rfl | rfl <;> unfold gprOff fprOff frameSize at * <;> dsimp only at * <;> omega
          have a3 : ¬ Out c F S (q + i) := by
            unfold Out
            obtain ⟨w⟩ := c
            rcases hc with rfl | rfl <;> dsimp only at * <;> omega
          have a2 : ¬ Fut c F S p q (q + i) := by
            unfold Fut
            obtain ⟨w⟩ := c
            rcases hc with rfl | rfl <;> unfold gprOff fprOff frameSize at * <;> dsimp only at * <;> omega
          rw [hk _ a1 a3, st.keep _ a2]
        rw [this]
        have := Mem.rd_wr_same m q (m.rd a t.size)
        rwa [Mem.rd_length] at this
      · cases hl; exact h5


/-- The values of the arguments. -/
def vals (m : Mem) : List FType → List Nat → List (List Byte)
  | t :: ts, a :: as => m.rd a t.size :: vals m ts as
  | _, _ => []

theorem vals_congr {m m' : Mem} : ∀ {ts : List FType} {as : List Nat}, (∀ (i : Nat) (t : FType) (a : Nat), ts[i]? = some t → as[i]? = some a → m.rd a t.size = m'.rd a t.size) →
    vals m ts as = vals m' ts as
  | [], _, _ => by simp [vals]
  | _ :: _, [], _ => by simp [vals]
  | t :: ts, a :: as, h => by
    rw [vals, vals, h 0 t a rfl rfl, vals_congr fun i t a h1 h2 => h (i + 1) t a h1 h2]

theorem copyBytes_dvd (t : FType) : 16 ∣ copyBytes t := by
  unfold copyBytes roundSize
  split
  · exact ⟨_, Nat.mul_comm _ _⟩
  · exact ⟨0, rfl⟩

theorem placeArg_ns {w : Nat} (t : FType) (p : Pos) : p.ns ≤ (placeArg w t p).2.ns := by
  unfold placeArg nextWord
  repeat' split
  all_goals dsimp only
  all_goals omega

theorem endFrom_ns {w : Nat} : ∀ (ts : List FType) (p : Pos), p.ns ≤ (endFrom w ts p).ns
  | [], _ => Nat.le_refl _
  | t :: ts, p => Nat.le_trans (placeArg_ns t p) (endFrom_ns ts _)

theorem placeArg_mono {c : Cfg} (t : FType) (p : Pos) : p.ng ≤ (placeArg c.w t p).2.ng ∨ (placeArg c.w t p).2.ng = 5 := by
  unfold placeArg nextWord
  repeat' split
  all_goals dsimp only
  all_goals omega

theorem placeArg_nf {w : Nat} (t : FType) (p : Pos) : p.nf ≤ (placeArg w t p).2.nf := by
  unfold placeArg nextWord
  repeat' split
  all_goals dsimp only
  all_goals omega

theorem Fut_step {c : Cfg} (hc : c.Ok) {F S : Nat} {t : FType} {p : Pos} {low low' x : Nat} (hl : low' ≤ low) (hp : p.ng ≤ 5)
    (h : Fut c F S (placeArg c.w t p).2 low' x) : Fut c F S p low x := by
  have h1 := placeArg_ns (w := c.w) t p
  have h2 := placeArg_mono (c := c) t p
  have h3 := placeArg_nf (w := c.w) t p
  unfold Fut at h ⊢
  generalize (placeArg c.w t p).2 = q at *
  obtain ⟨w⟩ := c
  rcases hc with rfl | rfl <;> unfold gprOff fprOff at * <;> dsimp only at * <;> omega

theorem placeArg_ng {w : Nat} (t : FType) {p : Pos} (h : p.ng ≤ 5) : (placeArg w t p).2.ng ≤ 5 := by
  unfold placeArg nextWord
  repeat' split
  all_goals dsimp only
  all_goals omega

theorem Fut_end {c : Cfg} (hc : c.Ok) {F S : Nat} : ∀ {ts : List FType} {p : Pos} {low low' x : Nat}, low' ≤ low → p.ng ≤ 5 →
    Fut c F S (endFrom c.w ts p) low' x → Fut c F S p low x
  | [], p, low, low', x, hl, _, h => by
    unfold Fut at h ⊢
    rw [endFrom] at h
    omega
  | t :: ts, p, low, low', x, hl, hp, h => Fut_step hc (Nat.le_refl _) hp (Fut_end hc (ts := ts) hl (placeArg_ng t hp) h)

/-- What the loop achieves. -/
structure Loop (c : Cfg) (F S sp : Nat) (ts : List FType) (as : List Nat) (p : Pos) (low : Nat) (m m' : Mem) : Prop where
  keep : Keep c F S p low m m'
  val : ∀ m2, Same c F S (endFrom c.w ts p) (low - copySum ts) m' m2 →
    AllPassed c.w (img c F sp m2) ts (vals m ts as) (placeFrom c.w ts p) ∧
    (∀ x ∈ copies c.w (img c F sp m2) ts (placeFrom c.w ts p), low - copySum ts ≤ x.1 ∧ x.1 + x.2 ≤ low ∧ (8 ∣ low → 8 ∣ x.1)) ∧
    (copies c.w (img c F sp m2) ts (placeFrom c.w ts p)).Pairwise fun x y => y.1 + y.2 ≤ x.1

theorem callLoop_ok {c : Cfg} (hc : c.Ok) {F S sp : Nat} (hS : S = sp + saveArea c.w) (hF4 : F + frameSize c < 256 ^ c.w) :
    ∀ {ts : List FType} {as : List Nat} {s : St} {p : Pos} (m : Mem), (∀ t ∈ ts, WF (tab c.w) t) → as.length = ts.length →
    (∀ (i : Nat) (t : FType) (a : Nat), ts[i]? = some t → as[i]? = some a → a + t.size ≤ S ∨ F + frameSize c ≤ a) →
    Sim c s.ng s.nf s.no p → S + (endFrom c.w ts p).ns + copySum ts ≤ s.ps → s.ps ≤ F →
    Loop c F S sp ts as p s.ps m (callLoop c F S ts as s m).2
  | [], as, s, p, m, _, hl, _, _, _, _ => by
    have : as = [] := List.length_eq_zero_iff.1 hl
    subst this
    refine ⟨fun _ _ => rfl, fun m2 _ => ⟨trivial, ?_, ?_⟩⟩
    · intro x hx; cases hx
    · exact .nil
  | t :: ts, [], s, p, m, _, hl, _, _, _, _ => by simp at hl
  | t :: ts, a :: as, s, p, m, hwf, hl, ha, hs, hr, hF => by
    have hns := endFrom_ns (w := c.w) ts (placeArg c.w t p).2
    have hm : S + (placeArg c.w t p).2.ns + copyBytes t ≤ s.ps := by
      simp only [endFrom, copySum] at hr; omega
    have st := callArg_step hc hS hF4 (hwf t (by simp)) (a := a) m hs hm hF (ha 0 t a rfl rfl)
    have hp5 : p.ng ≤ 5 := hs.2.2.2.1
    simp only [endFrom, copySum] at hr
    have ih := callLoop_ok hc hS hF4 (ts := ts) (as := as) (s := (callArg c F S t a s m).1) (callArg c F S t a s m).2
      (fun x hx => hwf x (by simp [hx])) (by simpa using hl) (fun i t a h1 h2 => ha (i + 1) t a h1 h2) st.sim (by rw [st.ps]; omega) (by rw [st.ps]; omega)
    rw [st.ps] at ih
    have e : callLoop c F S (t :: ts) (a :: as) s m = callLoop c F S ts as (callArg c F S t a s m).1 (callArg c F S t a s m).2 := rfl
    rw [e]
    have hout : ∀ x, F + frameSize c ≤ x ∨ x < S → ¬ Fut c F S p s.ps x := by
      intro x hx
      obtain ⟨e1, e2, e3, e4, e5⟩ := hs
      have hfp : p.nf ≤ 4 := by unfold fprs at e5; split at e5 <;> omega
      unfold Fut
      obtain ⟨w⟩ := c
      rcases hc with rfl | rfl <;> unfold gprOff fprOff frameSize at * <;> dsimp only at * <;> omega
    have hv : vals (callArg c F S t a s m).2 ts as = vals m ts as := by
      apply vals_congr
      intro i t' a' h1 h2
      apply Mem.rd_congr
      intro j hj
      apply st.keep
      apply hout
      have := ha (i + 1) t' a' h1 h2
      omega
    refine ⟨?_, ?_⟩
    · intro x hx
      rw [ih.keep x fun hf => hx (Fut_step hc (by omega) hp5 hf), st.keep x hx]
    · intro m2 h2
      rw [copySum, Nat.sub_add_eq] at h2
      obtain ⟨v1, v2, v3⟩ := ih.val m2 h2
      rw [hv] at v1
      have hend : ∀ x, Fut c F S (endFrom c.w ts (placeArg c.w t p).2) (s.ps - copyBytes t - copySum ts) x →
          Fut c F S (placeArg c.w t p).2 (s.ps - copyBytes t) x :=
        fun x => Fut_end hc (by omega) (placeArg_ng t hp5)
      have hk : Same c F S (placeArg c.w t p).2 (s.ps - copyBytes t) (callArg c F S t a s m).2 m2 := by
        intro x h3 h4
        rw [h2 x (fun hf => h3 (hend x hf)) h4, ih.keep x h3]
      obtain ⟨w1, w2⟩ := st.val m2 hk
      refine ⟨⟨w1, v1⟩, ?_⟩
      rw [copySum, Nat.sub_add_eq]
      have hd := copyBytes_dvd t
      have hcs : ∀ x, x ∈ copies c.w (img c F sp m2) ts (placeFrom c.w ts (placeArg c.w t p).2) →
          s.ps - copyBytes t - copySum ts ≤ x.1 ∧ x.1 + x.2 ≤ s.ps ∧ (8 ∣ s.ps → 8 ∣ x.1) := by
        intro x hx
        obtain ⟨a1, a2, a3⟩ := v2 x hx
        exact ⟨a1, by omega, fun h => a3 (by omega)⟩
      rw [placeFrom]
      cases hpl : (placeArg c.w t p).1 with
      | ref l =>
        have hkd : kind t = .ref := by
          unfold placeArg at hpl
          cases hkk : kind t with
          | ref => rfl
          | int => rw [hkk] at hpl; dsimp only at hpl; split at hpl <;> (try split at hpl) <;> cases hpl
          | fp => rw [hkk] at hpl; dsimp only at hpl; split at hpl <;> (try split at hpl) <;> cases hpl
        have hsz : t.size ≤ copyBytes t := by unfold copyBytes; rw [if_pos hkd]; exact roundSize_ge _
        have hadr := w2 l hpl
        rw [copies, hadr]
        refine ⟨?_, ?_⟩
        · intro x hx
          rcases List.mem_cons.1 hx with rfl | hx
          · dsimp only; refine ⟨by omega, by omega, by omega⟩
          · exact hcs x hx
        · refine List.pairwise_cons.2 ⟨?_, v3⟩
          intro x hx
          exact (v2 x hx).2.1
      | word l => rw [copies]; exact ⟨hcs, v3⟩; intro _ h; cases h
      | pair k => rw [copies]; exact ⟨hcs, v3⟩; intro _ h; cases h
      | two o => rw [copies]; exact ⟨hcs, v3⟩; intro _ h; cases h
      | fpr k => rw [copies]; exact ⟨hcs, v3⟩; intro _ h; cases h

end Verif.S390
