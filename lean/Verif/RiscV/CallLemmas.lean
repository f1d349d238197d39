import Verif.RiscV.Classify

/-! One argument of a call: what `marshal` writes, and where. -/
namespace Verif.RV
open Verif Verif.Spec Verif.Spec.RV

/-! ## Widening -/

theorem leNat_replicate_ff (n : Nat) : leNat (List.replicate n 0xff) + 1 = 256 ^ n := by
  induction n with
  | zero => rfl
  | succ n ih =>
    rw [List.replicate_succ, leNat]
    have : ((0xff : Byte).toNat) = 255 := rfl
    rw [this, Nat.pow_succ]
    omega

/-- The sign is in the last byte. -/
theorem sign_last {bs : List Byte} (h : bs ≠ []) :
    (0x80 ≤ (bs.getLastD 0).toNat) ↔ 256 ^ bs.length ≤ 2 * leNat bs := by
  obtain ⟨l, b, rfl⟩ : ∃ l b, bs = l ++ [b] := ⟨bs.dropLast, bs.getLast h, (List.dropLast_concat_getLast h).symm⟩
  have hl := leNat_lt l
  have hb : b.toNat < 256 := b.isLt
  have e : (l ++ [b]).getLastD 0 = b := by simp [List.getLastD_eq_getLast?]
  rw [e, leNat_append, List.length_append, List.length_singleton, Nat.pow_succ]
  have e2 : leNat [b] = b.toNat := by simp [leNat]
  rw [e2]
  generalize 256 ^ l.length = P at *
  have hmul : ∀ k, b.toNat ≤ k → P * b.toNat ≤ P * k := fun k hk => Nat.mul_le_mul_left _ hk
  have hmul' : ∀ k, k ≤ b.toNat → P * k ≤ P * b.toNat := fun k hk => Nat.mul_le_mul_left _ hk
  constructor
  · intro h; have := hmul' 128 h; omega
  · intro h
    apply Nat.le_of_not_lt
    intro hlt
    have := hmul 127 (by omega)
    omega

theorem extB_length {w : Nat} {sg : Bool} {bs : List Byte} (h : bs.length ≤ w) : (extB w sg bs).length = w := by
  unfold extB; simp; omega

theorem extB_take {w : Nat} {sg : Bool} {bs : List Byte} {n : Nat} (h : bs.length = n) : (extB w sg bs).take n = bs := by
  unfold extB; exact List.take_left' h

theorem extB_full {w : Nat} {sg : Bool} {bs : List Byte} (h : bs.length = w) : extB w sg bs = bs := by
  unfold extB; rw [h, Nat.sub_self]; exact List.append_nil _

theorem widened_ext {tc : TC} {w : Nat} {sg : Bool} {bs : List Byte} (hb : bs ≠ []) (hw : bs.length ≤ w)
    (hsg : (signed tc || decide (bs.length = 4)) = sg) : Widened tc bs (extB w sg bs) := by
  unfold Widened
  rw [extB_length hw, hsg]
  unfold intVal extB
  have hs := sign_last hb
  have hpow : 256 ^ bs.length * 256 ^ (w - bs.length) = 256 ^ w := by
    rw [← Nat.pow_add]; congr 1; omega
  by_cases h : sg = true ∧ 0x80 ≤ (bs.getLastD 0).toNat
  · rw [if_pos (by simp [h.1, hs.1 h.2]), if_pos (by rw [h.1, Bool.true_and, decide_eq_true_eq]; exact h.2), leNat_append]
    have hf := leNat_replicate_ff (w - bs.length)
    generalize leNat (List.replicate (w - bs.length) 255) = F at hf ⊢
    rw [← hf] at hpow
    have hc : ((256 : Int) ^ w) = (256 ^ bs.length * (F + 1) : Nat) := by rw [hpow]; norm_cast
    have hk : ((256 : Int) ^ bs.length) = (256 ^ bs.length : Nat) := by norm_cast
    rw [hc, hk]
    have : ((leNat bs : Int) - ((256 ^ bs.length : Nat) : Int) - ((leNat bs + 256 ^ bs.length * F : Nat) : Int))
        = -((256 ^ bs.length * (F + 1) : Nat) : Int) := by
      push_cast; ring
    rw [this]
    simp
  · have h1 : ¬ ((sg && decide (256 ^ bs.length ≤ 2 * leNat bs)) = true) := by
      intro h'; rw [Bool.and_eq_true, decide_eq_true_eq] at h'; exact h ⟨h'.1, hs.2 h'.2⟩
    have h2 : ¬ ((sg && decide (0x80 ≤ (bs.getLastD 0).toNat)) = true) := by
      intro h'; rw [Bool.and_eq_true, decide_eq_true_eq] at h'; exact h h'
    rw [if_neg h1, if_neg h2, leNat_append, leNat_replicate_zero]
    simp

/-! ## Geometry -/

/-- Address of a location relative to the register image and the stack pointer. -/
def locAddr (c : Cfg) (ctx base : Nat) : Loc → Nat
  | .fa k => faAddr c ctx k
  | .a k => aAddr c ctx k
  | .stk o => base + o

def locLen (c : Cfg) : Loc → Nat
  | .fa _ => c.fl
  | _ => c.w

/-- The register image and the stack as machine state. -/
def img (c : Cfg) (ctx base : Nat) (m : Mem) : Regs :=
  ⟨fun k => m.rd (faAddr c ctx k) c.fl, fun k => m.rd (aAddr c ctx k) c.w, m, base⟩

theorem img_at (c : Cfg) (ctx base : Nat) (m : Mem) (l : Loc) :
    (img c ctx base m).at (abi c) l = m.rd (locAddr c ctx base l) (locLen c l) := by
  cases l <;> rfl

/-- What may still be written: free registers, stack slots and copies, and the frame
record. -/
def Fut (c : Cfg) (ctx base ab : Nat) (p : Pos) (ss x : Nat) : Prop :=
  (ctx + c.fl * p.nf ≤ x ∧ x < ctx + 8 * c.fl) ∨
  (ctx + 8 * c.fl + c.w * p.ni ≤ x ∧ x < ctx + ctxSize c) ∨
  (base + p.ns ≤ x ∧ x < base + ab) ∨ (ss ≤ x ∧ x < ctx)

/-- Position after another one. -/
structure After (p q : Pos) : Prop where
  ni : p.ni ≤ q.ni
  nf : p.nf ≤ q.nf
  ns : p.ns ≤ q.ns

theorem fut_mono {c : Cfg} {ctx base ab ss ss' x : Nat} {p q : Pos} (h : After p q) (hs : ss ≤ ss')
    (hx : Fut c ctx base ab q ss' x) : Fut c ctx base ab p ss x := by
  have h1 := Nat.mul_le_mul_left c.fl h.nf
  have h2 := Nat.mul_le_mul_left c.w h.ni
  have h3 := h.ns
  unfold Fut at hx ⊢
  omega

/-- Two memories agree except where something may still be written. -/
def Keep (c : Cfg) (ctx base ab : Nat) (p : Pos) (ss : Nat) (m m' : Mem) : Prop :=
  ∀ x, ¬ Fut c ctx base ab p ss x → m' x = m x

theorem Keep.trans {c : Cfg} {ctx base ab ss ss' : Nat} {p q : Pos} {m m' m'' : Mem} (h : After p q) (hs : ss ≤ ss')
    (h1 : Keep c ctx base ab p ss m m') (h2 : Keep c ctx base ab q ss' m' m'') : Keep c ctx base ab p ss m m'' :=
  fun x hx => (h2 x fun hf => hx (fut_mono h hs hf)).trans (h1 x hx)

theorem Keep.weaken {c : Cfg} {ctx base ab ss ss' : Nat} {p q : Pos} {m m' : Mem} (h : After p q) (hs : ss ≤ ss')
    (h2 : Keep c ctx base ab q ss' m m') : Keep c ctx base ab p ss m m' :=
  fun x hx => h2 x fun hf => hx (fut_mono h hs hf)

/-- A location in use. -/
def Used (l : Loc) (p : Pos) (w : Nat) : Prop :=
  match l with
  | .fa k => k < p.nf ∧ k < 8
  | .a k => k < p.ni ∧ k < 8
  | .stk o => o + w ≤ p.ns

/-- A free location. -/
def Free (l : Loc) (p q : Pos) : Prop :=
  match l with
  | .fa k => k = p.nf ∧ q.nf = p.nf + 1
  | .a k => k = p.ni ∧ q.ni = p.ni + 1
  | .stk o => o = p.ns

theorem used_out {c : Cfg} {ctx base ab ss x : Nat} {p : Pos} {l : Loc} (h : Used l p c.w) (hb : base + ab ≤ ss)
    (hss : ss ≤ ctx) (hns : p.ns ≤ ab)
    (hx : locAddr c ctx base l ≤ x ∧ x < locAddr c ctx base l + locLen c l) : ¬ Fut c ctx base ab p ss x := by
  unfold Fut
  cases l with
  | fa k =>
    have h1 : c.fl * (k + 1) ≤ c.fl * p.nf := Nat.mul_le_mul_left _ h.1
    have h2 : c.fl * (k + 1) ≤ c.fl * 8 := Nat.mul_le_mul_left _ h.2
    rw [Nat.mul_succ] at h1 h2
    simp only [locAddr, locLen, faAddr] at hx
    omega
  | a k =>
    have h1 : c.w * (k + 1) ≤ c.w * p.ni := Nat.mul_le_mul_left _ h.1
    rw [Nat.mul_succ] at h1
    simp only [locAddr, locLen, aAddr] at hx
    omega
  | stk o =>
    have h1 : o + c.w ≤ p.ns := h
    simp only [locAddr, locLen] at hx
    omega

theorem free_in {c : Cfg} {ctx base ab ss x : Nat} {p q : Pos} {l : Loc} (hf : Free l p q) (h : Used l q c.w)
    (hns : q.ns ≤ ab) (hx : locAddr c ctx base l ≤ x ∧ x < locAddr c ctx base l + locLen c l) :
    Fut c ctx base ab p ss x := by
  unfold Fut
  cases l with
  | fa k =>
    obtain ⟨rfl, _⟩ := hf
    have h2 : c.fl * (p.nf + 1) ≤ c.fl * 8 := Nat.mul_le_mul_left _ h.2
    rw [Nat.mul_succ] at h2
    simp only [locAddr, locLen, faAddr] at hx
    omega
  | a k =>
    obtain ⟨rfl, _⟩ := hf
    have h2 : c.w * (p.ni + 1) ≤ c.w * 8 := Nat.mul_le_mul_left _ h.2
    rw [Nat.mul_succ] at h2
    simp only [locAddr, locLen, aAddr] at hx
    unfold ctxSize
    omega
  | stk o =>
    have h1 : o + c.w ≤ q.ns := h
    have hf : o = p.ns := hf
    simp only [locAddr, locLen] at hx
    omega

/-- The builder is at a position. -/
structure Sim (base : Nat) (st : St) (p : Pos) : Prop where
  ui : st.ui = p.ni
  uf : st.uf = p.nf
  stk : st.stk = base + p.ns
  ni : p.ni ≤ 8

theorem word_spec (c : Cfg) (p : Pos) (h : p.ni ≤ 8) : After p (word (abi c) p).2 ∧ (word (abi c) p).2.ni ≤ 8 ∧
    (word (abi c) p).2.nf = p.nf ∧ Free (word (abi c) p).1 p (word (abi c) p).2 ∧
    Used (word (abi c) p).1 (word (abi c) p).2 c.w := by
  unfold word
  split
  · exact ⟨⟨Nat.le_succ _, Nat.le_refl _, Nat.le_refl _⟩, by dsimp only; omega, rfl, ⟨rfl, rfl⟩,
      Nat.lt_succ_self _, by assumption⟩
  · exact ⟨⟨Nat.le_refl _, Nat.le_refl _, Nat.le_add_right _ _⟩, h, rfl, rfl, Nat.le_refl _⟩

theorem atomLoc_spec (c : Cfg) (tc : TC) (p : Pos) (h : p.ni ≤ 8) (hn : (abi c).real tc = true → p.nf < 8) :
    After p (atomLoc (abi c) tc p).2 ∧ (atomLoc (abi c) tc p).2.ni ≤ 8 ∧
    Free (atomLoc (abi c) tc p).1 p (atomLoc (abi c) tc p).2 ∧
    Used (atomLoc (abi c) tc p).1 (atomLoc (abi c) tc p).2 c.w := by
  unfold atomLoc
  split
  · exact ⟨⟨Nat.le_refl _, Nat.le_succ _, Nat.le_refl _⟩, h, ⟨rfl, rfl⟩, Nat.lt_succ_self _, hn (by assumption)⟩
  · have := word_spec c p h
    exact ⟨this.1, this.2.1, this.2.2.2.1, this.2.2.2.2⟩

/-- What an atom leaves in its location. -/
structure Put (c : Cfg) (tc : TC) (s : Nat) (v : List Byte) (l : Loc) (bs : List Byte) : Prop where
  len : bs.length = locLen c l
  val : bs.take s = v
  wide : (abi c).integer tc = true → Widened tc v bs
  box : ∀ k, l = .fa k → ∀ b ∈ bs.drop s, b = 0xff

theorem putWord_spec {c : Cfg} {ctx base : Nat} {v : List Byte} {st : St} {p : Pos} (h : Sim base st p) (m : Mem) :
    ∃ st', putWord c ctx v st m = (st', m.wr (locAddr c ctx base (word (abi c) p).1) v) ∧
      Sim base st' (word (abi c) p).2 ∧ st'.ss = st.ss := by
  obtain ⟨ui, uf, stk, ss⟩ := st
  obtain ⟨ni, nf, ns⟩ := p
  obtain ⟨h1, h2, h3, h4⟩ := h
  dsimp only at h1 h2 h3 h4
  subst h1 h2 h3
  unfold putWord word
  dsimp only
  by_cases h8 : ui < 8
  · rw [if_neg (by omega), if_pos h8]
    exact ⟨_, rfl, ⟨rfl, rfl, rfl, by dsimp only; omega⟩, rfl⟩
  · rw [if_pos (by omega), if_neg h8]
    exact ⟨_, rfl, ⟨rfl, rfl, Nat.add_assoc _ _ _, h4⟩, rfl⟩

theorem atom_step {c : Cfg} (hc : (abi c).Ok) {tc : TC} {s a : Nat} (ht : tab c.w tc = some (s, a))
    (hk : (abi c).real tc = true ∨ (abi c).integer tc = true ∨ tc = .pointer) {ctx base : Nat}
    {load : Nat → List Byte} (hl : (load s).length = s) {st : St} {p : Pos} (h : Sim base st p) (m : Mem) :
    ∃ st' bs, marshalAtom c ctx tc load st m = (st', m.wr (locAddr c ctx base (atomLoc (abi c) tc p).1) bs) ∧
      Sim base st' (atomLoc (abi c) tc p).2 ∧ st'.ss = st.ss ∧
      Put c tc s (load s) (atomLoc (abi c) tc p).1 bs := by
  unfold marshalAtom
  rw [isFloat_eq hc]
  by_cases hr : (abi c).real tc = true
  · rw [if_pos hr]
    have e : atomLoc (abi c) tc p = (.fa p.nf, { p with nf := p.nf + 1 }) := by unfold atomLoc; rw [if_pos hr]
    rw [e]
    have hs : (if tc = .float then 4 else 8) = s := by
      cases tc <;> simp [Abi.real] at hr <;> simp [tab] at ht <;> simp [ht.1]
    have hsf : s ≤ c.fl := by
      cases tc <;> simp [Abi.real] at hr <;> simp [tab] at ht <;> rw [← ht.1] <;> exact hr
    dsimp only
    rw [hs]
    obtain ⟨ui, uf, stk, ss⟩ := st
    obtain ⟨ni, nf, ns⟩ := p
    obtain ⟨h1, h2, h3, h4⟩ := h
    dsimp only at h1 h2 h3 h4
    subst h1 h2 h3
    refine ⟨_, _, rfl, ⟨rfl, rfl, rfl, h4⟩, rfl, ⟨?_, ?_, ?_, ?_⟩⟩
    · rw [List.length_append, hl, List.length_replicate]; show _ = c.fl; omega
    · exact List.take_left' hl
    · intro hi; rw [real_not_int hr] at hi; cases hi
    · intro k _ b hb
      rw [List.drop_left' hl] at hb
      exact (List.mem_replicate.1 hb).2
  · rw [if_neg hr]
    have e : atomLoc (abi c) tc p = word (abi c) p := by unfold atomLoc; rw [if_neg hr]
    rw [e]
    have hw : c.w = 4 ∨ c.w = 8 := hc.1
    have hp : 0 < s := (tab_small hw ht).2.2.1
    have hload : ∃ sg, atomLoad c tc = some (s, sg) ∧ s ≤ c.w ∧
        ((abi c).integer tc = true → (signed tc || decide (s = 4)) = sg) := by
      have hk' : (abi c).integer tc = true ∨ tc = .pointer := by
        rcases hk with hk | hk
        · exact absurd hk hr
        · exact hk
      obtain ⟨w, fl, nx⟩ := c
      dsimp only at hw ht ⊢
      clear hr hk hl h hc e
      rcases hw with rfl | rfl <;> cases tc <;> simp [Abi.integer, abi] at hk' <;>
        simp [tab] at ht <;> obtain ⟨rfl, rfl⟩ := ht <;> simp [atomLoad, signed, Abi.integer]
    obtain ⟨sg, hld, hsw, hsg⟩ := hload
    rw [hld]
    dsimp only
    obtain ⟨st', h1, h2, h3⟩ := putWord_spec (c := c) (ctx := ctx) (v := extB c.w sg (load s)) h m
    have hll : locLen c (word (abi c) p).1 = c.w := by unfold word; split <;> rfl
    refine ⟨st', _, h1, h2, h3, ⟨?_, ?_, ?_, ?_⟩⟩
    · rw [extB_length (by omega), hll]
    · exact extB_take hl
    · intro hi
      exact widened_ext (by intro h0; rw [h0] at hl; simp at hl; omega) (by omega) (by rw [hl]; exact hsg hi)
    · intro k hk'
      unfold word at hk'
      split at hk' <;> cases hk'

/-- Reading back a location that is in use. -/
theorem rd_used {c : Cfg} {ctx base ab ss : Nat} {p : Pos} {l : Loc} (h : Used l p c.w) (hb : base + ab ≤ ss)
    (hss : ss ≤ ctx) (hns : p.ns ≤ ab) {m m' : Mem} (hk : Keep c ctx base ab p ss m m') :
    m'.rd (locAddr c ctx base l) (locLen c l) = m.rd (locAddr c ctx base l) (locLen c l) :=
  Mem.rd_congr fun i hi => hk _ (used_out h hb hss hns ⟨by omega, by omega⟩)

theorem keep_wr {c : Cfg} {ctx base ab ss : Nat} {p q : Pos} {l : Loc} (hf : Free l p q) (h : Used l q c.w)
    (hns : q.ns ≤ ab) (m : Mem) {bs : List Byte} (hl : bs.length = locLen c l) :
    Keep c ctx base ab p ss m (m.wr (locAddr c ctx base l) bs) := by
  intro x hx
  apply Mem.wr_out
  rw [hl]
  apply Classical.byContradiction
  intro hn
  exact hx (free_in hf h hns ⟨by omega, by omega⟩)

end Verif.RV
