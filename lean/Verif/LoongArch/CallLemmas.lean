import Verif.LoongArch.Model
import Verif.RiscV.ClosureLemmas
import Verif.AArch64.AllocLemmas

/-! One argument of a call: what `marshal` writes, and where. -/
namespace Verif.LA
open Verif Verif.Spec Verif.Spec.RV RV

/-- What may still be written: free registers, the frame record, and the part of the
argument area between the stack arguments and the copies (below offset `low`). -/
def Fut (c : Cfg) (ctx base : Nat) (p : Pos) (low x : Nat) : Prop :=
  (ctx + c.fl * p.nf ≤ x ∧ x < ctx + 8 * c.fl) ∨
  (ctx + 8 * c.fl + c.w * p.ni ≤ x ∧ x < ctx + ctxSize c) ∨
  (base + p.ns ≤ x ∧ x < base + low)

theorem fut_mono {c : Cfg} {ctx base low low' x : Nat} {p q : Pos} (h : After p q) (hs : low' ≤ low)
    (hx : Fut c ctx base q low' x) : Fut c ctx base p low x := by
  have h1 := Nat.mul_le_mul_left c.fl h.nf
  have h2 := Nat.mul_le_mul_left c.w h.ni
  have h3 := h.ns
  unfold Fut at hx ⊢
  omega

/-- Two memories agree except where something may still be written. -/
def Keep (c : Cfg) (ctx base : Nat) (p : Pos) (low : Nat) (m m' : Mem) : Prop :=
  ∀ x, ¬ Fut c ctx base p low x → m' x = m x

theorem Keep.trans {c : Cfg} {ctx base low low' : Nat} {p q : Pos} {m m' m'' : Mem} (h : After p q) (hs : low' ≤ low)
    (h1 : Keep c ctx base p low m m') (h2 : Keep c ctx base q low' m' m'') : Keep c ctx base p low m m'' :=
  fun x hx => (h2 x fun hf => hx (fut_mono h hs hf)).trans (h1 x hx)

theorem Keep.weaken {c : Cfg} {ctx base low low' : Nat} {p q : Pos} {m m' : Mem} (h : After p q) (hs : low' ≤ low)
    (h2 : Keep c ctx base q low' m m') : Keep c ctx base p low m m' :=
  fun x hx => h2 x fun hf => hx (fut_mono h hs hf)

theorem used_out {c : Cfg} {ctx base low x : Nat} {p : Pos} {l : Loc} (h : Used l p c.w) (hb : base + low ≤ ctx)
    (hns : p.ns ≤ low)
    (hx : locAddr c ctx base l ≤ x ∧ x < locAddr c ctx base l + locLen c l) : ¬ Fut c ctx base p low x := by
  unfold Fut
  cases l with
  | fa k =>
    have h1 : c.fl * (k + 1) ≤ c.fl * p.nf := Nat.mul_le_mul_left _ h.1
    have h2 : c.fl * (k + 1) ≤ c.fl * 8 := Nat.mul_le_mul_left _ h.2
    rw [Nat.mul_succ] at h1 h2
    simp only [locAddr, locLen, faAddr] at hx
    omega
  | a k =>
    have h1 : c.w * (k + 1) ≤ c.w * p.ni := Nat.mul_le_mul_left _ h.1
    rw [Nat.mul_succ] at h1
    simp only [locAddr, locLen, aAddr] at hx
    omega
  | stk o =>
    have h1 : o + c.w ≤ p.ns := h
    simp only [locAddr, locLen] at hx
    omega

theorem free_in {c : Cfg} {ctx base low x : Nat} {p q : Pos} {l : Loc} (hf : Free l p q) (h : Used l q c.w)
    (hns : q.ns ≤ low) (hx : locAddr c ctx base l ≤ x ∧ x < locAddr c ctx base l + locLen c l) :
    Fut c ctx base p low x := by
  unfold Fut
  cases l with
  | fa k =>
    obtain ⟨rfl, _⟩ := hf
    have h2 : c.fl * (p.nf + 1) ≤ c.fl * 8 := Nat.mul_le_mul_left _ h.2
    rw [Nat.mul_succ] at h2
    simp only [locAddr, locLen, faAddr] at hx
    omega
  | a k =>
    obtain ⟨rfl, _⟩ := hf
    have h2 : c.w * (p.ni + 1) ≤ c.w * 8 := Nat.mul_le_mul_left _ h.2
    rw [Nat.mul_succ] at h2
    simp only [locAddr, locLen, aAddr] at hx
    unfold ctxSize
    omega
  | stk o =>
    have h1 : o + c.w ≤ q.ns := h
    have hf : o = p.ns := hf
    simp only [locAddr, locLen] at hx
    omega

/-- What an atom leaves in its location: the value in the low-order part, the rest
defined for integers. -/
structure Put (c : Cfg) (tc : TC) (s : Nat) (v : List Byte) (l : Loc) (bs : List Byte) : Prop where
  len : bs.length = locLen c l
  val : bs.take s = v
  wide : (abi c).integer tc = true → Widened tc v bs

theorem atom_step {c : Cfg} (hc : (abi c).Ok) {tc : TC} {s a : Nat} (ht : tab c.w tc = some (s, a))
    (hk : (abi c).real tc = true ∨ (abi c).integer tc = true ∨ tc = .pointer) {ctx base : Nat}
    {load : Nat → List Byte} (hl : (load s).length = s) {st : St} {p : Pos} (h : Sim base st p) (m : Mem) :
    ∃ st' bs, marshalAtom c ctx tc load st m = (st', m.wr (locAddr c ctx base (atomLoc (abi c) tc p).1) bs) ∧
      Sim base st' (atomLoc (abi c) tc p).2 ∧ st'.ss = st.ss ∧
      s ≤ bs.length ∧ bs.length ≤ locLen c (atomLoc (abi c) tc p).1 ∧ bs.take s = load s ∧
      ((abi c).integer tc = true → bs.length = locLen c (atomLoc (abi c) tc p).1 ∧ Widened tc (load s) bs) := by
  unfold marshalAtom
  rw [isFloat_eq hc]
  by_cases hr : (abi c).real tc = true
  · rw [if_pos hr]
    have e : atomLoc (abi c) tc p = (.fa p.nf, { p with nf := p.nf + 1 }) := by unfold atomLoc; rw [if_pos hr]
    rw [e]
    have hs : (if tc = .float then 4 else 8) = s := by
      cases tc <;> simp [Abi.real] at hr <;> simp [tab] at ht <;> simp [ht.1]
    have hsf : s ≤ c.fl := by
      cases tc <;> simp [Abi.real] at hr <;> simp [tab] at ht <;> rw [← ht.1] <;> exact hr
    rw [hs]
    obtain ⟨ui, uf, stk, ss⟩ := st
    obtain ⟨ni, nf, ns⟩ := p
    obtain ⟨h1, h2, h3, h4⟩ := h
    dsimp only at h1 h2 h3 h4
    subst h1 h2 h3
    refine ⟨_, _, rfl, ⟨rfl, rfl, rfl, h4⟩, rfl, by omega, ?_, ?_, ?_⟩
    · show (load s).length ≤ c.fl; omega
    · exact List.take_of_length_le (by omega)
    · intro hi; rw [real_not_int hr] at hi; cases hi
  · rw [if_neg hr]
    have e : atomLoc (abi c) tc p = word (abi c) p := by unfold atomLoc; rw [if_neg hr]
    rw [e]
    have hw : c.w = 4 ∨ c.w = 8 := hc.1
    have hp : 0 < s := (tab_small hw ht).2.2.1
    have hload : ∃ sg, atomLoad c tc = some (s, sg) ∧ s ≤ c.w ∧
        ((abi c).integer tc = true → (signed tc || decide (s = 4)) = sg) := by
      have hk' : (abi c).integer tc = true ∨ tc = .pointer := by
        rcases hk with hk | hk
        · exact absurd hk hr
        · exact hk
      obtain ⟨w, fl, nx⟩ := c
      dsimp only at hw ht ⊢
      clear hr hk hl h hc e
      rcases hw with rfl | rfl <;> cases tc <;> simp [Abi.integer, abi] at hk' <;>
        simp [tab] at ht <;> obtain ⟨rfl, rfl⟩ := ht <;> simp [atomLoad, signed, Abi.integer]
    obtain ⟨sg, hld, hsw, hsg⟩ := hload
    rw [hld]
    dsimp only
    obtain ⟨st', h1, h2, h3⟩ := putWord_spec (c := c) (ctx := ctx) (v := extB c.w sg (load s)) h m
    have hll : locLen c (word (abi c) p).1 = c.w := by unfold word; split <;> rfl
    have hel : (extB c.w sg (load s)).length = c.w := extB_length (by omega)
    refine ⟨st', _, h1, h2, h3, by omega, by omega, extB_take hl, ?_⟩
    intro hi
    exact ⟨by omega, widened_ext (by intro h0; rw [h0] at hl; simp at hl; omega) (by omega) (by rw [hl]; exact hsg hi)⟩

/-- Reading back a location that is in use. -/
theorem rd_used {c : Cfg} {ctx base low : Nat} {p : Pos} {l : Loc} (h : Used l p c.w) (hb : base + low ≤ ctx)
    (hns : p.ns ≤ low) {m m' : Mem} (hk : Keep c ctx base p low m m') :
    m'.rd (locAddr c ctx base l) (locLen c l) = m.rd (locAddr c ctx base l) (locLen c l) :=
  Mem.rd_congr fun i hi => hk _ (used_out h hb hns ⟨by omega, by omega⟩)

theorem keep_wr {c : Cfg} {ctx base low : Nat} {p q : Pos} {l : Loc} (hf : Free l p q) (h : Used l q c.w)
    (hns : q.ns ≤ low) (m : Mem) {bs : List Byte} (hl : bs.length ≤ locLen c l) :
    Keep c ctx base p low m (m.wr (locAddr c ctx base l) bs) := by
  intro x hx
  apply Mem.wr_out
  apply Classical.byContradiction
  intro hn
  exact hx (free_in hf h hns ⟨by omega, by omega⟩)

/-- Position and memory after writing something. -/
structure Wrote (c : Cfg) (ctx base : Nat) (p q : Pos) (low low' : Nat) (m : Mem) (r : St × Mem) (P : Regs → Prop) :
    Prop where
  sim : Sim base r.1 q
  top : r.1.ss = low'
  after : After p q
  keep : Keep c ctx base p low m r.2
  stable : ∀ m2, Keep c ctx base q low' r.2 m2 → P (img c ctx base m2)

theorem Wrote.imp {c : Cfg} {ctx base : Nat} {p q : Pos} {low low' : Nat} {m : Mem} {r : St × Mem} {P Q : Regs → Prop}
    (h : Wrote c ctx base p q low low' m r P) (hi : ∀ R, P R → Q R) : Wrote c ctx base p q low low' m r Q :=
  ⟨h.sim, h.top, h.after, h.keep, fun m2 hk => hi _ (h.stable m2 hk)⟩

theorem one_step {c : Cfg} (hc : (abi c).Ok) {tc : TC} {s a : Nat} (ht : tab c.w tc = some (s, a))
    (hk : (abi c).real tc = true ∨ (abi c).integer tc = true ∨ tc = .pointer) {ctx base low : Nat}
    {load : Nat → List Byte} (hl : (load s).length = s) {st : St} {p : Pos} (h : Sim base st p)
    (hn : (abi c).real tc = true → p.nf < 8) (hss : st.ss = low) (hb : base + low ≤ ctx)
    (hns : (atomLoc (abi c) tc p).2.ns ≤ low) (m : Mem) :
    Wrote c ctx base p (atomLoc (abi c) tc p).2 low low m (marshalAtom c ctx tc load st m)
      fun R => Put c tc s (load s) (atomLoc (abi c) tc p).1 (R.at (abi c) (atomLoc (abi c) tc p).1) := by
  obtain ⟨st', bs, he, hs, hss', h1, h2, h3, h4⟩ := atom_step hc ht hk (ctx := ctx) hl h m
  obtain ⟨haft, hni, hfree, hused⟩ := atomLoc_spec c tc p h.ni hn
  rw [he]
  refine ⟨hs, hss'.trans hss, haft, keep_wr hfree hused hns m h2, ?_⟩
  intro m2 hm2
  have := rd_used hused hb hns hm2
  rw [img_at, this]
  dsimp only
  generalize locAddr c ctx base (atomLoc (abi c) tc p).1 = x
  have hrd : ((m.wr x bs).rd x (locLen c (atomLoc (abi c) tc p).1)).take bs.length = bs := by
    rw [Mem.rd_take _ _ h2]; exact Mem.rd_wr_same _ _ _
  refine ⟨Mem.rd_length _ _ _, ?_, ?_⟩
  · have := congrArg (List.take s) hrd
    rw [List.take_take, Nat.min_eq_left h1] at this
    rw [this, h3]
  · intro hi
    obtain ⟨h5, h6⟩ := h4 hi
    rw [List.take_of_length_le (by rw [Mem.rd_length]; omega)] at hrd
    rw [hrd]; exact h6

theorem Wrote.chain {c : Cfg} {ctx base : Nat} {p q r : Pos} {s1 s2 s3 : Nat} {m : Mem} {x y : St × Mem}
    {P Q : Regs → Prop} (h1 : Wrote c ctx base p q s1 s2 m x P) (hs : s2 ≤ s1) (hs' : s3 ≤ s2)
    (h2 : Wrote c ctx base q r s2 s3 x.2 y Q) : Wrote c ctx base p r s1 s3 m y fun R => P R ∧ Q R :=
  ⟨h2.sim, h2.top, h1.after.trans h2.after, h1.keep.trans h1.after hs h2.keep,
    fun m2 hk => ⟨h1.stable m2 (h2.keep.trans h2.after hs' hk), h2.stable m2 hk⟩⟩

/-- Two words. -/
theorem words_step {c : Cfg} (hc : (abi c).Ok) {ctx base low : Nat} {l1 l2 : Nat → List Byte}
    (h1 : (l1 c.w).length = c.w) (h2 : (l2 c.w).length = c.w) {st : St} {p : Pos} (h : Sim base st p)
    (hss : st.ss = low) (hb : base + low ≤ ctx) (hns : (word (abi c) (word (abi c) p).2).2.ns ≤ low)
    (m : Mem) :
    Wrote c ctx base p (word (abi c) (word (abi c) p).2).2 low low m
      (marshalAtom c ctx .pointer l2 (marshalAtom c ctx .pointer l1 st m).1 (marshalAtom c ctx .pointer l1 st m).2)
      fun R => Put c .pointer c.w (l1 c.w) (word (abi c) p).1 (R.at (abi c) (word (abi c) p).1) ∧
        Put c .pointer c.w (l2 c.w) (word (abi c) (word (abi c) p).2).1
          (R.at (abi c) (word (abi c) (word (abi c) p).2).1) := by
  have e : ∀ p, atomLoc (abi c) .pointer p = word (abi c) p := fun _ => rfl
  have ha := word_spec c (word (abi c) p).2 (word_spec c p h.ni).2.1
  have w1 := one_step hc (pointer_tab c.w) (.inr (.inr rfl)) (ctx := ctx) h1 h (by intro h; cases h) hss hb
    (by rw [e]; exact Nat.le_trans ha.1.ns hns) m
  rw [e] at w1
  have w2 := one_step hc (pointer_tab c.w) (.inr (.inr rfl)) (ctx := ctx) h2 w1.sim (by intro h; cases h)
    w1.top hb (by rw [e]; exact hns) (marshalAtom c ctx .pointer l1 st m).2
  rw [e] at w2
  exact w1.chain (Nat.le_refl _) (Nat.le_refl _) w2

/-- Offset of the lowest copy after an argument: copies are placed downwards. -/
def lowAfter (t : FType) (pl : Place) (low : Nat) : Nat :=
  if pl.isRef then (low - t.size) / t.align * t.align else low

theorem lowAfter_le (t : FType) (pl : Place) (low : Nat) : lowAfter t pl low ≤ low := by
  unfold lowAfter
  split
  · exact (Nat.div_mul_le_self _ _).trans (Nat.sub_le _ _)
  · exact Nat.le_refl _

/-- What holds for an argument once it is marshalled. -/
structure Arg (A : Abi) (t : FType) (v : List Byte) (pl : Place) (addr : Nat) (R : Regs) : Prop where
  passed : PassedAt A R t v pl
  ext : ∀ ps, pl = .direct ps → A.integer t.tc = true → ∀ q ∈ ps, Widened t.tc v (R.at A q.loc)
  ref : RefAt A R addr pl

theorem copyDest_eq {low size al : Nat} (ha : al = 1 ∨ al = 2 ∨ al = 4 ∨ al = 8 ∨ al = 16) (h : size ≤ low)
    (hl : low < 2 ^ 64) : copyDest low size al = (low - size) / al * al := by
  unfold copyDest
  rw [Nat.mod_eq_of_lt (show size < 2 ^ 64 by omega),
    show low + 2 ^ 64 - size = low - size + 2 ^ 64 by omega, Nat.add_mod_right, Nat.mod_eq_of_lt (by omega)]
  have hlt : low - size < 2 ^ 64 := by omega
  rcases ha with rfl | rfl | rfl | rfl | rfl
  · exact ffiAlignDown_eq (k := 0) (by decide) hlt
  · exact ffiAlignDown_eq (k := 1) (by decide) hlt
  · exact ffiAlignDown_eq (k := 2) (by decide) hlt
  · exact ffiAlignDown_eq (k := 3) (by decide) hlt
  · exact ffiAlignDown_eq (k := 4) (by decide) hlt

theorem int_step {c : Cfg} (hc : (abi c).Ok) {t : FType} (h : Plain (tab c.w) t) {var : Bool} {p : Pos} {st : St}
    {ctx base low : Nat} (hs : Sim base st p) (hb : 16 ∣ base) (hss : st.ss = low) (hab : base + low ≤ ctx)
    (hctx : ctx < 2 ^ 62) (hcw : ctx ≤ 256 ^ c.w)
    (hfit : (intConv (abi c) var t p).1.isRef = true → t.size ≤ low)
    (hns : (intConv (abi c) var t p).2.ns ≤ lowAfter t (intConv (abi c) var t p).1 low)
    {load : Nat → List Byte} {v : List Byte} (hv : v.length = t.size) (hl : ∀ n, n ≤ t.size → load n = v.take n)
    {junk : List Byte} (hj : junk.length = 2 * c.w) (m : Mem) :
    Wrote c ctx base p (intConv (abi c) var t p).2 low (lowAfter t (intConv (abi c) var t p).1 low) m
      (marshalInt c ctx base t var load junk st m)
      (Arg (abi c) t v (intConv (abi c) var t p).1 (base + lowAfter t (intConv (abi c) var t p).1 low)) := by
  have hw : c.w = 4 ∨ c.w = 8 := hc.1
  have hwf := plain_wf h
  have hpos := hwf.size_pos (tab_ok hw)
  have hald := hwf.align_dvd_size (tab_ok hw)
  have hfull : load t.size = v := by rw [hl _ (Nat.le_refl _)]; exact List.take_of_length_le (by omega)
  have e : ∀ p, atomLoc (abi c) .pointer p = word (abi c) p := fun _ => rfl
  have hdir : ∀ ps : List Piece, lowAfter t (.direct ps) low = low := fun _ => rfl
  unfold intConv at hns hfit ⊢
  unfold marshalInt
  have ex : (abi c).xlen = c.w := rfl
  rw [ex] at hns hfit ⊢
  by_cases hbig : 2 * c.w < t.size
  · -- by reference
    rw [if_pos hbig] at hns hfit ⊢
    rw [if_pos hbig]
    dsimp only at hns hfit ⊢
    have hfit := hfit rfl
    have hlow : ∃ low', lowAfter t (.ref (word (abi c) p).1) low = low' := ⟨_, rfl⟩
    obtain ⟨low', hlow⟩ := hlow
    have hdest : copyDest st.ss t.size t.align = low' := by
      rw [hss, copyDest_eq (hwf.align_cases (tab_ok hw)) hfit (by omega), ← hlow]; rfl
    have hle : low' + t.size ≤ low := by
      have h1 : low' = (low - t.size) / t.align * t.align := hlow.symm
      have h2 := Nat.div_mul_le_self (low - t.size) t.align
      omega
    rw [hlow] at hns ⊢
    rw [hdest, Nat.mod_eq_of_lt (show base + low' < 2 ^ 64 by omega)]
    have hlen : (load t.size).length = t.size := by rw [hfull, hv]
    have w1 := one_step hc (pointer_tab c.w) (.inr (.inr rfl)) (ctx := ctx)
      (low := low') (load := fun n => (leBytes c.w (base + low')).take n)
      (st := { st with ss := low' }) (p := p)
      (by simp) ⟨hs.ui, hs.uf, hs.stk, hs.ni⟩ (by intro h; cases h) rfl (by omega) (by rw [e]; exact hns)
      (m.wr (base + low') (load t.size))
    rw [e] at w1
    have hpn := w1.after.ns
    refine ⟨w1.sim, w1.top, w1.after, ?_, ?_⟩
    · intro x hx
      rw [w1.keep x (fun hf => hx (fut_mono (.refl _) (by omega) hf))]
      apply Mem.wr_out
      rw [hlen]
      apply Classical.byContradiction
      intro hn
      exact hx (Or.inr (Or.inr ⟨by omega, by omega⟩))
    · intro m2 hm2
      have hput := w1.stable m2 hm2
      have hval : leNat ((img c ctx base m2).at (abi c) (word (abi c) p).1) = base + low' := by
        have h1 := hput.val
        have h2 := hput.len
        have h3 : locLen c (word (abi c) p).1 = c.w := by unfold word; split <;> rfl
        rw [h3] at h2
        rw [List.take_of_length_le (by omega), List.take_of_length_le (by simp)] at h1
        rw [h1, leNat_leBytes, Nat.mod_eq_of_lt (by omega)]
      refine ⟨?_, fun ps hps => (by cases hps), hval⟩
      show (img c ctx base m2).mem.rd _ t.size = v
      rw [hval, ← hfull]
      have hmid : ∀ (q : Pos), q.ns ≤ low' → ∀ i, i < t.size → ¬ Fut c ctx base q low' (base + low' + i) := by
        intro q hq i hi
        unfold Fut
        omega
      show m2.rd (base + low') t.size = load t.size
      rw [Mem.rd_congr (m := m.wr (base + low') (load t.size)) (m' := m2)]
      · have := Mem.rd_wr_same m (base + low') (load t.size)
        rw [hlen] at this
        exact this
      · intro i hi
        rw [hm2 _ (hmid _ hns i hi), w1.keep _ (hmid _ (by omega) i hi)]
  · rw [if_neg hbig] at hns ⊢
    rw [if_neg hbig]
    clear hfit
    by_cases hint : (isInt c t.tc || t.tc == .pointer) = true
    · -- a scalar
      rw [if_pos hint]
      have hint' : (abi c).integer t.tc = true ∨ t.tc = .pointer := by
        rw [Bool.or_eq_true, isInt_eq hc, beq_iff_eq] at hint; exact hint
      have hst : t.tc ≠ .struct := by
        intro h'; rw [h'] at hint'; rcases hint' with h | h <;> cases h
      have htab := scalar_of h hst
      have hsw : t.size ≤ c.w := by
        clear hns hl hfull
        rcases hint' with h' | h'
        · have hA : (abi c).xlen = c.w := rfl
          revert h' htab
          cases t.tc <;> simp [Abi.integer, tab, hA] <;> intros <;> omega
        · rw [h', pointer_tab] at htab
          exact Nat.le_of_eq (congrArg Prod.fst (Option.some.inj htab)).symm
      rw [if_pos hsw] at hns ⊢
      rw [hdir] at hns ⊢
      have hreal : (abi c).real t.tc = false := by
        rcases hint' with h' | h'
        · cases hr : (abi c).real t.tc with
          | false => rfl
          | true => rw [real_not_int hr] at h'; cases h'
        · rw [h']; rfl
      have eat : atomLoc (abi c) t.tc p = word (abi c) p := by unfold atomLoc; rw [if_neg (by simp [hreal])]
      have w1 := one_step hc htab (.inr hint') (ctx := ctx) (low := low) (load := load) (by rw [hfull, hv]) hs
        (by rw [hreal]; intro h; cases h) hss hab (by rw [eat]; exact hns) m
      rw [eat] at w1
      refine w1.imp ?_
      intro R hp
      refine ⟨?_, ?_, trivial⟩
      · intro q hq
        rw [List.mem_singleton] at hq
        subst hq
        have := hp.val
        rw [hfull] at this
        dsimp only
        rw [this, List.drop_zero, List.take_of_length_le (by omega)]
      · intro ps hps hi q hq
        obtain rfl := Place.direct.inj hps
        rw [List.mem_singleton] at hq
        subst hq
        have := hp.wide hi
        rw [hfull] at this
        exact this
    · -- words
      rw [if_neg hint]
      have hnint : (abi c).integer t.tc = true → False := by
        intro h'
        rw [← isInt_eq hc] at h'
        rw [h'] at hint
        exact hint rfl
      dsimp only
      rw [if_pos hpos, hfull]
      have hrl : ((v ++ junk.drop t.size)).length = 2 * c.w := by
        rw [List.length_append, List.length_drop, hv, hj]; omega
      by_cases hsm : t.size ≤ c.w
      · have hal : ¬ c.w < t.align := by have := Nat.le_of_dvd hpos hald; omega
        rw [if_pos hsm] at hns ⊢
        rw [hdir] at hns ⊢
        rw [if_neg hal, if_neg (by omega)]
        have w1 := one_step hc (pointer_tab c.w) (.inr (.inr rfl)) (ctx := ctx) (low := low)
          (load := fun n => (v ++ junk.drop t.size).take n) (by rw [List.length_take]; omega) hs
          (by intro h; cases h) hss hab (by rw [e]; exact hns) m
        rw [e] at w1
        refine w1.imp ?_
        intro R hp
        refine ⟨?_, fun _ _ hi => (hnint hi).elim, trivial⟩
        intro q hq
        rw [List.mem_singleton] at hq
        subst hq
        have := congrArg (List.take t.size) hp.val
        rw [List.take_take, List.take_take, Nat.min_eq_left hsm, List.take_left' hv] at this
        dsimp only
        rw [this, List.drop_zero, List.take_of_length_le (by omega)]
      · rw [if_neg hsm] at hns ⊢
        rw [if_pos (show c.w < t.size by omega)]
        dsimp only at hns ⊢
        rw [hdir] at hns ⊢
        have hq : ∃ st1 q, (if c.w < t.align then evenSt c var st else st) = st1 ∧
            (if c.w < t.align then evenPos (abi c) var p else p) = q ∧ Sim base st1 q ∧ After p q ∧ st1.ss = low := by
          refine ⟨_, _, rfl, rfl, ?_⟩
          split
          · have hp1 : p.ns ≤ low := by
              rename_i hal
              rw [if_pos hal] at hns
              have h1 := (evenPos_after (c := c) (by omega) var p).ns
              have h2 := (word_after (abi c) (evenPos (abi c) var p)).ns
              have h3 := (word_after (abi c) (word (abi c) (evenPos (abi c) var p)).2).ns
              omega
            have he := even_sim hc hb (var := var) hs (by omega)
            exact ⟨he.1, he.2.1, he.2.2.trans hss⟩
          · exact ⟨hs, .refl _, hss⟩
        obtain ⟨st1, q, e1, e2, hs1, ha1, hss1⟩ := hq
        rw [e2] at hns ⊢
        rw [e1]
        have w1 := words_step hc (ctx := ctx) (low := low)
          (l1 := fun n => (v ++ junk.drop t.size).take n)
          (l2 := fun n => ((v ++ junk.drop t.size).drop c.w).take n)
          (by rw [List.length_take]; omega) (by rw [List.length_take, List.length_drop]; omega) hs1 hss1 hab hns m
        refine ⟨w1.sim, w1.top, ha1.trans w1.after, w1.keep.weaken ha1 (Nat.le_refl _), fun m2 hk => ?_⟩
        obtain ⟨hp1, hp2⟩ := w1.stable m2 hk
        refine ⟨?_, fun _ _ hi => (hnint hi).elim, trivial⟩
        intro pc hpc
        rw [List.mem_cons, List.mem_singleton] at hpc
        rcases hpc with rfl | rfl
        · have := hp1.val
          dsimp only
          rw [this, List.drop_zero, List.take_append_of_le_length (by omega)]
        · have := congrArg (List.take (t.size - c.w)) hp2.val
          rw [List.take_take, List.take_take, Nat.min_eq_left (by omega), List.drop_append_of_le_length (by omega),
            List.take_append_of_le_length (by rw [List.length_drop]; omega)] at this
          exact this

theorem marshal_step {c : Cfg} (hc : (abi c).Ok) {t : FType} (h : Plain (tab c.w) t) {var : Bool} {p : Pos} {st : St}
    {ctx base low : Nat} (hs : Sim base st p) (hok : SingleOk (abi c) var t p) (hb : 16 ∣ base) (hss : st.ss = low)
    (hab : base + low ≤ ctx) (hctx : ctx < 2 ^ 62) (hcw : ctx ≤ 256 ^ c.w)
    (hfit : (placeArg (abi c) var t p).1.isRef = true → t.size ≤ low)
    (hns : (placeArg (abi c) var t p).2.ns ≤ lowAfter t (placeArg (abi c) var t p).1 low)
    {load : Nat → Nat → List Byte} {v : List Byte} (hv : v.length = t.size)
    (hl : ∀ o n, o + n ≤ t.size → load o n = (v.drop o).take n)
    {junk : List Byte} (hj : junk.length = 2 * c.w) (m : Mem) :
    Wrote c ctx base p (placeArg (abi c) var t p).2 low (lowAfter t (placeArg (abi c) var t p).1 low) m
      (marshal c ctx base t var load junk st m)
      (Arg (abi c) t v (placeArg (abi c) var t p).1 (base + lowAfter t (placeArg (abi c) var t p).1 low)) := by
  have hw : c.w = 4 ∨ c.w = 8 := hc.1
  have hl0 : ∀ n, n ≤ t.size → load 0 n = v.take n := fun n hn => by rw [hl 0 n (by omega), List.drop_zero]
  have hdir : ∀ ps : List Piece, lowAfter t (.direct ps) low = low := fun _ => rfl
  cases classify hc h hs.ui hs.uf hs.ni hok with
  | one s a tc hvar ht hsz hal hlv hr hn hp hf =>
    rw [hp] at hns ⊢
    dsimp only at hns ⊢
    rw [hdir] at hns ⊢
    have hsl : (load 0 s).length = s := by rw [hl0 s (by omega), List.length_take]; omega
    have w1 := one_step hc ht (.inl hr) (ctx := ctx) (low := low) hsl hs (fun _ => hn) hss hab hns m
    have em : marshal c ctx base t var load junk st m = marshalAtom c ctx tc (load 0) st m := by
      unfold marshal
      rcases hf with hf | ⟨hf, htc⟩
      · rw [hf]; rfl
      · rw [hf, hvar, htc, hs.uf, isFloat_eq hc, hr]
        simp [hn]
    rw [em]
    refine w1.imp ?_
    intro R hput
    have hfv : load 0 s = v := by rw [hl0 s (by omega)]; exact List.take_of_length_le (by omega)
    have hni : (abi c).integer t.tc = true → False := by
      intro hi
      rcases hf with hf | ⟨_, htc⟩
      · unfold fsiOf at hf
        split at hf
        · rename_i hx
          simp only [Bool.and_eq_true, beq_iff_eq] at hx
          rw [hx.1.2] at hi; cases hi
        · cases hf
      · rw [htc, real_not_int hr] at hi; cases hi
    refine ⟨?_, fun _ _ hi => (hni hi).elim, trivial⟩
    intro q hq
    rw [List.mem_singleton] at hq
    subst hq
    dsimp only
    rw [hput.val, hfv, List.drop_zero, List.take_of_length_le (by omega)]
  | two s a s' a' tc tc' hvar ht ht' hlv h1 h2 hp hf =>
    rw [hp] at hns ⊢
    dsimp only at hns ⊢
    rw [hdir] at hns ⊢
    have hbnd := (plain_wf h).leaves_bounds (tab_ok hw) 0
    rw [hlv] at hbnd
    have hb1 := hbnd ⟨0, s, tc⟩ (by simp)
    have hb2 := hbnd ⟨0 + roundUp s a', s', tc'⟩ (by simp)
    simp only [Nat.zero_add] at hb1 hb2
    have ha' : 0 < a' := by have := (tab_small hw ht').2.1; omega
    have hoff : roundUp s a' ≠ 0 := by
      have := roundUp_ge (v := s) ha'
      have := (tab_small hw ht).2.2.1
      omega
    have hl1 : load 0 s = v.take s := hl0 s (by omega)
    have hl2 : load (roundUp s a') s' = (v.drop (roundUp s a')).take s' := hl _ _ (by omega)
    have hn1 : (abi c).real tc = true → p.nf < 8 := by
      intro hr
      rcases h1 with h1 | h1
      · exact h1.2
      · rw [real_not_int hr] at h1; cases h1.1
    have hn2 : (abi c).real tc' = true → (atomLoc (abi c) tc p).2.nf < 8 := by
      intro hr
      rcases h2 with h2 | h2
      · exact h2.2
      · rw [real_not_int hr] at h2; cases h2.1
    have hq1 := atomLoc_spec c tc p hs.ni hn1
    have hq2 := atomLoc_spec c tc' _ hq1.2.1 hn2
    have w1 := one_step hc ht (by rcases h1 with h | h; exact .inl h.1; exact .inr (.inl h.1)) (ctx := ctx) (low := low)
      (load := load 0) (by rw [hl1, List.length_take]; omega) hs hn1 hss hab (Nat.le_trans hq2.1.ns hns) m
    have w2 := one_step hc ht' (by rcases h2 with h | h; exact .inl h.1; exact .inr (.inl h.1)) (ctx := ctx) (low := low)
      (load := load (roundUp s a')) (by rw [hl2, List.length_take, List.length_drop]; omega) w1.sim hn2 w1.top hab hns
      (marshalAtom c ctx tc (load 0) st m).2
    have em : marshal c ctx base t var load junk st m =
        marshalAtom c ctx tc' (load (roundUp s a')) (marshalAtom c ctx tc (load 0) st m).1
          (marshalAtom c ctx tc (load 0) st m).2 := by
      unfold marshal
      rw [hf]
      unfold marshalFsi
      dsimp only
      rw [if_pos hoff]
    rw [em]
    refine (w1.chain (Nat.le_refl _) (Nat.le_refl _) w2).imp ?_
    rintro R ⟨p1, p2⟩
    have hst : t.tc = .struct := by
      unfold fsiOf at hf
      split at hf
      · rename_i hx
        simp only [Bool.and_eq_true, beq_iff_eq] at hx
        exact hx.1.2
      · cases hf
    have hni : (abi c).integer t.tc = true → False := by rw [hst]; intro h; cases h
    refine ⟨?_, fun _ _ hi => (hni hi).elim, trivial⟩
    intro q hq
    rw [List.mem_cons, List.mem_singleton] at hq
    rcases hq with rfl | rfl
    · dsimp only
      rw [p1.val, hl1, List.drop_zero]
    · dsimp only
      rw [p2.val, hl2]
  | int hp hf hn =>
    rw [hp] at hns hfit ⊢
    have em : marshal c ctx base t var load junk st m = marshalInt c ctx base t var (load 0) junk st m := by
      unfold marshal
      rw [hf]
      dsimp only
      rw [hn]
      simp
    rw [em]
    exact int_step hc h hs hb hss hab hctx hcw hfit hns hv hl0 hj m

end Verif.LA
