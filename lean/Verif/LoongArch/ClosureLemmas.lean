import Verif.LoongArch.Slots

/-! Closures: arguments as the handler finds them. -/
namespace Verif.LA
open Verif Verif.Spec Verif.Spec.RV RV

theorem atom_back {V : Loc → Prop} {c : Cfg} (hc : (abi c).Ok) {tc : TC} {s a : Nat} (ht : tab c.w tc = some (s, a))
    (hk : (abi c).real tc = true ∨ (abi c).integer tc = true ∨ tc = .pointer) {ctx base : Nat} {m : Mem} {R : Regs}
    (hr : Reads V c ctx base m R) {st : St} {p : Pos} (h : Sim base st p) (hu : V (atomLoc (abi c) tc p).1) :
    ∃ st' bs, unmarshalAtom c ctx tc st m = (bs, st') ∧ Sim base st' (atomLoc (abi c) tc p).2 ∧
      s ≤ bs.length ∧ bs.take s = (R.at (abi c) (atomLoc (abi c) tc p).1).take s ∧
      ((abi c).real tc = true → bs.length = s) ∧
      ((abi c).real tc = false → bs.length = c.w ∧ bs = R.at (abi c) (atomLoc (abi c) tc p).1) := by
  unfold unmarshalAtom
  rw [isFloat_eq hc]
  by_cases hre : (abi c).real tc = true
  · rw [if_pos hre]
    have e : atomLoc (abi c) tc p = (.fa p.nf, { p with nf := p.nf + 1 }) := by unfold atomLoc; rw [if_pos hre]
    rw [e] at hu ⊢
    have hs : (if tc = .float then 4 else 8) = s := by
      cases tc <;> simp [Abi.real] at hre <;> simp [tab] at ht <;> simp [ht.1]
    have hsf : s ≤ c.fl := by
      cases tc <;> simp [Abi.real] at hre <;> simp [tab] at ht <;> rw [← ht.1] <;> exact hre
    dsimp only
    rw [hs, ← hr (.fa p.nf) hu, h.uf]
    refine ⟨{ st with uf := p.nf + 1 }, _, rfl, ⟨h.ui, rfl, h.stk, h.ni⟩, Nat.le_of_eq (Mem.rd_length _ _ _).symm, ?_,
      fun _ => Mem.rd_length _ _ _, ?_⟩
    · show (m.rd (faAddr c ctx p.nf) s).take s = (m.rd (faAddr c ctx p.nf) c.fl).take s
      rw [Mem.rd_take _ _ hsf, Mem.rd_take _ _ (Nat.le_refl _)]
    · intro hn; rw [hre] at hn; cases hn
  · rw [if_neg hre]
    have e : atomLoc (abi c) tc p = word (abi c) p := by unfold atomLoc; rw [if_neg hre]
    rw [e] at hu ⊢
    have hw : c.w = 4 ∨ c.w = 8 := hc.1
    have hload : ∃ sg, atomLoad c tc = some (s, sg) ∧ s ≤ c.w := by
      have hk' : (abi c).integer tc = true ∨ tc = .pointer := by
        rcases hk with hk | hk
        · exact absurd hk hre
        · exact hk
      obtain ⟨w, fl, nx⟩ := c
      dsimp only at hw ht ⊢
      clear hre hk h hc e hu hr
      rcases hw with rfl | rfl <;> cases tc <;> simp [Abi.integer, abi] at hk' <;>
        simp [tab] at ht <;> obtain ⟨rfl, rfl⟩ := ht <;> simp [atomLoad]
    obtain ⟨sg, hld, hsw⟩ := hload
    have hlen : (R.at (abi c) (word (abi c) p).1).length = c.w := by
      rw [← hr _ hu, Mem.rd_length]; unfold word; split <;> rfl
    obtain ⟨st', h1, h2⟩ := getWord_spec hr h hu
    rw [hld, h1]
    exact ⟨st', _, rfl, h2, by omega, rfl, fun h => absurd h hre, fun _ => ⟨hlen, rfl⟩⟩

/-- A struct of a real and an integer has room for a whole register at its integer. -/
def TailOk (c : Cfg) (t : FType) : Prop :=
  ∀ l1 l2, leaves t 0 = [l1, l2] → (abi c).real l1.tc = true → (abi c).integer l2.tc = true → l2.off + c.w ≤ t.size

/-- What `unmarshal` does with one argument. -/
structure Fetched (c : Cfg) (base : Nat) (R : Regs) (t : FType) (v : List Byte) (data : Nat) (pl : Place) (q : Pos)
    (m : Mem) (r : Nat × St × Mem) : Prop where
  sim : Sim base r.2.1 q
  frame : ∀ x, x < data ∨ data + 16 ≤ x ∨ (data + max t.size c.w ≤ x ∧ TailOk c t) → r.2.2 x = m x
  got : Got c R t v data r.1 r.2.2 pl

/-- At least one of two elements is a real. -/
theorem fsi_real {c : Cfg} (hc : (abi c).Ok) {t : FType} {var : Bool} {st : St} {f : Fsi}
    (hf : fsiOf c t var st = some f) (h0 : f.offset2 ≠ 0) :
    ¬ ((abi c).real f.type1 = false ∧ (abi c).real f.type2 = false) := by
  rintro ⟨h1, h2⟩
  rw [← isFloat_eq hc] at h1 h2
  unfold fsiOf at hf
  split at hf
  · unfold asElements at hf
    split at hf
    · split at hf
      · obtain rfl := Option.some.inj hf
        exact h0 rfl
      · cases hf
    · dsimp only at hf
      split at hf
      · cases hf
      · rename_i hn
        split at hf
        · cases hf
        · obtain rfl := Option.some.inj hf
          dsimp only at h1 h2
          rw [h1, h2] at hn
          exact hn (.inl rfl)
    · cases hf
  · cases hf

theorem int_back {V : Loc → Prop} {c : Cfg} (hc : (abi c).Ok) {t : FType} (h : Plain (tab c.w) t) {var : Bool} {p : Pos} {st : St}
    {ctx base data : Nat} {m : Mem} {R : Regs} (hr : Reads V c ctx base m R) (hs : Sim base st p) (hb : 16 ∣ base)
    (hV : ∀ l, Used l (intConv (abi c) var t p).2 c.w → V l) (hns : base + (intConv (abi c) var t p).2.ns < 2 ^ 62)
    (hfa : ∀ k, (R.fa k).length = c.fl) (ha : ∀ k, (R.a k).length = c.w) {v : List Byte} (hv : v.length = t.size)
    (hp : PassedAt (abi c) R t v (intConv (abi c) var t p).1) :
    Fetched c base R t v data (intConv (abi c) var t p).1 (intConv (abi c) var t p).2 m
      (unmarshalInt c ctx t var data st m) := by
  have hw : c.w = 4 ∨ c.w = 8 := hc.1
  have hwf := plain_wf h
  have hpos := hwf.size_pos (tab_ok hw)
  have hald := hwf.align_dvd_size (tab_ok hw)
  have e : ∀ p, atomLoc (abi c) .pointer p = word (abi c) p := fun _ => rfl
  have hptr : ∀ {st : St} {p : Pos}, Sim base st p → V (word (abi c) p).1 → ∃ st', unmarshalAtom c ctx .pointer st m =
      ((R.at (abi c) (word (abi c) p).1).take c.w, st') ∧ Sim base st' (word (abi c) p).2 := by
    intro st p h hu
    obtain ⟨st', bs, h1, h2, _, _, _, h3⟩ := atom_back hc (pointer_tab c.w) (.inr (.inr rfl)) hr h hu
    obtain ⟨h4, h5⟩ := h3 rfl
    rw [e] at h5
    rw [← h5, List.take_of_length_le (by omega)]
    exact ⟨st', h1, h2⟩
  have hfullw : ∀ p, (R.at (abi c) (word (abi c) p).1).length = c.w := by
    intro p
    rw [regs_at_len hfa ha]; unfold word; split <;> rfl
  unfold intConv at hns hp hV ⊢
  unfold unmarshalInt
  have ex : (abi c).xlen = c.w := rfl
  rw [ex] at hns hp hV ⊢
  have hwu := fun p hp => (word_spec c p hp).2.2.2.2
  by_cases hbig : 2 * c.w < t.size
  · rw [if_pos hbig] at hns hp hV ⊢
    rw [if_pos hbig]
    obtain ⟨st', h1, h2⟩ := hptr hs (hV _ (hwu p hs.ni))
    rw [h1]
    refine ⟨h2, fun _ _ => rfl, ?_⟩
    show leNat _ = leNat _
    rw [List.take_of_length_le (Nat.le_of_eq (hfullw p))]
  · rw [if_neg hbig] at hns hp hV ⊢
    rw [if_neg hbig]
    -- writing the object
    have fin : ∀ (st' : St) (q : Pos) (ps : List Piece) (bs : List Byte), Sim base st' q → bs.take t.size = v →
        bs.length ≤ max t.size c.w →
        Fetched c base R t v data (.direct ps) q m (data, st', m.wr data bs) := by
      intro st' q ps bs hsim hbs hbl
      have hbs' : t.size ≤ bs.length := by
        have := congrArg List.length hbs
        rw [List.length_take] at this; omega
      refine ⟨hsim, ?_, rfl, ?_, ?_⟩
      · intro x hx
        apply Mem.wr_out
        omega
      · intro l hl
        have := hwf.leaves_bounds (tab_ok hw) 0 l hl
        omega
      · show SameMembers t ((m.wr data bs).rd data t.size) v
        rw [Mem.rd_wr_prefix _ _ _ hbs', hbs]
        exact sameMembers_refl _ _
    by_cases hint : (isInt c t.tc || t.tc == .pointer) = true
    · rw [if_pos hint]
      have hint' : (abi c).integer t.tc = true ∨ t.tc = .pointer := by
        rw [Bool.or_eq_true, isInt_eq hc, beq_iff_eq] at hint; exact hint
      have hst : t.tc ≠ .struct := by
        intro h'; rw [h'] at hint'; rcases hint' with h | h <;> cases h
      have htab := scalar_of h hst
      have hsw : t.size ≤ c.w := by
        clear hns fin hp
        rcases hint' with h' | h'
        · have hA : (abi c).xlen = c.w := rfl
          revert h' htab
          cases t.tc <;> simp [Abi.integer, tab, hA] <;> intros <;> omega
        · rw [h', pointer_tab] at htab
          exact Nat.le_of_eq (congrArg Prod.fst (Option.some.inj htab)).symm
      rw [if_pos hsw] at hns hp hV ⊢
      have hreal : (abi c).real t.tc = false := by
        rcases hint' with h' | h'
        · cases hr : (abi c).real t.tc with
          | false => rfl
          | true => rw [real_not_int hr] at h'; cases h'
        · rw [h']; rfl
      have eat : atomLoc (abi c) t.tc p = word (abi c) p := by unfold atomLoc; rw [if_neg (by simp [hreal])]
      obtain ⟨st', bs, h1, h2, _, h3, _, h4⟩ := atom_back hc htab (.inr hint') hr hs
        (by rw [eat]; exact hV _ (hwu p hs.ni))
      rw [eat] at h2 h3 h4
      have hval := hp ⟨0, t.size, (word (abi c) p).1⟩ (by simp)
      dsimp only at hval
      rw [List.drop_zero, List.take_of_length_le (l := v) (by omega)] at hval
      rw [h1]
      exact fin st' _ _ bs h2 (h3.trans hval) (by have := (h4 hreal).1; omega)
    · rw [if_neg hint]
      dsimp only
      rw [if_pos hpos]
      by_cases hsm : t.size ≤ c.w
      · have hal : ¬ c.w < t.align := by have := Nat.le_of_dvd hpos hald; omega
        rw [if_pos hsm] at hns hp hV ⊢
        rw [if_neg hal, if_neg (show ¬ c.w < t.size by omega)]
        obtain ⟨st', h1, h2⟩ := hptr hs (hV _ (hwu p hs.ni))
        rw [h1]
        have hval := hp ⟨0, t.size, (word (abi c) p).1⟩ (by simp)
        dsimp only at hval ⊢
        rw [List.drop_zero, List.take_of_length_le (l := v) (by omega)] at hval
        rw [List.append_nil, List.take_take, Nat.min_eq_left hsm, hval]
        exact fin st' _ _ v h2 (List.take_of_length_le (by omega)) (by omega)
      · rw [if_neg hsm] at hns hp hV ⊢
        rw [if_pos (show c.w < t.size by omega)]
        dsimp only at hns hp hV ⊢
        have hq : ∃ st1 q, (if c.w < t.align then evenSt c var st else st) = st1 ∧
            (if c.w < t.align then evenPos (abi c) var p else p) = q ∧ Sim base st1 q := by
          refine ⟨_, _, rfl, rfl, ?_⟩
          split
          · rename_i hal
            rw [if_pos hal] at hns
            have h1 := (evenPos_after (c := c) (by omega) var p).ns
            have h2 := (word_after (abi c) (evenPos (abi c) var p)).ns
            have h3 := (word_after (abi c) (word (abi c) (evenPos (abi c) var p)).2).ns
            exact (even_sim hc hb hs (by omega)).1
          · exact hs
        obtain ⟨st1, q, e1, e2, hs1⟩ := hq
        rw [e2] at hns hp hV ⊢
        rw [e1]
        obtain ⟨st2, h1, h2⟩ := hptr hs1 (hV _ ((hwu q hs1.ni).mono (word_after _ _)))
        rw [h1]
        obtain ⟨st3, h3, h4⟩ := hptr h2 (hV _ (hwu _ h2.ni))
        dsimp only
        rw [h3]
        have hv1 := hp ⟨0, c.w, (word (abi c) q).1⟩ (by simp)
        have hv2 := hp ⟨c.w, t.size - c.w, (word (abi c) (word (abi c) q).2).1⟩ (by simp)
        dsimp only at hv1 hv2 ⊢
        have hall : ((R.at (abi c) (word (abi c) q).1).take c.w ++
            (R.at (abi c) (word (abi c) (word (abi c) q).2).1).take c.w).take t.size = v := by
          have hl1 : (v.take c.w).length = c.w := by rw [List.length_take]; omega
          rw [hv1, List.drop_zero, List.take_append, hl1, List.take_of_length_le (l := v.take c.w) (by omega),
            List.take_take, Nat.min_eq_left (by omega), hv2,
            List.take_of_length_le (l := v.drop c.w) (by rw [List.length_drop]; omega), List.take_append_drop]
        rw [hall]
        exact fin st3 _ _ v h4 (List.take_of_length_le (by omega)) (by omega)

theorem unmarshal_step {V : Loc → Prop} {c : Cfg} (hc : (abi c).Ok) {t : FType} (h : Plain (tab c.w) t) {var : Bool} {p : Pos} {st : St}
    {ctx base data : Nat} {m : Mem} {R : Regs} (hr : Reads V c ctx base m R) (hs : Sim base st p) (hb : 16 ∣ base)
    (hok : SingleOk (abi c) var t p) (hd : Apart V c ctx base data)
    (hV : ∀ l, Used l (placeArg (abi c) var t p).2 c.w → V l)
    (hns : base + (placeArg (abi c) var t p).2.ns < 2 ^ 62)
    (hfa : ∀ k, (R.fa k).length = c.fl) (ha : ∀ k, (R.a k).length = c.w) {v : List Byte} (hv : v.length = t.size)
    (hp : PassedAt (abi c) R t v (placeArg (abi c) var t p).1) :
    Fetched c base R t v data (placeArg (abi c) var t p).1 (placeArg (abi c) var t p).2 m
      (unmarshal c ctx t var data st m) := by
  have hw : c.w = 4 ∨ c.w = 8 := hc.1
  cases classify hc h hs.ui hs.uf hs.ni hok with
  | one s a tc hvar ht hsz hal hlv hre hn hpl hf =>
    rw [hpl] at hns hp hV ⊢
    obtain ⟨st', bs, h1, h2, _, h3, h4, _⟩ := atom_back hc ht (.inl hre) hr hs
      (hV _ (atomLoc_spec c tc p hs.ni fun _ => hn).2.2.2)
    have h4 := h4 hre
    rw [List.take_of_length_le (by omega)] at h3
    rw [h3] at h1
    have em : unmarshal c ctx t var data st m = (data, st', m.wr data ((R.at (abi c) (atomLoc (abi c) tc p).1).take s)) := by
      unfold unmarshal
      rcases hf with hf | ⟨hf, htc⟩
      · rw [hf]
        simp only [unmarshalFsi, h1, ne_eq, not_true_eq_false, if_false]
      · rw [hf, hvar, htc, hs.uf, isFloat_eq hc, hre]
        simp only [hn, decide_true, Bool.not_false, Bool.and_self, if_true, h1]
    have hval := hp ⟨0, s, (atomLoc (abi c) tc p).1⟩ (by simp)
    dsimp only at hval
    rw [List.drop_zero, List.take_of_length_le (l := v) (by omega)] at hval
    rw [em, hval]
    have hs16 := (tab_small hw ht).1
    refine ⟨h2, ?_, rfl, ?_, ?_⟩
    · intro x hx
      apply Mem.wr_out
      omega
    · intro l hl
      have := (plain_wf h).leaves_bounds (tab_ok hw) 0 l hl
      omega
    · have := Mem.rd_wr_same m data v
      rw [hv] at this
      show SameMembers t ((m.wr data v).rd data t.size) v
      rw [this]
      exact sameMembers_refl _ _
  | two s a s' a' tc tc' hvar ht ht' hlv h1 h2 hpl hf =>
    rw [hpl] at hns hp hV ⊢
    have ha' : 0 < a' := by have := (tab_small hw ht').2.1; omega
    have hge := roundUp_ge (v := s) ha'
    have hoff : roundUp s a' ≠ 0 := by
      have := (tab_small hw ht).2.2.1
      omega
    have hn1 : (abi c).real tc = true → p.nf < 8 := by
      intro hr
      rcases h1 with h1 | h1
      · exact h1.2
      · rw [real_not_int hr] at h1; cases h1.1
    have hn2 : (abi c).real tc' = true → (atomLoc (abi c) tc p).2.nf < 8 := by
      intro hr
      rcases h2 with h2 | h2
      · exact h2.2
      · rw [real_not_int hr] at h2; cases h2.1
    have hsmall : ∀ {tc s a}, tab c.w tc = some (s, a) → ((abi c).real tc = true ∨ (abi c).integer tc = true) →
        s ≤ 8 ∧ a ≤ 8 := by
      intro tc s a ht hk
      cases tc <;> simp [Abi.real, Abi.integer] at hk <;> simp [tab] at ht <;> omega
    have hs1 := hsmall ht (by rcases h1 with h | h; exact .inl h.1; exact .inr h.1)
    have hs2 := hsmall ht' (by rcases h2 with h | h; exact .inl h.1; exact .inr h.1)
    have hoff8 : roundUp s a' ≤ 8 := by
      refine roundUp_least ha' ?_ hs1.1
      have := (tab_small hw ht').2.1
      rcases this with h | h | h | h | h <;> rw [h] at hs2 ⊢ <;> first | decide | omega
    have hbnd := (plain_wf h).leaves_bounds (tab_ok hw) 0
    rw [hlv] at hbnd
    have hb2 := hbnd ⟨0 + roundUp s a', s', tc'⟩ (by simp)
    simp only [Nat.zero_add] at hb2
    have u1 := atomLoc_spec c tc p hs.ni hn1
    have u2 := atomLoc_spec c tc' _ u1.2.1 hn2
    obtain ⟨st1, b1, e1, q1, g1, f1, r1, i1⟩ := atom_back hc ht
      (by rcases h1 with h | h; exact .inl h.1; exact .inr (.inl h.1)) hr hs (hV _ (u1.2.2.2.mono u2.1))
    have hval1 := hp ⟨0, s, (atomLoc (abi c) tc p).1⟩ (by simp)
    have hval2 := hp ⟨roundUp s a', s', (atomLoc (abi c) tc' (atomLoc (abi c) tc p).2).1⟩ (by simp)
    dsimp only at hval1 hval2
    rw [hval1] at f1
    have hl1 : b1.length ≤ 8 ∧ b1.length ≤ max s c.w := by
      cases hx : (abi c).real tc with
      | true => have := r1 hx; omega
      | false => have := (i1 hx).1; omega
    have hr2 : Reads V c ctx base (m.wr data b1) R :=
      hr.keep hd fun x hx => Mem.wr_out _ _ _ _ (by omega)
    obtain ⟨st2, b2, e2, q2, g2, f2, r2, i2⟩ := atom_back hc ht'
      (by rcases h2 with h | h; exact .inl h.1; exact .inr (.inl h.1)) hr2 q1 (hV _ u2.2.2.2)
    rw [hval2] at f2
    have hl2 : b2.length ≤ 8 := by
      cases hx : (abi c).real tc' with
      | true => have := r2 hx; omega
      | false => have := (i2 hx).1; omega
    have hl2' : TailOk c t → roundUp s a' + b2.length ≤ max t.size c.w := by
      intro htail
      cases hx : (abi c).real tc' with
      | true => have := r2 hx; omega
      | false =>
        have hi2 : (abi c).integer tc' = true := by
          rcases h2 with h | h
          · rw [hx] at h; cases h.1
          · exact h.1
        have hr1 : (abi c).real tc = true := by
          rcases h1 with h | h
          · exact h.1
          · exfalso
            have : (abi c).real tc = false := by
              cases hy : (abi c).real tc with
              | false => rfl
              | true => rw [real_not_int hy] at h; cases h.1
            exact fsi_real hc hf hoff ⟨this, hx⟩
        have := htail _ _ (hlv 0) hr1 hi2
        dsimp only at this
        have := (i2 hx).1
        omega
    have em : unmarshal c ctx t var data st m = (data, st2, (m.wr data b1).wr (data + roundUp s a') b2) := by
      unfold unmarshal
      rw [hf]
      simp only [unmarshalFsi, e1, ne_eq, hoff, not_false_eq_true, if_true, e2]
    rw [em]
    refine ⟨q2, ?_, rfl, ?_, ?_⟩
    · intro x hx
      dsimp only
      have hx2 : x < data + roundUp s a' ∨ data + roundUp s a' + b2.length ≤ x := by
        rcases hx with hx | hx | ⟨hx, ht⟩
        · omega
        · omega
        · have := hl2' ht; omega
      rw [Mem.wr_out _ _ _ _ hx2, Mem.wr_out _ _ _ _ (by omega)]
    · intro l hl
      rw [hlv, List.mem_cons, List.mem_singleton] at hl
      rcases hl with rfl | rfl <;> dsimp only <;> omega
    · dsimp only
      have hsub : ∀ (m : Mem) (o n : Nat), o + n ≤ t.size → ((m.rd data t.size).drop o).take n = m.rd (data + o) n :=
        fun m o n hon => rd_sub m data hon
      intro l hl
      rw [hlv, List.mem_cons, List.mem_singleton] at hl
      rcases hl with rfl | rfl
      · dsimp only
        rw [hsub _ _ _ (by omega), Mem.rd_wr_disj _ _ _ _ _ (by omega), Nat.add_zero, Mem.rd_wr_prefix _ _ _ g1]
        exact f1
      · dsimp only
        rw [hsub _ _ _ (by omega), Nat.zero_add, Mem.rd_wr_prefix _ _ _ g2]
        exact f2
  | int hpl hf hn =>
    rw [hpl] at hns hp hV ⊢
    have em : unmarshal c ctx t var data st m = unmarshalInt c ctx t var data st m := by
      unfold unmarshal
      rw [hf]
      dsimp only
      rw [hn]
      simp
    rw [em]
    exact int_back hc h hr hs hb hV hns hfa ha hv hp

/-! ## The loop -/

theorem closureLoop_spec {c : Cfg} (hc : (abi c).Ok) {ctx base lo ast n : Nat} {R : Regs} (hb : 16 ∣ base)
    (hcb : ctx ≤ base) (hlo : lo ≤ ast) (hast : 16 ∣ ast) (hroom : ast + 16 * n ≤ ctx) (hfa : ∀ k, (R.fa k).length = c.fl)
    (ha : ∀ k, (R.a k).length = c.w) {ts : List FType} :
    ∀ {vs : List (List Byte)} {i : Nat} {p : Pos} {st : St} {m : Mem}, (∀ t ∈ ts, Plain (tab c.w) t) →
      i + ts.length = n → Sim base st p → SinglesOk (abi c) c.nfixed ts i p → Reads Valid c ctx base m R → Sized ts vs →
      base + (endFrom (abi c) c.nfixed ts i p).ns < 2 ^ 62 →
      AllPassed (abi c) R ts vs (placeFrom (abi c) c.nfixed ts i p) →
      AllOut (abi c) R lo (ast + 16 * n) ts (placeFrom (abi c) c.nfixed ts i p) →
      (∀ x, x < ast ∨ ast + 16 * n ≤ x → m x = R.mem x ∨ ctx ≤ x ∧ x < base) →
      AllOut (abi c) R ctx base ts (placeFrom (abi c) c.nfixed ts i p) →
      ∃ as m', closureLoop c ctx ast ts i st m = (as, m') ∧
        (∀ m2 : Mem, (∀ x, x < lo ∨ ast ≤ x → m2 x = m' x) → AllFound m2 ts vs as) ∧
        (∀ x, x < ast + 16 * i ∨ ast + 16 * n ≤ x → m' x = m x) ∧
        (AllAligned (abi c) R ts (placeFrom (abi c) c.nfixed ts i p) → AllPtrs ts as) := by
  have hw : c.w = 4 ∨ c.w = 8 := hc.1
  induction ts with
  | nil =>
    intro vs i p st m _ _ _ _ _ hsz _ _ _ _ _
    cases vs with
    | cons => cases hsz
    | nil => exact ⟨[], m, rfl, fun _ _ => trivial, fun _ _ => rfl, fun _ => trivial⟩
  | cons t ts ih =>
    intro vs i p st m hp hi hs hok hr hsz hns hpass hout hmem hout2
    cases vs with
    | nil => cases hsz
    | cons v vs =>
      rw [endFrom] at hns
      rw [placeFrom] at hpass hout hout2 ⊢
      obtain ⟨hp1, hp2⟩ := hpass
      obtain ⟨ho1, ho2⟩ := hout
      obtain ⟨hq1, hq2⟩ := hout2
      rw [List.length_cons] at hi
      have haft := (endFrom_after (c := c) (by omega) ts (i + 1) (placeArg (abi c) (decide (c.nfixed ≤ i)) t p).2).ns
      have f := unmarshal_step hc (hp t (by simp)) hr hs hb hok.1 (data := ast + 16 * i)
        (apart_below hcb (by omega)) (fun _ h => h.valid) (by omega) hfa ha
        hsz.1 hp1
      rw [closureLoop]
      generalize unmarshal c ctx t (decide (c.nfixed ≤ i)) (ast + 16 * i) st m = r at f ⊢
      have hr' : Reads Valid c ctx base r.2.2 R := hr.keep (apart_below hcb (data := ast + 16 * i) (by omega)) fun x hx =>
        f.frame x (by omega)
      obtain ⟨as, m', h1, h2, h3, h4⟩ := ih (i := i + 1) (m := r.2.2) (fun x hx => hp x (by simp [hx])) (by omega) f.sim
        hok.2 hr' hsz.2 hns hp2 ho2
        (fun x hx => by rw [f.frame x (by omega)]; exact hmem x hx) hq2
      have h1' : closureLoop c ctx ast ts (i + 1) r.2.1 r.2.2 = (as, m') := h1
      rw [h1']
      have hwf := plain_wf (hp t (by simp))
      have hal16 : t.align ∣ 16 := by
        rcases hwf.align_cases (tab_ok hw) with h | h | h | h | h <;> rw [h] <;> decide
      refine ⟨_, _, rfl, fun m2 hm2 => ⟨?_, h2 m2 hm2⟩, ?_, ?_⟩
      · have hg := f.got
        dsimp only at hm2
        generalize (placeArg (abi c) (decide (c.nfixed ≤ i)) t p).1 = pl at hp1 ho1 hq1 hg
        cases pl with
        | direct ps =>
          obtain ⟨e1, e2, e3⟩ := hg
          rw [e1]
          intro l hl
          have hbd := hwf.leaves_bounds (tab_ok hw) 0 l hl
          have h16 := e2 l hl
          have := e3 l hl
          rw [← this, rd_sub _ _ (by omega), rd_sub _ _ (by omega)]
          exact Mem.rd_congr fun k hk => by rw [hm2 _ (by omega), h3 _ (by omega)]
        | ref l =>
          have e1 : r.1 = leNat (R.at (abi c) l) := hg
          have e2 : R.mem.rd (leNat (R.at (abi c) l)) t.size = v := hp1
          have e3 : leNat (R.at (abi c) l) + t.size ≤ lo ∨ ast + 16 * n ≤ leNat (R.at (abi c) l) := ho1
          have e4 : leNat (R.at (abi c) l) + t.size ≤ ctx ∨ base ≤ leNat (R.at (abi c) l) := hq1
          rw [e1]
          have : m2.rd (leNat (R.at (abi c) l)) t.size = v := by
            rw [← e2]
            apply Mem.rd_congr
            intro k hk
            rw [hm2 _ (by omega), h3 _ (by omega), f.frame _ (by omega)]
            rcases hmem (leNat (R.at (abi c) l) + k) (by omega) with h | h
            · exact h
            · omega
          rw [this]
          exact sameMembers_refl _ _
      · intro x hx
        dsimp only
        rw [h3 x (by omega), f.frame x (by omega)]
      · rintro ⟨hA, hB⟩
        refine ⟨?_, h4 hB⟩
        have hg := f.got
        generalize (placeArg (abi c) (decide (c.nfixed ≤ i)) t p).1 = pl at hA hg
        cases pl with
        | direct ps =>
          rw [show r.1 = ast + 16 * i from hg.1]
          exact Nat.dvd_add (hal16.trans hast) (hal16.trans (Nat.dvd_mul_right _ _))
        | ref l =>
          rw [show r.1 = leNat (R.at (abi c) l) from hg]
          exact hA

end Verif.LA
