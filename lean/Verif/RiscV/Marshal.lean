import Verif.RiscV.CallLemmas

/-! `marshal` for one argument. -/
namespace Verif.RV
open Verif Verif.Spec Verif.Spec.RV

/-- Position and memory after writing something. -/
structure Wrote (c : Cfg) (ctx base ab : Nat) (p q : Pos) (ss ss' : Nat) (m : Mem) (r : St × Mem) (P : Regs → Prop) :
    Prop where
  sim : Sim base r.1 q
  top : r.1.ss = ss'
  after : After p q
  keep : Keep c ctx base ab p ss m r.2
  stable : ∀ m2, Keep c ctx base ab q ss' r.2 m2 → P (img c ctx base m2)

theorem Wrote.imp {c : Cfg} {ctx base ab : Nat} {p q : Pos} {ss ss' : Nat} {m : Mem} {r : St × Mem} {P Q : Regs → Prop}
    (h : Wrote c ctx base ab p q ss ss' m r P) (hi : ∀ R, P R → Q R) : Wrote c ctx base ab p q ss ss' m r Q :=
  ⟨h.sim, h.top, h.after, h.keep, fun m2 hk => hi _ (h.stable m2 hk)⟩

theorem After.trans {p q r : Pos} (h : After p q) (h' : After q r) : After p r :=
  ⟨h.ni.trans h'.ni, h.nf.trans h'.nf, h.ns.trans h'.ns⟩

theorem one_step {c : Cfg} (hc : (abi c).Ok) {tc : TC} {s a : Nat} (ht : tab c.w tc = some (s, a))
    (hk : (abi c).real tc = true ∨ (abi c).integer tc = true ∨ tc = .pointer) {ctx base ab ss : Nat}
    {load : Nat → List Byte} (hl : (load s).length = s) {st : St} {p : Pos} (h : Sim base st p)
    (hn : (abi c).real tc = true → p.nf < 8) (hss : st.ss = ss) (hb : base + ab ≤ ss) (hctx : ss ≤ ctx)
    (hns : (atomLoc (abi c) tc p).2.ns ≤ ab) (m : Mem) :
    Wrote c ctx base ab p (atomLoc (abi c) tc p).2 ss ss m (marshalAtom c ctx tc load st m)
      fun R => Put c tc s (load s) (atomLoc (abi c) tc p).1 (R.at (abi c) (atomLoc (abi c) tc p).1) := by
  obtain ⟨st', bs, he, hs, hss', hp⟩ := atom_step hc ht hk (ctx := ctx) hl h m
  obtain ⟨haft, hni, hfree, hused⟩ := atomLoc_spec c tc p h.ni hn
  rw [he]
  refine ⟨hs, hss'.trans hss, haft, keep_wr hfree hused hns m hp.len, ?_⟩
  intro m2 hm2
  have := rd_used hused hb hctx hns hm2
  rw [img_at, this]
  have e : (m.wr (locAddr c ctx base (atomLoc (abi c) tc p).1) bs).rd (locAddr c ctx base (atomLoc (abi c) tc p).1)
      (locLen c (atomLoc (abi c) tc p).1) = bs := by rw [← hp.len]; exact Mem.rd_wr_same _ _ _
  rw [e]
  exact hp

theorem Wrote.chain {c : Cfg} {ctx base ab : Nat} {p q r : Pos} {s1 s2 s3 : Nat} {m : Mem} {x y : St × Mem}
    {P Q : Regs → Prop} (h1 : Wrote c ctx base ab p q s1 s2 m x P) (hs : s1 ≤ s2) (hs' : s2 ≤ s3)
    (h2 : Wrote c ctx base ab q r s2 s3 x.2 y Q) : Wrote c ctx base ab p r s1 s3 m y fun R => P R ∧ Q R :=
  ⟨h2.sim, h2.top, h1.after.trans h2.after, h1.keep.trans h1.after hs h2.keep,
    fun m2 hk => ⟨h1.stable m2 (h2.keep.trans h2.after hs' hk), h2.stable m2 hk⟩⟩

theorem pointer_tab (w : Nat) : tab w .pointer = some (w, w) := rfl

/-- Two words. -/
theorem words_step {c : Cfg} (hc : (abi c).Ok) {ctx base ab ss : Nat} {l1 l2 : Nat → List Byte}
    (h1 : (l1 c.w).length = c.w) (h2 : (l2 c.w).length = c.w) {st : St} {p : Pos} (h : Sim base st p)
    (hss : st.ss = ss) (hb : base + ab ≤ ss) (hctx : ss ≤ ctx) (hns : (word (abi c) (word (abi c) p).2).2.ns ≤ ab)
    (m : Mem) :
    Wrote c ctx base ab p (word (abi c) (word (abi c) p).2).2 ss ss m
      (marshalAtom c ctx .pointer l2 (marshalAtom c ctx .pointer l1 st m).1 (marshalAtom c ctx .pointer l1 st m).2)
      fun R => Put c .pointer c.w (l1 c.w) (word (abi c) p).1 (R.at (abi c) (word (abi c) p).1) ∧
        Put c .pointer c.w (l2 c.w) (word (abi c) (word (abi c) p).2).1
          (R.at (abi c) (word (abi c) (word (abi c) p).2).1) := by
  have e : ∀ p, atomLoc (abi c) .pointer p = word (abi c) p := fun _ => rfl
  have ha := word_spec c (word (abi c) p).2 (word_spec c p h.ni).2.1
  have w1 := one_step hc (pointer_tab c.w) (.inr (.inr rfl)) (ctx := ctx) (ab := ab) h1 h (by intro h; cases h) hss hb hctx
    (by rw [e]; exact Nat.le_trans ha.1.ns hns) m
  rw [e] at w1
  have w2 := one_step hc (pointer_tab c.w) (.inr (.inr rfl)) (ctx := ctx) (ab := ab) h2 w1.sim (by intro h; cases h)
    w1.top hb hctx (by rw [e]; exact hns) (marshalAtom c ctx .pointer l1 st m).2
  rw [e] at w2
  exact w1.chain (Nat.le_refl _) (Nat.le_refl _) w2

theorem even_sim {c : Cfg} (hc : (abi c).Ok) {base : Nat} (hb : 16 ∣ base) {var : Bool} {st : St} {p : Pos}
    (h : Sim base st p) (hlt : base + p.ns < 2 ^ 62) :
    Sim base (evenSt c var st) (evenPos (abi c) var p) ∧ After p (evenPos (abi c) var p) ∧
      (evenSt c var st).ss = st.ss := by
  have hw : c.w = 4 ∨ c.w = 8 := hc.1
  have h2w : 0 < 2 * c.w := by omega
  have h2 : roundUp p.ni 2 ≤ 8 := roundUp_least (by decide) (by decide) h.ni
  refine ⟨⟨?_, h.uf, ?_, ?_⟩, ⟨?_, Nat.le_refl _, roundUp_ge (by show 0 < 2 * c.w; omega)⟩, rfl⟩
  · simp only [evenSt, evenPos]
    rw [h.ui]
    split
    · exact align_small (by omega) (by have := h.ni; omega)
    · rfl
  · simp only [evenSt, evenPos]
    rw [h.stk, align_small (by omega) (by omega)]
    show roundUp (base + p.ns) (2 * c.w) = base + roundUp p.ns (2 * c.w)
    have hd : 2 * c.w ∣ base := Nat.dvd_trans (by rcases hw with h | h <;> rw [h] <;> decide) hb
    obtain ⟨k, rfl⟩ := hd
    unfold roundUp
    rw [show 2 * c.w * k + p.ns + (2 * c.w - 1) = p.ns + (2 * c.w - 1) + 2 * c.w * k by omega,
      Nat.add_mul_div_left _ _ h2w, Nat.add_mul]
    rw [Nat.mul_comm k]; omega
  · simp only [evenPos]
    split
    · exact h2
    · exact h.ni
  · simp only [evenPos]
    split
    · exact roundUp_ge (by decide)
    · exact Nat.le_refl _

/-- Space for the copy of an argument passed by reference. -/
def copySize (A : Abi) (t : FType) (pl : Place) : Nat := if pl.isRef then roundUp t.size A.xlen else 0

/-- The copy an argument is passed by is at the given address. -/
def RefAt (A : Abi) (R : Regs) (a : Nat) : Place → Prop
  | .direct _ => True
  | .ref l => leNat (R.at A l) = a

/-- What holds for an argument once it is marshalled. -/
structure Arg (A : Abi) (t : FType) (v : List Byte) (pl : Place) (ss : Nat) (R : Regs) : Prop where
  passed : PassedAt A R t v pl
  ext : ExtendedAt A R t v pl
  ref : RefAt A R ss pl

theorem take_put {c : Cfg} {tc : TC} {s : Nat} {v : List Byte} {l : Loc} {bs : List Byte} (h : Put c tc s v l bs) :
    bs.take s = v := h.val

theorem word_notFa {A : Abi} {p : Pos} {k : Nat} : (word A p).1 ≠ .fa k := by
  unfold word; split <;> simp

theorem scalar_of {tb : ScalarTab} {t : FType} (h : Plain tb t) (hs : t.tc ≠ .struct) : tb t.tc = some (t.size, t.align) := by
  cases h with
  | scalar h => exact h
  | struct => exact absurd rfl hs

theorem int_step {c : Cfg} (hc : (abi c).Ok) {t : FType} (h : Plain (tab c.w) t) {var : Bool} {p : Pos} {st : St}
    {ctx base ab ss : Nat} (hs : Sim base st p) (hb : 16 ∣ base) (hss : st.ss = ss) (hab : base + ab ≤ ss)
    (hctx : ctx < 2 ^ 62) (hcw : ctx ≤ 256 ^ c.w) (hws : c.w ∣ ss)
    (hns : (intConv (abi c) var t p).2.ns ≤ ab) (hroom : ss + copySize (abi c) t (intConv (abi c) var t p).1 ≤ ctx)
    {load : Nat → List Byte} {v : List Byte} (hv : v.length = t.size) (hl : ∀ n, n ≤ t.size → load n = v.take n)
    {junk : List Byte} (hj : junk.length = 2 * c.w) (m : Mem) :
    Wrote c ctx base ab p (intConv (abi c) var t p).2 ss (ss + copySize (abi c) t (intConv (abi c) var t p).1) m
      (marshalInt c ctx t var load junk st m) (Arg (abi c) t v (intConv (abi c) var t p).1 ss) := by
  have hw : c.w = 4 ∨ c.w = 8 := hc.1
  have hwf := plain_wf h
  have hpos := hwf.size_pos (tab_ok hw)
  have hald := hwf.align_dvd_size (tab_ok hw)
  have hfull : load t.size = v := by rw [hl _ (Nat.le_refl _)]; exact List.take_of_length_le (by omega)
  have e : ∀ p, atomLoc (abi c) .pointer p = word (abi c) p := fun _ => rfl
  unfold intConv at hns hroom ⊢
  unfold marshalInt
  change _ at hns
  have ex : (abi c).xlen = c.w := rfl
  rw [ex] at hns hroom ⊢
  by_cases hbig : 2 * c.w < t.size
  · -- by reference
    rw [if_pos hbig] at hns hroom ⊢
    rw [if_pos hbig]
    have ecs : copySize (abi c) t (.ref (word (abi c) p).1) = roundUp t.size c.w := rfl
    dsimp only at hns hroom ⊢
    rw [ecs] at hroom ⊢
    have hge := roundUp_ge (v := t.size) (a := c.w) (by omega)
    have hss' : ffiAlign (st.ss + t.size) c.w = ss + roundUp t.size c.w := by
      rw [hss, align_small (by omega) (by omega)]
      obtain ⟨k, rfl⟩ := hws
      unfold roundUp
      rw [show c.w * k + t.size + (c.w - 1) = t.size + (c.w - 1) + c.w * k by omega,
        Nat.add_mul_div_left _ _ (by omega), Nat.add_mul]
      rw [Nat.mul_comm k]; omega
    have hlen : (load t.size).length = t.size := by rw [hfull, hv]
    rw [hss', hss]
    have w1 := one_step hc (pointer_tab c.w) (.inr (.inr rfl)) (ctx := ctx) (ab := ab)
      (ss := ss + roundUp t.size c.w) (load := fun n => (leBytes c.w ss).take n)
      (st := { st with ss := ss + roundUp t.size c.w }) (p := p)
      (by simp) ⟨hs.ui, hs.uf, hs.stk, hs.ni⟩ (by intro h; cases h) rfl (by omega) hroom (by rw [e]; exact hns)
      (m.wr ss (load t.size))
    rw [e] at w1
    refine ⟨w1.sim, w1.top, w1.after, ?_, ?_⟩
    · intro x hx
      rw [w1.keep x (fun hf => hx (fut_mono ⟨Nat.le_refl _, Nat.le_refl _, Nat.le_refl _⟩ (by omega) hf))]
      apply Mem.wr_out
      rw [hlen]
      apply Classical.byContradiction
      intro hn
      exact hx (Or.inr (Or.inr (Or.inr ⟨by omega, by omega⟩)))
    · intro m2 hm2
      have hput := w1.stable m2 hm2
      have hval : leNat ((img c ctx base m2).at (abi c) (word (abi c) p).1) = ss := by
        have h1 := hput.val
        have h2 := hput.len
        have h3 : locLen c (word (abi c) p).1 = c.w := by unfold word; split <;> rfl
        rw [h3] at h2
        rw [List.take_of_length_le (by omega), List.take_of_length_le (by simp)] at h1
        rw [h1, leNat_leBytes, Nat.mod_eq_of_lt (by omega)]
      refine ⟨?_, trivial, hval⟩
      show (img c ctx base m2).mem.rd _ t.size = v
      rw [hval, ← hfull]
      have hmid : ∀ i, i < t.size → ¬ Fut c ctx base ab (word (abi c) p).2 (ss + roundUp t.size c.w) (ss + i) := by
        intro i hi
        unfold Fut
        omega
      have hmid' : ∀ i, i < t.size → ¬ Fut c ctx base ab p (ss + roundUp t.size c.w) (ss + i) := by
        intro i hi
        unfold Fut
        have := w1.after.ns
        omega
      show m2.rd ss t.size = load t.size
      rw [Mem.rd_congr (m := m.wr ss (load t.size)) (m' := m2)]
      · have := Mem.rd_wr_same m ss (load t.size)
        rw [hlen] at this
        exact this
      · intro i hi
        rw [hm2 _ (hmid i hi), w1.keep _ (hmid' i hi)]
  · rw [if_neg hbig] at hns hroom ⊢
    rw [if_neg hbig]
    have hss2 : ss ≤ ctx := by omega
    by_cases hint : (isInt c t.tc || t.tc == .pointer) = true
    · -- a scalar
      rw [if_pos hint]
      have hint' : (abi c).integer t.tc = true ∨ t.tc = .pointer := by
        rw [Bool.or_eq_true, isInt_eq hc, beq_iff_eq] at hint; exact hint
      have hst : t.tc ≠ .struct := by
        intro h'; rw [h'] at hint'; rcases hint' with h | h <;> cases h
      have htab := scalar_of h hst
      have hsw : t.size ≤ c.w := by
        clear hns hroom hl hfull
        rcases hint' with h' | h'
        · have hA : (abi c).xlen = c.w := rfl
          revert h' htab
          cases t.tc <;> simp [Abi.integer, tab, hA] <;> intros <;> omega
        · rw [h', pointer_tab] at htab
          exact Nat.le_of_eq (congrArg Prod.fst (Option.some.inj htab)).symm
      rw [if_pos hsw] at hns hroom ⊢
      have hreal : (abi c).real t.tc = false := by
        rcases hint' with h' | h'
        · cases hr : (abi c).real t.tc with
          | false => rfl
          | true => rw [real_not_int hr] at h'; cases h'
        · rw [h']; rfl
      have eat : atomLoc (abi c) t.tc p = word (abi c) p := by unfold atomLoc; rw [if_neg (by simp [hreal])]
      have w1 := one_step hc htab (.inr hint') (ctx := ctx) (ab := ab) (ss := ss) (load := load) (by rw [hfull, hv]) hs
        (by rw [hreal]; intro h; cases h) hss hab hss2 (by rw [eat]; exact hns) m
      rw [eat] at w1
      refine w1.imp ?_
      intro R hp
      refine ⟨?_, ?_, trivial⟩
      · intro q hq
        rw [List.mem_singleton] at hq
        subst hq
        have := hp.val
        rw [hfull] at this
        dsimp only
        rw [this, List.drop_zero, List.take_of_length_le (by omega)]
      · intro q hq
        rw [List.mem_singleton] at hq
        subst hq
        refine ⟨fun hi => ?_, fun k hk => absurd hk word_notFa⟩
        have := hp.wide hi
        rw [hfull] at this
        exact this
    · -- words
      rw [if_neg hint]
      have hnint : (abi c).integer t.tc = true → False := by
        intro h'
        rw [← isInt_eq hc] at h'
        rw [h'] at hint
        exact hint rfl
      dsimp only
      rw [if_pos hpos, hfull]
      have hrl : ((v ++ junk.drop t.size)).length = 2 * c.w := by
        rw [List.length_append, List.length_drop, hv, hj]; omega
      by_cases hsm : t.size ≤ c.w
      · have hal : ¬ c.w < t.align := by have := Nat.le_of_dvd hpos hald; omega
        rw [if_pos hsm] at hns hroom ⊢
        rw [if_neg hal, if_neg (by omega)]
        have w1 := one_step hc (pointer_tab c.w) (.inr (.inr rfl)) (ctx := ctx) (ab := ab) (ss := ss)
          (load := fun n => (v ++ junk.drop t.size).take n) (by rw [List.length_take]; omega) hs
          (by intro h; cases h) hss hab hss2 (by rw [e]; exact hns) m
        rw [e] at w1
        refine w1.imp ?_
        intro R hp
        refine ⟨?_, ?_, trivial⟩
        · intro q hq
          rw [List.mem_singleton] at hq
          subst hq
          have := congrArg (List.take t.size) hp.val
          rw [List.take_take, List.take_take, Nat.min_eq_left hsm, List.take_left' hv] at this
          dsimp only
          rw [this, List.drop_zero, List.take_of_length_le (by omega)]
        · intro q hq
          rw [List.mem_singleton] at hq
          subst hq
          exact ⟨fun hi => (hnint hi).elim, fun k hk => absurd hk word_notFa⟩
      · rw [if_neg hsm] at hns hroom ⊢
        rw [if_pos (show c.w < t.size by omega)]
        dsimp only at hns hroom ⊢
        have hq : ∃ st1 q, (if c.w < t.align then evenSt c var st else st) = st1 ∧
            (if c.w < t.align then evenPos (abi c) var p else p) = q ∧ Sim base st1 q ∧ After p q ∧ st1.ss = ss := by
          refine ⟨_, _, rfl, rfl, ?_⟩
          split
          · have hp1 : p.ns ≤ ab := by
              rename_i hal
              rw [if_pos hal] at hns
              have h1 : p.ns ≤ (evenPos (abi c) var p).ns := roundUp_ge (by show 0 < 2 * c.w; omega)
              have hni : (evenPos (abi c) var p).ni ≤ 8 := by
                simp only [evenPos]
                split
                · exact roundUp_least (by decide) (by decide) hs.ni
                · exact hs.ni
              have h2 := word_spec c (evenPos (abi c) var p) hni
              have h3 := word_spec c _ h2.2.1
              have := h2.1.ns
              have := h3.1.ns
              omega
            have he := even_sim hc hb (var := var) hs (by omega)
            exact ⟨he.1, he.2.1, he.2.2.trans hss⟩
          · exact ⟨hs, ⟨Nat.le_refl _, Nat.le_refl _, Nat.le_refl _⟩, hss⟩
        obtain ⟨st1, q, e1, e2, hs1, ha1, hss1⟩ := hq
        rw [e2] at hns hroom ⊢
        rw [e1]
        have w1 := words_step hc (ctx := ctx) (ab := ab) (ss := ss)
          (l1 := fun n => (v ++ junk.drop t.size).take n)
          (l2 := fun n => ((v ++ junk.drop t.size).drop c.w).take n)
          (by rw [List.length_take]; omega) (by rw [List.length_take, List.length_drop]; omega) hs1 hss1 hab hss2 hns m
        refine ⟨w1.sim, w1.top, ha1.trans w1.after, w1.keep.weaken ha1 (Nat.le_refl _), fun m2 hk => ?_⟩
        obtain ⟨hp1, hp2⟩ := w1.stable m2 hk
        refine ⟨?_, ?_, trivial⟩
        · intro pc hpc
          rw [List.mem_cons, List.mem_singleton] at hpc
          rcases hpc with rfl | rfl
          · have := hp1.val
            dsimp only
            rw [this, List.drop_zero, List.take_append_of_le_length (by omega)]
          · have := congrArg (List.take (t.size - c.w)) hp2.val
            rw [List.take_take, List.take_take, Nat.min_eq_left (by omega), List.drop_append_of_le_length (by omega),
              List.take_append_of_le_length (by rw [List.length_drop]; omega)] at this
            exact this
        · intro pc hpc
          rw [List.mem_cons, List.mem_singleton] at hpc
          rcases hpc with rfl | rfl <;>
            exact ⟨fun hi => (hnint hi).elim, fun k hk => absurd hk word_notFa⟩

theorem marshal_step {c : Cfg} (hc : (abi c).Ok) {t : FType} (h : Plain (tab c.w) t) {var : Bool} {p : Pos} {st : St}
    {ctx base ab ss : Nat} (hs : Sim base st p) (hok : SingleOk (abi c) var t p) (hb : 16 ∣ base) (hss : st.ss = ss)
    (hab : base + ab ≤ ss) (hctx : ctx < 2 ^ 62) (hcw : ctx ≤ 256 ^ c.w) (hws : c.w ∣ ss)
    (hns : (placeArg (abi c) var t p).2.ns ≤ ab) (hroom : ss + copySize (abi c) t (placeArg (abi c) var t p).1 ≤ ctx)
    {load : Nat → Nat → List Byte} {v : List Byte} (hv : v.length = t.size)
    (hl : ∀ o n, o + n ≤ t.size → load o n = (v.drop o).take n)
    {junk : List Byte} (hj : junk.length = 2 * c.w) (m : Mem) :
    Wrote c ctx base ab p (placeArg (abi c) var t p).2 ss (ss + copySize (abi c) t (placeArg (abi c) var t p).1) m
      (marshal c ctx t var load junk st m) (Arg (abi c) t v (placeArg (abi c) var t p).1 ss) := by
  have hw : c.w = 4 ∨ c.w = 8 := hc.1
  have hl0 : ∀ n, n ≤ t.size → load 0 n = v.take n := fun n hn => by rw [hl 0 n (by omega), List.drop_zero]
  have hcl : ∀ l : List Piece, copySize (abi c) t (.direct l) = 0 := fun _ => rfl
  cases classify hc h hs.ui hs.uf hs.ni hok with
  | one s a tc hvar ht hsz hal hlv hr hn hp hf =>
    rw [hp] at hns hroom ⊢
    dsimp only at hns hroom ⊢
    rw [hcl] at hroom ⊢
    have hsl : (load 0 s).length = s := by rw [hl0 s (by omega), List.length_take]; omega
    have w1 := one_step hc ht (.inl hr) (ctx := ctx) (ab := ab) (ss := ss) hsl hs (fun _ => hn) hss hab (by omega) hns m
    have em : marshal c ctx t var load junk st m = marshalAtom c ctx tc (load 0) st m := by
      unfold marshal
      rcases hf with hf | ⟨hf, htc⟩
      · rw [hf]; rfl
      · rw [hf, hvar, htc, hs.uf, isFloat_eq hc, hr]
        simp [hn]
    rw [em]
    refine w1.imp ?_
    intro R hput
    have hfv : load 0 s = v := by rw [hl0 s (by omega)]; exact List.take_of_length_le (by omega)
    have hni : (abi c).integer t.tc = true → False := by
      intro hi
      rcases hf with hf | ⟨_, htc⟩
      · unfold fsiOf at hf
        split at hf
        · rename_i hx
          simp only [Bool.and_eq_true, beq_iff_eq] at hx
          rw [hx.1.2] at hi; cases hi
        · cases hf
      · rw [htc, real_not_int hr] at hi; cases hi
    refine ⟨?_, ?_, trivial⟩
    · intro q hq
      rw [List.mem_singleton] at hq
      subst hq
      dsimp only
      rw [hput.val, hfv, List.drop_zero, List.take_of_length_le (by omega)]
    · intro q hq
      rw [List.mem_singleton] at hq
      subst hq
      exact ⟨fun hi => (hni hi).elim, hput.box⟩
  | two s a s' a' tc tc' hvar ht ht' hlv h1 h2 hp hf =>
    rw [hp] at hns hroom ⊢
    dsimp only at hns hroom ⊢
    rw [hcl] at hroom ⊢
    have hbnd := (plain_wf h).leaves_bounds (tab_ok hw) 0
    rw [hlv] at hbnd
    have hb1 := hbnd ⟨0, s, tc⟩ (by simp)
    have hb2 := hbnd ⟨0 + roundUp s a', s', tc'⟩ (by simp)
    simp only [Nat.zero_add] at hb1 hb2
    have ha' : 0 < a' := by have := (tab_small hw ht').2.1; omega
    have hoff : roundUp s a' ≠ 0 := by
      have := roundUp_ge (v := s) ha'
      have := (tab_small hw ht).2.2.1
      omega
    have hl1 : load 0 s = v.take s := hl0 s (by omega)
    have hl2 : load (roundUp s a') s' = (v.drop (roundUp s a')).take s' := hl _ _ (by omega)
    have hn1 : (abi c).real tc = true → p.nf < 8 := by
      intro hr
      rcases h1 with h1 | h1
      · exact h1.2
      · rw [real_not_int hr] at h1; cases h1.1
    have hn2 : (abi c).real tc' = true → (atomLoc (abi c) tc p).2.nf < 8 := by
      intro hr
      rcases h2 with h2 | h2
      · exact h2.2
      · rw [real_not_int hr] at h2; cases h2.1
    have hq1 := atomLoc_spec c tc p hs.ni hn1
    have hq2 := atomLoc_spec c tc' _ hq1.2.1 hn2
    have w1 := one_step hc ht (by rcases h1 with h | h; exact .inl h.1; exact .inr (.inl h.1)) (ctx := ctx) (ab := ab) (ss := ss)
      (load := load 0) (by rw [hl1, List.length_take]; omega) hs hn1 hss hab (by omega) (Nat.le_trans hq2.1.ns hns) m
    have w2 := one_step hc ht' (by rcases h2 with h | h; exact .inl h.1; exact .inr (.inl h.1)) (ctx := ctx) (ab := ab) (ss := ss)
      (load := load (roundUp s a')) (by rw [hl2, List.length_take, List.length_drop]; omega) w1.sim hn2 w1.top hab (by omega) hns
      (marshalAtom c ctx tc (load 0) st m).2
    have em : marshal c ctx t var load junk st m =
        marshalAtom c ctx tc' (load (roundUp s a')) (marshalAtom c ctx tc (load 0) st m).1
          (marshalAtom c ctx tc (load 0) st m).2 := by
      unfold marshal
      rw [hf]
      unfold marshalFsi
      dsimp only
      rw [if_pos hoff]
    rw [em]
    refine (w1.chain (Nat.le_refl _) (Nat.le_refl _) w2).imp ?_
    rintro R ⟨p1, p2⟩
    have hst : t.tc = .struct := by
      unfold fsiOf at hf
      split at hf
      · rename_i hx
        simp only [Bool.and_eq_true, beq_iff_eq] at hx
        exact hx.1.2
      · cases hf
    have hni : (abi c).integer t.tc = true → False := by rw [hst]; intro h; cases h
    refine ⟨?_, ?_, trivial⟩
    · intro q hq
      rw [List.mem_cons, List.mem_singleton] at hq
      rcases hq with rfl | rfl
      · dsimp only
        rw [p1.val, hl1, List.drop_zero]
      · dsimp only
        rw [p2.val, hl2]
    · intro q hq
      rw [List.mem_cons, List.mem_singleton] at hq
      rcases hq with rfl | rfl
      · exact ⟨fun hi => (hni hi).elim, p1.box⟩
      · exact ⟨fun hi => (hni hi).elim, p2.box⟩
  | int hp hf hn =>
    rw [hp] at hns hroom ⊢
    have em : marshal c ctx t var load junk st m = marshalInt c ctx t var (load 0) junk st m := by
      unfold marshal
      rw [hf]
      dsimp only
      rw [hn]
      simp
    rw [em]
    exact int_step hc h hs hb hss hab hctx hcw hws hns hroom hv hl0 hj m

end Verif.RV
