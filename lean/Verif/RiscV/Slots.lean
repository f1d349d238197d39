import Verif.RiscV.Call

/-! Which float register slots a call writes. -/
namespace Verif.RV
open Verif Verif.Spec Verif.Spec.RV

/-- Register counters correspond to a position. -/
structure Cnt (st : St) (p : Pos) : Prop where
  ui : st.ui = p.ni
  uf : st.uf = p.nf
  ni : p.ni ≤ 8
  nf : p.nf ≤ 8

theorem putWord_cnt {c : Cfg} {ctx : Nat} {v : List Byte} {st : St} {p : Pos} (h : Cnt st p) (m : Mem) :
    Cnt (putWord c ctx v st m).1 (word (abi c) p).2 := by
  obtain ⟨h1, h2, h3, h4⟩ := h
  unfold putWord word
  by_cases hi : st.ui = 8
  · rw [if_pos hi, if_neg (by omega)]
    exact ⟨h1, h2, h3, h4⟩
  · rw [if_neg hi, if_pos (by omega)]
    exact ⟨by dsimp only; omega, h2, by dsimp only; omega, h4⟩

theorem atom_cnt {c : Cfg} (hc : (abi c).Ok) {ctx : Nat} {tc : TC} {load : Nat → List Byte} {st : St} {p : Pos}
    (h : Cnt st p) (hn : (abi c).real tc = true → p.nf < 8) (m : Mem) :
    Cnt (marshalAtom c ctx tc load st m).1 (atomLoc (abi c) tc p).2 := by
  unfold marshalAtom atomLoc
  rw [isFloat_eq hc]
  by_cases hr : (abi c).real tc = true
  · rw [if_pos hr, if_pos hr]
    have := hn hr
    obtain ⟨h1, h2, h3, h4⟩ := h
    exact ⟨h1, by dsimp only; omega, h3, by dsimp only; omega⟩
  · rw [if_neg hr, if_neg hr]
    split <;> exact putWord_cnt h m

theorem even_cnt {c : Cfg} (hw : c.w = 4 ∨ c.w = 8) {st : St} {p : Pos} (h : Cnt st p) (var : Bool) :
    Cnt (evenSt c var st) (evenPos (abi c) var p) := by
  obtain ⟨h1, h2, h3, h4⟩ := h
  unfold evenSt evenPos
  refine ⟨?_, h2, ?_, h4⟩
  · dsimp only
    cases var with
    | true => rw [if_pos rfl, if_pos rfl, h1, align_small (by omega) (by omega)]
    | false => rw [if_neg (by decide), if_neg (by decide), h1]
  · dsimp only
    cases var with
    | true =>
      rw [if_pos rfl]
      unfold roundUp
      omega
    | false => rw [if_neg (by decide)]; exact h3

theorem int_cnt {c : Cfg} (hc : (abi c).Ok) {ctx : Nat} {t : FType} (h : Plain (tab c.w) t) {var : Bool}
    {load : Nat → List Byte} {junk : List Byte} {st : St} {p : Pos} (hs : Cnt st p) (m : Mem) :
    Cnt (marshalInt c ctx t var load junk st m).1 (intConv (abi c) var t p).2 := by
  have hw : c.w = 4 ∨ c.w = 8 := hc.1
  have ex : (abi c).xlen = c.w := rfl
  have hpos := (plain_wf h).size_pos (tab_ok hw)
  have hnp : ∀ {p : Pos}, (abi c).real .pointer = true → p.nf < 8 := fun h => by cases h
  have hptr : ∀ {load : Nat → List Byte} {st : St} {p : Pos}, Cnt st p → ∀ m,
      Cnt (marshalAtom c ctx .pointer load st m).1 (word (abi c) p).2 := fun hs m => atom_cnt hc (tc := .pointer) hs hnp m
  unfold marshalInt intConv
  rw [ex]
  by_cases hb : 2 * c.w < t.size
  · rw [if_pos hb, if_pos hb]
    exact hptr (st := { st with ss := ffiAlign (st.ss + t.size) c.w }) ⟨hs.ui, hs.uf, hs.ni, hs.nf⟩ _
  · rw [if_neg hb, if_neg hb]
    by_cases hi : (isInt c t.tc || t.tc == .pointer) = true
    · rw [if_pos hi]
      have hnr : (abi c).real t.tc = false := by
        rw [isInt_eq hc] at hi
        cases hx : (abi c).real t.tc with
        | false => rfl
        | true =>
          rw [real_not_int hx] at hi
          have : t.tc = .pointer := by simpa using hi
          rw [this] at hx; cases hx
      have hle : t.size ≤ c.w := by
        have hst : t.tc ≠ .struct := by
          intro h'; rw [h', isInt_eq hc] at hi; revert hi; simp [Abi.integer]
        have ht := scalar_of h hst
        rw [isInt_eq hc] at hi
        generalize t.tc = tc at hi ht
        generalize t.size = s at ht ⊢
        clear hb hpos hst hnr
        have e8 : (abi c).integer .uint64 = decide (8 ≤ c.w) ∧ (abi c).integer .sint64 = decide (8 ≤ c.w) := ⟨rfl, rfl⟩
        cases tc <;> simp [tab] at ht <;> simp [e8] at hi <;> first | omega | (simp [Abi.integer] at hi)
      rw [if_pos hle]
      have := atom_cnt hc (ctx := ctx) (tc := t.tc) (load := load) hs (by rw [hnr]; intro h; cases h) m
      unfold atomLoc at this
      rw [if_neg (by rw [hnr]; decide)] at this
      exact this
    · rw [if_neg hi]
      dsimp only
      rw [if_pos hpos]
      by_cases hsm : t.size ≤ c.w
      · rw [if_pos hsm, if_neg (by omega)]
        rw [if_neg]
        · exact hptr hs _
        · have hd := Nat.le_of_dvd hpos ((plain_wf h).align_dvd_size (tab_ok hw))
          omega
      · rw [if_neg hsm, if_pos (by omega)]
        by_cases ha : c.w < t.align
        · rw [if_pos ha, if_pos ha]
          exact hptr (hptr (even_cnt hw hs var) _) _
        · rw [if_neg ha, if_neg ha]
          exact hptr (hptr hs _) _

theorem marshal_cnt {c : Cfg} (hc : (abi c).Ok) {ctx : Nat} {t : FType} (h : Plain (tab c.w) t) {var : Bool}
    {load : Nat → Nat → List Byte} {junk : List Byte} {st : St} {p : Pos} (hs : Cnt st p)
    (hok : SingleOk (abi c) var t p) (m : Mem) :
    Cnt (marshal c ctx t var load junk st m).1 (placeArg (abi c) var t p).2 := by
  have hw : c.w = 4 ∨ c.w = 8 := hc.1
  unfold marshal
  cases classify hc h hs.ui hs.uf hs.ni hok with
  | one s a tc hv ht hsz hal hl hr hn hp hf =>
    rw [hp]
    have key : ∀ load m, Cnt (marshalAtom c ctx tc load st m).1 (atomLoc (abi c) tc p).2 :=
      fun load m => atom_cnt hc hs (fun _ => hn) m
    rcases hf with hf | ⟨hf, htc⟩
    · rw [hf]
      show Cnt (marshalFsi c ctx _ load st m).1 _
      unfold marshalFsi
      dsimp only
      rw [if_neg (by decide)]
      exact key _ _
    · rw [hf]
      dsimp only
      rw [hv, htc, isFloat_eq hc, hr, if_pos (by have := hs.uf; simp; omega)]
      exact key _ _
  | two s a s' a' tc tc' hv ht ht' hl h1 h2 hp hf =>
    rw [hp, hf]
    show Cnt (marshalFsi c ctx _ load st m).1 _
    have hpos : 0 < roundUp s a' :=
      Nat.lt_of_lt_of_le (tab_small hw ht).2.2.1 (roundUp_ge (by rcases (tab_small hw ht').2.1 with h | h | h | h | h <;> omega))
    unfold marshalFsi
    dsimp only
    rw [if_pos (by omega)]
    refine atom_cnt hc (atom_cnt hc hs ?_ _) ?_ _
    · intro hr
      rcases h1 with h1 | h1
      · exact h1.2
      · rw [real_not_int hr] at h1; cases h1.1
    · intro hr
      rcases h2 with h2 | h2
      · exact h2.2
      · rw [real_not_int hr] at h2; cases h2.1
  | int hp hf hn =>
    rw [hp, hf]
    dsimp only
    rw [if_neg (by rw [hn]; decide)]
    exact int_cnt hc h hs m

/-! ## Past the eighth -/

theorem atom_uf (c : Cfg) (ctx : Nat) (tc : TC) (load : Nat → List Byte) (st : St) (m : Mem) :
    st.uf ≤ (marshalAtom c ctx tc load st m).1.uf := by
  have hpw : ∀ v, st.uf ≤ (putWord c ctx v st m).1.uf := by
    intro v; unfold putWord; split <;> exact Nat.le_refl _
  unfold marshalAtom
  split
  · exact Nat.le_succ _
  · split <;> exact hpw _

theorem marshal_uf (c : Cfg) (ctx : Nat) (t : FType) (var : Bool) (load : Nat → Nat → List Byte) (junk : List Byte)
    (st : St) (m : Mem) : st.uf ≤ (marshal c ctx t var load junk st m).1.uf := by
  unfold marshal
  split
  · unfold marshalFsi
    dsimp only
    split
    · exact (atom_uf ..).trans (atom_uf ..)
    · exact atom_uf ..
  · split
    · exact atom_uf ..
    · unfold marshalInt
      split
      · exact atom_uf c ctx .pointer _ { st with ss := ffiAlign (st.ss + t.size) c.w } _
      · split
        · exact atom_uf ..
        · dsimp only
          have he : st.uf ≤ (if c.w < t.align then evenSt c var st else st).uf := by split <;> exact Nat.le_refl _
          generalize (if c.w < t.align then evenSt c var st else st) = st' at he ⊢
          generalize hr : (if 0 < t.size then
            marshalAtom c ctx .pointer (fun n => (load 0 t.size ++ junk.drop t.size).take n) st' m else (st', m)) = r
          have hr' : st'.uf ≤ r.1.uf := by
            rw [← hr]; split
            · exact atom_uf ..
            · exact Nat.le_refl _
          split
          · exact he.trans (hr'.trans (atom_uf ..))
          · exact he.trans hr'

theorem callLoop_uf (c : Cfg) (ctx : Nat) (junk : Nat → List Byte) (ts : List FType) :
    ∀ (as : List Nat) (i : Nat) (st : St) (m : Mem), st.uf ≤ (callLoop c ctx junk ts as i st m).1.uf := by
  induction ts with
  | nil => intro as i st m; cases as <;> exact Nat.le_refl _
  | cons t ts ih =>
    intro as i st m
    cases as with
    | nil => exact Nat.le_refl _
    | cons a as =>
      rw [callLoop]
      exact (marshal_uf ..).trans (ih _ _ _ _)

theorem intConv_nf (A : Abi) (var : Bool) (t : FType) (p : Pos) : (intConv A var t p).2.nf = p.nf := by
  have hwd : ∀ p, (word A p).2.nf = p.nf := by intro p; unfold word; split <;> rfl
  unfold intConv
  split
  · exact hwd _
  · split
    · exact hwd _
    · dsimp only
      rw [hwd, hwd]
      split <;> rfl

/-- A struct of one real is passed as an element whatever registers are left. -/
theorem single_fsi {c : Cfg} (hc : (abi c).Ok) {t : FType} (h : Plain (tab c.w) t) (ht : t.tc = .struct) {l : Leaf}
    (hl : leaves t 0 = [l]) (hr : (abi c).real l.tc = true) (st : St) : fsiOf c t false st = some ⟨l.tc, 0, .void⟩ := by
  have hz : fsiOf c t false ⟨0, 0, 0, 0⟩ = some ⟨l.tc, 0, .void⟩ := by
    cases classify hc h (var := false) (p := ⟨0, 0, 0⟩) (st := ⟨0, 0, 0, 0⟩) rfl rfl (by decide) (singleOk_zero _ _ _ _ _) with
    | one s a tc hv ht' hsz hal hlv hr' hn hp hf =>
      have e := hlv 0
      rw [hl] at e
      have e : l = ⟨0, s, tc⟩ := by simpa using e
      rw [e]
      rcases hf with hf | ⟨_, hf⟩
      · exact hf
      · rw [ht] at hf; rw [← hf] at hr'; cases hr'
    | two s a s' a' tc tc' hv ht ht' hlv h1 h2 hp hf =>
      have e := hlv 0
      rw [hl] at e
      simp at e
    | int hp hf hn =>
      have e := congrArg (fun q => q.2.nf) hp
      rw [intConv_nf] at e
      unfold placeArg at e
      rw [if_neg (by decide), hl] at e
      dsimp only at e
      rw [if_pos ⟨hr, by decide⟩] at e
      dsimp only at e
      omega
  revert hz
  unfold fsiOf
  split
  · unfold asElements
    split
    · exact id
    · rename_i f g hfg
      dsimp only
      split
      · intro h; cases h
      · rename_i hn
        split
        · intro h; cases h
        · intro h
          have hg : g.tc = .void := by
            have := congrArg (fun o => o.map Fsi.type2) h
            simpa using this
          rw [hg] at hn
          exfalso
          apply hn
          have e1 : isFloat c .void = false := rfl
          have e2 : isInt c .void = false := rfl
          have hb : (isFloat c f.tc).toNat ≤ 1 ∧ (isInt c f.tc).toNat ≤ 1 := ⟨Bool.toNat_le _, Bool.toNat_le _⟩
          have hx : isFloat c f.tc = true → isInt c f.tc = false := by
            rw [isFloat_eq hc, isInt_eq hc]; exact real_not_int
          rw [e1, e2]
          cases hx1 : isFloat c f.tc with
          | false => left; rfl
          | true => rw [hx hx1]; right; decide
    · exact id
  · exact id

/-- The eighth float slot is the last one written exactly if no named struct of one real
is met with all float registers in use. -/
theorem slots_iff {c : Cfg} (hc : (abi c).Ok) {ctx : Nat} {junk : Nat → List Byte} {ts : List FType} :
    ∀ {as : List Nat} {i : Nat} {st : St} {p : Pos} (m : Mem), (∀ t ∈ ts, Plain (tab c.w) t) → as.length = ts.length →
      Cnt st p → ((callLoop c ctx junk ts as i st m).1.uf ≤ 8 ↔ SinglesOk (abi c) c.nfixed ts i p) := by
  induction ts with
  | nil =>
    intro as i st p m _ _ hs
    have : callLoop c ctx junk [] as i st m = (st, m) := by cases as <;> rfl
    rw [this]
    exact ⟨fun _ => trivial, fun _ => by have := hs.uf; have := hs.nf; dsimp only; omega⟩
  | cons t ts ih =>
    intro as i st p m hp hlen hs
    cases as with
    | nil => cases hlen
    | cons a as =>
      rw [callLoop, SinglesOk]
      by_cases hok : SingleOk (abi c) (decide (c.nfixed ≤ i)) t p
      · rw [ih _ (fun x hx => hp x (by simp [hx])) (by simpa using hlen) (marshal_cnt hc (hp t (by simp)) hs hok m)]
        exact ⟨fun h => ⟨hok, h⟩, fun h => h.2⟩
      · constructor
        · intro hle
          exfalso
          unfold SingleOk at hok
          rw [Classical.not_imp] at hok
          obtain ⟨hv, hok⟩ := hok
          rw [Classical.not_imp] at hok
          obtain ⟨hst, hok⟩ := hok
          rw [not_forall] at hok
          obtain ⟨l, hok⟩ := hok
          rw [Classical.not_imp] at hok
          obtain ⟨hl, hok⟩ := hok
          rw [Classical.not_imp] at hok
          obtain ⟨hr, hn⟩ := hok
          have hf := single_fsi hc (hp t (by simp)) hst hl hr st
          have hgo : (marshal c ctx t (decide (c.nfixed ≤ i)) (fun o n => m.rd (a + o) n) (junk i) st m).1.uf = st.uf + 1 := by
            unfold marshal
            rw [hv, hf]
            show (marshalFsi c ctx _ _ st m).1.uf = _
            unfold marshalFsi
            dsimp only
            rw [if_neg (by decide)]
            unfold marshalAtom
            rw [isFloat_eq hc, if_pos hr]
          have := callLoop_uf c ctx junk ts as (i + 1)
            (marshal c ctx t (decide (c.nfixed ≤ i)) (fun o n => m.rd (a + o) n) (junk i) st m).1
            (marshal c ctx t (decide (c.nfixed ≤ i)) (fun o n => m.rd (a + o) n) (junk i) st m).2
          have := hs.uf
          omega
        · intro h; exact absurd h.1 hok

theorem call_slots {c : Cfg} {bytes : Nat} {rt : FType} {ats : List FType} {I : CallIn} (hc : (abi c).Ok)
    (hr : RetType c.w rt) (ha : ∀ t ∈ ats, Plain (tab c.w) t) (hl : I.avalue.length = ats.length) :
    (callEntry c bytes rt ats I).uf ≤ 8 ↔ SinglesOk (abi c) c.nfixed ats 0 (start (abi c) (retOf rt)) := by
  unfold callEntry
  dsimp only
  refine slots_iff hc _ ha hl ?_
  generalize alloca I.sp _ = base
  generalize (base + argBytes c ats.length + rvalBytes c rt I.rvalue) = ss
  rw [start_eq hc hr base ss]
  have h0 : Cnt ⟨0, 0, base, ss⟩ ⟨0, 0, 0⟩ := ⟨rfl, rfl, by decide, by decide⟩
  split
  · exact atom_cnt hc (tc := .pointer) h0 (fun h => by cases h) _
  · exact h0

end Verif.RV
