import Verif.X64.CallLoop

namespace Verif.X64
open Verif Spec Spec.X64

/-! ## Preparation -/

theorem prepLoop_spec : ∀ (ts : List FType) (g s off : Nat), (∀ t ∈ ts, WF lp64 t) →
    (totals ts g s off).2.2 < 2 ^ 63 → prepLoop ts g s off = .ok (totals ts g s off) := by
  intro ts
  induction ts with
  | nil => intro g s off _ _; rfl
  | cons t ts ih =>
    intro g s off hwf hlt
    have hpos : ∀ t ∈ ts, 0 < t.align := fun x hx => (hwf x (by simp [hx])).align_pos lp64_ok
    have hwf' := fun x hx => hwf x (List.mem_cons_of_mem _ hx)
    have ht := hwf t (by simp)
    rw [prepLoop]
    rcases arg_cases ht ts g s off with ⟨ex, hex, hin, _, htt⟩ | ⟨ex, cls, hr, hex, hin, _, _, _, htt⟩
    · rw [htt] at hlt ⊢
      have hge := totals_ge ts g s (memOff t off + t.size) hpos
      obtain ⟨h1, h2⟩ := stackAlign_spec ht
      have hoff : off ≤ memOff t off := roundUp_ge (by omega)
      have he : ffiAlign off (stackAlign t) = memOff t off := by
        rw [ffiAlign_small (by omega) (by omega), memOff, ← h1]
      rw [hex]
      simp only [hin, he]
      rw [Nat.mod_eq_of_lt (by omega)]
      exact ih _ _ _ hwf' hlt
    · rw [htt] at hlt ⊢
      rw [hex]
      simp only [hin]
      exact ih _ _ _ hwf' hlt

theorem assign_sse (cs : List EB) (g s : Nat) :
    (assign cs g s).countP Reg.isSse = nSse cs := by
  induction cs generalizing g s with
  | nil => rfl
  | cons e cs ih =>
    rw [nSse_cons]
    cases e with
    | int => simp only [assign]; rw [List.countP_cons, ih]; simp [Reg.isSse]
    | sse => simp only [assign]; rw [List.countP_cons, ih]; simp [Reg.isSse]

theorem totals_sse (ts : List FType) (g s off : Nat) :
    (totals ts g s off).2.1 = s + sseUsed (place ts g s off) := by
  induction ts generalizing g s off with
  | nil => rfl
  | cons t ts ih =>
    unfold totals place
    split
    · split
      · rw [ih]; simp only [sseUsed, assign_sse]; omega
      · rw [ih]; rfl
    · rw [ih]; rfl

theorem place_length (ts : List FType) (g s off : Nat) : (place ts g s off).length = ts.length := by
  induction ts generalizing g s off with
  | nil => rfl
  | cons t ts ih =>
    unfold place
    split
    · split <;> simp [ih]
    · simp [ih]

theorem totals_le (ts : List FType) (g s off : Nat) (hg : g ≤ 6) (hs : s ≤ 8) :
    (totals ts g s off).1 ≤ 6 ∧ (totals ts g s off).2.1 ≤ 8 := by
  induction ts generalizing g s off with
  | nil => exact ⟨hg, hs⟩
  | cons t ts ih =>
    unfold totals
    split
    · split
      · rename_i h; exact ih _ _ _ h.1 h.2
      · exact ih _ _ _ hg hs
    · exact ih _ _ _ hg hs

/-- Registers and memory used by a place are within the totals. -/
theorem place_below (ts : List FType) (g s off : Nat) (hpos : ∀ t ∈ ts, 0 < t.align) (i : Nat)
    (t : FType) (p : Place) (ht : ts[i]? = some t) (hp : (place ts g s off)[i]? = some p) :
    Below t (totals ts g s off).1 (totals ts g s off).2.1 (totals ts g s off).2.2 p := by
  induction ts generalizing g s off i with
  | nil => simp at ht
  | cons t' ts ih =>
    have hmono : ∀ (ts : List FType) g s off, g ≤ (totals ts g s off).1 ∧ s ≤ (totals ts g s off).2.1 := by
      intro ts
      induction ts with
      | nil => intro g s off; exact ⟨Nat.le_refl _, Nat.le_refl _⟩
      | cons t ts ih =>
        intro g s off
        unfold totals
        split
        · split
          · have := ih (g + nInt ‹_›) (s + nSse ‹_›) off; omega
          · exact ih _ _ _
        · exact ih _ _ _
    have hpos' : ∀ t ∈ ts, 0 < t.align := fun x hx => hpos x (by simp [hx])
    have hm0 : ∀ g s off, (place (t' :: ts) g s off) = .stack (memOff t' off) :: place ts g s (memOff t' off + t'.size) →
        totals (t' :: ts) g s off = totals ts g s (memOff t' off + t'.size) →
        (place (t' :: ts) g s off)[i]? = some p →
        Below t (totals (t' :: ts) g s off).1 (totals (t' :: ts) g s off).2.1 (totals (t' :: ts) g s off).2.2 p := by
      intro g s off h1 h2 h3
      rw [h1] at h3
      rw [h2]
      cases i with
      | zero =>
        simp only [List.getElem?_cons_zero, Option.some.injEq] at ht h3
        subst ht h3
        exact totals_ge ts g s _ hpos'
      | succ i =>
        simp only [List.getElem?_cons_succ] at ht h3
        exact ih _ _ _ hpos' i ht h3
    rcases hac : argClass t' with _ | cs
    · exact hm0 g s off (by simp [place, hac]) (by simp [totals, hac]) hp
    · by_cases hfit : g + nInt cs ≤ 6 ∧ s + nSse cs ≤ 8
      · have h1 : place (t' :: ts) g s off = .regs (assign cs g s) :: place ts (g + nInt cs) (s + nSse cs) off := by
          simp [place, hac, hfit]
        have h2 : totals (t' :: ts) g s off = totals ts (g + nInt cs) (s + nSse cs) off := by
          simp [totals, hac, hfit]
        rw [h1] at hp
        rw [h2]
        cases i with
        | zero =>
          simp only [List.getElem?_cons_zero, Option.some.injEq] at ht hp
          subst ht hp
          intro r hr
          have h := assign_below _ _ _ r hr
          have := hmono ts (g + nInt cs) (s + nSse cs) off
          cases r <;> simp only at h ⊢ <;> omega
        | succ i =>
          simp only [List.getElem?_cons_succ] at ht hp
          exact ih _ _ _ hpos' i ht hp
      · exact hm0 g s off (by simp [place, hac, hfit]) (by simp [totals, hac, hfit]) hp

/-- View of the machine state at function entry. -/
def regsOfEntry (E : Entry) : Regs := ⟨E.gpr, E.xmm, E.stk⟩

/-- First general register available for arguments. -/
def firstGpr (fl : Flags) : Nat := if fl.inMem then 1 else 0

theorem leNat_leBytes_of_lt {n v : Nat} (h : v < 256 ^ n) : leNat (leBytes n v) = v := by
  rw [leNat_leBytes, Nat.mod_eq_of_lt h]

theorem callEntry_spec {fl : Flags} {bytes : Nat} {ats : List FType} {as : List (List Byte)}
    {rvalue closure sp : Nat} {mem0 : Buf} {saved : List Byte} {oldXmm : Nat → Nat → Byte}
    (hok : ArgsOk ats as) (htot : (totals ats (firstGpr fl) 0 0).2.2 ≤ bytes)
    (hm : mem0.size = 192 + bytes + 32) (hsp : sp % 16 = 0) (h63 : sp + mem0.size + 16 < 2 ^ 63)
    (hsv : saved.length = 32) (hcl : closure < 2 ^ 64) :
    ∃ E, callEntry fl bytes ats as rvalue closure sp mem0 saved oldXmm = .ok E ∧
      E.stk.size = bytes ∧
      AllPassed (regsOfEntry E) ats as (place ats (firstGpr fl) 0 0) ∧
      (∀ (i : Nat) t a p, ats[i]? = some t → as[i]? = some a →
        (place ats (firstGpr fl) 0 0)[i]? = some p → WidenedAt (regsOfEntry E) t a p) ∧
      E.eax = sseUsed (place ats (firstGpr fl) 0 0) ∧ E.r10 = closure ∧
      (fl.inMem = true → ∀ j, j < 8 → E.gpr 0 j = (leBytes 8 rvalue).getD j 0) := by
  unfold callEntry
  have hgf : firstGpr fl ≤ 1 := by unfold firstGpr; split <;> omega
  obtain ⟨m1, a1, a2, a3⟩ := wr_spec (m := mem0) (off := 184) (bs := leBytes 8 closure) (by simp; omega)
  rw [a1]
  simp only
  obtain ⟨m2, b1, b2, b3, b4⟩ : ∃ m2, (if fl.inMem then wrGpr m1 0 (leBytes 8 rvalue) else .ok m1) =
      Except.ok (ε := Abn) m2 ∧ m2.size = m1.size ∧ (∀ k, 8 ≤ k → m2.at_ k = m1.at_ k) ∧
      (fl.inMem = true → ∀ j, j < 8 → m2.at_ j = (leBytes 8 rvalue).getD j 0) := by
    by_cases h : fl.inMem = true
    · rw [if_pos h]
      obtain ⟨m2, b1, b2, b3⟩ := wr_spec (m := m1) (off := 0) (bs := leBytes 8 rvalue) (by simp; omega)
      refine ⟨m2, by simpa [wrGpr] using b1, b2, ?_, ?_⟩
      · intro k hk; rw [b3, if_neg (by simp; omega)]
      · intro _ j hj; rw [b3, if_pos (by simp; omega)]; congr 1
    · rw [if_neg h]
      exact ⟨m1, rfl, rfl, fun _ _ => rfl, fun h' => absurd h' h⟩
  rw [b1]
  simp only
  obtain ⟨st, c1, c2, c3, c4, c5, c6, c7, c8, c9⟩ := callLoop_spec sp bytes hsp ats as
    ⟨m2, firstGpr fl, 0, 192⟩ 0 hok rfl (by simp only; omega) (by simp only; omega) htot
    (by simp only; omega) (by simp only; omega)
  simp only at c2 c6 c7 c8 c9
  change ∃ E, (match callLoop sp ats as ⟨m2, firstGpr fl, 0, 192⟩ with
      | .error e => .error e
      | .ok st =>
        match wr st.mem 176 (leBytes 8 st.s) with
        | .error e => .error e
        | .ok m => enter m bytes saved oldXmm) = Except.ok E ∧ _
  rw [c1]
  simp only
  have hsz := c6.1
  obtain ⟨m3, d1, d2, d3⟩ := wr_spec (m := st.mem) (off := 176) (bs := leBytes 8 st.s) (by simp; omega)
  rw [d1]
  simp only
  rw [enter]
  obtain ⟨m4, e1, e2, e3⟩ := wr_spec (m := m3) (off := 192 + bytes) (bs := saved) (by omega)
  rw [e1]
  simp only
  have hs : st.s = sseUsed (place ats (firstGpr fl) 0 0) := by
    have h1 := congrArg (fun x => x.2.1) c2
    simp only at h1
    rw [h1, totals_sse]; omega
  have hsmall := c5
  -- the four words and the counters
  obtain ⟨eb, f1, f2, f3⟩ := Buf.read_spec (b := m4) (off := 176) (n := 4) (by omega)
  obtain ⟨rb, g1, g2, g3⟩ := Buf.read_spec (b := m4) (off := 184) (n := 8) (by omega)
  rw [f1, g1]
  simp only
  rw [if_pos (by omega)]
  have heax : leNat eb = st.s := by
    have : eb = leBytes 4 st.s := by
      apply bytes_ext (by simp [f2])
      intro i hi
      rw [f2] at hi
      rw [f3 i hi, e3, if_neg (by omega), d3, if_pos (by simp; omega),
        show 176 + i - 176 = i by omega, leBytes_getD _ _ _ (by omega), leBytes_getD _ _ _ (by omega)]
    rw [this, leNat_leBytes_of_lt]
    have : (256 : Nat) ^ 4 = 4294967296 := by norm_num
    omega
  have hr10 : leNat rb = closure := by
    have : rb = leBytes 8 closure := by
      apply bytes_ext (by simp [g2])
      intro i hi
      rw [g2] at hi
      rw [g3 i hi, e3, if_neg (by omega), d3, if_neg (by rw [leBytes_length]; omega)]
      have hfr := c6.2 (184 + i) (by omega)
      rw [hfr]
      rw [b3 _ (by omega), a3, if_pos (by simp; omega), show 184 + i - 184 = i by omega]
    rw [this, leNat_leBytes_of_lt]
    exact hcl
  have hlow : ∀ k, k < 176 → m4.at_ k = st.mem.at_ k := by
    intro k hk
    rw [e3, if_neg (by omega), d3, if_neg (by simp; omega)]
  have hstk : ∀ k, k < bytes → m4.at_ (192 + k) = st.mem.at_ (192 + k) := by
    intro k hk
    rw [e3, if_neg (by omega), d3, if_neg (by simp; omega)]
  have hpos : ∀ t ∈ ats, 0 < t.align := fun x hx => (hok.wf x hx).align_pos lp64_ok
  have hbel := place_below ats (firstGpr fl) 0 0 hpos
  have hst1 : (totals ats (firstGpr fl) 0 0).1 = st.g := by rw [← c2]
  have hst2 : (totals ats (firstGpr fl) 0 0).2.1 = st.s := by rw [← c2]
  refine ⟨_, rfl, rfl, ?_, ?_, ?_, ?_, ?_⟩
  · intro i t a p h1 h2 h3
    have hp := c8 i t a p h1 h2 h3
    have hb := hbel i t p h1 h3
    rw [hst1, hst2] at hb
    cases p with
    | regs rs =>
      intro q hq
      obtain ⟨r, hr, hv⟩ := hp q hq
      refine ⟨r, hr, ?_⟩
      have hb' := hb r (List.mem_of_getElem? hr)
      rw [← hv]
      cases r with
      | gpr i =>
        simp only at hb'
        simp only [regByte, regsOfEntry, regsOf]
        exact hlow _ (by omega)
      | sse i =>
        simp only at hb'
        simp only [regByte, regsOfEntry, regsOf]
        rw [if_pos (by omega)]
        exact hlow _ (by omega)
    | stack o =>
      refine ⟨hp.1, fun q hq => ?_⟩
      rw [← hp.2 q hq]
      have := hp.1
      simp only [regsOf] at this
      simp only [regsOfEntry, regsOf]
      exact hstk _ (by omega)
  · intro i t a p h1 h2 h3
    have hp := c9 i t a p h1 h2 h3
    have hb := hbel i t p h1 h3
    rw [hst1, hst2] at hb
    cases p with
    | regs rs =>
      intro k1 k2 k hk j hj
      rw [← hp k1 k2 k hk j hj]
      have hb' := hb (.gpr k) (by rw [hk]; simp)
      simp only at hb'
      simp only [regsOfEntry, regsOf]
      exact hlow _ (by omega)
    | stack o => trivial
  · exact heax.trans hs
  · exact hr10
  · intro him j hj
    simp only
    rw [hlow _ (by omega), c6.2 _ (.inl (by simp [firstGpr, him]; omega))]
    simpa using b4 him j hj

/-! ## Closures -/

/-- What a closure argument pointer must give: `t.size` readable bytes which agree
with the value passed on every byte that is not padding. -/
def Sees (frame stk : Buf) (t : FType) (a : List Byte) (p : CPtr) : Prop :=
  ∃ d, p.deref frame stk t.size = some d ∧ ∀ q, dataByte t q → d.getD q 0 = a.getD q 0

theorem dataByte_lt {t : FType} (hwf : WF lp64 t) {q : Nat} (h : dataByte t q) : q < t.size := by
  obtain ⟨l, hl, h1, h2⟩ := h
  have := hwf.leaves_bounds lp64_ok 0 l hl
  omega

theorem isSse_toEB {c : Cls} (h : c = .integer ∨ c = .integersi ∨ c = .sse ∨ c = .ssesf ∨ c = .ssedf) :
    c.isSse = decide (toEB c = .sse) := by
  rcases h with rfl | rfl | rfl | rfl | rfl <;> rfl

/-- Register byte in the frame. -/
def frameOff : Reg → Nat
  | .gpr i => 8 * i
  | .sse i => 48 + 16 * i

theorem gather_spec (frame : Buf) (hfs : 176 ≤ frame.size) : ∀ (cls : List Cls) (j : Nat) (b : Buf) (g s : Nat),
    (∀ c ∈ cls, c = .integer ∨ c = .integersi ∨ c = .sse ∨ c = .ssesf ∨ c = .ssedf) →
    g + nInt (cls.map toEB) ≤ 6 → s + nSse (cls.map toEB) ≤ 8 → 8 * (j + cls.length) ≤ b.size →
    ∃ b', gather frame cls j b g s = .ok (b', g + nInt (cls.map toEB), s + nSse (cls.map toEB)) ∧
      b'.size = b.size ∧ (∀ k, k < 8 * j → b'.at_ k = b.at_ k) ∧
      (∀ q, 8 * j ≤ q → q < 8 * (j + cls.length) → ∃ r,
        (assign (cls.map toEB) g s)[q / 8 - j]? = some r ∧ b'.at_ q = frame.at_ (frameOff r + q % 8)) := by
  intro cls
  induction cls with
  | nil =>
    intro j b g s _ _ _ _
    exact ⟨b, by simp [gather, nInt, nSse], rfl, fun _ _ => rfl, fun q h1 h2 => by simp at h2; omega⟩
  | cons c cs ih =>
    intro j b g s hc hg hs hb
    have hc' := fun x hx => hc x (List.mem_cons_of_mem _ hx)
    have hc0 := isSse_toEB (hc c (by simp))
    simp only [List.map_cons, nInt_cons, nSse_cons] at hg hs
    simp only [List.length_cons] at hb
    have key : ∀ (r : Reg) (g' s' : Nat), frameOff r + 8 ≤ frame.size →
        (if c.isSse then frame.read (48 + 16 * s) 8 else frame.read (8 * g) 8) = frame.read (frameOff r) 8 →
        (if c.isSse then g else g + 1) = g' → (if c.isSse then s + 1 else s) = s' →
        g' + nInt (cs.map toEB) ≤ 6 → s' + nSse (cs.map toEB) ≤ 8 →
        assign ((c :: cs).map toEB) g s = r :: assign (cs.map toEB) g' s' →
        g' + nInt (cs.map toEB) = g + nInt ((c :: cs).map toEB) →
        s' + nSse (cs.map toEB) = s + nSse ((c :: cs).map toEB) →
        ∃ b', gather frame (c :: cs) j b g s = .ok (b', g + nInt ((c :: cs).map toEB), s + nSse ((c :: cs).map toEB)) ∧
          b'.size = b.size ∧ (∀ k, k < 8 * j → b'.at_ k = b.at_ k) ∧
          (∀ q, 8 * j ≤ q → q < 8 * (j + (c :: cs).length) → ∃ r,
            (assign ((c :: cs).map toEB) g s)[q / 8 - j]? = some r ∧
              b'.at_ q = frame.at_ (frameOff r + q % 8)) := by
      intro r g' s' h1 h2 h3 h4 h5 h6 h7 h8 h9
      rw [gather, h2, h3, h4]
      obtain ⟨bs, f1, f2, f3⟩ := Buf.read_spec h1
      rw [f1]
      simp only
      obtain ⟨b1, w1, w2, w3⟩ := Buf.write_spec (b := b) (off := 8 * j) (bs := bs) (by omega)
      rw [w1]
      simp only
      obtain ⟨b', i1, i2, i3, i4⟩ := ih (j + 1) b1 g' s' hc' h5 h6 (by omega)
      refine ⟨b', by rw [i1, h8, h9], by omega, ?_, ?_⟩
      · intro k hk
        rw [i3 k (by omega), w3, if_neg (by omega)]
      · intro q hq1 hq2
        rw [h7]
        simp only [List.length_cons] at hq2
        by_cases hq : q < 8 * (j + 1)
        · refine ⟨r, by rw [show q / 8 - j = 0 by omega]; rfl, ?_⟩
          rw [i3 q hq, w3, if_pos (by omega), f3 _ (by omega)]
          congr 2; omega
        · obtain ⟨r', k1, k2⟩ := i4 q (by omega) (by omega)
          refine ⟨r', ?_, k2⟩
          rw [show q / 8 - j = (q / 8 - (j + 1)) + 1 by omega]
          exact k1
    by_cases hsse : toEB c = .sse
    · rw [hsse] at hg hs
      simp at hg hs
      have hsc : c.isSse = true := by rw [hc0]; simp [hsse]
      exact key (.sse s) g (s + 1) (by simp [frameOff]; omega) (by simp [hsc, frameOff]) (by simp [hsc])
        (by simp [hsc]) (by omega) (by omega) (by simp [hsse, assign])
        (by simp [nInt_cons, hsse]) (by simp [nSse_cons, hsse]; omega)
    · have hint : toEB c = .int := by cases h : toEB c <;> simp_all
      rw [hint] at hg hs
      simp at hg hs
      have hsc : c.isSse = false := by rw [hc0]; simp [hint]
      exact key (.gpr g) (g + 1) s (by simp [frameOff]; omega) (by simp [hsc, frameOff]) (by simp [hsc])
        (by simp [hsc]) (by omega) (by omega) (by simp [hint, assign])
        (by simp [nInt_cons, hint]; omega) (by simp [nSse_cons, hint])

/-- The frame holds the argument registers below `S` SSE registers. -/
def FrameHolds (frame : Buf) (R : Regs) (S : Nat) : Prop :=
  176 ≤ frame.size ∧ ∀ r j, j < 8 → (match r with | .gpr i => i < 6 | .sse i => i < S) →
    frame.at_ (frameOff r + j) = regByte R r j

theorem closureLoop_spec (sp : Nat) (hsp : sp % 16 = 0) (frame tmp0 : Buf) (R : Regs) (S : Nat)
    (hfr : FrameHolds frame R S) (htmp : tmp0.size = 16)
    (h63 : sp + R.mem.size + 16 < 2 ^ 63) :
    ∀ (ts : List FType) (as : List (List Byte)) (g s off : Nat), ArgsOk ts as → g ≤ 6 →
    (totals ts g s off).2.1 ≤ S → off ≤ R.mem.size →
    AllPassed R ts as (place ts g s off) →
    ∃ ps, closureLoop sp frame tmp0 ts g s off = .ok ps ∧ ps.length = ts.length ∧
      ∀ (i : Nat) t a p, ts[i]? = some t → as[i]? = some a → ps[i]? = some p → Sees frame R.mem t a p := by
  intro ts
  induction ts with
  | nil => intro as g s off _ _ _ _ _; exact ⟨[], rfl, rfl, by simp⟩
  | cons t ts ih =>
    intro as g s off hok hg htot hoff hall
    cases as with
    | nil => have := hok.len; simp at this
    | cons a as =>
    have hwf := hok.wf t (by simp)
    have hal := hok.bytes 0 t a rfl rfl
    have step : ∀ (g' s' off' : Nat) (pl : Place) (p : CPtr), g' ≤ 6 → off' ≤ R.mem.size →
        place (t :: ts) g s off = pl :: place ts g' s' off' →
        totals (t :: ts) g s off = totals ts g' s' off' →
        (PassedAt R t a pl → Sees frame R.mem t a p) →
        ∃ ps, (closureLoop sp frame tmp0 ts g' s' off').map (p :: ·) = .ok ps ∧ ps.length = (t :: ts).length ∧
          ∀ (i : Nat) t' a' p', (t :: ts)[i]? = some t' → (a :: as)[i]? = some a' → ps[i]? = some p' →
            Sees frame R.mem t' a' p' := by
      intro g' s' off' pl p h1 h2 h3 h4 h5
      rw [h4] at htot
      rw [h3] at hall
      obtain ⟨ps, i1, i2, i3⟩ := ih as g' s' off' hok.tail h1 htot h2
        (fun i t' a' p' k1 k2 k3 => hall (i + 1) t' a' p' (by simpa using k1) (by simpa using k2) (by simpa using k3))
      refine ⟨p :: ps, by rw [i1]; rfl, by simp [i2], ?_⟩
      intro i t' a' p' k1 k2 k3
      cases i with
      | zero =>
        simp only [List.getElem?_cons_zero, Option.some.injEq] at k1 k2 k3
        subst k1 k2 k3
        exact h5 (hall 0 _ _ _ rfl rfl rfl)
      | succ i =>
        simp only [List.getElem?_cons_succ] at k1 k2 k3
        exact i3 i t' a' p' k1 k2 k3
    have hp0 : ∀ pl rest, place (t :: ts) g s off = pl :: rest → PassedAt R t a pl := by
      intro pl rest h
      exact hall 0 t a pl rfl rfl (by rw [h]; rfl)
    rw [closureLoop]
    rcases arg_cases hwf ts g s off with ⟨ex, hex, hin, hpl, htt⟩ | ⟨ex, cls, hr, hex, hin, hng, hns, hpl, htt⟩
    · rw [hex]
      simp only [hin]
      rw [align_rel hwf hsp (by omega)]
      have hpa := hp0 _ _ hpl
      refine step g s _ _ _ hg hpa.1 hpl htt ?_
      intro h
      obtain ⟨d, d1, d2, d3⟩ := Buf.read_spec h.1
      exact ⟨d, d1, fun q hq => by rw [d3 q (dataByte_lt hwf hq), h.2 q (dataByte_lt hwf hq)]⟩
    · rw [hex]
      simp only [hin]
      have hsS : s + nSse (cls.map toEB) ≤ S := by
        rw [htt, totals_sse] at htot; omega
      have hrng := hr.rng
      have hlen := hr.len
      have hsz := hr.size
      have hszp := hwf.size_pos lp64_ok
      -- bytes of the argument in terms of registers
      have hreg : PassedAt R t a (.regs (assign (cls.map toEB) g s)) → ∀ q, dataByte t q → ∃ r,
          (assign (cls.map toEB) g s)[q / 8]? = some r ∧ frame.at_ (frameOff r + q % 8) = a.getD q 0 := by
        intro h q hq
        obtain ⟨r, h1, h2⟩ := h q hq
        refine ⟨r, h1, ?_⟩
        rw [hfr.2 r (q % 8) (by omega), h2]
        have := assign_below _ _ _ r (List.mem_of_getElem? h1)
        cases r <;> simp only at this ⊢ <;> omega
      by_cases hdir : cls.length = 1 ∨ (cls.length = 2 ∧ ¬((cls.getD 0 .no).isSse = true ∨ (cls.getD 1 .no).isSse = true))
      · rw [if_pos hdir]
        by_cases hs0 : (cls.getD 0 .no).isSse = true
        · rw [if_pos hs0]
          have h1 : cls.length = 1 := by
            rcases hdir with h | ⟨_, h⟩
            · exact h
            · exact absurd (.inl hs0) h
          obtain ⟨c, rfl⟩ := List.length_eq_one_iff.1 h1
          have hcs : toEB c = .sse := by
            have := isSse_toEB (hrng c (by simp))
            simp only [List.getD_cons_zero] at hs0
            rw [hs0] at this
            simpa using this.symm
          simp only [List.map_cons, List.map_nil, hcs] at *
          simp only [nInt, nSse, List.count_cons, List.count_nil] at *
          simp at hpl htt hns hsS
          simp only [List.length_singleton]
          refine step g (s + 1) off _ _ hg hoff hpl htt ?_
          intro h
          obtain ⟨d, d1, d2, d3⟩ := Buf.read_spec (b := frame) (off := 48 + 16 * s) (n := t.size)
            (by have := hfr.1; simp at hlen; omega)
          refine ⟨d, d1, fun q hq => ?_⟩
          have hql := dataByte_lt hwf hq
          simp at hlen
          obtain ⟨r, k1, k2⟩ := hreg h q hq
          rw [show q / 8 = 0 by omega] at k1
          simp only [assign, List.getElem?_cons_zero, Option.some.injEq] at k1
          subst k1
          rw [d3 q hql, ← k2, Nat.mod_eq_of_lt (by omega : q < 8)]
          rfl
        · rw [if_neg hs0]
          -- one or two general registers
          have hall_int : ∀ c ∈ cls, toEB c = .int := by
            intro c hc
            obtain ⟨k, hk, rfl⟩ := List.mem_iff_getElem.1 hc
            have hh := isSse_toEB (hrng _ hc)
            have : cls[k].isSse = false := by
              rcases hdir with h | ⟨h, h'⟩
              · have : k = 0 := by omega
                subst this
                rw [getD_eq_getElem' hk] at hs0
                simpa using hs0
              · have : k = 0 ∨ k = 1 := by omega
                rcases this with rfl | rfl
                · rw [getD_eq_getElem' hk] at hs0
                  simpa using hs0
                · have := fun h'' => h' (.inr h'')
                  rw [getD_eq_getElem' hk] at this
                  simpa using this
            rw [this] at hh
            cases h : toEB cls[k] with
            | int => rfl
            | sse => rw [h] at hh; simp at hh
          have hmap : cls.map toEB = List.replicate cls.length .int := by
            rw [List.eq_replicate_iff]
            refine ⟨by simp, ?_⟩
            intro x hx
            obtain ⟨c, hc, rfl⟩ := List.mem_map.1 hx
            exact hall_int c hc
          have hni : nInt (cls.map toEB) = cls.length := by rw [hmap]; simp [nInt]
          have hns0 : nSse (cls.map toEB) = 0 := by
            rw [hmap, nSse, List.count_replicate]; simp
          have hass : assign (cls.map toEB) g s = (List.range cls.length).map (fun k => Reg.gpr (g + k)) := by
            rw [hmap]
            have hl : cls.length = 1 ∨ cls.length = 2 := by
              rcases hdir with h | h
              · exact .inl h
              · exact .inr h.1
            rcases hl with h | h <;> rw [h] <;> rfl
          rw [hni, hns0] at hpl htt
          rw [hni] at hng
          refine step (g + cls.length) s off _ _ hng hoff hpl htt ?_
          intro h
          obtain ⟨d, d1, d2, d3⟩ := Buf.read_spec (b := frame) (off := 8 * g) (n := t.size)
            (by have := hfr.1; omega)
          refine ⟨d, d1, fun q hq => ?_⟩
          have hql := dataByte_lt hwf hq
          obtain ⟨r, k1, k2⟩ := hreg h q hq
          rw [hass] at k1
          simp only [List.getElem?_map, List.getElem?_range (show q / 8 < cls.length by omega),
            Option.map_some, Option.some.injEq] at k1
          subst k1
          rw [d3 q hql, ← k2]
          simp only [frameOff]
          congr 1; omega
      · rw [if_neg hdir]
        have hl2 : cls.length ≤ 2 := by omega
        obtain ⟨b, g1, g2, g3, g4⟩ := gather_spec frame hfr.1 cls 0 tmp0 g s hrng hng hns (by omega)
        rw [g1]
        simp only
        refine step _ _ off _ _ hng hoff hpl htt ?_
        intro h
        obtain ⟨d, d1, d2, d3⟩ := Buf.read_spec (b := b) (off := 0) (n := t.size) (by omega)
        refine ⟨d, d1, fun q hq => ?_⟩
        have hql := dataByte_lt hwf hq
        obtain ⟨r, k1, k2⟩ := hreg h q hq
        obtain ⟨r', j1, j2⟩ := g4 q (by omega) (by omega)
        simp only [Nat.sub_zero] at j1
        rw [k1] at j1
        simp only [Option.some.injEq] at j1
        subst j1
        rw [d3 q hql, Nat.zero_add, j2, k2]

theorem spill_holds (E : Entry) (sse : Bool) (frame0 : Buf) (hf : frame0.size = 216) :
    FrameHolds (spill E sse frame0) (regsOfEntry E) (if sse then 8 else 0) := by
  refine ⟨by simp [spill, hf], ?_⟩
  intro r j hj hr
  cases r with
  | gpr i =>
    simp only at hr
    simp only [spill, frameOff, regByte, regsOfEntry]
    rw [if_pos (by omega), show (8 * i + j) / 8 = i by omega, show (8 * i + j) % 8 = j by omega]
  | sse i =>
    simp only at hr
    cases sse with
    | false => simp at hr
    | true =>
      simp only [if_true] at hr
      simp only [spill, frameOff, regByte, regsOfEntry]
      rw [if_neg (by omega), if_pos ⟨by omega, trivial⟩,
        show (48 + 16 * i + j - 48) / 16 = i by omega, show (48 + 16 * i + j - 48) % 16 = j by omega]

end Verif.X64
