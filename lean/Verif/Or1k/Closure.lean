import Verif.Or1k.Call

/-
`ffi_closure_SYSV` and the trampoline, src/or1k/ffi.c:176-313.
-/
namespace Verif.Or1k
open Verif Verif.Spec.Or1k

/-- `ptr`, `count` and `nfixedargs` against the convention's state. -/
structure CRel (ra st : Nat) (nf : Int) (ptr count n : Nat) (p : Pos) : Prop where
  named : n = nf.toNat
  regs : p.g < 6 → ptr = ra + 4 * p.g ∧ count = 4 * p.g ∧ p.w = 0
  stack : p.g = 6 → ptr = st + 4 * p.w ∧ 24 ≤ count
  full : p.g ≤ 6
  var : nf < 0 → p.g = 6

/-- The bytes of a value in a word. -/
theorem small {n : Nat} {tc : TC} {v : List Byte} {w : Nat} (hn : n = 1 ∨ n = 2 ∨ n = 4) (hl : v.length = n) (h : (w : Int) = intVal tc v % 2 ^ 32) : beBytes n w = v := by
  have hb := beNat_lt v
  rw [hl] at hb
  have : w % 256 ^ n = beNat v := by
    unfold intVal at h
    rw [hl] at h
    rcases hn with rfl | rfl | rfl <;> split at h <;> omega
  rw [← beBytes_mod, this, beBytes_beNat' hl]

/-- A place of an argument: where its words are. -/
theorem word_bytes {m : Mem} {a n w : Nat} (hn : n ≤ 4) (h : m.rd a 4 = beBytes 4 w) : m.rd (a + (4 - n)) n = beBytes n w := by
  have e : (4 - n) + n = 4 := by omega
  have h1 : m.rd a ((4 - n) + n) = beBytes ((4 - n) + n) w := by rw [e, h]
  rw [Mem.rd_append] at h1
  have h2 := congrArg (List.drop (4 - n)) h1
  rwa [List.drop_left' (Mem.rd_length _ _ _), beBytes_drop] at h2

/-- What a round finds, if the words of the argument are at `pl`. -/
theorem closureArg_ok {m : Mem} {ra st : Nat} {t : FType} (ht : Cls t) {ptr count pl : Nat} {M : Mem} {W : Nat → Nat} {v : List Byte} (hl : v.length = t.size)
    (hpl : pl = if words t = 2 ∧ ptr = ra + 20 then st else ptr) (hW : ∀ i, i < words t → m.rd (pl + 4 * i) 4 = beBytes 4 (W i) ∧ W i < 2 ^ 32)
    (hv : Passed M W t v) (hM : t.tc = .struct → ∀ x, W 0 ≤ x → x < W 0 + t.size → m x = M x) :
    ∃ a, closureArg m ra st t ptr count = (a, if count + 4 * words t = 24 then st else pl + 4 * words t, count + 4 * words t) ∧ m.rd a t.size = v := by
  obtain ⟨sz, al, tc, es⟩ := t
  cases ht with
  | ref h hw =>
    cases h
    have e0 := hW 0 (by omega)
    rw [hw, if_neg (by omega)] at hpl
    subst hpl
    refine ⟨W 0, ?_, ?_⟩
    · rw [hw]
      show (if count + 4 = 24 then _ else _) = _
      rw [show beNat (m.rd pl 4) = W 0 by rw [show pl = pl + 4 * 0 by omega, e0.1, be4 e0.2]]
      split <;> rename_i h <;> simp [h]
    · have hv : M.rd (W 0) sz = v := hv
      rw [← hv]
      exact Mem.rd_congr fun i hi => hM rfl _ (by omega) (Nat.add_lt_add_left hi _)
  | two h hs hw =>
    cases hs
    have e0 := hW 0 (by omega)
    have e1 := hW 1 (by omega)
    have hpl' : pl = if ptr = ra + 20 then st else ptr := by rw [hpl, hw]; simp
    refine ⟨pl, ?_, ?_⟩
    · rw [hw]
      have : closureArg m ra st (.mk 8 al tc es) ptr count = if count + 8 = 24 then (pl, st, count + 8) else (pl, pl + 8, count + 8) := by
        rw [hpl']
        rcases h with h | h | h <;> cases h <;> rfl
      rw [this]
      split <;> rename_i h <;> simp [h]
    · show m.rd pl (4 + 4) = v
      have hv' : beBytes 4 (W 0) ++ beBytes 4 (W 1) = v := by rcases h with h | h | h <;> cases h <;> exact hv
      rw [Mem.rd_append, ← hv']
      exact congrArg₂ _ (by simpa using e0.1) (by simpa using e1.1)
  | one n h hs hw =>
    have hsz : sz = n := hs
    have e0 := hW 0 (by omega)
    rw [hw, if_neg (by omega)] at hpl
    subst hpl
    have hn : n = 1 ∨ n = 2 ∨ n = 4 := by omega
    refine ⟨pl + (4 - n), ?_, ?_⟩
    · rw [hw]
      have : closureArg m ra st (.mk sz al tc es) pl count = if count + 4 = 24 then (pl + (4 - n), st, count + 4) else (pl + (4 - n), pl + 4, count + 4) := by
        rcases h with ⟨rfl, h | h⟩ | ⟨rfl, h | h⟩ | ⟨rfl, h | h | h | h⟩ <;> cases h <;> rfl
      rw [this]
      split <;> rename_i h <;> simp [h]
    · show m.rd _ sz = v
      rw [hsz, word_bytes (by omega) (by simpa using e0.1)]
      refine small (tc := tc) hn (by rw [hl]; exact hsz) ?_
      rcases h with ⟨_, h | h⟩ | ⟨_, h | h⟩ | ⟨_, h | h | h | h⟩ <;> cases h <;> exact hv

/-- The loop finds the values. -/
theorem closureLoop_ok {m : Mem} {ra st lo : Nat} {R : Regs} (hra : lo ≤ ra ∧ ra + 24 ≤ st) (hsp : R.sp = st) (hr : ∀ k, k < 6 → R.r k < 2 ^ 32 ∧ m.rd (ra + 4 * k) 4 = beBytes 4 (R.r k))
    (hm : ∀ x, x < lo ∨ st ≤ x → m x = R.mem x) :
    ∀ {ts : List FType} {vs : List (List Byte)} {nf : Int} {ptr count n : Nat} {p : Pos}, (∀ t ∈ ts, Cls t) → vs.map List.length = ts.map FType.size → CRel ra st nf ptr count n p →
      AllPassed R n p ts vs → (∀ q ∈ refs R n p ts, q.1 + q.2 ≤ lo ∨ st ≤ q.1) → vals m ts (closureLoop m ra st nf ts ptr count) = vs ∧ (closureLoop m ra st nf ts ptr count).length = ts.length
  | [], [], _, _, _, _, _, _, _, _, _, _ => ⟨rfl, rfl⟩
  | [], _ :: _, _, _, _, _, _, _, hl, _, _, _ => by cases hl
  | _ :: _, [], _, _, _, _, _, _, hl, _, _, _ => by cases hl
  | t :: ts, v :: vs, nf, ptr, count, n, p, hc, hl, hrel, hp, hrefs => by
    obtain ⟨hp1, hp2⟩ := hp
    simp only [List.map_cons, List.cons.injEq] at hl
    have ct := hc t (by simp)
    have hw : words t = 1 ∨ words t = 2 := by cases ct <;> omega
    have hst : t.tc = .struct → words t = 1 := by intro h; rw [words, if_pos h]
    obtain ⟨h1, h2, h3, h4, h5⟩ := hrel
    obtain ⟨g, w⟩ := p
    dsimp only at h2 h3 h4 h5
    -- where the argument is
    obtain ⟨ptr', hptr'⟩ : ∃ x, x = if nf = 0 ∧ count < 24 then st else ptr := ⟨_, rfl⟩
    obtain ⟨count', hcount'⟩ : ∃ x, x = if nf = 0 ∧ count < 24 then 24 else count := ⟨_, rfl⟩
    have hloop : closureLoop m ra st nf (t :: ts) ptr count =
        (closureArg m ra st t ptr' count').1 :: closureLoop m ra st (nf - 1) ts (closureArg m ra st t ptr' count').2.1 (closureArg m ra st t ptr' count').2.2 := by
      rw [closureLoop, hptr', hcount']
    obtain ⟨pl, hpl⟩ : ∃ x, x = if words t = 2 ∧ ptr' = ra + 20 then st else ptr' := ⟨_, rfl⟩
    have hM : t.tc = .struct → ∀ x, R.word (inRegs n ⟨g, w⟩ (words t)) ⟨g, w⟩ 0 ≤ x → x < R.word (inRegs n ⟨g, w⟩ (words t)) ⟨g, w⟩ 0 + t.size → m x = R.mem x := by
      intro hs x hx1 hx2
      have := hrefs (R.word (inRegs n ⟨g, w⟩ (words t)) ⟨g, w⟩ 0, t.size) (by simp [refs, hs])
      dsimp only at this
      exact hm x (by omega)
    have key : (∀ i, i < words t → m.rd (pl + 4 * i) 4 = beBytes 4 (R.word (inRegs n ⟨g, w⟩ (words t)) ⟨g, w⟩ i) ∧ R.word (inRegs n ⟨g, w⟩ (words t)) ⟨g, w⟩ i < 2 ^ 32) ∧
        CRel ra st (nf - 1) (if count' + 4 * words t = 24 then st else pl + 4 * words t) (count' + 4 * words t) (n - 1) (next (inRegs n ⟨g, w⟩ (words t)) ⟨g, w⟩ (words t)) := by
      by_cases hb : 0 < n ∧ g + words t ≤ 6
      · have hbr : inRegs n ⟨g, w⟩ (words t) = true := decide_eq_true hb
        have hg : g < 6 := by omega
        obtain ⟨q1, q2, q3⟩ := h2 hg
        have hne : ¬ (nf = 0 ∧ count < 24) := by omega
        rw [if_neg hne] at hptr' hcount'
        have hpl' : pl = ra + 4 * g := by rw [hpl, if_neg (by omega), hptr', q1]
        rw [hbr]
        refine ⟨fun i hi => ?_, by omega, ?_, ?_, ?_, ?_⟩
        · have := hr (g + i) (by omega)
          refine ⟨?_, this.1⟩
          show _ = beBytes 4 (R.r (g + i))
          rw [hpl', ← this.2]
          congr 1; omega
        · show g + words t < 6 → _
          intro h
          rw [if_neg (by omega)]
          refine ⟨?_, ?_, q3⟩
          · show _ = ra + 4 * (g + words t); omega
          · show _ = 4 * (g + words t); omega
        · show g + words t = 6 → _
          intro h
          rw [if_pos (by omega)]
          exact ⟨by show st = st + 4 * w; omega, by omega⟩
        · exact hb.2
        · intro h; show g + words t = 6; omega
      · have hbr : inRegs n ⟨g, w⟩ (words t) = false := decide_eq_false hb
        have hpl' : pl = st + 4 * w ∧ 20 ≤ count' ∧ count' + 4 * words t ≠ 24 := by
          by_cases hg : g = 6
          · obtain ⟨q1, q2⟩ := h3 hg
            have hne : ¬ (nf = 0 ∧ count < 24) := by omega
            rw [if_neg hne] at hptr' hcount'
            rw [hpl, if_neg (by omega), hptr', q1]
            omega
          · obtain ⟨q1, q2, q3⟩ := h2 (by omega)
            by_cases hn : nf = 0
            · have hy : nf = 0 ∧ count < 24 := by omega
              rw [if_pos hy] at hptr' hcount'
              rw [hpl, if_neg (by omega), hptr']
              omega
            · have hne : ¬ (nf = 0 ∧ count < 24) := by omega
              rw [if_neg hne] at hptr' hcount'
              have : g = 5 ∧ words t = 2 := by omega
              rw [hpl, if_pos (by omega)]
              omega
        rw [hbr]
        refine ⟨fun i hi => ?_, by omega, ?_, ?_, Nat.le_refl 6, fun _ => rfl⟩
        · have e : m.rd (pl + 4 * i) 4 = R.mem.rd (R.sp + 4 * (w + i)) 4 := by
            rw [hpl'.1, hsp, show st + 4 * (w + i) = st + 4 * w + 4 * i by omega]
            exact Mem.rd_congr fun j hj => hm _ (by omega)
          show _ = beBytes 4 (beNat (R.mem.rd (R.sp + 4 * (w + i)) 4)) ∧ beNat (R.mem.rd (R.sp + 4 * (w + i)) 4) < 2 ^ 32
          rw [e, beBytes_beNat' (Mem.rd_length _ _ _)]
          exact ⟨rfl, beNat_rd_lt _ _ 4⟩
        · intro h; exact absurd h (by show ¬ 6 < 6; omega)
        · intro _
          rw [if_neg hpl'.2.2]
          refine ⟨?_, by omega⟩
          show _ = st + 4 * (w + words t); omega
    obtain ⟨a, e, ha⟩ := closureArg_ok (m := m) (ra := ra) (st := st) ct (ptr := ptr') (count := count') hl.1 hpl key.1 hp1 hM
    rw [hloop, e]
    have ih := closureLoop_ok hra hsp hr hm (fun u hu => hc u (by simp [hu])) hl.2 key.2 hp2 (fun q hq => hrefs q (by simp [refs, hq]))
    refine ⟨?_, by simp [ih.2]⟩
    show _ :: _ = _ :: _
    rw [ha, ih.1]

/-- `avalue`. -/
theorem closureView_ok {m : Mem} {ra st lo : Nat} {R : Regs} {rt : FType} {nf : Nat} {ts : List FType} {vs : List (List Byte)} (hra : lo ≤ ra ∧ ra + 24 ≤ st) (hsp : R.sp = st)
    (hr : ∀ k, k < 6 → R.r k < 2 ^ 32 ∧ m.rd (ra + 4 * k) 4 = beBytes 4 (R.r k)) (hm : ∀ x, x < lo ∨ st ≤ x → m x = R.mem x) (hc : ∀ t ∈ ts, Cls t)
    (hl : vs.map List.length = ts.map FType.size) (hp : AllPassed R nf (start rt) ts vs) (hrefs : ∀ q ∈ refs R nf (start rt) ts, q.1 + q.2 ≤ lo ∨ st ≤ q.1) :
    vals m ts (closureView m ra st rt nf ts) = vs ∧ (closureView m ra st rt nf ts).length = ts.length := by
  unfold closureView
  unfold start at hp hrefs
  split <;> rename_i h
  · rw [if_pos h] at hp hrefs
    exact closureLoop_ok hra hsp hr hm hc hl ⟨by omega, fun _ => ⟨rfl, rfl, rfl⟩, fun h => absurd h (by decide), by decide, fun h => by omega⟩ hp hrefs
  · rw [if_neg h] at hp hrefs
    exact closureLoop_ok hra hsp hr hm hc hl ⟨by omega, fun _ => ⟨rfl, rfl, rfl⟩, fun h => absurd h (by decide), by decide, fun h => by omega⟩ hp hrefs

/-- The registers of the result, src/or1k/ffi.c:270-272: `rv` is the address of `rvalue`. -/
def closureRes (m : Mem) (rv : Nat) : Nat × Nat := (beNat (m.rd rv 4), beNat (m.rd (rv + 4) 4))

/-- What was stored as `ffi_arg` or as eight bytes is returned. -/
theorem closureRes_ok {rt : FType} (ht : Cls rt) {m : Mem} {rv : Nat} {v : List Byte} (hl : v.length = rt.size) (hg : Got rt v m rv) :
    Returned rt v (closureRes m rv).1 (closureRes m rv).2 := by
  refine ⟨hl, ?_⟩
  obtain ⟨sz, al, tc, es⟩ := rt
  cases ht with
  | ref h _ => cases h; trivial
  | two h hs _ =>
    have hg' : m.rd rv (4 + 4) = v := by rcases h with h | h | h <;> cases h <;> exact hg
    have : beBytes 4 (beNat (m.rd rv 4)) ++ beBytes 4 (beNat (m.rd (rv + 4) 4)) = v := by
      rw [beBytes_beNat' (Mem.rd_length _ _ _), beBytes_beNat' (Mem.rd_length _ _ _), ← Mem.rd_append, hg']
    rcases h with h | h | h <;> cases h <;> exact this
  | one n h _ _ => rcases h with ⟨_, h | h⟩ | ⟨_, h | h⟩ | ⟨_, h | h | h | h⟩ <;> cases h <;> exact hg

/-! ## The trampoline -/

/-- The halfwords of `ffi_prep_closure_loc`, src/or1k/ffi.c:295-310. -/
def trampHalves (cls fn : Nat) : List Nat :=
  [(0x6 <<< 10) ||| (13 <<< 5), cls >>> 16, (0x2a <<< 10) ||| (13 <<< 5) ||| 13, cls &&& 0xFFFF,
   (0x6 <<< 10) ||| (15 <<< 5), fn >>> 16, (0x2a <<< 10) ||| (15 <<< 5) ||| 15, fn &&& 0xFFFF,
   0x11 <<< 10, 15 <<< 11, (0x2a <<< 10) ||| (17 <<< 5) ||| 1, 0x0]

/-- As stored by a big-endian machine; the halfwords are `unsigned short`. -/
def trampBytes (cls fn : Nat) : List Byte := (trampHalves cls fn).flatMap (beBytes 2)

/-- The machine: `npc` is the address of the instruction behind the delay slot or the target. -/
structure T where
  r : Nat → Nat
  pc : Nat
  npc : Nat

def setr (r : Nat → Nat) (k v : Nat) : Nat → Nat := fun x => if x = k then v else r x

/-- The instructions of the trampoline, OpenRISC 1000 Architecture Manual, chapter 5: `l.movhi`, `l.ori`, `l.jr`. -/
def tstep (m : Mem) (s : T) : Option T :=
  let h := beNat (m.rd s.pc 2)
  let l := beNat (m.rd (s.pc + 2) 2)
  if h / 1024 = 0x6 ∧ h % 32 = 0 then some ⟨setr s.r (h / 32 % 32) (l * 65536), s.npc, s.npc + 4⟩
  else if h / 1024 = 0x2a then some ⟨setr s.r (h / 32 % 32) (s.r (h % 32) ||| l), s.npc, s.npc + 4⟩
  else if h = 0x11 * 1024 ∧ l % 2048 = 0 then some ⟨s.r, s.npc, s.r (l / 2048)⟩
  else none

def tsteps (m : Mem) : Nat → T → Option T
  | 0, s => some s
  | k + 1, s => (tstep m s).bind (tsteps m k)

theorem rd_flat {m : Mem} : ∀ {hs : List Nat} {a : Nat}, m.rd a (2 * hs.length) = hs.flatMap (beBytes 2) → ∀ i h, hs[i]? = some h → m.rd (a + 2 * i) 2 = beBytes 2 h
  | [], _, _, i, h, hi => by simp at hi
  | x :: hs, a, e, i, h, hi => by
    rw [show 2 * (x :: hs).length = 2 + 2 * hs.length by simp only [List.length_cons]; omega, Mem.rd_append, List.flatMap_cons] at e
    have e1 : m.rd a 2 = beBytes 2 x := by
      have := congrArg (List.take 2) e
      rwa [List.take_left' (Mem.rd_length _ _ _), List.take_left' (beBytes_length _ _)] at this
    have e2 : m.rd (a + 2) (2 * hs.length) = hs.flatMap (beBytes 2) := by
      have := congrArg (List.drop 2) e
      rwa [List.drop_left' (Mem.rd_length _ _ _), List.drop_left' (beBytes_length _ _)] at this
    cases i with
    | zero => cases hi; exact e1
    | succ i =>
      have := rd_flat e2 i h hi
      rw [← this]; congr 1; omega

theorem halves {x : Nat} (hx : x < 2 ^ 32) : (x / 65536 % 65536 * 65536 ||| x % 65536) = x := by
  rw [Nat.mod_eq_of_lt (show x / 65536 < 65536 by omega)]
  have := Nat.shiftLeft_add_eq_or_of_lt (a := x / 65536) (b := x % 65536) (i := 16) (by omega)
  rw [Nat.shiftLeft_eq] at this
  rw [show (65536 : Nat) = 2 ^ 16 by rfl] at *
  rw [← this]
  omega

theorem tramp_runs {m : Mem} {a cls fn : Nat} {s : T} (hm : m.rd a 24 = trampBytes cls fn) (hc : cls < 2 ^ 32) (hf : fn < 2 ^ 32) (hp : s.pc = a) (hn : s.npc = a + 4) :
    ∃ t, tsteps m 6 s = some t ∧ t.pc = fn ∧ t.npc = fn + 4 ∧ t.r 13 = cls ∧ t.r 17 = s.r 1 ∧ ∀ k, k ≠ 13 → k ≠ 15 → k ≠ 17 → t.r k = s.r k := by
  have g : ∀ i h, (trampHalves cls fn)[i]? = some h → beNat (m.rd (a + 2 * i) 2) = h % 65536 := by
    intro i h hi
    rw [rd_flat (hs := trampHalves cls fn) hm i h hi, beNat_beBytes]; rfl
  have g0 := g 0 _ rfl
  have g1 := g 1 _ rfl
  have g2 := g 2 _ rfl
  have g3 := g 3 _ rfl
  have g4 := g 4 _ rfl
  have g5 := g 5 _ rfl
  have g6 := g 6 _ rfl
  have g7 := g 7 _ rfl
  have g8 := g 8 _ rfl
  have g9 := g 9 _ rfl
  have g10 := g 10 _ rfl
  have g11 := g 11 _ rfl
  simp only [Nat.shiftRight_eq_div_pow, show (0xFFFF : Nat) = 2 ^ 16 - 1 by rfl, Nat.and_two_pow_sub_one_eq_mod] at g1 g3 g5 g7
  rw [show cls % 2 ^ 16 % 65536 = cls % 65536 by omega] at g3
  rw [show fn % 2 ^ 16 % 65536 = fn % 65536 by omega] at g7
  obtain ⟨r, pc, npc⟩ := s
  dsimp only at hp hn ⊢
  subst hp
  subst hn
  have hcl : (cls / 2 ^ 16 % 65536 * 65536 ||| cls % 65536) = cls := halves hc
  have hfl : (fn / 2 ^ 16 % 65536 * 65536 ||| fn % 65536) = fn := halves hf
  refine ⟨⟨setr (setr (setr (setr (setr r 13 (cls / 2 ^ 16 % 65536 * 65536)) 13 cls) 15 (fn / 2 ^ 16 % 65536 * 65536)) 15 fn) 17 (r 1), fn, fn + 4⟩, ?_, rfl, rfl, ?_, ?_, ?_⟩
  · have s1 : tstep m ⟨r, pc, pc + 4⟩ = some ⟨setr r 13 (cls / 2 ^ 16 % 65536 * 65536), pc + 4, pc + 8⟩ := by
      simp only [Nat.mul_zero, Nat.add_zero, Nat.mul_one] at g0 g1
      simp only [tstep, g0, g1]
      rfl
    have s2 : ∀ r, r 13 = cls / 2 ^ 16 % 65536 * 65536 → tstep m ⟨r, pc + 4, pc + 8⟩ = some ⟨setr r 13 cls, pc + 8, pc + 12⟩ := by
      intro r h
      simp only [tstep, g2, g3, show pc + 4 = pc + 2 * 2 by rfl, show pc + 2 * 2 + 2 = pc + 2 * 3 by rfl]
      show some (T.mk (setr r 13 (r 13 ||| cls % 65536)) _ _) = _
      rw [h, hcl]
    have s3 : ∀ r, tstep m ⟨r, pc + 8, pc + 12⟩ = some ⟨setr r 15 (fn / 2 ^ 16 % 65536 * 65536), pc + 12, pc + 16⟩ := by
      intro r
      simp only [tstep, g4, g5, show pc + 8 = pc + 2 * 4 by rfl, show pc + 2 * 4 + 2 = pc + 2 * 5 by rfl]
      rfl
    have s4 : ∀ r, r 15 = fn / 2 ^ 16 % 65536 * 65536 → tstep m ⟨r, pc + 12, pc + 16⟩ = some ⟨setr r 15 fn, pc + 16, pc + 20⟩ := by
      intro r h
      simp only [tstep, g6, g7, show pc + 12 = pc + 2 * 6 by rfl, show pc + 2 * 6 + 2 = pc + 2 * 7 by rfl]
      show some (T.mk (setr r 15 (r 15 ||| fn % 65536)) _ _) = _
      rw [h, hfl]
    have s5 : ∀ r, r 15 = fn → tstep m ⟨r, pc + 16, pc + 20⟩ = some ⟨r, pc + 20, fn⟩ := by
      intro r h
      simp only [tstep, g8, g9, show pc + 16 = pc + 2 * 8 by rfl, show pc + 2 * 8 + 2 = pc + 2 * 9 by rfl]
      show some (T.mk r _ (r 15)) = _
      rw [h]
    have s6 : ∀ r, tstep m ⟨r, pc + 20, fn⟩ = some ⟨setr r 17 (r 1), fn, fn + 4⟩ := by
      intro r
      simp only [tstep, g10, g11, show pc + 20 = pc + 2 * 10 by rfl, show pc + 2 * 10 + 2 = pc + 2 * 11 by rfl]
      show some (T.mk (setr r 17 (r 1 ||| 0)) _ _) = _
      rw [Nat.or_zero]
    simp only [tsteps, s1, Option.bind_some, s3, s6]
    rw [s2 _ (by simp [setr])]
    simp only [Option.bind_some, s3]
    rw [s4 _ (by simp [setr])]
    simp only [Option.bind_some]
    rw [s5 _ (by simp [setr])]
    simp only [Option.bind_some, s6]
    simp [setr]
  · simp [setr]
  · simp [setr]
  · intro k h1 h2 h3
    simp [setr, h1, h2, h3]

end Verif.Or1k
