import Verif.Or1k.Model
import Verif.Base.BufLemmas

/-! Lemmas about `ffi_prep_args` and the copies of `ffi_call`. -/
namespace Verif.Or1k
open Verif Verif.Spec Verif.Spec.Or1k

theorem wr_rd (m : Mem) (a : Nat) {n : Nat} {bs : List Byte} (h : bs.length = n) : (m.wr a bs).rd a n = bs := by
  rw [← h, Mem.rd_wr_same]

theorem be4 {v : Nat} (h : v < 2 ^ 32) : beNat (beBytes 4 v) = v := by
  rw [beNat_beBytes]; exact Nat.mod_eq_of_lt h

theorem beNat_rd_lt (m : Mem) (a n : Nat) : beNat (m.rd a n) < 256 ^ n := by
  have := beNat_lt (m.rd a n)
  rwa [Mem.rd_length] at this

/-- The classes of argument types. -/
inductive Cls (t : FType) : Prop
  | ref : t.tc = .struct → words t = 1 → Cls t
  | two : t.tc = .uint64 ∨ t.tc = .sint64 ∨ t.tc = .double → t.size = 8 → words t = 2 → Cls t
  | one (n : Nat) : n = 1 ∧ (t.tc = .uint8 ∨ t.tc = .sint8) ∨ n = 2 ∧ (t.tc = .uint16 ∨ t.tc = .sint16) ∨
      n = 4 ∧ (t.tc = .uint32 ∨ t.tc = .sint32 ∨ t.tc = .float ∨ t.tc = .pointer) → t.size = n → words t = 1 → Cls t

theorem Ty.cls {t : FType} (h : Ty t) : Cls t := by
  obtain ⟨h, hc⟩ := h
  cases h with
  | @scalar tc s a h =>
    cases tc <;> simp [tab] at h <;> obtain ⟨rfl, rfl⟩ := h
    case uint8 => exact .one 1 (by simp) rfl rfl
    case sint8 => exact .one 1 (by simp) rfl rfl
    case uint16 => exact .one 2 (by simp) rfl rfl
    case sint16 => exact .one 2 (by simp) rfl rfl
    case uint32 => exact .one 4 (by simp) rfl rfl
    case sint32 => exact .one 4 (by simp) rfl rfl
    case float => exact .one 4 (by simp) rfl rfl
    case pointer => exact .one 4 (by simp) rfl rfl
    case uint64 => exact .two (by simp) rfl rfl
    case sint64 => exact .two (by simp) rfl rfl
    case double => exact .two (by simp) rfl rfl
  | complex => exact absurd rfl hc
  | struct => exact .ref rfl rfl

theorem sext_ok {n v : Nat} (hn : n = 1 ∨ n = 2) (hv : v < 256 ^ n) :
    sext n v < 2 ^ 32 ∧ (sext n v : Int) = (if 2 ^ (8 * n - 1) ≤ v then (v : Int) - 2 ^ (8 * n) else v) % 2 ^ 32 := by
  unfold sext
  rcases hn with rfl | rfl <;> split <;> omega

/-- The place of an argument in the area: 8-byte arguments are not split. -/
def bump (t : FType) (count : Nat) : Nat := if words t = 2 ∧ count = 20 then 24 else count

/-- What a round does. -/
theorem prepArg_ok {t : FType} (ht : Cls t) {base a count : Nat} {m : Mem} (ha : a < 2 ^ 32) :
    ∃ m', prepArg base t a count m = (bump t count + 4 * words t, m') ∧
      (∀ x, x < base + bump t count ∨ base + bump t count + 4 * words t ≤ x → m' x = m x) ∧
      ∀ (M : Mem) (W : Nat → Nat), (∀ i, i < words t → W i = beNat (m'.rd (base + bump t count + 4 * i) 4)) → (∀ x, a ≤ x → x < a + t.size → M x = m x) →
        Passed M W t (m.rd a t.size) := by
  obtain ⟨s, al, tc, es⟩ := t
  cases ht with
  | ref h hw =>
    cases h
    have hb : bump (.mk s al .struct es) count = count := by unfold bump; rw [hw]; simp
    refine ⟨_, by rw [hb, hw]; rfl, ?_, ?_⟩
    · intro x hx; rw [hb, hw] at hx; exact Mem.wr_out _ _ _ _ (by rw [beBytes_length]; omega)
    · intro M W hW hM
      show M.rd (W 0) s = m.rd a s
      rw [hW 0 (by omega), hb, Nat.mul_zero, Nat.add_zero, wr_rd _ _ (beBytes_length _ _), be4 ha]
      exact Mem.rd_congr fun i hi => hM _ (by omega) (show a + i < a + s by omega)
  | two h hs hw =>
    have hs : s = 8 := hs
    subst hs
    have e : prepArg base (.mk 8 al tc es) a count m = ((if count = 20 then 24 else count) + 8, m.wr (base + (if count = 20 then 24 else count)) (m.rd a 8)) := by
      rcases h with h | h | h <;> cases h <;> rfl
    have hb : bump (.mk 8 al tc es) count = (if count = 20 then 24 else count) := by unfold bump; rw [hw]; simp
    rw [e, ← hb]
    generalize bump (.mk 8 al tc es) count = c
    refine ⟨_, by rw [hw], ?_, ?_⟩
    · intro x hx; rw [hw] at hx; exact Mem.wr_out _ _ _ _ (by rw [Mem.rd_length]; omega)
    · intro M W hW hM
      have hp : beBytes 4 (W 0) ++ beBytes 4 (W 1) = m.rd a 8 := by
        rw [hW 0 (by omega), hW 1 (by omega), beBytes_beNat' (Mem.rd_length _ _ _), beBytes_beNat' (Mem.rd_length _ _ _)]
        show (m.wr (base + c) (m.rd a 8)).rd (base + c) 4 ++ (m.wr (base + c) (m.rd a 8)).rd (base + c + 4) 4 = _
        rw [← Mem.rd_append, wr_rd _ _ (Mem.rd_length _ _ _)]
      rcases h with h | h | h <;> cases h <;> exact hp
  | one n h hs hw =>
    have hs : s = n := hs
    subst hs
    have hb : bump (.mk s al tc es) count = count := by unfold bump; rw [hw]; simp
    have key : ∃ v, prepArg base (.mk s al tc es) a count m = (count + 4, m.wr (base + count) (beBytes 4 v)) ∧ v < 2 ^ 32 ∧ (v : Int) = intVal tc (m.rd a s) % 2 ^ 32 := by
      have l1 := beNat_rd_lt m a 1
      have l2 := beNat_rd_lt m a 2
      have l4 := beNat_rd_lt m a 4
      rcases h with ⟨rfl, h | h⟩ | ⟨rfl, h | h⟩ | ⟨rfl, h | h | h | h⟩ <;> cases h
      · exact ⟨_, rfl, by omega, by simp [intVal, signed]; omega⟩
      · refine ⟨_, rfl, (sext_ok (.inl rfl) l1).1, ?_⟩
        rw [(sext_ok (.inl rfl) l1).2]; simp [intVal, signed]
      · exact ⟨_, rfl, by omega, by simp [intVal, signed]; omega⟩
      · refine ⟨_, rfl, (sext_ok (.inr rfl) l2).1, ?_⟩
        rw [(sext_ok (.inr rfl) l2).2]; simp [intVal, signed]
      · exact ⟨_, rfl, by omega, by simp [intVal, signed]; omega⟩
      · refine ⟨_, rfl, by omega, ?_⟩
        simp only [intVal, signed, Mem.rd_length, true_and]
        split <;> omega
      · exact ⟨_, rfl, by omega, by simp [intVal, signed]; omega⟩
      · exact ⟨_, rfl, by omega, by simp [intVal, signed]; omega⟩
    obtain ⟨v, e, hv, hi⟩ := key
    refine ⟨_, by rw [hb, hw, e], ?_, ?_⟩
    · intro x hx; rw [hb, hw] at hx; exact Mem.wr_out _ _ _ _ (by rw [beBytes_length]; omega)
    · intro M W hW hM
      have hp : (W 0 : Int) = intVal tc (m.rd a s) % 2 ^ 32 := by
        rw [hW 0 (by omega), hb, Nat.mul_zero, Nat.add_zero, wr_rd _ _ (beBytes_length _ _), be4 hv, hi]
      rcases h with ⟨rfl, h | h⟩ | ⟨rfl, h | h⟩ | ⟨rfl, h | h | h | h⟩ <;> cases h <;> exact hp

/-- `count` and `nfixedargs` against the convention's state. -/
structure Rel (nf : Int) (count n : Nat) (p : Pos) : Prop where
  named : n = nf.toNat
  count : count = 4 * (p.g + p.w)
  full : p.g ≤ 6 ∧ (p.g < 6 → p.w = 0)
  var : nf < 0 → p.g = 6

/-- `count` when the argument is stored. -/
def at_ (nf : Int) (t : FType) (count : Nat) : Nat := bump t (if nf = 0 ∧ count < 24 then 24 else count)

theorem Rel.step {nf : Int} {count n : Nat} {p : Pos} (h : Rel nf count n p) {t : FType} (hw : words t = 1 ∨ words t = 2) :
    Rel (nf - 1) (at_ nf t count + 4 * words t) (n - 1) (next (inRegs n p (words t)) p (words t)) ∧
      (inRegs n p (words t) = true → at_ nf t count = 4 * p.g ∧ p.g + words t ≤ 6) ∧ (inRegs n p (words t) = false → at_ nf t count = 24 + 4 * p.w) := by
  obtain ⟨h1, h2, ⟨h3, h4⟩, h5⟩ := h
  obtain ⟨g, w⟩ := p
  dsimp only at h2 h3 h4 h5
  generalize hk : words t = k at hw
  by_cases hb : 0 < n ∧ g + k ≤ 6
  · have hr : inRegs n ⟨g, w⟩ k = true := decide_eq_true hb
    have hw0 : w = 0 := h4 (by omega)
    subst hw0
    have ha : at_ nf t count = 4 * g := by
      unfold at_ bump
      rw [hk, if_neg (show ¬ (nf = 0 ∧ count < 24) by omega), if_neg (by omega)]
      omega
    rw [hr, ha]
    refine ⟨⟨by omega, ?_, ⟨?_, fun _ => rfl⟩, ?_⟩, fun _ => ⟨rfl, hb.2⟩, fun h => by cases h⟩
    · show _ = 4 * (g + k + 0); omega
    · exact hb.2
    · intro hn; show g + k = 6; omega
  · have hr : inRegs n ⟨g, w⟩ k = false := decide_eq_false hb
    have ha : at_ nf t count = 24 + 4 * w := by
      unfold at_ bump
      rw [hk]
      by_cases hg : g = 6
      · subst hg
        rw [if_neg (show ¬ (nf = 0 ∧ count < 24) by omega), if_neg (by omega)]; omega
      · have hw0 : w = 0 := h4 (by omega)
        subst hw0
        by_cases hn : nf = 0
        · rw [if_pos (show nf = 0 ∧ count < 24 by omega), if_neg (by omega)]
        · rw [if_neg (show ¬ (nf = 0 ∧ count < 24) by omega), if_pos (by omega)]
    rw [hr, ha]
    refine ⟨⟨by omega, ?_, ⟨Nat.le_refl 6, fun h => absurd h (by show ¬ 6 < 6; omega)⟩, fun _ => rfl⟩, (fun h => absurd h (by decide)), fun _ => rfl⟩
    show _ = 4 * (6 + (w + k)); omega

theorem prepLoop_cons {base : Nat} {nf : Int} {t : FType} {ts : List FType} {a : Nat} {as : List Nat} {count : Nat} {m m' : Mem}
    (h : prepArg base t a (if nf = 0 ∧ count < 24 then 24 else count) m = (at_ nf t count + 4 * words t, m')) :
    prepLoop base nf (t :: ts) (a :: as) count m = prepLoop base (nf - 1) ts as (at_ nf t count + 4 * words t) m' := by
  rw [prepLoop, h]

/-- The count at the end. -/
def endCount : Int → List FType → Nat → Nat
  | _, [], count => count
  | nf, t :: ts, count => endCount (nf - 1) ts (at_ nf t count + 4 * words t)

theorem at_ge (nf : Int) (t : FType) (count : Nat) : count ≤ at_ nf t count := by
  unfold at_ bump; split <;> split <;> omega

theorem endCount_ge : ∀ (ts : List FType) (nf : Int) (count : Nat), count ≤ endCount nf ts count
  | [], _, _ => Nat.le_refl _
  | t :: ts, nf, count => by
    have := endCount_ge ts (nf - 1) (at_ nf t count + 4 * words t)
    have := at_ge nf t count
    unfold endCount; omega

/-- The arguments are passed. `low`: what lies between it and `base` may change before the function is entered. -/
theorem prepLoop_ok {base low hi : Nat} {m0 : Mem} : ∀ {ts : List FType} {as : List Nat} {nf : Int} {count n : Nat} {p : Pos} {m : Mem}, (∀ t ∈ ts, Cls t) → as.length = ts.length →
    (∀ a ∈ as, a < 2 ^ 32) → Rel nf count n p → base + endCount nf ts count ≤ hi →
    (∀ (i : Nat) (t : FType) (a : Nat), ts[i]? = some t → as[i]? = some a → a + t.size ≤ low ∨ hi ≤ a) → low ≤ base →
    (∀ x, x < low ∨ hi ≤ x → m x = m0 x) →
    ∃ m', prepLoop base nf ts as count m = (endCount nf ts count, m') ∧ (∀ x, x < base + count ∨ base + endCount nf ts count ≤ x → m' x = m x) ∧
      ∀ R : Regs, (∀ k, k < 6 → 4 * k < endCount nf ts count → R.r k = beNat (m'.rd (base + 4 * k) 4)) → (24 < endCount nf ts count → R.sp = base + 24) →
        (∀ x, x < low ∨ base ≤ x → R.mem x = m' x) → AllPassed R n p ts (vals m0 ts as)
  | [], [], nf, count, n, p, m, _, _, _, _, _, _, _, _ => ⟨m, rfl, fun _ _ => rfl, fun _ _ _ _ => trivial⟩
  | [], _ :: _, _, _, _, _, _, _, hl, _, _, _, _, _, _ => by cases hl
  | _ :: _, [], _, _, _, _, _, _, hl, _, _, _, _, _, _ => by cases hl
  | t :: ts, a :: as, nf, count, n, p, m, hc, hl, ha, hrel, hh, hap, hlo, hm => by
    have hh : base + endCount (nf - 1) ts (at_ nf t count + 4 * words t) ≤ hi := hh
    have ct := hc t (by simp)
    have hw : words t = 1 ∨ words t = 2 := by cases ct <;> omega
    obtain ⟨hrel', hin, hout⟩ := hrel.step hw
    obtain ⟨m1, e1, o1, p1⟩ := prepArg_ok ct (base := base) (a := a) (count := if nf = 0 ∧ count < 24 then 24 else count) (m := m) (ha a (by simp))
    change prepArg base t a (if nf = 0 ∧ count < 24 then 24 else count) m = (at_ nf t count + 4 * words t, m1) at e1
    change ∀ x, x < base + at_ nf t count ∨ base + at_ nf t count + 4 * words t ≤ x → m1 x = m x at o1
    change ∀ (M : Mem) (W : Nat → Nat), (∀ i, i < words t → W i = beNat (m1.rd (base + at_ nf t count + 4 * i) 4)) → _ at p1
    have hap0 := hap 0 t a rfl rfl
    have hge := endCount_ge ts (nf - 1) (at_ nf t count + 4 * words t)
    have hcge := at_ge nf t count
    obtain ⟨m', e2, o2, p2⟩ := prepLoop_ok (base := base) (low := low) (hi := hi) (m0 := m0) (ts := ts) (as := as) (m := m1) (fun u hu => hc u (by simp [hu])) (by simpa using hl)
      (fun b hb => ha b (by simp [hb])) hrel' hh (fun i u b h1 h2 => hap (i + 1) u b h1 h2) hlo (fun x hx => (o1 x (by omega)).trans (hm x hx))
    refine ⟨m', by rw [prepLoop_cons e1, e2]; rfl, ?_, ?_⟩
    · intro x hx
      have hx : x < base + count ∨ base + endCount (nf - 1) ts (at_ nf t count + 4 * words t) ≤ x := hx
      rw [o2 x (by omega), o1 x (by omega)]
    · intro R hR hsp hmem
      have hR : ∀ k, k < 6 → 4 * k < endCount (nf - 1) ts (at_ nf t count + 4 * words t) → R.r k = beNat (m'.rd (base + 4 * k) 4) := hR
      have hsp : 24 < endCount (nf - 1) ts (at_ nf t count + 4 * words t) → R.sp = base + 24 := hsp
      have hval : m0.rd a t.size = m.rd a t.size := Mem.rd_congr fun i hi => (hm _ (by omega)).symm
      refine ⟨?_, p2 R hR hsp hmem⟩
      rw [hval]
      refine p1 R.mem _ (fun i hi => ?_) (fun x h1 h2 => ?_)
      · have hsame : m1.rd (base + at_ nf t count + 4 * i) 4 = m'.rd (base + at_ nf t count + 4 * i) 4 := (Mem.rd_congr fun j hj => o2 _ (by omega)).symm
        rw [hsame]
        cases hb : inRegs n p (words t) with
        | true =>
          obtain ⟨h1, h2⟩ := hin hb
          show R.r (p.g + i) = _
          rw [hR (p.g + i) (by omega) (by omega), h1]
          congr 2; omega
        | false =>
          have h1 := hout hb
          show beNat (R.mem.rd (R.sp + 4 * (p.w + i)) 4) = _
          rw [hsp (by omega), h1, show base + 24 + 4 * (p.w + i) = base + (24 + 4 * p.w) + 4 * i by omega]
          exact congrArg beNat (Mem.rd_congr fun j hj => hmem _ (by omega))
      · have q : x < low ∨ hi ≤ x := by omega
        rw [hmem x (by omega), o2 x (by omega), o1 x (by omega)]

/-- The copies: what they hold, and where they are. -/
theorem copyArgs_ok : ∀ {ts : List FType} {as : List Nat} {top : Nat} {m : Mem}, as.length = ts.length → (∀ a ∈ as, a < 2 ^ 32) → top < 2 ^ 32 →
    ∀ {lo top0 : Nat}, top ≤ top0 → lo + (ts.map fun t => t.size + 3).sum ≤ top →
    (∀ (i : Nat) (t : FType) (a : Nat), ts[i]? = some t → as[i]? = some a → a + t.size ≤ lo ∨ top0 ≤ a) →
    ∃ as' top' m', copyArgs ts as top m = (as', top', m') ∧ as'.length = ts.length ∧ (∀ a ∈ as', a < 2 ^ 32) ∧ lo ≤ top' ∧ top' ≤ top ∧
      (∀ x, x < top' ∨ top ≤ x → m' x = m x) ∧ vals m' ts as' = vals m ts as ∧
      (∀ (i : Nat) (t : FType) (a : Nat), ts[i]? = some t → as'[i]? = some a → a + t.size ≤ lo ∨ top' ≤ a) ∧
      (∀ (i : Nat) (t : FType) (a : Nat), ts[i]? = some t → t.tc = .struct → as'[i]? = some a → top' ≤ a ∧ a + t.size ≤ top)
  | [], [], top, m, _, _, _, lo, top0, _, h, _ => ⟨[], top, m, rfl, rfl, by simp, by simpa using h, Nat.le_refl _, fun _ _ => rfl, rfl, fun i t a h => by simp at h, fun i t a h => by simp at h⟩
  | [], _ :: _, _, _, hl, _, _, _, _, _, _, _ => by cases hl
  | _ :: _, [], _, _, hl, _, _, _, _, _, _, _ => by cases hl
  | t :: ts, a :: as, top, m, hl, ha, ht, lo, top0, h0, hr, hap => by
    simp only [List.map_cons, List.sum_cons] at hr
    have hl' : as.length = ts.length := by simpa using hl
    have ha' : ∀ b ∈ as, b < 2 ^ 32 := fun b hb => ha b (by simp [hb])
    have hap0 := hap 0 t a rfl rfl
    by_cases hs : t.tc = .struct
    · obtain ⟨p, hp⟩ : ∃ p, p = alloca top t.size := ⟨_, rfl⟩
      have hp1 : p + t.size ≤ top ∧ top ≤ p + t.size + 3 := by rw [hp]; unfold alloca; omega
      obtain ⟨as', top', m', e, l', b', r1, r2, o, v, q, q2⟩ := copyArgs_ok (ts := ts) (as := as) (top := p) (m := m.wr p (m.rd a t.size)) hl' ha' (by omega) (lo := lo) (top0 := top0) (by omega) (by omega)
        (fun i u b h1 h2 => hap (i + 1) u b h1 h2)
      refine ⟨p :: as', top', m', ?_, by simp [l'], ?_, r1, by omega, ?_, ?_, ?_, ?_⟩
      · rw [copyArgs, if_pos hs]; dsimp only; rw [← hp, e]
      · intro b hb
        rcases List.mem_cons.1 hb with rfl | hb
        · omega
        · exact b' b hb
      · intro x hx
        rw [o x (by omega), Mem.wr_out _ _ _ _ (by rw [Mem.rd_length]; omega)]
      · have e1 : m'.rd p t.size = m.rd a t.size := by
          rw [← wr_rd m p (Mem.rd_length m a t.size)]
          exact Mem.rd_congr fun i hi => o _ (by omega)
        have e2 : vals (m.wr p (m.rd a t.size)) ts as = vals m ts as := by
          have : ∀ (ts : List FType) (as : List Nat), (∀ (i : Nat) (u : FType) (b : Nat), ts[i]? = some u → as[i]? = some b → b + u.size ≤ lo ∨ top0 ≤ b) →
              vals (m.wr p (m.rd a t.size)) ts as = vals m ts as := by
            intro ts
            induction ts with
            | nil => intro as _; rfl
            | cons u us ih =>
              intro as h
              cases as with
              | nil => rfl
              | cons b bs =>
                have hb := h 0 u b rfl rfl
                show _ :: _ = _ :: _
                rw [ih bs (fun i u b h1 h2 => h (i + 1) u b h1 h2)]
                congr 1
                exact Mem.rd_wr_disj _ _ _ _ _ (by rw [Mem.rd_length]; omega)
          exact this ts as (fun i u b h1 h2 => hap (i + 1) u b h1 h2)
        show _ :: _ = _ :: _
        rw [e1, v, e2]
      · intro i u b h1 h2
        cases i with
        | zero => cases h1; cases h2; right; omega
        | succ i => exact q i u b h1 h2
      · intro i u b h1 h3 h2
        cases i with
        | zero => cases h1; cases h2; omega
        | succ i => have := q2 i u b h1 h3 h2; omega
    · obtain ⟨as', top', m', e, l', b', r1, r2, o, v, q, q2⟩ := copyArgs_ok (ts := ts) (as := as) (top := top) (m := m) hl' ha' ht (lo := lo) (top0 := top0) h0 (by omega)
        (fun i u b h1 h2 => hap (i + 1) u b h1 h2)
      refine ⟨a :: as', top', m', ?_, by simp [l'], ?_, r1, r2, o, ?_, ?_, ?_⟩
      · rw [copyArgs, if_neg hs]; dsimp only; rw [e]
      · intro b hb
        rcases List.mem_cons.1 hb with rfl | hb
        · exact ha b (by simp)
        · exact b' b hb
      · show _ :: _ = _ :: _
        rw [v]
        congr 1
        exact Mem.rd_congr fun i hi => o _ (by omega)
      · intro i u b h1 h2
        cases i with
        | zero => cases h1; cases h2; omega
        | succ i => exact q i u b h1 h2
      · intro i u b h1 h3 h2
        cases i with
        | zero => cases h1; exact absurd h3 hs
        | succ i => exact q2 i u b h1 h3 h2

end Verif.Or1k
