import Verif.Or1k.Asm

/-
`ffi_call`, `ffi_call_SYSV` and `ffi_prep_args` of src/or1k put together.  `ffi_prep_args` is C: it is taken to keep the registers that the
convention has it keep, and to write below the stack pointer as it likes.  The local variables of `ffi_call` other than the copies of structs
are not in the memory of the model.
-/
namespace Verif.Or1k
open Verif Verif.Spec.Or1k

/-- No argument finds one register left and needs two. -/
def Whole : Nat → Pos → List FType → Prop
  | _, _, [] => True
  | n, p, t :: ts => ¬ (0 < n ∧ p.g = 5 ∧ words t = 2) ∧ Whole (n - 1) (next (inRegs n p (words t)) p (words t)) ts

theorem Cls.size {t : FType} (h : Cls t) : argSize t = 4 * words t := by
  cases h with
  | ref h hw => rw [argSize, if_pos h, hw]
  | two h hs hw => rw [argSize, hs, hw, if_neg (by rcases h with h | h | h <;> rw [h] <;> decide)]; rfl
  | one n h hs hw =>
    have : t.tc ≠ .struct := by rcases h with ⟨_, h | h⟩ | ⟨_, h | h⟩ | ⟨_, h | h | h | h⟩ <;> rw [h] <;> decide
    rw [argSize, if_neg this, if_pos (by omega), hw]

theorem endCount_var : ∀ {ts : List FType} {nf : Int} {count : Nat}, (∀ t ∈ ts, Cls t) → endCount nf ts count ≤ (ts.map argSize).sum + max count 24
  | [], _, _, _ => by simp [endCount]
  | t :: ts, nf, count, h => by
    have ih := endCount_var (ts := ts) (nf := nf - 1) (count := at_ nf t count + 4 * words t) (fun u hu => h u (by simp [hu]))
    have hs := (h t (by simp)).size
    have ha : at_ nf t count ≤ max count 24 := by unfold at_ bump; split <;> split <;> omega
    simp only [endCount, List.map_cons, List.sum_cons]
    omega

theorem endCount_whole : ∀ {ts : List FType} {nf : Int} {count n : Nat} {p : Pos}, (∀ t ∈ ts, Cls t) → Rel nf count n p → (ts.length : Int) ≤ nf → Whole n p ts →
    endCount nf ts count = (ts.map argSize).sum + count
  | [], _, _, _, _, _, _, _, _ => by simp [endCount]
  | t :: ts, nf, count, n, p, h, hr, hn, hw => by
    have ct := h t (by simp)
    have hwd : words t = 1 ∨ words t = 2 := by cases ct <;> omega
    simp only [List.length_cons] at hn
    have ih := endCount_whole (ts := ts) (fun u hu => h u (by simp [hu])) (hr.step hwd).1 (by omega) hw.2
    have hs := ct.size
    have ha : at_ nf t count = count := by
      have h1 := hr.named
      have h2 := hr.count
      have h3 := hr.full
      have h4 := hw.1
      unfold at_ bump
      rw [if_neg (show ¬ (nf = 0 ∧ count < 24) by omega), if_neg ?_]
      intro h5
      refine h4 ⟨by omega, by omega, h5.1⟩
    simp only [endCount, List.map_cons, List.sum_cons, ih]
    omega

theorem endPos_rel : ∀ {ts : List FType} {nf : Int} {count n : Nat} {p : Pos}, (∀ t ∈ ts, Cls t) → Rel nf count n p →
    ∃ nf' n', Rel nf' (endCount nf ts count) n' (endPos n p ts)
  | [], nf, _, n, _, _, h => ⟨nf, n, h⟩
  | t :: ts, _, _, _, _, h, hr => by
    have ct := h t (by simp)
    have hw : words t = 1 ∨ words t = 2 := by cases ct <;> omega
    exact endPos_rel (ts := ts) (fun u hu => h u (by simp [hu])) (hr.step hw).1

/-- `count` at the beginning. -/
def count0 (rt : FType) : Nat := if rt.tc = .struct then 4 else 0

theorem rel0 (rt : FType) (nf : Nat) : Rel nf (count0 rt) nf (start rt) := by
  unfold count0 start
  split
  · exact ⟨by omega, rfl, ⟨by decide, fun _ => rfl⟩, fun h => by omega⟩
  · exact ⟨by omega, rfl, ⟨by decide, fun _ => rfl⟩, fun h => by omega⟩

/-- The arguments fit. -/
theorem fits {rt : FType} {nf : Nat} {ats : List FType} (hc : ∀ t ∈ ats, Cls t) (hf : nf < ats.length ∨ nf = ats.length ∧ Whole nf (start rt) ats) :
    endCount nf ats (count0 rt) ≤ callSize rt nf ats := by
  unfold callSize
  rcases hf with h | ⟨h, hw⟩
  · have := endCount_var (nf := nf) (count := count0 rt) hc
    rw [if_pos (by omega)]
    unfold count0 at this ⊢
    split at this <;> rename_i h1 <;> simp only [h1, if_true, if_false] <;> omega
  · have := endCount_whole hc (rel0 rt nf) (by omega) hw
    rw [this, if_neg (by omega), count0]
    omega

/-- `ffi_prep_args` has returned. `base` is the area; what is in `[low, base)` may have changed. -/
structure PrepDone (low : Nat) (rt : FType) (nf : Nat) (ats : List FType) (avalue : List Nat) (rvalue : Nat) (t u : M) : Prop where
  pc : u.pc = t.r 9
  res : u.r 11 = (prepArgs (t.r 3) rt nf ats avalue rvalue t.mem).1
  mem : ∀ x, x < low ∨ t.r 1 ≤ x → u.mem x = (prepArgs (t.r 3) rt nf ats avalue rvalue t.mem).2 x
  keeps : ∀ k, k = 1 ∨ k = 2 ∨ k = 10 ∨ k = 14 ∨ k = 16 ∨ k = 18 ∨ k = 20 ∨ k = 22 ∨ k = 24 ∨ k = 26 ∨ k = 28 ∨ k = 30 → u.r k = t.r k

/-- `ffi_call_SYSV` is called by `ffi_call`. -/
structure Call (L low prep fn : Nat) (rt : FType) (nf : Nat) (ats : List FType) (rvalue : Nat) (s : M) : Prop where
  pc : s.pc = L
  size : s.r 3 = callSize rt nf ats
  prep : s.r 5 = prep
  rvalue : s.r 6 = rvalue
  fn : s.r 7 = fn
  flags : s.r 8 = flags rt
  room : low + callSize rt nf ats + 24 ≤ s.r 1
  word : ∀ k, s.r k < 2 ^ 32

/-- The registers that a function must keep. -/
def kept (k : Nat) : Prop := k = 1 ∨ k = 2 ∨ k = 10 ∨ k = 14 ∨ k = 16 ∨ k = 18 ∨ k = 20 ∨ k = 22 ∨ k = 24 ∨ k = 26 ∨ k = 28 ∨ k = 30

/-- The saved registers are in the frame. -/
structure Saved (s : M) (m : Mem) : Prop where
  r9 : m.rd (s.r 1 - 4) 4 = beBytes 4 (s.r 9)
  r1 : m.rd (s.r 1 - 8) 4 = beBytes 4 (s.r 1)
  r14 : m.rd (s.r 1 - 12) 4 = beBytes 4 (s.r 14)
  r16 : m.rd (s.r 1 - 16) 4 = beBytes 4 (s.r 16)
  r18 : m.rd (s.r 1 - 20) 4 = beBytes 4 (s.r 18)
  r20 : m.rd (s.r 1 - 24) 4 = beBytes 4 (s.r 20)

theorem Saved.congr {s : M} {m m' : Mem} (h : Saved s m) (hs : 24 ≤ s.r 1) (e : ∀ x, s.r 1 - 24 ≤ x → x < s.r 1 → m' x = m x) : Saved s m' := by
  obtain ⟨h1, h2, h3, h4, h5, h6⟩ := h
  constructor
  · rw [← h1]; exact Mem.rd_congr fun i hi => e _ (by omega) (by omega)
  · rw [← h2]; exact Mem.rd_congr fun i hi => e _ (by omega) (by omega)
  · rw [← h3]; exact Mem.rd_congr fun i hi => e _ (by omega) (by omega)
  · rw [← h4]; exact Mem.rd_congr fun i hi => e _ (by omega) (by omega)
  · rw [← h5]; exact Mem.rd_congr fun i hi => e _ (by omega) (by omega)
  · rw [← h6]; exact Mem.rd_congr fun i hi => e _ (by omega) (by omega)

theorem saved_saved {s : M} (hs : 24 ≤ s.r 1) : Saved s (savedMem s) := by
  have d : ∀ (m : Mem) (a b v : Nat), (a + 4 ≤ b ∨ b + 4 ≤ a) → (m.wr a (beBytes 4 v)).rd b 4 = m.rd b 4 := by
    intro m a b v h
    exact Mem.rd_wr_disj _ _ _ _ _ (by rw [beBytes_length]; omega)
  unfold savedMem
  constructor
  · rw [d _ _ _ _ (by omega), d _ _ _ _ (by omega), d _ _ _ _ (by omega), d _ _ _ _ (by omega), d _ _ _ _ (by omega), wr_rd _ _ (beBytes_length _ _)]
  · rw [d _ _ _ _ (by omega), d _ _ _ _ (by omega), d _ _ _ _ (by omega), d _ _ _ _ (by omega), wr_rd _ _ (beBytes_length _ _)]
  · rw [d _ _ _ _ (by omega), d _ _ _ _ (by omega), d _ _ _ _ (by omega), wr_rd _ _ (beBytes_length _ _)]
  · rw [d _ _ _ _ (by omega), d _ _ _ _ (by omega), wr_rd _ _ (beBytes_length _ _)]
  · rw [d _ _ _ _ (by omega), wr_rd _ _ (beBytes_length _ _)]
  · rw [wr_rd _ _ (beBytes_length _ _)]

theorem savedMem_out {s : M} (hs : 24 ≤ s.r 1) {x : Nat} (hx : x < s.r 1 - 24 ∨ s.r 1 ≤ x) : savedMem s x = s.mem x := by
  unfold savedMem
  repeat rw [Mem.wr_out _ _ _ _ (by rw [beBytes_length]; omega)]

/-- The state in which the function is entered. -/
structure Entered (L low : Nat) (rt : FType) (nf : Nat) (ats : List FType) (fn rvalue : Nat) (vs : List (List Byte)) (s w : M) : Prop where
  pc : w.pc = fn
  ra : w.r 9 = L + 96
  args : AllPassed ⟨fun k => w.r (3 + k), w.mem, w.r 1⟩ nf (start rt) ats vs
  result : rt.tc = .struct → w.r 3 = rvalue
  stack : low ≤ w.r 1 ∧ w.r 1 + 4 * (endPos nf (start rt) ats).w ≤ s.r 1 - 24
  r14 : w.r 14 = s.r 1
  r18 : w.r 18 = rvalue
  r20 : w.r 20 = flags rt
  keeps : ∀ k, k = 2 ∨ k = 10 ∨ k = 22 ∨ k = 24 ∨ k = 26 ∨ k = 28 ∨ k = 30 → w.r k = s.r k
  saved : Saved s w.mem
  mem : ∀ x, x < low ∨ s.r 1 ≤ x → w.mem x = s.mem x

theorem prepArgs_eq (base : Nat) (rt : FType) (nf : Nat) (ats : List FType) (avalue : List Nat) (rvalue : Nat) (m : Mem) :
    ∃ m1, prepArgs base rt nf ats avalue rvalue m =
        (base + (if (prepLoop base nf ats avalue (count0 rt) m1).1 > 24 then 24 else 0), (prepLoop base nf ats avalue (count0 rt) m1).2) ∧
      (∀ x, x < base ∨ base + count0 rt ≤ x → m1 x = m x) ∧ (rt.tc = .struct → m1.rd base 4 = beBytes 4 rvalue) := by
  by_cases h : rt.tc = .struct
  · refine ⟨m.wr base (beBytes 4 rvalue), by simp [prepArgs, count0, h], ?_, fun _ => wr_rd _ _ (beBytes_length _ _)⟩
    intro x hx
    rw [count0, if_pos h] at hx
    exact Mem.wr_out _ _ _ _ (by rw [beBytes_length]; omega)
  · exact ⟨m, by simp [prepArgs, count0, h], fun _ _ => rfl, fun h' => absurd h' h⟩

/-- From the return of `ffi_prep_args` to the function. -/
theorem enter {L low prep fn : Nat} {rt : FType} {nf : Nat} {ats : List FType} {avalue : List Nat} {rvalue : Nat} {s t u : M}
    (hc : Call L low prep fn rt nf ats rvalue s) (ht : ∀ t ∈ ats, Cls t) (hf : endCount nf ats (count0 rt) ≤ callSize rt nf ats) (hl : avalue.length = ats.length) (ha : ∀ a ∈ avalue, a < 2 ^ 32)
    (hap : ∀ (i : Nat) (t : FType) (a : Nat), ats[i]? = some t → avalue[i]? = some a → a + t.size ≤ low ∨ s.r 1 ≤ a)
    (hp : AtPrep L s t) (hu : PrepDone low rt nf ats avalue rvalue t u) :
    ∃ w, Runs L u w ∧ Entered L low rt nf ats fn rvalue (vals s.mem ats avalue) s w := by
  have room := hc.room
  have hbase : t.r 3 = s.r 1 - 24 - callSize rt nf ats := by rw [hp.base, hc.size]
  have hsp : u.r 1 = s.r 1 - 24 - callSize rt nf ats := by rw [hu.keeps 1 (by simp), hp.sp, hc.size]
  have hst : t.r 1 = s.r 1 - 24 - callSize rt nf ats := by rw [hp.sp, hc.size]
  obtain ⟨w, hr, hw⟩ := call_fn (L := L) (u := u) (by rw [hu.pc, hp.ra])
  obtain ⟨m1, e1, o1, s1⟩ := prepArgs_eq (t.r 3) rt nf ats avalue rvalue t.mem
  obtain ⟨base, hb⟩ : ∃ b, b = s.r 1 - 24 - callSize rt nf ats := ⟨_, rfl⟩
  rw [← hb] at hbase hsp hst
  rw [hbase] at e1 o1 s1
  have hge := endCount_ge ats nf (count0 rt)
  have hm1 : ∀ x, x < base ∨ base + count0 rt ≤ x → m1 x = savedMem s x := fun x hx => by rw [o1 x hx, hp.mem]
  obtain ⟨m', e2, o2, p2⟩ := prepLoop_ok (base := base) (low := low) (hi := s.r 1) (m0 := s.mem) (ts := ats) (as := avalue) (m := m1) ht hl ha (rel0 rt nf) (by omega) hap (by omega)
    (fun x hx => by rw [hm1 x (by omega), savedMem_out (by omega) (by omega)])
  rw [e2] at e1
  have ures : u.r 11 = base + (if endCount nf ats (count0 rt) > 24 then 24 else 0) := by rw [hu.res, hbase, e1]
  have umem : ∀ x, x < low ∨ base ≤ x → u.mem x = m' x := fun x hx => by rw [hu.mem x (by omega), hbase, e1]
  obtain ⟨nf', n', hrel⟩ := endPos_rel ht (rel0 rt nf)
  refine ⟨w, hr, ?_⟩
  constructor
  · rw [hw.pc, hu.keeps 16 (by simp), hp.r16, hc.fn]
  · exact hw.ra
  · refine p2 _ (fun k hk _ => ?_) (fun h => ?_) (fun x hx => ?_)
    · show w.r (3 + k) = _
      rw [hw.args k hk, hsp]
      exact congrArg beNat (Mem.rd_congr fun i hi => umem _ (by omega))
    · show w.r 1 = _
      rw [hw.sp, ures, if_pos h]
    · show w.mem x = _
      rw [hw.mem, umem x hx]
  · intro h
    have h0 := hw.args 0 (by omega)
    have hcnt : count0 rt = 4 := by rw [count0, if_pos h]
    have e : u.mem.rd (base + 4 * 0) 4 = beBytes 4 rvalue := by
      rw [← s1 h]
      exact Mem.rd_congr fun i hi => by rw [umem _ (by omega), o2 _ (by omega), Nat.mul_zero, Nat.add_zero]
    rw [show (3 : Nat) = 3 + 0 by rfl, h0, hsp, e, be4]
    have := hc.word 6
    rwa [hc.rvalue] at this
  · rw [hw.sp, ures]
    have h1 := hrel.count
    have h2 := hrel.full
    split <;> omega
  · rw [hw.rest 14 (by simp), hu.keeps 14 (by simp), hp.r14]
  · rw [hw.rest 18 (by simp), hu.keeps 18 (by simp), hp.r18, hc.rvalue]
  · rw [hw.rest 20 (by simp), hu.keeps 20 (by simp), hp.r20, hc.flags]
  · intro k hk
    rw [hw.rest k (by omega), hu.keeps k (by omega), hp.rest k hk]
  · refine (saved_saved (s := s) (by omega)).congr (by omega) (fun x h1 h2 => ?_)
    rw [hw.mem, umem x (by omega), o2 x (by omega), hm1 x (by omega)]
  · intro x hx
    rw [hw.mem, umem x (by omega), o2 x (by omega), hm1 x (by omega), savedMem_out (by omega) (by omega)]

/-- The function has returned to `ffi_call_SYSV`, as the convention wants. -/
structure FnDone (s w v : M) : Prop where
  pc : v.pc = w.r 9
  keeps : ∀ k, kept k → v.r k = w.r k
  frame : ∀ x, s.r 1 - 24 ≤ x → x < s.r 1 → v.mem x = w.mem x

/-- `ffi_call_SYSV` has returned to `ffi_call`. -/
structure Left (s v z : M) : Prop where
  pc : z.pc = s.r 9
  keeps : ∀ k, kept k → z.r k = s.r k

theorem leave {L low : Nat} {rt : FType} {nf : Nat} {ats : List FType} {fn rvalue : Nat} {vs : List (List Byte)} {s w v : M}
    (he : Entered L low rt nf ats fn rvalue vs s w) (hw : ∀ k, s.r k < 2 ^ 32) (hs : 24 ≤ s.r 1) (hd : FnDone s w v)
    (hr : rt.tc = .struct ∨ rvalue + 8 ≤ s.r 1 - 24 ∨ s.r 1 ≤ rvalue) :
    ∃ z, Runs L v z ∧ Left s v z ∧ z.mem = storedMem v := by
  obtain ⟨z, r, b⟩ := call_tail (L := L) (u := v) (by rw [hd.pc, he.ra])
  have h14 : v.r 14 = s.r 1 := by rw [hd.keeps 14 (by simp [kept]), he.r14]
  have h18 : v.r 18 = rvalue := by rw [hd.keeps 18 (by simp [kept]), he.r18]
  have h20 : v.r 20 = flags rt := by rw [hd.keeps 20 (by simp [kept]), he.r20]
  have sv : Saved s (storedMem v) := by
    refine he.saved.congr hs fun x h1 h2 => ?_
    rw [← hd.frame x h1 h2]
    unfold storedMem
    rcases hr with hr | hr
    · rw [if_pos (by rw [h20, flags, if_pos hr])]
    · split
      · rfl
      · split
        · rw [Mem.wr_out _ _ _ _ (by rw [beBytes_length]; omega), Mem.wr_out _ _ _ _ (by rw [beBytes_length]; omega)]
        · rw [Mem.wr_out _ _ _ _ (by rw [beBytes_length]; omega)]
  have z1 : z.r 1 = s.r 1 := by rw [b.sp, h14, sv.r1, be4 (hw 1)]
  refine ⟨z, r, ⟨by rw [b.pc, b.ra, h14, sv.r9, be4 (hw 9)], ?_⟩, b.mem⟩
  intro k hk
  rcases hk with rfl | rfl | rfl | rfl | rfl | rfl | rfl | rfl | rfl | rfl | rfl | rfl
  · exact z1
  · rw [b.rest 2 (by simp), hd.keeps 2 (by simp [kept]), he.keeps 2 (by simp)]
  · rw [b.rest 10 (by simp), hd.keeps 10 (by simp [kept]), he.keeps 10 (by simp)]
  · rw [b.r14, z1, sv.r14, be4 (hw 14)]
  · rw [b.r16, z1, sv.r16, be4 (hw 16)]
  · rw [b.r18, z1, sv.r18, be4 (hw 18)]
  · rw [b.r20, z1, sv.r20, be4 (hw 20)]
  · rw [b.rest 22 (by simp), hd.keeps 22 (by simp [kept]), he.keeps 22 (by simp)]
  · rw [b.rest 24 (by simp), hd.keeps 24 (by simp [kept]), he.keeps 24 (by simp)]
  · rw [b.rest 26 (by simp), hd.keeps 26 (by simp [kept]), he.keeps 26 (by simp)]
  · rw [b.rest 28 (by simp), hd.keeps 28 (by simp [kept]), he.keeps 28 (by simp)]
  · rw [b.rest 30 (by simp), hd.keeps 30 (by simp [kept]), he.keeps 30 (by simp)]

/-- The result is where it belongs, and nothing else is written. -/
theorem stored_ok {rt : FType} (ht : Cls rt) {v : M} (hf : v.r 20 = flags rt) (hw : v.r 11 < 2 ^ 32) {val : List Byte} (hv : Returned rt val (v.r 11) (v.r 12)) :
    Got rt val (storedMem v) (v.r 18) ∧ ∀ x, x < v.r 18 ∨ v.r 18 + (if rt.tc = .struct then 0 else 4 * words rt) ≤ x → storedMem v x = v.mem x := by
  obtain ⟨sz, al, tc, es⟩ := rt
  obtain ⟨hlen, hv⟩ := hv
  cases ht with
  | ref h hwd =>
    cases h
    refine ⟨trivial, fun x _ => ?_⟩
    rw [storedMem, if_pos (by rw [hf]; rfl)]
  | two h hs hwd =>
    cases hs
    have hns : tc ≠ .struct := by intro h'; subst h'; rcases h with h | h | h <;> cases h
    have hfl : v.r 20 = 11 := by rw [hf]; simp [flags, hns]
    have e : storedMem v = (v.mem.wr (v.r 18 + 4) (beBytes 4 (v.r 12))).wr (v.r 18) (beBytes 4 (v.r 11)) := by rw [storedMem, if_neg (by omega), if_pos hfl]
    rw [e]
    refine ⟨?_, fun x hx => ?_⟩
    · have hval : beBytes 4 (v.r 11) ++ beBytes 4 (v.r 12) = val := by rcases h with h | h | h <;> cases h <;> exact hv
      have hg : ((v.mem.wr (v.r 18 + 4) (beBytes 4 (v.r 12))).wr (v.r 18) (beBytes 4 (v.r 11))).rd (v.r 18) 8 = val := by
        rw [show 8 = 4 + 4 by rfl, Mem.rd_append, wr_rd _ _ (beBytes_length _ _), Mem.rd_wr_disj _ _ _ _ _ (by rw [beBytes_length]; omega), wr_rd _ _ (beBytes_length _ _), hval]
      rcases h with h | h | h <;> cases h <;> exact hg
    · rw [show (FType.mk 8 al tc es).tc = tc from rfl, if_neg hns, hwd] at hx
      rw [Mem.wr_out _ _ _ _ (by rw [beBytes_length]; omega), Mem.wr_out _ _ _ _ (by rw [beBytes_length]; omega)]
  | one n h hs hwd =>
    have hsz : sz = n := hs
    have hns : tc ≠ .struct := by
      intro h'; subst h'
      rcases h with ⟨_, h | h⟩ | ⟨_, h | h⟩ | ⟨_, h | h | h | h⟩ <;> cases h
    have hfl : v.r 20 = 0 := by
      rw [hf]
      have : ¬ 4 < sz := by omega
      simp [flags, hns, this]
    have e : storedMem v = v.mem.wr (v.r 18) (beBytes 4 (v.r 11)) := by rw [storedMem, if_neg (by omega), if_neg (by omega)]
    rw [e]
    refine ⟨?_, fun x hx => ?_⟩
    · have hval : (v.r 11 : Int) = intVal tc val % 2 ^ 32 := by rcases h with ⟨_, h | h⟩ | ⟨_, h | h⟩ | ⟨_, h | h | h | h⟩ <;> cases h <;> exact hv
      have hg : (beNat ((v.mem.wr (v.r 18) (beBytes 4 (v.r 11))).rd (v.r 18) 4) : Int) = intVal tc val % 2 ^ 32 := by
        rw [wr_rd _ _ (beBytes_length _ _), be4 hw, hval]
      rcases h with ⟨_, h | h⟩ | ⟨_, h | h⟩ | ⟨_, h | h | h | h⟩ <;> cases h <;> exact hg
    · rw [show (FType.mk sz al tc es).tc = tc from rfl, if_neg hns, hwd] at hx
      rw [Mem.wr_out _ _ _ _ (by rw [beBytes_length]; omega)]

end Verif.Or1k
