import Verif.AArch64.Hfa

/-
Correspondence between the argument state of the code and the position of the
specification.
-/
namespace Verif.A64
open Verif Spec Spec.A64

/-- The rules a configuration follows. -/
def rules (c : Cfg) : Rules := ⟨c.apple, c.nfixed⟩

/-- `16 ∣` alignments of well-formed types. -/
def Al (a : Nat) : Prop := a = 1 ∨ a = 2 ∨ a = 4 ∨ a = 8 ∨ a = 16

theorem Al.pos {a : Nat} (h : Al a) : 0 < a := by rcases h with rfl | rfl | rfl | rfl | rfl <;> decide
theorem Al.le {a : Nat} (h : Al a) : a ≤ 16 := by rcases h with rfl | rfl | rfl | rfl | rfl <;> decide
theorem Al.dvd16 {a : Nat} (h : Al a) : a ∣ 16 := by rcases h with rfl | rfl | rfl | rfl | rfl <;> decide
theorem Al.pow {a : Nat} (h : Al a) : ∃ k, k < 5 ∧ a = 2 ^ k := by
  rcases h with rfl | rfl | rfl | rfl | rfl
  exacts [⟨0, by decide, rfl⟩, ⟨1, by decide, rfl⟩, ⟨2, by decide, rfl⟩, ⟨3, by decide, rfl⟩, ⟨4, by decide, rfl⟩]

theorem Al.dvd_of_le {a b : Nat} (ha : Al a) (hb : Al b) (h : a ≤ b) : a ∣ b := pow2_dvd_of_le ha hb h

theorem Al.max {a b : Nat} (ha : Al a) (hb : Al b) : Al (max a b) := by
  rcases Nat.le_total a b with h | h
  · rw [Nat.max_eq_right h]; exact hb
  · rw [Nat.max_eq_left h]; exact ha

theorem slot_al (R : Rules) (p : Pos) : Al (slot R p) := by
  unfold slot
  split <;> simp [Al]

theorem ffiAlign_al {v a : Nat} (ha : Al a) (h : v < 2 ^ 63) : ffiAlign v a = roundUp v a := by
  obtain ⟨k, hk, rfl⟩ := ha.pow
  have : 2 ^ k ≤ 16 := ha.le
  exact ffiAlign_eq_roundUp (by omega)

theorem ffiAlignDown_al {v a : Nat} (ha : Al a) (h : v < 2 ^ 64) : ffiAlignDown v a = v / a * a := by
  obtain ⟨k, hk, rfl⟩ := ha.pow
  exact ffiAlignDown_eq (by omega) h

theorem roundUp_roundUp {a b v : Nat} (ha : 0 < a) (hb : 0 < b) (hd : a ∣ b) :
    roundUp (roundUp v a) b = roundUp v b := by
  apply Nat.le_antisymm
  · apply roundUp_least hb (dvd_roundUp _ _)
    exact roundUp_least ha (hd.trans (dvd_roundUp _ _)) (roundUp_ge hb)
  · exact roundUp_mono (roundUp_ge ha)

/-- The code is at the given position; the code rounds the stack offset before placing
an argument, the specification after it. -/
structure Sim (c : Cfg) (st : St) (p : Pos) : Prop where
  g : st.ngrn = p.ngrn
  s : st.nsrn = p.nsrn
  u : st.variadic = p.unnamed
  lo : st.nsaa ≤ p.nsaa
  hi : p.nsaa ≤ roundUp st.nsaa (slot (rules c) p)

theorem Sim.round {c st p} (h : Sim c st p) {a : Nat} (ha : Al a) (hd : slot (rules c) p ∣ a) :
    roundUp st.nsaa a = roundUp p.nsaa a := by
  apply Nat.le_antisymm (roundUp_mono h.lo)
  have := roundUp_mono (a := a) h.hi
  rwa [roundUp_roundUp (slot_al _ _).pos ha.pos hd] at this

/-- `allocate_to_stack` puts an argument where the specification says. -/
theorem allocStack_spec {c : Cfg} {st : St} {p : Pos} (h : Sim c st p) {al size : Nat} (ha : Al al)
    (hlt : p.nsaa < 2 ^ 60) (hs : size < 2 ^ 60) :
    allocStack c st al size = (stackAt (rules c) p al, { st with nsaa := stackAt (rules c) p al + size }) := by
  have heff : (if c.apple then (if st.variadic && decide (al < 8) then 8 else al)
      else if al < 8 then 8 else al) = max (slot (rules c) p) al := by
    have := ha.pos
    unfold slot rules
    rw [← h.u]
    cases c.apple <;> cases st.variadic <;> simp <;> (try split) <;> omega
  unfold allocStack
  simp only [heff]
  have hm := (slot_al (rules c) p).max ha
  have hd := (slot_al (rules c) p).dvd_of_le hm (Nat.le_max_left _ _)
  have hlo := h.lo
  rw [ffiAlign_al hm (by omega), h.round hm hd]
  have hr : roundUp p.nsaa (max (slot (rules c) p) al) < 2 ^ 60 + 16 := by
    have := roundUp_lt (v := p.nsaa) hm.pos
    have := hm.le
    omega
  unfold stackAt
  rw [Nat.mod_eq_of_lt (by omega)]

theorem stackAt_ge (R : Rules) (p : Pos) {al : Nat} (ha : Al al) : p.nsaa ≤ stackAt R p al :=
  roundUp_ge ((slot_al R p).max ha).pos

theorem stackAt_dvd (R : Rules) (p : Pos) {al : Nat} (ha : Al al) : slot R p ∣ stackAt R p al :=
  ((slot_al R p).dvd_of_le ((slot_al R p).max ha) (Nat.le_max_left _ _)).trans (dvd_roundUp _ _)

theorem stackAfter_ge (R : Rules) (p : Pos) (al size : Nat) : stackAt R p al + size ≤ stackAfter R p al size :=
  roundUp_ge (slot_al R p).pos

/-- With 8-byte slots a whole slot is reserved. -/
theorem stackAfter_ge8 (R : Rules) (p : Pos) {al size : Nat} (ha : Al al) (h8 : slot R p = 8)
    (hs : 0 < size) : stackAt R p al + 8 ≤ stackAfter R p al size := by
  have h1 := stackAt_dvd R p ha
  have h2 : slot R p ∣ stackAfter R p al size := dvd_roundUp _ _
  have h3 := stackAfter_ge R p al size
  rw [h8] at h1 h2
  omega

theorem slot_congr {R : Rules} {p q : Pos} (h : p.unnamed = q.unnamed) : slot R p = slot R q := by
  unfold slot; rw [h]

/-- State after a stack argument. -/
theorem Sim.after {c st p} (h : Sim c st p) {al size g s : Nat} :
    Sim c { st with ngrn := g, nsrn := s, nsaa := stackAt (rules c) p al + size }
      { p with ngrn := g, nsrn := s, nsaa := stackAfter (rules c) p al size } where
  g := rfl
  s := rfl
  u := h.u
  lo := stackAfter_ge _ _ _ _
  hi := by
    exact Nat.le_refl _

theorem Sim.regs {c st p} (h : Sim c st p) (g s : Nat) :
    Sim c { st with ngrn := g, nsrn := s } { p with ngrn := g, nsrn := s } where
  g := rfl
  s := rfl
  u := h.u
  lo := h.lo
  hi := by
    exact h.hi

theorem Sim.afterArg {c st p} (h : Sim c st p) (i : Nat) :
    Sim c (afterArg c i st) (nextPos (rules c) i p) := by
  unfold A64.afterArg nextPos
  change Sim c (if c.apple && decide (i + 1 = c.nfixed) then _ else _)
    (if c.apple && decide (i + 1 = c.nfixed) then _ else _)
  by_cases hc : (c.apple && decide (i + 1 = c.nfixed)) = true
  · rw [if_pos hc, if_pos hc]
    have hap : c.apple = true := by simp at hc; exact hc.1
    refine ⟨rfl, rfl, rfl, h.lo, ?_⟩
    refine Nat.le_trans h.hi ?_
    have h8 : slot (rules c) { p with ngrn := 8, nsrn := 8, unnamed := true } = 8 := by
      simp [slot]
    rw [h8]
    have ha := slot_al (rules c) p
    have h1 : slot (rules c) p ≤ 8 := by unfold slot; split <;> omega
    exact roundUp_least ha.pos ((ha.dvd_of_le (by simp [Al]) h1).trans (dvd_roundUp _ _))
      (roundUp_ge (by decide))
  · rw [if_neg hc, if_neg hc]
    exact h

theorem nextPos_nsaa (R : Rules) (i : Nat) (p : Pos) : (nextPos R i p).nsaa = p.nsaa := by
  unfold nextPos; split <;> rfl

theorem placeArg_mono (R : Rules) (t : FType) (ha : Al t.align) (p : Pos) :
    p.nsaa ≤ (placeArg R t p).2.nsaa := by
  have h1 := stackAt_ge R p ha
  have h2 := stackAfter_ge R p t.align t.size
  have h3 := stackAt_ge R p (al := 8) (by simp [Al])
  have h4 := stackAfter_ge R p 8 8
  unfold placeArg
  cases hfa t with
  | some n => dsimp only; split <;> dsimp only <;> omega
  | none =>
    dsimp only
    split
    · split <;> dsimp only <;> omega
    · split <;> split <;> dsimp only <;> omega

theorem endFrom_mono (R : Rules) (ts : List FType) (ha : ∀ t ∈ ts, Al t.align) (i : Nat) (p : Pos) :
    p.nsaa ≤ (endFrom R ts i p).nsaa := by
  induction ts generalizing i p with
  | nil => exact Nat.le_refl _
  | cons t ts ih =>
    rw [endFrom]
    refine Nat.le_trans (placeArg_mono R t (ha t (by simp)) p) ?_
    rw [← nextPos_nsaa R i]
    exact ih (fun x hx => ha x (by simp [hx])) _ _

theorem copyLow_le {ts : List FType} {top low : Nat} (h : copyLow ts top = some low) : low ≤ top := by
  induction ts generalizing top with
  | nil => cases h; exact Nat.le_refl _
  | cons t ts ih =>
    rw [copyLow] at h
    split at h
    · split at h
      · have := ih h
        have := Nat.div_mul_le_self (top - t.size) t.align
        omega
      · cases h
    · exact ih h

/-- A 16-byte aligned type of at most 16 bytes is a `long double`. -/
theorem small_align16 {t : FType} (h : WF lp64 t) (hs : t.size ≤ 16) (ha : t.align = 16) :
    tcs t = [.longdouble] := by
  induction h with
  | @scalar tc s a h =>
    rw [tcs_scalar lp64_ok h]
    simp only [FType.align_mk] at ha
    subst ha
    cases tc <;> simp [lp64] at h
    rfl
  | @complex tc s a hb h =>
    simp only [FType.align_mk, FType.size_mk] at ha hs
    have := lp64_ok _ _ _ h
    obtain ⟨_, h1, h2, _⟩ := this
    subst ha
    have := Nat.le_of_dvd h1 h2
    omega
  | @struct es s a offs hes hl ih =>
    have hw : WF lp64 (.mk s a .struct es) := .struct hes hl
    simp only [FType.align_mk, FType.size_mk] at ha hs
    subst ha
    obtain ⟨e', hp, hmax, hlm⟩ := hl
    have hsum : ∀ (es : List FType) (cur offs e'), Placed cur (es.map fun e => (e.size, e.align)) offs e' →
        cur + (es.map FType.size).sum ≤ e' := by
      intro es
      induction es with
      | nil => intro cur offs e' hp; cases hp; simp
      | cons e es ih2 =>
        intro cur offs e' hp
        cases hp with
        | @cons _ o _ _ _ os _ h1 h2 =>
          have := ih2 _ _ _ h2
          have := h1.2.1
          simp only [List.map_cons, List.sum_cons]
          omega
    have h1 := hsum es 0 offs e' hp
    have h2 := hlm.2.1
    obtain ⟨m, hm1, hm2⟩ := hmax.1
    obtain ⟨e, he, rfl⟩ := List.mem_map.1 hm1
    have hea : e.align = 16 := hm2
    have hes16 : 16 ≤ e.size := by
      have := Nat.le_of_dvd ((hes e he).size_pos lp64_ok) ((hes e he).align_dvd_size lp64_ok)
      omega
    have hpos : ∀ x ∈ es, 0 < x.size := fun x hx => (hes x hx).size_pos lp64_ok
    have hone : es = [e] := by
      obtain ⟨l1, l2, rfl⟩ := List.append_of_mem he
      rw [List.map_append, List.map_cons, List.sum_append, List.sum_cons] at h1
      have n1 : l1 = [] := by
        cases l1 with
        | nil => rfl
        | cons x xs =>
          have := hpos x (by simp)
          simp only [List.map_cons, List.sum_cons] at h1
          omega
      have n2 : l2 = [] := by
        cases l2 with
        | nil => rfl
        | cons x xs =>
          have := hpos x (by simp)
          simp only [List.map_cons, List.sum_cons] at h1
          omega
      rw [n1, n2]; rfl
    subst hone
    rw [tcs_struct]
    have := ih e he (by simp at h1; omega) hea
    simp [this]

theorem small_align {t : FType} (h : WF lp64 t) (hs : t.size ≤ 16) (hh : hfa t = none) : t.align ≠ 16 := by
  intro ha
  have ht := small_align16 h hs ha
  obtain ⟨c, hc, hm⟩ := isVfp_spec h
  have h1 := size_of_same (k := .longdouble) (z := 16) rfl h (by rw [ht]; simp)
  have : hfa t = some 1 := by
    have ht' : (leaves t 0).map (·.tc) = [.longdouble] := ht
    unfold hfa
    simp only [ht', fpSize]
    rw [if_pos]
    · rfl
    · refine ⟨by decide, rfl, ?_⟩
      rw [h1.2, ht]
      rfl
  rw [this] at hh
  cases hh

end Verif.A64
