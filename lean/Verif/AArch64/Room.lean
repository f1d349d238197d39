import Verif.AArch64.CallLoop
import Verif.Props.Core

/-
The space reserved by `ffi_prep_cif` and the space used by `ffi_call`.
-/
namespace Verif.A64
open Verif Spec Spec.A64

theorem reserve_ge {ts : List FType} (h : ∀ t ∈ ts, Al t.align) (b : Nat) : b ≤ reserve b ts := by
  induction ts generalizing b with
  | nil => exact Nat.le_refl _
  | cons t ts ih =>
    have h1 := roundUp_ge (v := b) (h t (by simp)).pos
    have := ih (fun x hx => h x (by simp [hx])) (roundUp b t.align + roundUp t.size 8)
    unfold reserve at this ⊢
    rw [List.foldl_cons]
    omega

theorem foldl_addArgBytes {ts : List FType} (h : ∀ t ∈ ts, Al t.align) {b : Nat} (hfit : reserve b ts < 2 ^ 32) :
    ts.foldl (fun b t => addArgBytes 8 b (desc t)) b = reserve b ts := by
  induction ts generalizing b with
  | nil => rfl
  | cons t ts ih =>
    obtain ⟨k, hk, hal⟩ := (h t (by simp)).pow
    have hge := reserve_ge (fun x hx => h x (by simp [hx])) (ts := ts) (roundUp b t.align + roundUp t.size 8)
    have e : reserve b (t :: ts) = reserve (roundUp b t.align + roundUp t.size 8) ts := rfl
    rw [e] at hfit ⊢
    have hadd : addArgBytes 8 b (desc t) = roundUp b t.align + roundUp t.size 8 := by
      have := Props.addArgBytes_eq (sa := 8) (bytes := b) (d := desc t) (k := k) (by omega) hal (j := 3) (by decide)
        (by omega) (by rw [← hal]; exact Nat.lt_of_le_of_lt hge hfit)
      rw [this, hal]; rfl
    rw [List.foldl_cons, hadd]
    exact ih (fun x hx => h x (by simp [hx])) hfit

/-- One argument needs at most what is set aside for it. -/
theorem placeArg_le {R : Rules} {t : FType} {p : Pos} {b : Nat} (ha : Al t.align) (hs : 0 < t.size) (hb : 8 ∣ b)
    (hp : p.nsaa ≤ b) : (placeArg R t p).2.nsaa ≤ roundUp b t.align + roundUp t.size 8 := by
  have hge := roundUp_ge (v := b) ha.pos
  have hr8 : 8 ∣ roundUp t.size 8 := dvd_roundUp _ _
  have hge8 := roundUp_ge (v := t.size) (a := 8) (by decide)
  have hslot : slot R p ∣ 8 := by unfold slot; split <;> decide
  have hbal : 8 ∣ roundUp b t.align := by
    rcases Nat.lt_or_ge t.align 16 with h | h
    · have hd : t.align ∣ 8 := by
        rcases ha with h' | h' | h' | h' | h' <;> rw [h'] at h ⊢ <;> first | decide | omega
      have : roundUp b t.align = b := by
        apply Nat.le_antisymm _ hge
        exact roundUp_least ha.pos (hd.trans hb) (Nat.le_refl _)
      rw [this]; exact hb
    · have : t.align = 16 := by have := ha.le; omega
      rw [this]
      exact Nat.dvd_trans (by decide : 8 ∣ 16) (dvd_roundUp _ _)
  have hstack : stackAfter R p t.align t.size ≤ roundUp b t.align + roundUp t.size 8 := by
    have h1 : stackAt R p t.align ≤ roundUp b t.align := by
      unfold stackAt
      apply roundUp_least ((slot_al R p).max ha).pos
      · rcases Nat.le_total (slot R p) t.align with h | h
        · rw [Nat.max_eq_right h]; exact dvd_roundUp _ _
        · rw [Nat.max_eq_left h]; exact hslot.trans hbal
      · omega
    unfold stackAfter
    apply roundUp_least (slot_al R p).pos
    · exact Nat.dvd_add (hslot.trans hbal) (hslot.trans hr8)
    · omega
  have hptr : stackAfter R p 8 8 ≤ roundUp b t.align + roundUp t.size 8 := by
    have h1 : stackAt R p 8 ≤ roundUp b t.align := by
      unfold stackAt
      have : max (slot R p) 8 = 8 := Nat.max_eq_right (Nat.le_of_dvd (by decide) hslot)
      rw [this]
      exact roundUp_least (by decide) hbal (by omega)
    unfold stackAfter
    apply roundUp_least (slot_al R p).pos
    · exact Nat.dvd_add (hslot.trans hbal) (hslot.trans hr8)
    · omega
  unfold placeArg
  split
  · split <;> dsimp only <;> omega
  · split
    · split <;> dsimp only <;> omega
    · dsimp only
      split <;> split <;> dsimp only <;> omega

theorem end_le_reserve {R : Rules} {ts : List FType} (hw : ∀ t ∈ ts, WF lp64 t) {b : Nat} (hb : 8 ∣ b) {i : Nat}
    {p : Pos} (hp : p.nsaa ≤ b) : (endFrom R ts i p).nsaa ≤ reserve b ts := by
  induction ts generalizing b i p with
  | nil => exact hp
  | cons t ts ih =>
    have hwt := hw t (by simp)
    have ha := wf_al hwt
    have h1 := placeArg_le (R := R) ha (hwt.size_pos lp64_ok) hb hp
    have h8 : 8 ∣ roundUp b t.align + roundUp t.size 8 := by
      refine Nat.dvd_add ?_ (dvd_roundUp _ _)
      rcases Nat.lt_or_ge t.align 16 with h | h
      · have hd : t.align ∣ 8 := by
          rcases ha with h' | h' | h' | h' | h' <;> rw [h'] at h ⊢ <;> first | decide | omega
        have : roundUp b t.align = b :=
          Nat.le_antisymm (roundUp_least ha.pos (hd.trans hb) (Nat.le_refl _)) (roundUp_ge ha.pos)
        rw [this]; exact hb
      · have : t.align = 16 := by have := ha.le; omega
        rw [this]
        exact Nat.dvd_trans (by decide : 8 ∣ 16) (dvd_roundUp _ _)
    rw [endFrom]
    exact ih (fun x hx => hw x (by simp [hx])) h8 (by rw [nextPos_nsaa]; exact h1)

theorem copyLow_none {ts : List FType} (h : ∀ t ∈ ts, ¬ ByRef t) (top : Nat) : copyLow ts top = some top := by
  induction ts with
  | nil => rfl
  | cons t ts ih =>
    rw [copyLow, if_neg (h t (by simp))]
    exact ih fun x hx => h x (by simp [hx])

/-- Nothing passed by reference: the reservation suffices. -/
theorem room_noRef {R : Rules} {ts : List FType} (hw : ∀ t ∈ ts, WF lp64 t) (hr : ∀ t ∈ ts, ¬ ByRef t)
    {b bytes : Nat} (hb : 8 ∣ b) (hbytes : reserve b ts ≤ bytes) : Room R ts bytes :=
  ⟨bytes, copyLow_none hr _, Nat.le_trans (end_le_reserve hw hb (Nat.zero_le _)) hbytes⟩

/-- Bytes of copies of objects passed by reference. -/
def refBytes : List FType → Nat
  | [] => 0
  | t :: ts => (if ByRef t then roundUp t.size 8 else 0) + refBytes ts

/-- Sum of all sizes. -/
def allBytes : List FType → Nat
  | [] => 0
  | t :: ts => roundUp t.size 8 + allBytes ts

theorem copyLow_ge {ts : List FType} (h : ∀ t ∈ ts, Al t.align ∧ t.align ≤ 8) {top : Nat}
    (hfit : refBytes ts ≤ top / 8 * 8) : ∃ low, copyLow ts top = some low ∧ top / 8 * 8 - refBytes ts ≤ low := by
  induction ts generalizing top with
  | nil => exact ⟨top, rfl, by simp [refBytes]; omega⟩
  | cons t ts ih =>
    have h' : ∀ x ∈ ts, Al x.align ∧ x.align ≤ 8 := fun x hx => h x (by simp [hx])
    rw [copyLow]
    rw [refBytes] at hfit ⊢
    by_cases hr : ByRef t
    · rw [if_pos hr] at hfit ⊢
      rw [if_pos hr]
      have hge := roundUp_ge (v := t.size) (a := 8) (by decide)
      have hd := dvd_roundUp t.size 8
      rw [if_pos (by omega)]
      obtain ⟨hal, h8⟩ := h t (by simp)
      have hdv : t.align ∣ 8 := hal.dvd_of_le (by simp [Al]) h8
      have hkey : top / 8 * 8 - roundUp t.size 8 ≤ (top - t.size) / t.align * t.align := by
        have hm : t.align ∣ top / 8 * 8 - roundUp t.size 8 :=
          Nat.dvd_sub (hdv.trans (Nat.dvd_mul_left _ _)) (hdv.trans hd)
        obtain ⟨q, hq⟩ := hm
        rw [hq, Nat.mul_comm]
        apply Nat.mul_le_mul_right
        rw [Nat.le_div_iff_mul_le hal.pos, Nat.mul_comm, ← hq]
        omega
      have hkey8 : top / 8 * 8 - roundUp t.size 8 ≤ (top - t.size) / t.align * t.align / 8 * 8 := by
        have hm : 8 ∣ top / 8 * 8 - roundUp t.size 8 := Nat.dvd_sub (Nat.dvd_mul_left _ _) hd
        omega
      obtain ⟨low, h1, h2⟩ := ih h' (top := (top - t.size) / t.align * t.align) (by omega)
      exact ⟨low, h1, by omega⟩
    · rw [if_neg hr] at hfit ⊢
      rw [if_neg hr]
      obtain ⟨low, h1, h2⟩ := ih h' (top := top) (by omega)
      exact ⟨low, h1, by omega⟩

theorem placeArg_cases (R : Rules) (t : FType) (p : Pos) :
    (¬ ByRef t ∧ (placeArg R t p).1.inReg = true ∧ (placeArg R t p).1.stackRef = false ∧
      (placeArg R t p).2.nsaa = p.nsaa) ∨
    (¬ ByRef t ∧ (placeArg R t p).1.inReg = false ∧ (placeArg R t p).1.stackRef = false ∧
      (placeArg R t p).2.nsaa = stackAfter R p t.align t.size) ∨
    (ByRef t ∧ (placeArg R t p).1.inReg = false ∧ (placeArg R t p).1.stackRef = false ∧
      (placeArg R t p).2.nsaa = p.nsaa) ∨
    (ByRef t ∧ (placeArg R t p).1.inReg = false ∧ (placeArg R t p).1.stackRef = true ∧
      (placeArg R t p).2.nsaa = stackAfter R p 8 8) := by
  cases hh : hfa t with
  | some n =>
    have hr : ¬ ByRef t := by unfold ByRef; rw [hh]; simp
    simp only [placeArg, hh]
    split
    · exact Or.inl ⟨hr, rfl, rfl, rfl⟩
    · exact Or.inr (Or.inl ⟨hr, rfl, rfl, rfl⟩)
  | none =>
    by_cases hb : 16 < t.size
    · have hr : ByRef t := ⟨hh, hb⟩
      simp only [placeArg, hh, if_pos hb]
      split
      · exact Or.inr (Or.inr (Or.inl ⟨hr, rfl, rfl, rfl⟩))
      · exact Or.inr (Or.inr (Or.inr ⟨hr, rfl, rfl, rfl⟩))
    · have hr : ¬ ByRef t := fun h => hb h.2
      simp only [placeArg, hh, if_neg hb]
      generalize (if t.align = 16 then roundUp p.ngrn 2 else p.ngrn) = g
      by_cases hc : g + (t.size + 7) / 8 ≤ 8
      · rw [if_pos hc]
        exact Or.inl ⟨hr, rfl, rfl, rfl⟩
      · rw [if_neg hc]
        exact Or.inr (Or.inl ⟨hr, rfl, rfl, rfl⟩)

/-- Stack arguments and copies together, with no alignment above 8. -/
theorem end_refs_le {R : Rules} {ts : List FType} (h : ∀ t ∈ ts, Al t.align ∧ t.align ≤ 8) {i : Nat} {p : Pos} :
    roundUp (endFrom R ts i p).nsaa 8 + refBytes ts + regBytes ts (placeFrom R ts i p) ≤
      roundUp p.nsaa 8 + allBytes ts + 8 * refsOnStack (placeFrom R ts i p) := by
  induction ts generalizing i p with
  | nil => simp [endFrom, refBytes, regBytes, allBytes, refsOnStack, placeFrom]
  | cons t ts ih =>
    obtain ⟨hal, h8⟩ := h t (by simp)
    have h' : ∀ x ∈ ts, Al x.align ∧ x.align ≤ 8 := fun x hx => h x (by simp [hx])
    have hi := ih h' (i := i + 1) (p := nextPos R i (placeArg R t p).2)
    rw [endFrom, placeFrom, refBytes, regBytes, allBytes, refsOnStack]
    rw [nextPos_nsaa] at hi
    have hslot : slot R p ∣ 8 := by unfold slot; split <;> decide
    have hd8 : 8 ∣ roundUp p.nsaa 8 := dvd_roundUp _ _
    have hge := roundUp_ge (v := p.nsaa) (a := 8) (by decide)
    have hst : ∀ al s, Al al → al ≤ 8 → roundUp (stackAfter R p al s) 8 ≤ roundUp p.nsaa 8 + roundUp s 8 := by
      intro al s ha hle
      have hs8 := dvd_roundUp s 8
      have hs := roundUp_ge (v := s) (a := 8) (by decide)
      apply roundUp_least (by decide) (Nat.dvd_add hd8 hs8)
      unfold stackAfter
      apply roundUp_least (slot_al R p).pos (Nat.dvd_add (hslot.trans hd8) (hslot.trans hs8))
      have : stackAt R p al ≤ roundUp p.nsaa 8 := by
        unfold stackAt
        apply roundUp_least ((slot_al R p).max ha).pos
        · rcases Nat.le_total (slot R p) al with h | h
          · rw [Nat.max_eq_right h]; exact (ha.dvd_of_le (by simp [Al]) hle).trans hd8
          · rw [Nat.max_eq_left h]; exact hslot.trans hd8
        · exact hge
      omega
    have h1 := hst t.align t.size hal h8
    have h2 := hst 8 8 (by simp [Al]) (Nat.le_refl _)
    have e8 : roundUp 8 8 = 8 := by decide
    rw [e8] at h2
    have hsz : roundUp t.size 8 ≤ roundUp t.size 8 := Nat.le_refl _
    rcases placeArg_cases R t p with ⟨hr, hi', hn, he⟩ | ⟨hr, hi', hn, he⟩ | ⟨hr, hi', hn, he⟩ | ⟨hr, hi', hn, he⟩ <;>
      simp only [hr, hi', hn, if_true, if_false, Bool.false_eq_true] <;> rw [he] at hi <;> omega

theorem allBytes_le_reserve {ts : List FType} (h : ∀ t ∈ ts, Al t.align) (b : Nat) : b + allBytes ts ≤ reserve b ts := by
  induction ts generalizing b with
  | nil => exact Nat.le_refl _
  | cons t ts ih =>
    have h1 := roundUp_ge (v := b) (h t (by simp)).pos
    have := ih (fun x hx => h x (by simp [hx])) (roundUp b t.align + roundUp t.size 8)
    have e : reserve b (t :: ts) = reserve (roundUp b t.align + roundUp t.size 8) ts := rfl
    rw [e, allBytes]
    omega

theorem refBytes_le (ts : List FType) : refBytes ts ≤ allBytes ts := by
  induction ts with
  | nil => exact Nat.le_refl _
  | cons t ts ih =>
    rw [refBytes, allBytes]
    split <;> omega

/-- Alignments of at most 8, and the references on the stack fit in the space set
aside for register arguments (and for the result pointer). -/
theorem room_refs {R : Rules} {ts : List FType} (h : ∀ t ∈ ts, WF lp64 t) (h8 : ∀ t ∈ ts, t.align ≤ 8)
    {b bytes : Nat} (hbytes : reserve b ts ≤ bytes)
    (hrefs : 8 * refsOnStack (places R ts) ≤ regBytes ts (places R ts) + b / 8 * 8) : Room R ts bytes := by
  have ha : ∀ t ∈ ts, Al t.align ∧ t.align ≤ 8 := fun t ht => ⟨wf_al (h t ht), h8 t ht⟩
  have h1 := end_refs_le (R := R) ha (i := 0) (p := start)
  have h2 := allBytes_le_reserve (fun t ht => (ha t ht).1) b
  have h3 := refBytes_le ts
  have e0 : roundUp start.nsaa 8 = 0 := by decide
  rw [e0] at h1
  have h8a : 8 ∣ allBytes ts := by
    clear h1 h2 h3 hrefs hbytes ha h h8
    induction ts with
    | nil => exact Nat.dvd_zero _
    | cons t ts ih => rw [allBytes]; exact Nat.dvd_add (dvd_roundUp _ _) ih
  have hge := roundUp_ge (v := (endFrom R ts 0 start).nsaa) (a := 8) (by decide)
  have hpl : places R ts = placeFrom R ts 0 start := rfl
  rw [hpl] at hrefs
  obtain ⟨low, hl1, hl2⟩ := copyLow_ge ha (top := bytes) (by omega)
  exact ⟨low, hl1, by omega⟩

/-- `ffi_prep_cif` on well-formed types: flags and reserved bytes. -/
theorem anyVfp_spec {ts : List FType} (hw : ∀ t ∈ ts, WF lp64 t) :
    ∃ v, anyVfp ts = .ok v ∧ (v = false → ∀ t ∈ ts, hfa t = none) := by
  induction ts with
  | nil => exact ⟨false, rfl, fun _ t ht => by cases ht⟩
  | cons t ts ih =>
    obtain ⟨v, h1, h2⟩ := ih fun x hx => hw x (by simp [hx])
    rcases isVfp_cases (hw t (by simp)) with ⟨hv, hh⟩ | ⟨n, c, z, hv, hne, _⟩
    · refine ⟨v, ?_, ?_⟩
      · rw [anyVfp, hv]; exact h1
      · intro hf x hx
        rcases List.mem_cons.1 hx with rfl | hx
        · exact hh
        · exact h2 hf x hx
    · refine ⟨true, ?_, by simp⟩
      rw [anyVfp, hv]
      change (if c ≠ 0 then _ else _) = _
      rw [if_pos hne]

end Verif.A64
