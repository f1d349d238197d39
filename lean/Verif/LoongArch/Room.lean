import Verif.LoongArch.Call

/-! When the area of `cif->bytes` bytes holds both the stack arguments and the copies. -/
namespace Verif.LA
open Verif Verif.Spec Verif.Spec.RV RV

/-- Space that is enough for the copy of an argument: whole words, and one more if the
copy has to be aligned to two. -/
def copyNeed (t : FType) (pl : Place) : Nat :=
  if pl.isRef then roundUp t.size 8 + (if 8 < t.align then 8 else 0) else 0

def copyNeeds (A : Abi) (nfixed : Nat) : List FType → Nat → Pos → Nat
  | [], _, _ => 0
  | t :: ts, i, p => copyNeed t (placeArg A (decide (nfixed ≤ i)) t p).1 +
      copyNeeds A nfixed ts (i + 1) (placeArg A (decide (nfixed ≤ i)) t p).2

/-- Space that copies take at least. -/
def copySizes (A : Abi) (nfixed : Nat) : List FType → Nat → Pos → Nat
  | [], _, _ => 0
  | t :: ts, i, p => (if (placeArg A (decide (nfixed ≤ i)) t p).1.isRef then t.size else 0) +
      copySizes A nfixed ts (i + 1) (placeArg A (decide (nfixed ≤ i)) t p).2

theorem room_of {c : Cfg} (hw : c.w = 8) {ts : List FType} :
    ∀ {i : Nat} {p : Pos} {low L : Nat}, (∀ t ∈ ts, Plain (tab c.w) t) → 8 ∣ L → L ≤ low →
      (endFrom (abi c) c.nfixed ts i p).ns + copyNeeds (abi c) c.nfixed ts i p ≤ L →
      Room (abi c) c.nfixed ts i p low := by
  induction ts with
  | nil =>
    intro i p low L _ _ hl h
    have : p.ns + 0 ≤ L := h
    show p.ns ≤ low
    omega
  | cons t ts ih =>
    intro i p low L hp hd hl h
    rw [endFrom, copyNeeds] at h
    rw [Room]
    have hwf := plain_wf (hp t (by simp))
    have hal := hwf.align_cases (tab_ok (.inr hw))
    have hds := hwf.align_dvd_size (tab_ok (.inr hw))
    have hge := roundUp_ge (v := t.size) (a := 8) (by decide)
    have h8 : 8 ∣ roundUp t.size 8 := dvd_roundUp _ _
    generalize hpl : (placeArg (abi c) (decide (c.nfixed ≤ i)) t p).1 = pl at h
    unfold copyNeed at h
    by_cases hr : pl.isRef = true
    · rw [if_pos hr] at h
      refine ⟨fun _ => ?_, ?_⟩
      · split at h <;> omega
      · refine ih (L := L - (roundUp t.size 8 + (if 8 < t.align then 8 else 0))) (fun x hx => hp x (by simp [hx])) ?_ ?_ ?_
        · split <;> omega
        · unfold lowAfter
          rw [if_pos hr]
          generalize t.align = al at *
          rcases hal with rfl | rfl | rfl | rfl | rfl
          · rw [if_neg (by decide)] at *; omega
          · rw [if_neg (by decide)] at *; omega
          · rw [if_neg (by decide)] at *; omega
          · rw [if_neg (by decide)] at *; omega
          · rw [if_pos (by decide)] at *
            have : roundUp t.size 8 = t.size := roundUp_of_dvd (by decide) (Nat.dvd_trans (by decide) hds)
            omega
        · split at h <;> split <;> omega
    · rw [if_neg hr] at h
      refine ⟨fun h' => absurd h' hr, ?_⟩
      have e : lowAfter t pl low = low := by unfold lowAfter; rw [if_neg hr]
      rw [e]
      exact ih (L := L) (fun x hx => hp x (by simp [hx])) hd hl (by omega)

theorem room_needs {c : Cfg} {ts : List FType} :
    ∀ {i : Nat} {p : Pos} {low : Nat}, Room (abi c) c.nfixed ts i p low →
      (endFrom (abi c) c.nfixed ts i p).ns + copySizes (abi c) c.nfixed ts i p ≤ low := by
  induction ts with
  | nil => intro i p low h; exact h
  | cons t ts ih =>
    intro i p low h
    have h2 := ih h.2
    have h1 := h.1
    rw [endFrom, copySizes]
    generalize (placeArg (abi c) (decide (c.nfixed ≤ i)) t p).1 = pl at h1 h2 ⊢
    unfold lowAfter at h2
    by_cases hr : pl.isRef = true
    · rw [if_pos hr] at h2 ⊢
      have := h1 hr
      have := Nat.div_mul_le_self (low - t.size) t.align
      omega
    · rw [if_neg hr] at h2 ⊢
      omega

theorem needs_eq {c : Cfg} {ts : List FType} (h : ∀ t ∈ ts, t.align ≤ 8 ∧ 8 ∣ t.size) :
    ∀ {i : Nat} {p : Pos}, copyNeeds (abi c) c.nfixed ts i p = copySizes (abi c) c.nfixed ts i p := by
  induction ts with
  | nil => intro i p; rfl
  | cons t ts ih =>
    intro i p
    obtain ⟨h1, h2⟩ := h t (by simp)
    rw [copyNeeds, copySizes, ih (fun x hx => h x (by simp [hx])), copyNeed, roundUp_of_dvd (by decide) h2,
      if_neg (by omega : ¬ 8 < t.align)]
    rfl

/-! ## Sufficient conditions -/

theorem word_ns {c : Cfg} (hw : c.w = 8) (p : Pos) :
    (word (abi c) p).2.ns = p.ns ∨ (word (abi c) p).2.ns = p.ns + 8 := by
  unfold word
  split
  · exact .inl rfl
  · right; show p.ns + c.w = _; rw [hw]

theorem word_reg {c : Cfg} {p : Pos} (h : ∀ o, (word (abi c) p).1 ≠ .stk o) : (word (abi c) p).2.ns = p.ns := by
  unfold word at h ⊢
  split
  · rfl
  · rename_i hn
    rw [if_neg hn] at h
    exact absurd rfl (h _)

/-- Arguments that are not passed by reference fit in the space reserved for them. -/
theorem place_ns {c : Cfg} (hw : c.w = 8) {t : FType} (h : Plain (tab c.w) t) (var : Bool) (p : Pos) :
    ((placeArg (abi c) var t p).1.isRef = false ∧
      ((placeArg (abi c) var t p).2.ns ≤ p.ns + roundUp t.size 8 ∨
       t.align = 16 ∧ (placeArg (abi c) var t p).2.ns ≤ roundUp p.ns 16 + roundUp t.size 8)) ∨
    ((placeArg (abi c) var t p).1 = .ref (word (abi c) p).1 ∧ (placeArg (abi c) var t p).2 = (word (abi c) p).2 ∧
      16 < t.size) := by
  have hwf := plain_wf h
  have hal := hwf.align_cases (tab_ok (.inr hw))
  have hpos := hwf.size_pos (tab_ok (.inr hw))
  have ex : (abi c).xlen = 8 := hw
  have hint : ((intConv (abi c) var t p).1.isRef = false ∧
      ((intConv (abi c) var t p).2.ns ≤ p.ns + roundUp t.size 8 ∨
       t.align = 16 ∧ (intConv (abi c) var t p).2.ns ≤ roundUp p.ns 16 + roundUp t.size 8)) ∨
      ((intConv (abi c) var t p).1 = .ref (word (abi c) p).1 ∧ (intConv (abi c) var t p).2 = (word (abi c) p).2 ∧
        16 < t.size) := by
    unfold intConv
    rw [ex]
    by_cases hb : 2 * 8 < t.size
    · rw [if_pos hb]
      exact .inr ⟨rfl, rfl, by omega⟩
    · rw [if_neg hb]
      left
      by_cases hsm : t.size ≤ 8
      · rw [if_pos hsm]
        refine ⟨rfl, .inl ?_⟩
        have := word_ns hw p
        have hge : 8 ≤ roundUp t.size 8 := by unfold roundUp; omega
        dsimp only
        omega
      · rw [if_neg hsm]
        refine ⟨rfl, ?_⟩
        dsimp only
        have hge : 16 ≤ roundUp t.size 8 := by unfold roundUp; omega
        by_cases ha : 8 < t.align
        · rw [if_pos ha]
          right
          have h1 := word_ns hw (evenPos (abi c) var p)
          have h2 := word_ns hw (word (abi c) (evenPos (abi c) var p)).2
          have h3 : (evenPos (abi c) var p).ns = roundUp p.ns 16 := by
            show roundUp p.ns (2 * (abi c).xlen) = _; rw [ex]
          omega
        · rw [if_neg ha]
          left
          have h1 := word_ns hw p
          have h2 := word_ns hw (word (abi c) p).2
          omega
  have hreg : ∀ q : Pos, q.ns = p.ns → ∀ ps, ((Place.direct ps).isRef = false ∧
      (q.ns ≤ p.ns + roundUp t.size 8 ∨ t.align = 16 ∧ q.ns ≤ roundUp p.ns 16 + roundUp t.size 8)) :=
    fun q hq _ => ⟨rfl, .inl (by omega)⟩
  unfold placeArg
  split
  · exact hint
  · split
    · split
      · exact .inl (hreg _ rfl _)
      · exact hint
    · split
      · exact .inl (hreg _ rfl _)
      · split
        · exact .inl (hreg _ rfl _)
        · split
          · exact .inl (hreg _ rfl _)
          · exact hint
    · exact hint

/-- Without arguments passed by reference the space reserved suffices. -/
theorem needs_noRef {c : Cfg} (hw : c.w = 8) {ts : List FType} :
    ∀ {i : Nat} {p : Pos} {b : Nat}, (∀ t ∈ ts, Plain (tab c.w) t) → (∀ t ∈ ts, t.size ≤ 16) → p.ns ≤ b →
      (endFrom (abi c) c.nfixed ts i p).ns + copyNeeds (abi c) c.nfixed ts i p ≤ reserve 8 b ts := by
  induction ts with
  | nil => intro i p b _ _ h; exact h
  | cons t ts ih =>
    intro i p b hp hsz h
    rw [endFrom, copyNeeds]
    have e : reserve 8 b (t :: ts) = reserve 8 (roundUp b t.align + roundUp t.size 8) ts := rfl
    rw [e]
    have hal := (plain_wf (hp t (by simp))).align_pos (tab_ok (.inr hw))
    have hge := roundUp_ge (v := b) hal
    have hk := place_ns hw (hp t (by simp)) (decide (c.nfixed ≤ i)) p
    have hs := hsz t (by simp)
    rcases hk with ⟨hr, hn⟩ | ⟨_, _, hb⟩
    · rw [copyNeed, if_neg (by rw [hr]; decide), Nat.zero_add]
      refine ih (fun x hx => hp x (by simp [hx])) (fun x hx => hsz x (by simp [hx])) ?_
      rcases hn with hn | ⟨ha, hn⟩
      · omega
      · rw [ha]
        have : roundUp p.ns 16 ≤ roundUp b 16 := by unfold roundUp; omega
        omega
    · omega

/-- References that are passed on the stack. -/
def stackRefs (A : Abi) (nfixed : Nat) : List FType → Nat → Pos → Nat
  | [], _, _ => 0
  | t :: ts, i, p =>
      (if (placeArg A (decide (nfixed ≤ i)) t p).1.isRef = true ∧ 8 ≤ p.ni then 1 else 0) +
      stackRefs A nfixed ts (i + 1) (placeArg A (decide (nfixed ≤ i)) t p).2

/-- For types of alignment up to a word the space reserved is short of at most one word
for each reference on the stack. -/
theorem needs_small {c : Cfg} (hw : c.w = 8) {ts : List FType} :
    ∀ {i : Nat} {p : Pos} {b C : Nat}, (∀ t ∈ ts, Plain (tab c.w) t) → (∀ t ∈ ts, t.align ≤ 8) → p.ns + C ≤ b →
      (endFrom (abi c) c.nfixed ts i p).ns + (C + copyNeeds (abi c) c.nfixed ts i p) ≤
        reserve 8 b ts + 8 * stackRefs (abi c) c.nfixed ts i p := by
  induction ts with
  | nil => intro i p b C _ _ h; exact h
  | cons t ts ih =>
    intro i p b C hp hal h
    rw [endFrom, copyNeeds, stackRefs]
    have e : reserve 8 b (t :: ts) = reserve 8 (roundUp b t.align + roundUp t.size 8) ts := rfl
    rw [e]
    have ha := hal t (by simp)
    have hge := roundUp_ge (v := b) ((plain_wf (hp t (by simp))).align_pos (tab_ok (.inr hw)))
    have hk := place_ns hw (hp t (by simp)) (decide (c.nfixed ≤ i)) p
    have hp' : ∀ x ∈ ts, Plain (tab c.w) x := fun x hx => hp x (by simp [hx])
    have hal' : ∀ x ∈ ts, x.align ≤ 8 := fun x hx => hal x (by simp [hx])
    rcases hk with ⟨hr, hn⟩ | ⟨hr, hq, hb⟩
    · rw [copyNeed, if_neg (by rw [hr]; decide), if_neg (by rw [hr]; intro h; cases h.1)]
      have := ih (i := i + 1) (p := (placeArg (abi c) (decide (c.nfixed ≤ i)) t p).2)
        (b := roundUp b t.align + roundUp t.size 8) (C := C) hp' hal' (by
          rcases hn with hn | ⟨h16, _⟩ <;> omega)
      omega
    · have hwn := word_ns hw p
      have hir : (Place.ref (word (abi c) p).1).isRef = true := rfl
      rw [copyNeed, hr, if_pos hir, if_neg (by omega), hq]
      by_cases h8 : 8 ≤ p.ni
      · rw [if_pos ⟨rfl, h8⟩]
        -- one word more than reserved
        have := ih (i := i + 1) (p := (word (abi c) p).2)
          (b := roundUp b t.align + roundUp t.size 8) (C := C + roundUp t.size 8 - 8) hp' hal' (by
            have : 16 ≤ roundUp t.size 8 := by unfold roundUp; omega
            omega)
        have : 16 ≤ roundUp t.size 8 := by unfold roundUp; omega
        omega
      · rw [if_neg (by intro h; exact h8 h.2)]
        have hns : (word (abi c) p).2.ns = p.ns := by
          unfold word; rw [if_pos (by omega)]
        have := ih (i := i + 1) (p := (word (abi c) p).2)
          (b := roundUp b t.align + roundUp t.size 8) (C := C + roundUp t.size 8) hp' hal' (by omega)
        omega

theorem reserve_dvd {ts : List FType} (h : ∀ t ∈ ts, Plain (tab 8) t) {b : Nat} (hb : 8 ∣ b) : 8 ∣ reserve 8 b ts := by
  induction ts generalizing b with
  | nil => exact hb
  | cons t ts ih =>
    have e : reserve 8 b (t :: ts) = reserve 8 (roundUp b t.align + roundUp t.size 8) ts := rfl
    rw [e]
    apply ih (fun x hx => h x (by simp [hx]))
    apply Nat.dvd_add _ (dvd_roundUp _ _)
    have hal := (plain_wf (h t (by simp))).align_cases (tab_ok (.inr rfl))
    rcases hal with h | h | h | h | h <;> rw [h] <;> unfold roundUp <;> omega

end Verif.LA
