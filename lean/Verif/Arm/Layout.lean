import Verif.Arm.Alloc
import Verif.I386.Layout

/-! The places that the standard gives to arguments, as addresses in the block that
`ffi_call` prepares and that the entry points of closures save: they do not overlap. -/
namespace Verif.Arm
open Verif Spec
open Verif.Spec.A32 (cprc Place Pos run Fits lowest placeArg placeFrom endFrom stackAt words)
open Verif.Spec.X86 (word signed intVal WidenedTo)

theorem align_cases {t : FType} (h : WF A32.tab t) : t.align = 1 ∨ t.align = 2 ∨ t.align = 4 ∨ t.align = 8 := by
  obtain ⟨l, -, hl⟩ := h.align_leaf tab_ok 0
  revert hl
  cases l.tc <;> simp [A32.tab] <;> omega

theorem cprc_size {t : FType} {n w : Nat} (h : cprc t = some (n, w)) : t.size = 4 * (n * w) := by
  unfold cprc at h
  split at h
  · cases h
  · split at h
    · cases h
    · split at h
      · rename_i hc
        cases h
        exact hc.2.2
      · cases h

/-- Addresses of places: `stack` has the core registers and then the stack arguments,
`vs` the VFP registers. -/
def addr (stack vs : Nat) : Place → Nat
  | .core k => stack + 4 * k
  | .stack o => stack + 16 + o
  | .vfp k => vs + 4 * k

/-- Position reached by a sequence of arguments. -/
structure Inv (p : Pos) : Prop where
  ncrn : p.ncrn ≤ 4
  nsaa : 4 ∣ p.nsaa
  used : ∀ i ∈ p.used, i < 16

/-- Bytes that belong to further arguments. -/
def Fut (hard : Bool) (stack vs top : Nat) (p : Pos) (x : Nat) : Prop :=
  (stack + 4 * p.ncrn ≤ x ∧ x < stack + 16) ∨ (stack + 16 + p.nsaa ≤ x ∧ x < top) ∨
    (hard = true ∧ vs ≤ x ∧ x < vs + 64 ∧ (x - vs) / 4 ∉ p.used)

theorem stackAt_spec (t : FType) {n : Nat} (h : 4 ∣ n) : n ≤ stackAt t n ∧ 4 ∣ stackAt t n ∧ stackAt t n ≤ n + 4 := by
  unfold stackAt
  split
  · have h1 : n ≤ roundUp n 8 := roundUp_ge (by decide)
    have h2 : 8 ∣ roundUp n 8 := dvd_roundUp _ _
    have h3 : roundUp n 8 < n + 8 := roundUp_lt (by decide)
    omega
  · omega

/-- What one argument takes is free before and not free afterwards. -/
theorem step_spec (o : Bool) {hard : Bool} {stack vs top c : Nat} {t : FType} {p : Pos} (hvs : hard = true → vs + 64 ≤ stack)
    (hi : Inv p) (hc : c ≤ 4 * words t) (htop : stack + 16 + (placeArg o hard t p).2.nsaa ≤ top) :
    Inv (placeArg o hard t p).2 ∧ p.nsaa ≤ (placeArg o hard t p).2.nsaa ∧
      (∀ x, addr stack vs (placeArg o hard t p).1 ≤ x → x < addr stack vs (placeArg o hard t p).1 + c →
        Fut hard stack vs top p x) ∧
      ∀ x, Fut hard stack vs top (placeArg o hard t p).2 x → Fut hard stack vs top p x ∧
        ¬ (addr stack vs (placeArg o hard t p).1 ≤ x ∧ x < addr stack vs (placeArg o hard t p).1 + c) := by
  obtain ⟨i1, i2, i3⟩ := hi
  obtain ⟨s1, s2, s3⟩ := stackAt_spec t i2
  unfold placeArg at htop ⊢
  cases hcp : (if hard = true then cprc t else none) with
  | some x =>
    obtain ⟨n, w⟩ := x
    have hh : hard = true := by
      cases hard
      · simp at hcp
      · rfl
    rw [if_pos hh] at hcp
    have hsz := cprc_size hcp
    have hnw := cprc_nw hcp
    have hvs := hvs hh
    have hcw : c ≤ 4 * (n * w) := by unfold words at hc; omega
    rw [if_pos hh, hcp] at htop
    dsimp only at htop ⊢
    cases hl : lowest p.used (n * w) w with
    | some k =>
      rw [hl] at htop
      dsimp only [addr] at htop ⊢
      obtain ⟨-, ⟨-, f1, f2⟩, -⟩ := lowest_some.1 hl
      refine ⟨⟨i1, i2, fun i hi => ?_⟩, Nat.le_refl _, fun x h1 h2 => ?_, fun x hx => ?_⟩
      · rw [List.mem_append, mem_run] at hi
        rcases hi with hi | hi
        · exact i3 i hi
        · omega
      · refine Or.inr (Or.inr ⟨hh, by omega, by omega, ?_⟩)
        have := f2 ((x - vs) / 4 - k) (by omega)
        rwa [show k + ((x - vs) / 4 - k) = (x - vs) / 4 by omega] at this
      · rcases hx with hx | hx | ⟨_, h1, h2, h3⟩
        · dsimp only at hx
          exact ⟨Or.inl hx, by omega⟩
        · dsimp only at hx
          exact ⟨Or.inr (Or.inl hx), by omega⟩
        · dsimp only at h3
          rw [List.mem_append, mem_run] at h3
          exact ⟨Or.inr (Or.inr ⟨hh, h1, h2, fun h => h3 (Or.inl h)⟩), fun h => h3 (Or.inr (by omega))⟩
    | none =>
      rw [hl] at htop
      dsimp only [addr] at htop ⊢
      refine ⟨⟨i1, by simp only; omega, by simp⟩, by omega, fun x h1 h2 => Or.inr (Or.inl ⟨by omega, by omega⟩), fun x hx => ?_⟩
      rcases hx with hx | hx | ⟨_, h1, h2, h3⟩
      · dsimp only at hx
        exact ⟨Or.inl hx, by omega⟩
      · dsimp only at hx
        exact ⟨Or.inr (Or.inl ⟨by omega, hx.2⟩), by omega⟩
      · dsimp only at h3
        rw [List.mem_range] at h3
        omega
  | none =>
    rw [hcp] at htop
    dsimp only at htop ⊢
    obtain ⟨g, hg, hg1, hg2⟩ : ∃ g, (if 8 ≤ t.align then roundUp p.ncrn 2 else p.ncrn) = g ∧ p.ncrn ≤ g ∧ g ≤ 4 := by
      refine ⟨_, rfl, ?_⟩
      split
      · have h1 : p.ncrn ≤ roundUp p.ncrn 2 := roundUp_ge (by decide)
        have h2 : roundUp p.ncrn 2 ≤ 4 := roundUp_least (by decide) (by decide) i1
        exact ⟨h1, h2⟩
      · exact ⟨Nat.le_refl _, i1⟩
    rw [hg] at htop ⊢
    by_cases h1 : g + words t ≤ 4
    · rw [if_pos h1] at htop ⊢
      dsimp only [addr] at htop ⊢
      refine ⟨⟨h1, i2, i3⟩, Nat.le_refl _, fun x h1 h2 => Or.inl ⟨by omega, by omega⟩, fun x hx => ?_⟩
      rcases hx with hx | hx | hx
      · dsimp only at hx
        exact ⟨Or.inl ⟨by omega, hx.2⟩, by omega⟩
      · dsimp only at hx
        exact ⟨Or.inr (Or.inl hx), by omega⟩
      · have := hvs hx.1
        exact ⟨Or.inr (Or.inr hx), by omega⟩
    · by_cases h2 : g < 4 ∧ p.nsaa = 0
      · rw [if_neg h1, if_pos h2] at htop ⊢
        dsimp only [addr] at htop ⊢
        refine ⟨⟨Nat.le_refl _, by simp, i3⟩, by omega, fun x h3 h4 => ?_, fun x hx => ?_⟩
        · by_cases hx : x < stack + 16
          · exact Or.inl ⟨by omega, hx⟩
          · exact Or.inr (Or.inl ⟨by omega, by omega⟩)
        · rcases hx with hx | hx | hx
          · dsimp only at hx
            omega
          · dsimp only at hx
            exact ⟨Or.inr (Or.inl ⟨by omega, hx.2⟩), by omega⟩
          · have := hvs hx.1
            exact ⟨Or.inr (Or.inr hx), by omega⟩
      · rw [if_neg h1, if_neg h2] at htop ⊢
        dsimp only [addr] at htop ⊢
        refine ⟨⟨?_, by simp only; omega, i3⟩, by omega, fun x h3 h4 => Or.inr (Or.inl ⟨by omega, by omega⟩), fun x hx => ?_⟩
        · dsimp only
          split <;> omega
        · rcases hx with hx | hx | hx
          · dsimp only at hx
            refine ⟨Or.inl ⟨?_, hx.2⟩, by omega⟩
            split at hx <;> omega
          · dsimp only at hx
            exact ⟨Or.inr (Or.inl ⟨by omega, hx.2⟩), by omega⟩
          · have := hvs hx.1
            exact ⟨Or.inr (Or.inr hx), by omega⟩

theorem nsaa_mono (o hard : Bool) : ∀ (ts : List FType) {p : Pos}, Inv p → p.nsaa ≤ (endFrom o hard ts p).nsaa
  | [], _, _ => Nat.le_refl _
  | t :: ts, p, hi => by
    obtain ⟨h1, h2, -⟩ := step_spec (stack := 64) (vs := 0) (c := 0) o (hard := hard) (t := t) (fun _ => by omega) hi (by omega) (Nat.le_refl _)
    exact Nat.le_trans h2 (nsaa_mono o hard ts h1)

/-! ## What is stored -/

/-- Bytes stored for an argument. -/
def cell (t : FType) : Nat := if word t.tc then 4 else t.size

theorem tc_cases {t : FType} (h : WF A32.tab t) :
    (word t.tc = true ∧ t.size ≤ 4) ∨ t.tc = .float ∧ t.size = 4 ∨
      (t.tc = .double ∨ t.tc = .uint64 ∨ t.tc = .sint64) ∧ t.size = 8 ∨ t.tc = .struct ∨ t.tc = .complex := by
  cases h with
  | @scalar tc s a h =>
    cases tc <;> simp [A32.tab] at h <;> obtain ⟨rfl, rfl⟩ := h <;> simp [word]
  | complex => simp
  | struct => simp

theorem cell_spec {t : FType} (h : WF A32.tab t) : t.size ≤ cell t ∧ cell t ≤ 4 * words t := by
  have hp := h.size_pos tab_ok
  unfold cell words
  split
  · rename_i hw
    rcases tc_cases h with h1 | h1 | h1 | h1 | h1
    · omega
    · rw [h1.1] at hw; cases hw
    · rcases h1 with ⟨h1 | h1 | h1, -⟩ <;> rw [h1] at hw <;> cases hw
    · rw [h1] at hw; cases hw
    · rw [h1] at hw; cases hw
  · omega

/-- `ffi_put_arg` stores the value, small integers widened. -/
theorem putArg_spec {t : FType} (h : WF A32.tab t) (m : Mem) (a : Nat) :
    ∃ bs, putArg m t a = some bs ∧ bs.length = cell t ∧ bs.take t.size = m.rd a t.size ∧
      WidenedTo t (m.rd a t.size) bs := by
  have hother : ∀ n, word t.tc = false → putArg m t a = some (m.rd a n) → t.size = n →
      ∃ bs, putArg m t a = some bs ∧ bs.length = cell t ∧ bs.take t.size = m.rd a t.size ∧
        WidenedTo t (m.rd a t.size) bs := by
    rintro n hw hp rfl
    refine ⟨_, hp, ?_, List.take_of_length_le (by simp), fun hc => ?_⟩
    · unfold cell; rw [hw]; simp
    · rw [hw] at hc; cases hc
  rcases tc_cases h with h1 | h1 | h1 | h1 | h1
  · obtain ⟨hw, -⟩ := h1
    cases h with
    | @scalar tc s al ht =>
      cases tc <;> simp [word] at hw <;> simp [A32.tab] at ht <;> obtain ⟨rfl, rfl⟩ := ht <;>
        simp only [putArg, FType.tc_mk, FType.size_mk] <;> refine ⟨_, rfl, ?_⟩ <;>
        simp only [cell, WidenedTo, FType.tc_mk, word, signed, forall_true_left, if_true]
      case uint8 => exact ⟨(I386.widen_spec (by simp)).1, I386.widen_take (by simp), by
        rw [List.take_of_length_le (by rw [(I386.widen_spec (by simp)).1])]; exact (I386.widen_spec (by simp)).2⟩
      case sint8 => exact ⟨(I386.widen_spec (by simp)).1, I386.widen_take (by simp), by
        rw [List.take_of_length_le (by rw [(I386.widen_spec (by simp)).1])]; exact (I386.widen_spec (by simp)).2⟩
      case uint16 => exact ⟨(I386.widen_spec (by simp)).1, I386.widen_take (by simp), by
        rw [List.take_of_length_le (by rw [(I386.widen_spec (by simp)).1])]; exact (I386.widen_spec (by simp)).2⟩
      case sint16 => exact ⟨(I386.widen_spec (by simp)).1, I386.widen_take (by simp), by
        rw [List.take_of_length_le (by rw [(I386.widen_spec (by simp)).1])]; exact (I386.widen_spec (by simp)).2⟩
      all_goals exact ⟨by simp, List.take_of_length_le (by simp), by
        rw [List.take_of_length_le (by simp)]; exact I386.wide4 _ (by simp)⟩
    | complex => cases hw
    | struct => cases hw
  · exact hother 4 (by rw [h1.1]; rfl) (by unfold putArg; rw [h1.1]) h1.2
  · obtain ⟨h1, h2⟩ := h1
    rcases h1 with h1 | h1 | h1 <;>
    exact hother 8 (by rw [h1]; rfl) (by unfold putArg; rw [h1]) h2
  · exact hother _ (by rw [h1]; rfl) (by unfold putArg; rw [h1]) rfl
  · exact hother _ (by rw [h1]; rfl) (by unfold putArg; rw [h1]) rfl

theorem putArg_congr {m m' : Mem} {t : FType} (h : WF A32.tab t) {a : Nat} (hm : ∀ i < t.size, m' (a + i) = m (a + i)) :
    putArg m' t a = putArg m t a := by
  have key : m'.rd a t.size = m.rd a t.size := Mem.rd_congr hm
  cases h with
  | @scalar tc s al ht =>
    cases tc <;> simp [A32.tab] at ht <;> obtain ⟨rfl, rfl⟩ := ht <;> simp only [putArg, FType.tc_mk] <;>
      simp only [FType.size_mk] at key <;> rw [key]
  | complex => simp only [putArg, FType.tc_mk]; rw [key]
  | struct => simp only [putArg, FType.tc_mk]; rw [key]

/-- Memory has the values at the addresses. -/
def Stored (m : Mem) : List FType → List (List Byte) → List Nat → Prop
  | t :: ts, v :: vs, a :: as => (m.rd a t.size = v ∧ WidenedTo t v (m.rd a 4)) ∧ Stored m ts vs as
  | [], [], [] => True
  | _, _, _ => False

def argVals (m : Mem) (ts : List FType) (as : List Nat) : List (List Byte) := (ts.zip as).map fun q => m.rd q.2 q.1.size

theorem argVals_congr {m m' : Mem} : ∀ {ts : List FType} {as : List Nat},
    (∀ q ∈ ts.zip as, ∀ i < q.1.size, m' (q.2 + i) = m (q.2 + i)) → argVals m' ts as = argVals m ts as := by
  intro ts as h
  unfold argVals
  apply List.map_congr_left
  intro q hq
  exact Mem.rd_congr (h q hq)

/-- Writing all arguments to the addresses of their places. -/
def writeAll : List (Nat × FType) → List Nat → Mem → Except Abn Mem
  | (d, t) :: ds, a :: as, m =>
    match putArg m t a with
    | none => .error .abort
    | some bs => writeAll ds as (m.wr d bs)
  | _, _, m => .ok m

/-- The addresses of the arguments. -/
def dests (o hard : Bool) (stack vs : Nat) (ts : List FType) (p : Pos) : List Nat :=
  (placeFrom o hard ts p).map (addr stack vs)

theorem writeAll_spec (o : Bool) {hard : Bool} {stack vs top : Nat} (hvs : hard = true → vs + 64 ≤ stack) :
    ∀ {ts : List FType} {as : List Nat} {p : Pos} {m : Mem}, (∀ t ∈ ts, WF A32.tab t) → as.length = ts.length → Inv p →
      stack + 16 + (endFrom o hard ts p).nsaa ≤ top →
      (∀ q ∈ ts.zip as, ∀ i < q.1.size, ¬ Fut hard stack vs top p (q.2 + i)) →
      ∃ m', writeAll ((dests o hard stack vs ts p).zip ts) as m = .ok m' ∧
        (∀ x, ¬ Fut hard stack vs top p x → m' x = m x) ∧
        Stored m' ts (argVals m ts as) (dests o hard stack vs ts p)
  | [], as, p, m, _, hlen, _, _, _ => by
    cases as with
    | cons => simp at hlen
    | nil => exact ⟨m, rfl, fun _ _ => rfl, trivial⟩
  | t :: ts, [], _, _, _, hlen, _, _, _ => by simp at hlen
  | t :: ts, a :: as, p, m, hw, hlen, hi, htop, hout => by
    have hwt := hw t (by simp)
    obtain ⟨hc1, hc2⟩ := cell_spec hwt
    have hi' := (step_spec (stack := stack) (vs := vs) (top := stack + 16 + (placeArg o hard t p).2.nsaa) (c := cell t) o hvs hi hc2 (Nat.le_refl _)).1
    have hmono := nsaa_mono o hard ts hi'
    rw [endFrom] at htop
    obtain ⟨-, -, hcell, hrest⟩ := step_spec (stack := stack) (vs := vs) (top := top) (c := cell t) o hvs hi hc2 (by omega)
    obtain ⟨bs, hb1, hb2, hb3, hb4⟩ := putArg_spec hwt m a
    generalize hP : placeArg o hard t p = P at *
    obtain ⟨l, p'⟩ := P
    dsimp only at *
    have hkeep : ∀ x, ¬ Fut hard stack vs top p x → (m.wr (addr stack vs l) bs) x = m x := by
      intro x hx
      apply Mem.wr_out
      rw [hb2]
      by_cases h : addr stack vs l ≤ x ∧ x < addr stack vs l + cell t
      · exact absurd (hcell x h.1 h.2) hx
      · omega
    obtain ⟨m', hm', hk, hs⟩ := writeAll_spec (top := top) o hvs (ts := ts) (as := as) (p := p') (m := m.wr (addr stack vs l) bs)
      (fun x hx => hw x (by simp [hx])) (by simpa using hlen) hi' htop
      (fun q hq i hi hf => hout q (by simp [hq]) i hi (hrest _ hf).1)
    have hd : dests o hard stack vs (t :: ts) p = addr stack vs l :: dests o hard stack vs ts p' := by
      unfold dests
      rw [placeFrom, hP]
      rfl
    refine ⟨m', ?_, fun x hx => ?_, ?_⟩
    · rw [hd, List.zip_cons_cons, writeAll, hb1]
      exact hm'
    · rw [hk x (fun h => hx (hrest x h).1), hkeep x hx]
    · rw [hd]
      have hall : m'.rd (addr stack vs l) (cell t) = bs := by
        have h2 : m'.rd (addr stack vs l) (cell t) = (m.wr (addr stack vs l) bs).rd (addr stack vs l) (cell t) := by
          apply Mem.rd_congr
          intro i hi
          apply hk
          intro hf
          have := (hrest _ hf).2
          omega
        rw [h2, ← hb2, Mem.rd_wr_same]
      refine ⟨⟨?_, fun hwd => ?_⟩, ?_⟩
      · rw [← Mem.rd_take m' _ hc1, hall, hb3]
      · have h4 : cell t = 4 := if_pos hwd
        rw [h4] at hall
        rw [hall]
        exact hb4 hwd
      · rw [argVals_congr (m := m)] at hs
        · exact hs
        · intro q hq i hi
          exact hkeep _ (hout q (by simp [hq]) i hi)

end Verif.Arm
