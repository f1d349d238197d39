import Verif.Win64.CallLemmas

namespace Verif.Win64
open Verif Spec.Win64

theorem store4_spec (m : Mem) (a : Nat) (v : Nat → List Byte) (hv : ∀ k, k < 4 → (v k).length = 8) :
    (∀ x, x < a ∨ a + 32 ≤ x → store4 m a v x = m x) ∧
    ∀ k, k < 4 → (store4 m a v).rd (a + 8 * k) 8 = v k := by
  have h0 := hv 0 (by omega)
  have h1 := hv 1 (by omega)
  have h2 := hv 2 (by omega)
  have h3 := hv 3 (by omega)
  have same : ∀ (m : Mem) a (l : List Byte), l.length = 8 → (m.wr a l).rd a 8 = l := by
    intro m a l hl
    have := Mem.rd_wr_same m a l
    rwa [hl] at this
  constructor
  · intro x hx
    unfold store4
    rw [Mem.wr_out, Mem.wr_out, Mem.wr_out, Mem.wr_out] <;> omega
  · intro k hk
    unfold store4
    rcases (by omega : k = 0 ∨ k = 1 ∨ k = 2 ∨ k = 3) with rfl | rfl | rfl | rfl
    · rw [Mem.rd_wr_disj, Mem.rd_wr_disj, Mem.rd_wr_disj]
      · exact same _ _ _ h0
      all_goals omega
    · rw [Mem.rd_wr_disj, Mem.rd_wr_disj]
      · exact same _ _ _ h1
      all_goals omega
    · rw [Mem.rd_wr_disj]
      · exact same _ _ _ h2
      all_goals omega
    · exact same _ _ _ h3

theorem closureArgs_getElem (m : Mem) (args fargs : Nat) : ∀ (ts : List FType) (n i : Nat) (p : Nat) (t : FType),
    ts[i]? = some t → (closureArgs m args fargs ts n)[i]? = some p → p = closureArg m args fargs t (n + i)
  | [], n, i, p, t, h, _ => by simp at h
  | t :: ts, n, 0, p, t', h, h' => by
    simp only [closureArgs, List.getElem?_cons_zero, Option.some.injEq] at h h'
    subst h; exact h'.symm
  | t :: ts, n, i + 1, p, t', h, h' => by
    simp only [closureArgs, List.getElem?_cons_succ] at h h'
    have := closureArgs_getElem m args fargs ts (n + 1) i p t' h h'
    rw [this]; congr 1; omega

theorem closureArgs_length (m : Mem) (args fargs : Nat) (ts : List FType) (n : Nat) :
    (closureArgs m args fargs ts n).length = ts.length := by
  induction ts generalizing n with
  | nil => rfl
  | cons t ts ih => simp [closureArgs, ih]

structure ViewSpec (fl : Flag) (ats : List FType) (E : Entry) (V : View) : Prop where
  outside : ∀ x, x < E.args - 56 ∨ E.args + 32 ≤ x → V.mem x = E.mem x
  home : ∀ k, k < 4 → V.mem.rd (E.args + 8 * k) 8 = E.gpr k
  fargs : ∀ k, k < 4 → V.mem.rd (E.args - 40 + 8 * k) 8 = E.xmm k
  len : V.avalue.length = ats.length
  args : ∀ (i : Nat) t p, ats[i]? = some t → V.avalue[i]? = some p →
    p = closureArg V.mem E.args (E.args - 40) t ((if fl = .tc .struct then 1 else 0) + i)
  rvalue : V.rvalue = if fl = .tc .struct then leNat (E.gpr 0) else E.args - 56
  rslot : fl = .tc .struct → V.mem.rd (E.args - 56) 8 = E.gpr 0

theorem closureEntry_spec {fl : Flag} {ats : List FType} {E : Entry} (h56 : 56 ≤ E.args)
    (hg : ∀ k, k < 4 → (E.gpr k).length = 8) (hx : ∀ k, k < 4 → (E.xmm k).length = 8) :
    ViewSpec fl ats E (closureEntry fl ats E) := by
  obtain ⟨a1, a2⟩ := store4_spec E.mem E.args E.gpr hg
  unfold closureEntry
  generalize store4 E.mem E.args E.gpr = m1 at a1 a2
  obtain ⟨b1, b2⟩ := store4_spec m1 (E.args - 40) E.xmm hx
  simp only
  generalize store4 m1 (E.args - 40) E.xmm = m2 at b1 b2
  have h2 : ∀ k, k < 4 → m2.rd (E.args + 8 * k) 8 = E.gpr k := by
    intro k hk
    rw [← a2 k hk]
    exact Mem.rd_congr fun i hi => b1 _ (by omega)
  have h20 := h2 0 (by omega)
  rw [Nat.mul_zero, Nat.add_zero] at h20
  generalize hm3 : (if fl = .tc .struct then m2.wr (E.args - 56) (m2.rd E.args 8) else m2) = m3
  have o3 : ∀ x, x < E.args - 56 ∨ E.args - 48 ≤ x → m3 x = m2 x := by
    intro x hx
    rw [← hm3]
    split_ifs
    · rw [Mem.wr_out]; simp only [Mem.rd_length]; omega
    · rfl
  refine ⟨?_, ?_, ?_, ?_, ?_, ?_, ?_⟩ <;> simp only
  · intro x hx
    rw [o3 x (by omega), b1 x (by omega), a1 x (by omega)]
  · intro k hk
    rw [← h2 k hk]
    exact Mem.rd_congr fun i hi => o3 _ (by omega)
  · intro k hk
    rw [← b2 k hk]
    exact Mem.rd_congr fun i hi => o3 _ (by omega)
  · exact closureArgs_length _ _ _ _ _
  · intro i t p h1 h2
    exact closureArgs_getElem _ _ _ _ _ _ _ _ h1 h2
  · rw [h20]
  · intro h
    rw [← hm3, if_pos h]
    have := Mem.rd_wr_same m2 (E.args - 56) (m2.rd E.args 8)
    rw [Mem.rd_length] at this
    rw [this, h20]

/-- The handler's pointer shows an argument that was passed according to the
convention. -/
theorem view_arg {fl : Flag} {ats : List FType} {E : Entry} {V : View} (hV : ViewSpec fl ats E V)
    (h56 : 56 ≤ E.args) {t : FType} {v : List Byte} {k : Nat} (hs : SizeOk t)
    (hp : PassedAt ⟨E.mem, E.args, E.gpr, E.xmm⟩ t v k)
    (href : ¬ByValue t.size → Disj (leNat (slot ⟨E.mem, E.args, E.gpr, E.xmm⟩ false k)) t.size (E.args - 56) (E.args + 32)) :
    V.mem.rd (closureArg V.mem E.args (E.args - 40) t k) t.size = v := by
  unfold PassedAt at hp
  have hslot : V.mem.rd (E.args + 8 * k) 8 = slot ⟨E.mem, E.args, E.gpr, E.xmm⟩ false k := by
    unfold slot
    by_cases hk : k < 4
    · rw [if_pos hk, hV.home k hk]; rfl
    · rw [if_neg hk]
      exact Mem.rd_congr fun i hi => hV.outside _ (by omega)
  by_cases hfp : isFP t
  · have hbv : ByValue t.size := by
      rcases hfp with h | h
      · rw [hs 4 (by rw [h]; rfl)]; unfold ByValue; omega
      · rw [hs 8 (by rw [h]; rfl)]; unfold ByValue; omega
    have h8 : t.size ≤ 8 := by unfold ByValue at hbv; omega
    rw [if_pos hbv] at hp
    unfold closureArg
    rw [if_pos (by rcases hfp with h | h <;> tauto)]
    unfold slot at hp
    by_cases hk : k < 4
    · rw [if_pos hk, ← Mem.rd_take _ _ h8, hV.fargs k hk]
      rw [if_pos hk, if_pos (by simpa using hfp)] at hp
      exact hp
    · rw [if_neg hk, ← Mem.rd_take _ _ h8, ← hp, if_neg hk]
      congr 1
      exact Mem.rd_congr fun i hi => hV.outside _ (by omega)
  · unfold closureArg
    rw [if_neg (by unfold isFP at hfp; tauto)]
    by_cases hbv : ByValue t.size
    · have h8 : t.size ≤ 8 := by unfold ByValue at hbv; omega
      rw [if_pos hbv] at hp
      rw [if_pos (by unfold ByValue at hbv; exact hbv), ← Mem.rd_take _ _ h8, hslot, ← hp]
      simp [hfp]
    · rw [if_neg hbv] at hp
      rw [if_neg (by unfold ByValue at hbv; exact hbv), hslot, ← hp]
      have := href hbv
      exact Mem.rd_congr fun i hi => hV.outside _ (by rcases this with h | h <;> omega)

end Verif.Win64
