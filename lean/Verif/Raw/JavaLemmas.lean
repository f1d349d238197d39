import Verif.Raw.StepLemmas

namespace Verif.Raw
open Verif Spec.Raw

/-- Slot width of the Java raw API. -/
def javaW (c : Cfg) (t : FType) : Nat :=
  match t.tc with
  | .uint64 | .sint64 | .double => 2 * c.jraw
  | _ => c.jraw

theorem java_step {c : Cfg} (hc : CfgOk c) :
    StepOk (javaPut c) (javaGet c) (javaW c) (fun t => TypeOk c t ∧ javaType t.tc = true) (fun _ => True) := by
  have hj : c.jraw = 4 ∨ c.jraw = 8 := by
    rcases hc.jraw with h | h
    · rw [h]; exact hc.arg
    · exact .inl h.1
  have hp : c.ptr ≤ c.jraw := by
    rcases hc.jraw with h | h
    · rw [h]; exact hc.le
    · omega
  have hadv : ∀ t : FType, TypeOk c t → t.size = 8 → c.jraw ≠ 8 →
      ffiAlign t.size c.jraw / c.jraw * c.jraw = 2 * c.jraw := by
    intro t ht h8 h
    rw [align_div hj ht.small, h8, show c.jraw = 4 by omega]
    rfl
  have hadv1 : ∀ t : FType, TypeOk c t → t.size ≤ c.jraw →
      ffiAlign t.size c.jraw / c.jraw * c.jraw = c.jraw := by
    intro t ht h8
    rw [align_div hj ht.small]
    exact roundUp_one (by omega) ht.pos h8
  have hw4 : 4 ≤ (if c.be = true then 4 else c.jraw) := by split <;> omega
  have hwj : (if c.be = true then 4 else c.jraw) ≤ c.jraw := by split <;> omega
  refine ⟨?_, ?_, ?_⟩
  · rintro m t a ⟨ht, hjt⟩
    cases htc : t.tc <;> simp only [htc, javaType, Bool.false_eq_true] at hjt <;> simp only [javaPut, javaW, htc]
    case uint8 | uint16 | uint32 => exact ⟨_, rfl, by rw [storeU_length]; exact hwj⟩
    case sint8 | sint16 | sint32 => exact ⟨_, rfl, by rw [storeS_length]; exact hwj⟩
    case float => exact ⟨_, rfl, by rw [Mem.rd_length]; omega⟩
    case pointer => exact ⟨_, rfl, by rw [Mem.rd_length]; exact hp⟩
    case uint64 | sint64 | double =>
      have hsz := ht.size _ (by rw [htc]; rfl)
      split_ifs with h8
      · exact ⟨_, rfl, by rw [storeU_length]; omega⟩
      · exact ⟨_, by rw [hadv t ht hsz h8], by rw [Mem.rd_length]; omega⟩
  · rintro m m' t a ⟨ht, hjt⟩ hm
    cases htc : t.tc <;> simp only [htc, javaType, Bool.false_eq_true] at hjt <;>
      simp only [javaPut, htc, storeU, storeS] <;>
      · have hsz := ht.size _ (by rw [htc]; rfl)
        rw [hsz] at hm
        simp only [hsz, hm]
  · rintro m0 m t a r bs ⟨ht, hjt⟩ _ hf hm
    -- a narrow integer stored in a `w`-byte word at `r`
    have hn : ∀ n w q : Nat, t.size = n → n ≤ w → w ≤ c.jraw → q = (if c.be = true then r + w - n else r) →
        javaW c t = c.jraw → m.rd (if c.be = true then r + w - n else r) n = m0.rd a n →
        ∃ p, (Except.ok (q, c.jraw) : Except Abn (Nat × Nat)) = .ok (p, javaW c t) ∧
          (p = a ∨ r ≤ p ∧ p + t.size ≤ r + javaW c t ∧ m.rd p t.size = m0.rd a t.size) := by
      intro n w q h1 h2 h3 h4 h5 h6
      refine ⟨q, by rw [h5], .inr ?_⟩
      rw [h1, h5, h4, h6]
      refine ⟨?_, ?_, rfl⟩ <;> split <;> omega
    have hd : ∀ q : Nat, q = javaW c t → t.size ≤ javaW c t → m.rd r t.size = m0.rd a t.size →
        ∃ p, (Except.ok (r, q) : Except Abn (Nat × Nat)) = .ok (p, javaW c t) ∧
          (p = a ∨ r ≤ p ∧ p + t.size ≤ r + javaW c t ∧ m.rd p t.size = m0.rd a t.size) := by
      intro q h1 h2 h3
      exact ⟨r, by rw [h1], .inr ⟨Nat.le_refl _, by omega, h3⟩⟩
    have h8 : ∀ h : t.size = 8, c.jraw = 8 → m.rd r 8 = storeU c m0 8 8 a → m.rd r t.size = m0.rd a t.size := by
      intro h h1 h2
      rw [h, h2]
      unfold storeU
      have := enc_dec c.be (m0.rd a 8)
      rwa [Mem.rd_length] at this
    cases htc : t.tc <;> simp only [htc, javaType, Bool.false_eq_true] at hjt <;>
      have hsz := ht.size _ (by rw [htc]; rfl)
    case uint8 | uint16 | uint32 =>
      simp only [javaPut, htc, Except.ok.injEq, Prod.mk.injEq] at hf
      rw [← hf.1, storeU_length] at hm
      have := storeU_read (by omega) hm
      have hw : javaW c t = c.jraw := by simp [javaW, htc]
      have e : ∃ q, javaGet c m t r = .ok (q, c.jraw) ∧
          q = (if c.be = true then r + (if c.be = true then 4 else c.jraw) - t.size else r) := by
        unfold javaGet
        simp only [htc, hsz]
        have h1 := hadv1 t ht (by omega)
        rw [hsz] at h1
        split_ifs <;> first
          | exact ⟨_, rfl, by omega⟩
          | exact ⟨_, by rw [h1], by omega⟩
      obtain ⟨q, e1, e2⟩ := e
      rw [e1]
      exact hn _ _ q hsz (by omega) hwj (by rw [e2, hsz]) hw this
    case sint8 | sint16 | sint32 =>
      simp only [javaPut, htc, Except.ok.injEq, Prod.mk.injEq] at hf
      rw [← hf.1, storeS_length] at hm
      have := storeS_read (by omega) hm
      have hw : javaW c t = c.jraw := by simp [javaW, htc]
      have e : ∃ q, javaGet c m t r = .ok (q, c.jraw) ∧
          q = (if c.be = true then r + (if c.be = true then 4 else c.jraw) - t.size else r) := by
        unfold javaGet
        simp only [htc, hsz]
        have h1 := hadv1 t ht (by omega)
        rw [hsz] at h1
        split_ifs <;> first
          | exact ⟨_, rfl, by omega⟩
          | exact ⟨_, by rw [h1], by omega⟩
      obtain ⟨q, e1, e2⟩ := e
      rw [e1]
      exact hn _ _ q hsz (by omega) hwj (by rw [e2, hsz]) hw this
    case float =>
      simp only [javaPut, htc, Except.ok.injEq, Prod.mk.injEq] at hf
      rw [← hf.1, Mem.rd_length] at hm
      have hw : javaW c t = c.jraw := by simp [javaW, htc]
      have h1 := hadv1 t ht (by omega)
      rw [hsz] at h1
      unfold javaGet
      simp only [htc, hsz]
      rw [hsz] at hd
      split_ifs <;> exact hd _ (by first | rw [h1, hw] | rw [hw]) (by omega) hm
    case pointer =>
      simp only [javaPut, htc, Except.ok.injEq, Prod.mk.injEq] at hf
      rw [← hf.1, Mem.rd_length] at hm
      have hw : javaW c t = c.jraw := by simp [javaW, htc]
      have h1 := hadv1 t ht (by omega)
      rw [hsz] at h1
      unfold javaGet
      simp only [htc, hsz]
      rw [hsz] at hd
      split_ifs <;> exact hd _ (by first | rw [h1, hw] | rw [hw]) (by omega) hm
    case uint64 | sint64 | double =>
      have hw : javaW c t = 2 * c.jraw := by simp [javaW, htc]
      simp only [javaPut, htc] at hf
      unfold javaGet
      simp only [htc]
      by_cases hj8 : c.jraw = 8
      · rw [if_pos hj8, Except.ok.injEq, Prod.mk.injEq] at hf
        rw [← hf.1, storeU_length, hj8] at hm
        simp only [if_pos hj8, ite_self]
        exact hd _ hw.symm (by omega) (h8 hsz hj8 hm)
      · rw [if_neg hj8, Except.ok.injEq, Prod.mk.injEq] at hf
        rw [← hf.1, Mem.rd_length] at hm
        simp only [if_neg hj8, ite_self]
        exact hd _ (by rw [hw]; exact hadv t ht hsz hj8) (by omega) hm

theorem javaSize_eq (c : Cfg) : ∀ ts : List FType, (∀ t ∈ ts, javaType t.tc = true) →
    javaSize c ts = .ok (sumW (javaW c) ts)
  | [], _ => rfl
  | t :: ts, h => by
    have ih := javaSize_eq c ts fun t ht => h t (by simp [ht])
    have ht := h t (by simp)
    rw [javaSize, ih]
    cases htc : t.tc <;> simp [htc, javaType] at ht <;> simp [sumW, javaW, htc, Except.map]

end Verif.Raw
