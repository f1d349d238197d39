import Verif.Raw.Lemmas
import Verif.Spec.Raw

namespace Verif.Raw
open Verif Spec.Raw

theorem align_small {s k : Nat} (hk : k = 4 ∨ k = 8) (hs : s < 2 ^ 31) : ffiAlign s k = roundUp s k := by
  rcases hk with rfl | rfl
  · exact ffiAlign_eq_roundUp (k := 2) (by omega)
  · exact ffiAlign_eq_roundUp (k := 3) (by omega)

theorem align_div {s k : Nat} (hk : k = 4 ∨ k = 8) (hs : s < 2 ^ 31) :
    ffiAlign s k / k * k = roundUp s k := by
  rw [align_small hk hs]
  exact Nat.div_mul_cancel (dvd_roundUp s k)

/-- Slot width of the raw API. -/
def rawW (c : Cfg) (t : FType) : Nat :=
  match t.tc with
  | .struct | .complex => c.arg
  | _ => roundUp t.size c.arg

theorem roundUp_one {s k : Nat} (hk : 0 < k) (h0 : 0 < s) (h : s ≤ k) : roundUp s k = k := by
  apply Nat.le_antisymm
  · exact roundUp_least hk (Nat.dvd_refl _) h
  · have h1 := roundUp_ge (v := s) hk
    obtain ⟨d, hd⟩ := dvd_roundUp s k
    rw [hd] at h1 ⊢
    rcases Nat.eq_zero_or_pos d with rfl | hd0
    · omega
    · exact Nat.le_mul_of_pos_right k hd0

theorem storeU_read {c : Cfg} {m0 m : Mem} {w n a r : Nat} (h : n ≤ w)
    (hm : m.rd r w = storeU c m0 w n a) : m.rd (if c.be then r + w - n else r) n = m0.rd a n := by
  unfold storeU at hm
  apply wide_read h (by simp) _ hm
  have := dec_lt c.be (m0.rd a n)
  rw [Mem.rd_length] at this
  exact Nat.mod_eq_of_lt this

theorem storeS_read {c : Cfg} {m0 m : Mem} {w n a r : Nat} (h : n ≤ w)
    (hm : m.rd r w = storeS c m0 w n a) : m.rd (if c.be then r + w - n else r) n = m0.rd a n := by
  unfold storeS at hm
  apply wide_read h (by simp) _ hm
  have := dec_lt c.be (m0.rd a n)
  rw [Mem.rd_length] at this
  exact sext_mod h this

theorem storeU_length (c : Cfg) (m : Mem) (w n a : Nat) : (storeU c m w n a).length = w := enc_length _ _ _
theorem storeS_length (c : Cfg) (m : Mem) (w n a : Nat) : (storeS c m w n a).length = w := enc_length _ _ _

theorem raw_put {c : Cfg} (hc : CfgOk c) (m : Mem) (t : FType) (a : Nat) (ht : TypeOk c t) :
    ∃ bs, rawPut c m t a = .ok (bs, rawW c t) ∧ bs.length ≤ rawW c t := by
  have harg : 0 < c.arg := by have := hc.arg; omega
  have h4 : 4 ≤ c.arg := by have := hc.arg; omega
  have ww : ∀ t : FType, TypeOk c t → t.tc ≠ .struct → t.tc ≠ .complex → rawW c t = roundUp t.size c.arg := by
    intro t _ h1 h2
    unfold rawW
    split <;> simp_all
  have w1 : ∀ t : FType, TypeOk c t → t.tc ≠ .struct → t.tc ≠ .complex → t.size ≤ c.arg → rawW c t = c.arg := by
    intro t ht h1 h2 h3
    rw [ww t ht h1 h2]
    exact roundUp_one harg ht.pos h3
  have hptr := hc.le
  cases htc : t.tc <;> simp only [rawPut, htc]
  case uint8 | uint16 | uint32 =>
    have hsz := ht.size _ (by rw [htc]; rfl)
    exact ⟨_, by rw [w1 t ht (by simp [htc]) (by simp [htc]) (by omega)],
      by rw [storeU_length, w1 t ht (by simp [htc]) (by simp [htc]) (by omega)]⟩
  case sint8 | sint16 | sint32 =>
    have hsz := ht.size _ (by rw [htc]; rfl)
    exact ⟨_, by rw [w1 t ht (by simp [htc]) (by simp [htc]) (by omega)],
      by rw [storeS_length, w1 t ht (by simp [htc]) (by simp [htc]) (by omega)]⟩
  case struct | complex =>
    exact ⟨enc c.be c.ptr a, by simp [rawW, htc], by rw [enc_length]; simp [rawW, htc, hptr]⟩
  case pointer =>
    have hsz := ht.size _ (by rw [htc]; rfl)
    exact ⟨_, by rw [w1 t ht (by simp [htc]) (by simp [htc]) (by omega)],
      by rw [Mem.rd_length, w1 t ht (by simp [htc]) (by simp [htc]) (by omega)]; exact hptr⟩
  all_goals
    refine ⟨_, by rw [align_div hc.arg ht.small, ww t ht (by simp [htc]) (by simp [htc])], ?_⟩
    rw [Mem.rd_length, ww t ht (by simp [htc]) (by simp [htc])]
    exact roundUp_ge harg

/-- The raw API conversions fit together on the types the decoder steps over. -/
theorem raw_step {c : Cfg} (hc : CfgOk c) :
    StepOk (rawPut c) (rawGet c) (rawW c) (fun t => TypeOk c t ∧ Steppable c t) (· < 256 ^ c.ptr) := by
  have harg : 0 < c.arg := by have := hc.arg; omega
  have h4 : 4 ≤ c.arg := by have := hc.arg; omega
  have ww : ∀ t : FType, TypeOk c t → t.tc ≠ .struct → t.tc ≠ .complex → rawW c t = roundUp t.size c.arg := by
    intro t _ h1 h2
    unfold rawW
    split <;> simp_all
  have w1 : ∀ t : FType, TypeOk c t → t.tc ≠ .struct → t.tc ≠ .complex → t.size ≤ c.arg → rawW c t = c.arg := by
    intro t ht h1 h2 h3
    rw [ww t ht h1 h2]
    exact roundUp_one harg ht.pos h3
  have hptr := hc.le
  refine ⟨fun m t a ht => raw_put hc m t a ht.1, ?_, ?_⟩
  · rintro m m' t a ⟨ht, _⟩ hm
    cases htc : t.tc <;> simp only [rawPut, htc, storeU, storeS]
    case uint8 | uint16 | uint32 | sint8 | sint16 | sint32 | pointer =>
      have hsz := ht.size _ (by rw [htc]; rfl)
      rw [hsz] at hm
      rw [hm]
    all_goals rw [hm]
  · rintro m0 m t a r bs ⟨ht, hle⟩ ha hf hm
    have hdef : ∀ q : Nat, (t.tc ≠ .struct ∧ t.tc ≠ .complex) → q = rawW c t →
        m.rd r t.size = m0.rd a t.size →
        ∃ p, (Except.ok (r, q) : Except Abn (Nat × Nat)) = .ok (p, rawW c t) ∧
          (p = a ∨ r ≤ p ∧ p + t.size ≤ r + rawW c t ∧ m.rd p t.size = m0.rd a t.size) := by
      intro q hq h1 h2
      refine ⟨r, by rw [h1], .inr ⟨Nat.le_refl _, ?_, h2⟩⟩
      rw [ww t ht hq.1 hq.2]
      have := roundUp_ge (v := t.size) harg
      omega
    have hptrcase : bs = enc c.be c.ptr a → rawW c t = c.arg →
        ∃ p, (Except.ok (dec c.be (m.rd r c.ptr), c.arg) : Except Abn (Nat × Nat)) = .ok (p, rawW c t) ∧
          (p = a ∨ r ≤ p ∧ p + t.size ≤ r + rawW c t ∧ m.rd p t.size = m0.rd a t.size) := by
      intro hb hw
      rw [hb, enc_length] at hm
      refine ⟨dec c.be (m.rd r c.ptr), by rw [hw], .inl ?_⟩
      rw [hm, dec_enc, Nat.mod_eq_of_lt ha]
    rcases Bool.eq_false_or_eq_true c.be with hbe | hbe
    · -- big-endian
      have hn : ∀ n : Nat, 0 < n → n ≤ c.arg → t.size = n → (t.tc ≠ .struct ∧ t.tc ≠ .complex) →
          m.rd (r + c.arg - n) n = m0.rd a n →
          ∃ p, (Except.ok (r + c.arg - n, c.arg) : Except Abn (Nat × Nat)) = .ok (p, rawW c t) ∧
            (p = a ∨ r ≤ p ∧ p + t.size ≤ r + rawW c t ∧ m.rd p t.size = m0.rd a t.size) := by
        intro n h0 h1 h2 h3 h4
        have hw := w1 t ht h3.1 h3.2 (by omega)
        refine ⟨r + c.arg - n, by rw [hw], .inr ⟨by omega, by omega, ?_⟩⟩
        rw [h2, h4]
      cases htc : t.tc <;> simp only [rawPut, htc, Except.ok.injEq, Prod.mk.injEq, hbe] at hf <;>
        simp only [rawGet, htc, hbe, if_true]
      case uint8 | uint16 | uint32 =>
        have hsz := ht.size _ (by rw [htc]; rfl)
        rw [← hf.1, storeU_length] at hm
        have := storeU_read (by omega) hm
        rw [hbe, if_pos rfl] at this
        exact hn _ (by omega) (by omega) hsz (by simp [htc]) this
      case sint8 | sint16 | sint32 =>
        have hsz := ht.size _ (by rw [htc]; rfl)
        rw [← hf.1, storeS_length] at hm
        have := storeS_read (by omega) hm
        rw [hbe, if_pos rfl] at this
        exact hn _ (by omega) (by omega) hsz (by simp [htc]) this
      case struct | complex =>
        rw [hbe] at hptrcase
        exact hptrcase hf.1.symm (by simp [rawW, htc])
      case pointer =>
        have hsz := ht.size _ (by rw [htc]; rfl)
        rw [← hf.1, Mem.rd_length] at hm
        exact hdef _ (by simp [htc]) (w1 t ht (by simp [htc]) (by simp [htc]) (by omega)).symm
          (by rw [hsz]; exact hm)
      all_goals
        rw [← hf.1, Mem.rd_length] at hm
        exact hdef _ (by simp [htc]) hf.2 hm
    · -- little-endian
      have hadv : byAddr t.tc = true ∨ ffiAlign t.size c.ptr / c.ptr * c.arg = roundUp t.size c.arg := by
        rcases hle with h | h | h | h
        · rw [h] at hbe; exact absurd hbe (by decide)
        · right; rw [h]; exact align_div hc.arg ht.small
        · right
          have hp0 : 0 < c.ptr := by have := hc.ptr; omega
          rw [align_small hc.ptr ht.small, roundUp_one hp0 ht.pos h, roundUp_one harg ht.pos (by omega),
            Nat.div_self hp0, Nat.one_mul]
        · exact .inl h
      cases htc : t.tc <;>
        simp only [rawPut, htc, Except.ok.injEq, Prod.mk.injEq, hbe] at hf <;>
        simp only [rawGet, htc, hbe, Bool.false_eq_true, if_false]
      case uint8 | uint16 | uint32 =>
        have hsz := ht.size _ (by rw [htc]; rfl)
        rw [← hf.1, storeU_length] at hm
        have := storeU_read (by omega) hm
        rw [hbe, if_neg (by decide)] at this
        exact hdef _ (by simp [htc]) (by rw [hadv.resolve_left (by simp [htc, byAddr]), ww t ht (by simp [htc]) (by simp [htc])]) (by rw [hsz]; exact this)
      case sint8 | sint16 | sint32 =>
        have hsz := ht.size _ (by rw [htc]; rfl)
        rw [← hf.1, storeS_length] at hm
        have := storeS_read (by omega) hm
        rw [hbe, if_neg (by decide)] at this
        exact hdef _ (by simp [htc]) (by rw [hadv.resolve_left (by simp [htc, byAddr]), ww t ht (by simp [htc]) (by simp [htc])]) (by rw [hsz]; exact this)
      case struct | complex =>
        rw [hbe] at hptrcase
        exact hptrcase hf.1.symm (by simp [rawW, htc])
      case pointer =>
        have hsz := ht.size _ (by rw [htc]; rfl)
        rw [← hf.1, Mem.rd_length] at hm
        exact hdef _ (by simp [htc]) (by rw [hadv.resolve_left (by simp [htc, byAddr]), ww t ht (by simp [htc]) (by simp [htc])])
          (by rw [hsz]; exact hm)
      all_goals
        rw [← hf.1, Mem.rd_length] at hm
        exact hdef _ (by simp [htc]) (by rw [hadv.resolve_left (by simp [htc, byAddr]), ww t ht (by simp [htc]) (by simp [htc])]) hm

/-- One step of the decoder, for any contents of the raw area. -/
theorem raw_get {c : Cfg} (hc : CfgOk c) (m : Mem) (t : FType) (r : Nat) (ht : TypeOk c t) (hs : Steppable c t) :
    ∃ p, rawGet c m t r = .ok (p, rawW c t) ∧ (byAddr t.tc = false → r ≤ p ∧ p + t.size ≤ r + rawW c t) := by
  have harg : 0 < c.arg := by have := hc.arg; omega
  have h4 : 4 ≤ c.arg := by have := hc.arg; omega
  have hptr := hc.le
  have hge := roundUp_ge (v := t.size) harg
  have w1 : t.size ≤ c.arg → roundUp t.size c.arg = c.arg := roundUp_one harg ht.pos
  have hadv : c.be = true ∨ byAddr t.tc = true ∨ ffiAlign t.size c.ptr / c.ptr * c.arg = roundUp t.size c.arg := by
    rcases hs with h | h | h | h
    · exact .inl h
    · right; right; rw [h]; exact align_div hc.arg ht.small
    · right; right
      have hp0 : 0 < c.ptr := by have := hc.ptr; omega
      rw [align_small hc.ptr ht.small, roundUp_one hp0 ht.pos h, w1 (by omega),
        Nat.div_self hp0, Nat.one_mul]
    · exact .inr (.inl h)
  rcases Bool.eq_false_or_eq_true c.be with hbe | hbe
  · have key : ∀ n, scalarSize c t.tc = some n → n ≤ c.arg → t.size = n ∧ roundUp t.size c.arg = c.arg :=
      fun n h1 h2 => ⟨ht.size n h1, w1 (by rw [ht.size n h1]; exact h2)⟩
    cases htc : t.tc <;> simp only [rawGet, rawW, htc, hbe, if_true, byAddr]
    case uint8 | uint16 | uint32 | sint8 | sint16 | sint32 | pointer =>
      obtain ⟨k1, k2⟩ := key _ (by rw [htc]; rfl) (by omega)
      exact ⟨_, by rw [k2], fun _ => by omega⟩
    case struct | complex => exact ⟨_, rfl, by simp⟩
    all_goals exact ⟨_, by rw [align_div hc.arg ht.small], fun _ => by omega⟩
  · have hadv' := hadv.resolve_left (by simp [hbe])
    cases htc : t.tc <;> simp only [rawGet, rawW, htc, hbe, byAddr, Bool.false_eq_true, if_false]
    case struct | complex => exact ⟨_, rfl, by simp⟩
    all_goals
      exact ⟨_, by rw [hadv'.resolve_left (by simp [htc, byAddr])], fun _ => by omega⟩

/-- The size query covers the slots. -/
theorem rawSize_ge {c : Cfg} (hc : CfgOk c) : ∀ ts : List FType, (∀ t ∈ ts, TypeOk c t) →
    sumW (rawW c) ts ≤ rawSize c ts
  | [], _ => Nat.le_refl _
  | t :: ts, h => by
    have ih := rawSize_ge hc ts fun t ht => h t (by simp [ht])
    have ht := h t (by simp)
    have harg : 0 < c.arg := by have := hc.arg; omega
    have hone : c.arg ≤ roundUp t.size c.arg := by
      obtain ⟨d, hd⟩ := dvd_roundUp t.size c.arg
      have h1 := roundUp_ge (v := t.size) harg
      have := ht.pos
      rw [hd] at h1 ⊢
      rcases Nat.eq_zero_or_pos d with rfl | hd0
      · omega
      · exact Nat.le_mul_of_pos_right _ hd0
    have hp : ffiAlign c.ptr c.arg = c.arg := by
      rw [align_small hc.arg (by have := hc.ptr; omega)]
      exact roundUp_one harg (by have := hc.ptr; omega) hc.le
    simp only [sumW, rawSize]
    rw [hp, align_small hc.arg ht.small]
    have : rawW c t ≤ if t.tc = .struct then c.arg else roundUp t.size c.arg := by
      unfold rawW
      cases htc : t.tc <;> simp [hone]
    omega

end Verif.Raw
