import Verif.X64.ClassifyLemmas
import Verif.Base.BufLemmas

namespace Verif.X64
open Verif Spec Spec.X64

/-! ### `examine_argument` -/

def toEB (c : Cls) : EB := if c = .integer ∨ c = .integersi then .int else .sse

/-- Classes of a register argument, eightbyte by eightbyte. -/
structure RegCls (t : FType) (cls : List Cls) : Prop where
  len : cls.length = (t.size + 7) / 8
  size : t.size ≤ 16
  mtch : ∀ i (hi : i < cls.length), Match (leaves t 0) i cls[i] ∧ cls[i] ≠ .no

theorem any_x87_iff {t : FType} (hwf : WF lp64 t) : (leaves t 0).any isX87 = true ↔ t.align = 16 := by
  rw [List.any_eq_true]
  constructor
  · rintro ⟨l, hl, hx⟩
    obtain ⟨a, h1, h2⟩ := hwf.leaves_tab lp64_ok 0 l hl
    simp only [isX87, decide_eq_true_eq] at hx
    rw [hx] at h1
    simp only [lp64, Option.some.injEq, Prod.mk.injEq] at h1
    rcases hwf.align_cases lp64_ok with h | h | h | h | h <;> omega
  · intro h
    obtain ⟨l, hl, h1⟩ := hwf.align_leaf lp64_ok 0
    refine ⟨l, hl, ?_⟩
    rw [h] at h1
    simp only [isX87, decide_eq_true_eq]
    revert h1
    cases l.tc <;> simp [lp64]

theorem countLoop_ok {cls : List Cls} (h : ∀ c ∈ cls, c = .integer ∨ c = .integersi ∨ c = .sse ∨
    c = .ssesf ∨ c = .ssedf) (g s : Nat) :
    countLoop cls g s = .ok (some (g + nInt (cls.map toEB), s + nSse (cls.map toEB))) := by
  induction cls generalizing g s with
  | nil => rfl
  | cons c cs ih =>
    have ih' := ih (fun x hx => h x (by simp [hx]))
    rcases h c (by simp) with rfl | rfl | rfl | rfl | rfl <;>
      simp only [countLoop, ih', List.map_cons, toEB, nInt, nSse] <;>
      simp <;> omega

theorem toEB_eq {t : FType} {i : Nat} {c : Cls} (h : Match (leaves t 0) i c) :
    toEB c = ebClass (leaves t 0) i := by
  unfold toEB ebClass
  by_cases hc : c = .integer ∨ c = .integersi
  · rw [if_pos hc, if_pos (h.int.1 hc)]
  · rw [if_neg hc, if_neg (fun h' => hc (h.int.2 h'))]

theorem RegCls.map_toEB {t : FType} {cls : List Cls} (h : RegCls t cls) :
    cls.map toEB = (List.range ((t.size + 7) / 8)).map (ebClass (leaves t 0)) := by
  apply List.ext_getElem
  · simp [h.len]
  · intro i h1 h2
    simp only [List.length_map] at h1
    simp only [List.getElem_map, List.getElem_range]
    exact toEB_eq (h.mtch i h1).1

theorem RegCls.rng {t : FType} {cls : List Cls} (h : RegCls t cls) :
    ∀ c ∈ cls, c = .integer ∨ c = .integersi ∨ c = .sse ∨ c = .ssesf ∨ c = .ssedf := by
  intro c hc
  obtain ⟨i, hi, rfl⟩ := List.mem_iff_getElem.1 hc
  obtain ⟨h1, h2⟩ := h.mtch i hi
  rcases h1.rng with h | h | h | h | h | h
  · exact absurd h h2
  all_goals simp [h]

/-- `examine_argument` agrees with the psABI classes. -/
theorem examine_spec {t : FType} (hwf : WF lp64 t) (b : Bool) :
    (argClass t = none ∧ examine t false = .ok .mem) ∨
    ∃ cls, RegCls t cls ∧ argClass t = some (cls.map toEB) ∧
      examine t b = .ok (.regs cls (nInt (cls.map toEB)) (nSse (cls.map toEB))) := by
  obtain ⟨cls, hc, hs⟩ := classify_spec hwf 0 (by omega) (Nat.dvd_zero _) (by omega)
  by_cases hm : 16 < t.size ∨ t.align = 16
  · left
    refine ⟨by unfold argClass; rw [if_pos (by rw [any_x87_iff hwf]; exact hm)], ?_⟩
    unfold examine
    rw [hc]
    simp only
    by_cases h16 : 16 < t.size
    · by_cases hst : t.tc = .struct
      · rw [hs.large (by omega) hst]; rfl
      · rw [hs.cx87 hst (by omega)]; rfl
    · rw [hs.x87 (by omega) (by omega)]; rfl
  · right
    have h8 : t.align ≤ 8 := by rcases hwf.align_cases lp64_ok with h | h | h | h | h <;> omega
    obtain ⟨h1, h2⟩ := hs.small h8 (by omega)
    have hr : RegCls t cls := ⟨by simpa using h1, by omega, h2⟩
    refine ⟨cls, hr, ?_, ?_⟩
    · unfold argClass
      rw [if_neg (by rw [any_x87_iff hwf]; exact hm), hr.map_toEB]
    · unfold examine
      rw [hc]
      simp only
      have hne : cls ≠ [] := by
        intro h; rw [h] at h1
        have := hwf.size_pos lp64_ok
        simp at h1; omega
      rw [if_neg hne, countLoop_ok hr.rng]
      simp

/-! ### Writes -/

theorem wr_spec {m : Buf} {off : Nat} {bs : List Byte} (h : off + bs.length ≤ m.size) :
    ∃ m', wr m off bs = .ok m' ∧ m'.size = m.size ∧
      ∀ k, m'.at_ k = if off ≤ k ∧ k < off + bs.length then bs.getD (k - off) 0 else m.at_ k := by
  obtain ⟨b, h1, h2, h3⟩ := Buf.write_spec h
  exact ⟨b, by simp [wr, h1], h2, h3⟩

theorem argRead_ok {a : List Byte} {o n : Nat} (h : o + n ≤ a.length) :
    argRead a o n = .ok ((a.drop o).take n) := by simp [argRead, h]

theorem drop_take_getD {a : List Byte} {o n k : Nat} (hk : k < n) :
    ((a.drop o).take n).getD k 0 = a.getD (o + k) 0 := by
  simp [List.getD_eq_getElem?_getD, hk]

theorem signExtend_toNat {w : Nat} (x : BitVec w) (hw : 0 < w) (hw' : w ≤ 64) :
    (BitVec.signExtend 64 x).toNat = if 2 * x.toNat < 2 ^ w then x.toNat else x.toNat + 2 ^ 64 - 2 ^ w := by
  have hx := x.isLt
  have hpow : 2 ^ w ≤ 2 ^ 64 := Nat.pow_le_pow_right (by decide) hw'
  have hm : x.msb = decide (2 ^ (w - 1) ≤ x.toNat) := BitVec.msb_eq_decide x
  have h2 : 2 ^ w = 2 * 2 ^ (w - 1) := by
    conv => lhs; rw [show w = (w - 1) + 1 by omega, Nat.pow_succ]
    omega
  rw [BitVec.toNat_signExtend, hm, BitVec.toNat_setWidth, Nat.mod_eq_of_lt (by omega)]
  by_cases h : 2 * x.toNat < 2 ^ w
  · rw [if_pos h]
    have : ¬ 2 ^ (w - 1) ≤ x.toNat := by omega
    simp [this]
  · rw [if_neg h]
    have : 2 ^ (w - 1) ≤ x.toNat := by omega
    simp [this]
    omega

theorem sext64_spec {bs : List Byte} (h0 : 0 < bs.length) (h8 : bs.length ≤ 8) :
    sext64 bs = leBytes 8 (if 2 * leNat bs < 256 ^ bs.length then leNat bs
      else leNat bs + 2 ^ 64 - 256 ^ bs.length) := by
  have hp : 256 ^ bs.length = 2 ^ (8 * bs.length) := by rw [Nat.pow_mul]
  have hlt := leNat_lt bs
  unfold sext64
  rw [signExtend_toNat _ (by omega) (by omega), BitVec.toNat_ofNat, Nat.mod_eq_of_lt (by omega), hp]

theorem sext64_take {bs : List Byte} (h0 : 0 < bs.length) (h8 : bs.length ≤ 8) :
    (sext64 bs).take bs.length = bs := by
  rw [sext64_spec h0 h8, leBytes_take _ h8]
  have hlt := leNat_lt bs
  by_cases h : 2 * leNat bs < 256 ^ bs.length
  · rw [if_pos h, leBytes_leNat]
  · rw [if_neg h, ← leBytes_mod]
    have hp : 256 ^ bs.length * 256 ^ (8 - bs.length) = 2 ^ 64 := by
      rw [← Nat.pow_add, Nat.add_sub_cancel' h8]; rfl
    have hq : 0 < 256 ^ (8 - bs.length) := Nat.pow_pos (by decide)
    have : (leNat bs + 2 ^ 64 - 256 ^ bs.length) % 256 ^ bs.length = leNat bs := by
      rw [← hp]
      obtain ⟨c, hc⟩ : ∃ c, 256 ^ (8 - bs.length) = c + 1 := ⟨256 ^ (8 - bs.length) - 1, by omega⟩
      rw [hc, Nat.mul_add, Nat.mul_one, ← Nat.add_assoc, Nat.add_sub_cancel,
        Nat.add_mul_mod_self_left, Nat.mod_eq_of_lt hlt]
    rw [this, leBytes_leNat]

/-- Value stored in a general register for eightbyte `j`. -/
theorem gprValue_spec {t : FType} (hwf : WF lp64 t) {a : List Byte} (ha : a.length = t.size)
    {j : Nat} (hj : 8 * j < t.size) (h64 : t.size < 2 ^ 63) :
    ∃ bs, gprValue t a j = .ok bs ∧ bs.length = 8 ∧
      (∀ q, 8 * j ≤ q → q < 8 * j + 8 → q < t.size → bs.getD (q - 8 * j) 0 = a.getD q 0) ∧
      (t.tc ≠ .struct → t.tc ≠ .complex → t.size ≤ 8 → bs = leBytes 8 (extend64 t.tc a)) := by
  have hsmall : ∀ n, t.size = n → 0 < n → n ≤ 4 → j = 0 →
      ∃ bs, (argRead a (8 * j) n).map sext64 = .ok bs ∧ bs.length = 8 ∧
      (∀ q, 8 * j ≤ q → q < 8 * j + 8 → q < t.size → bs.getD (q - 8 * j) 0 = a.getD q 0) ∧
      bs = sext64 a := by
    intro n hn h0 h4 hj0
    subst hj0
    refine ⟨sext64 a, ?_, by simp [sext64], ?_, rfl⟩
    · rw [argRead_ok (by omega)]
      simp only [Nat.mul_zero, List.drop_zero, Except.map]
      rw [List.take_of_length_le (by omega)]
    · intro q _ _ hq
      have := sext64_take (bs := a) (by omega) (by omega)
      have h2 : ((sext64 a).take a.length).getD q 0 = a.getD q 0 := by rw [this]
      rw [← h2]
      simp [List.getD_eq_getElem?_getD, show q < a.length by omega]
  have hdef : ∃ bs, (argRead a (8 * j) (min 8 (t.size - 8 * j))).map
        (fun bs => bs ++ List.replicate (8 - min 8 (t.size - 8 * j)) 0) = .ok bs ∧ bs.length = 8 ∧
      (∀ q, 8 * j ≤ q → q < 8 * j + 8 → q < t.size → bs.getD (q - 8 * j) 0 = a.getD q 0) ∧
      (t.size ≤ 8 → bs = leBytes 8 (leNat a)) := by
    rw [argRead_ok (by omega)]
    refine ⟨_, rfl, ?_, ?_, ?_⟩
    · simp; omega
    · intro q h1 h2 h3
      rw [List.getD_eq_getElem?_getD, List.getElem?_append_left (by simp; omega),
        ← List.getD_eq_getElem?_getD, drop_take_getD (by omega)]
      congr 1; omega
    · intro h8
      have hj0 : j = 0 := by omega
      subst hj0
      simp only [Nat.mul_zero, List.drop_zero, Nat.sub_zero]
      rw [Nat.min_eq_right h8, List.take_of_length_le (by omega)]
      apply leNat_inj
      · simp; omega
      · rw [leNat_append, leNat_replicate_zero, leNat_leBytes]
        have := leNat_lt a
        have : 256 ^ a.length ≤ 256 ^ 8 := Nat.pow_le_pow_right (by decide) (by omega)
        rw [Nat.mod_eq_of_lt (by omega)]
        simp
  have hsz : (2 ^ 64 + t.size - 8 * j) % 2 ^ 64 = t.size - 8 * j := by omega
  have hn : (if t.size - 8 * j ≤ 8 then t.size - 8 * j else 8) = min 8 (t.size - 8 * j) := by
    split <;> omega
  have hdef' : (∀ h : t.tc ≠ .sint8 ∧ t.tc ≠ .sint16 ∧ t.tc ≠ .sint32,
      gprValue t a j = (argRead a (8 * j) (min 8 (t.size - 8 * j))).map
        (fun bs => bs ++ List.replicate (8 - min 8 (t.size - 8 * j)) 0)) := by
    rintro ⟨h1, h2, h3⟩
    unfold gprValue
    split
    · contradiction
    · contradiction
    · contradiction
    · simp only [hsz, hn]
  have hsc : ∀ n, (t.tc = .sint8 ∧ n = 1) ∨ (t.tc = .sint16 ∧ n = 2) ∨ (t.tc = .sint32 ∧ n = 4) →
      t.size = n := by
    intro n h
    cases hwf with
    | scalar htab =>
      simp only [FType.tc_mk, FType.size_mk] at h ⊢
      rcases h with ⟨rfl, rfl⟩ | ⟨rfl, rfl⟩ | ⟨rfl, rfl⟩ <;> simp [lp64] at htab <;> omega
    | complex => simp at h
    | struct => simp at h
  by_cases hd : t.tc ≠ .sint8 ∧ t.tc ≠ .sint16 ∧ t.tc ≠ .sint32
  · rw [hdef' hd]
    obtain ⟨bs, h1, h2, h3, h4⟩ := hdef
    refine ⟨bs, h1, h2, h3, fun hns hnc hle => ?_⟩
    rw [h4 hle]
    have hfull : t.tc = .sint64 → t.size = 8 := by
      intro htc
      cases hwf with
      | scalar htab => simp only [FType.tc_mk] at htc; subst htc; simp [lp64] at htab; simp; omega
      | complex => simp at htc
      | struct => simp at htc
    unfold extend64
    by_cases h64' : t.tc = .sint64
    · simp only [h64']
      split
      · rfl
      · rw [ha, hfull h64', show 256 ^ 8 = 2 ^ 64 from rfl, Nat.add_sub_cancel]
    · split
      · rename_i h; exact absurd h hd.1
      · rename_i h; exact absurd h hd.2.1
      · rename_i h; exact absurd h hd.2.2
      · rename_i h; exact absurd h h64'
      · rfl
  · have : (t.tc = .sint8) ∨ (t.tc = .sint16) ∨ (t.tc = .sint32) := by tauto
    have fin : ∀ n, t.size = n → 0 < n → n ≤ 4 →
        gprValue t a j = (argRead a (8 * j) n).map sext64 →
        extend64 t.tc a = (if 2 * leNat a < 256 ^ a.length then leNat a
          else leNat a + 2 ^ 64 - 256 ^ a.length) → ∃ bs, gprValue t a j = .ok bs ∧ bs.length = 8 ∧
      (∀ q, 8 * j ≤ q → q < 8 * j + 8 → q < t.size → bs.getD (q - 8 * j) 0 = a.getD q 0) ∧
      (t.tc ≠ .struct → t.tc ≠ .complex → t.size ≤ 8 → bs = leBytes 8 (extend64 t.tc a)) := by
      intro n hs h0 h4 hg hx
      obtain ⟨bs, h1, h2, h3, h4⟩ := hsmall n hs h0 h4 (by omega)
      refine ⟨bs, hg.trans h1, h2, h3, fun _ _ _ => ?_⟩
      rw [h4, sext64_spec (by omega) (by omega), hx]
    rcases this with htc | htc | htc
    · exact fin 1 (hsc 1 (by simp [htc])) (by omega) (by omega) (by simp [gprValue, htc])
        (by simp [extend64, htc])
    · exact fin 2 (hsc 2 (by simp [htc])) (by omega) (by omega) (by simp [gprValue, htc])
        (by simp [extend64, htc])
    · exact fin 4 (hsc 4 (by simp [htc])) (by omega) (by omega) (by simp [gprValue, htc])
        (by simp [extend64, htc])

end Verif.X64
