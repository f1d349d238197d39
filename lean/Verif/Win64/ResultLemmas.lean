import Verif.Win64.ClosureLemmas
import Verif.X64.CallLemmas

namespace Verif.Win64
open Verif Spec.Win64

/-- The GNU variant as a Boolean of the specification. -/
def Abi.gnu : Abi → Bool
  | .win64 => false
  | .gnuw64 => true

theorem retFlag_struct {abi : Abi} {rt : FType} : retFlag abi rt = .tc .struct ↔ retPlace abi.gnu rt = .mem := by
  unfold retFlag retPlace structFlag
  cases h : rt.tc <;> cases abi <;> simp [Abi.gnu, ByValue] <;> split_ifs <;> simp_all

/-- Width and contents of what the store table writes. -/
theorem storeRet_spec {abi : Abi} {rt : FType} (hs : SizeOk rt) {R : RetRegs} (h1 : R.rax.length = 8)
    (h2 : R.xmm0.length = 8) {v : List Byte} (hv : ReturnedIn abi.gnu R.rax R.xmm0 rt v)
    (hp : retPlace abi.gnu rt = .rax ∨ retPlace abi.gnu rt = .xmm0) (a : Nat) (m : Mem) :
    storeRet (retFlag abi rt) R a m = .ok (m.wr a (resultObj rt.tc v)) := by
  obtain ⟨hl, hr, hx⟩ := hv
  have e8 : ∀ bs : List Byte, bs.length = 8 → leBytes 8 (leNat bs) = bs := by
    intro bs h; rw [← h]; exact leBytes_leNat bs
  have e8s : ∀ bs : List Byte, bs.length = 8 →
      leBytes 8 (if 2 * leNat bs < 256 ^ bs.length then leNat bs else leNat bs + 2 ^ 64 - 256 ^ bs.length) = bs := by
    intro bs h
    rw [h]
    split_ifs
    · exact e8 bs h
    · rw [show (2:Nat) ^ 64 = 256 ^ 8 from by norm_num, Nat.add_sub_cancel]; exact e8 bs h
  cases htc : rt.tc <;> simp only [retPlace, htc] at hp hr hx
  case void => simp at hp
  case longdouble => cases abi <;> simp [Abi.gnu] at hp
  case struct =>
    by_cases hb : ByValue rt.size
    · simp only [hb, if_true, forall_const] at hr
      rcases hb with h | h | h | h <;> rw [h] at hr <;>
        simp [retFlag, htc, structFlag, h, storeRet, resultObj, isIntTC, hr]
    · simp [hb] at hp
  case complex =>
    by_cases hb : ByValue rt.size
    · simp only [hb, if_true, forall_const] at hr
      rcases hb with h | h | h | h <;> rw [h] at hr <;>
        simp [retFlag, htc, structFlag, h, storeRet, resultObj, isIntTC, hr]
    · simp [hb] at hp
  case float =>
    have hsz := hs 4 (by rw [htc]; rfl)
    rw [hsz] at hx
    simp [retFlag, htc, storeRet, resultObj, isIntTC, hx]
  case double =>
    have hsz := hs 8 (by rw [htc]; rfl)
    rw [hsz] at hx
    simp [retFlag, htc, storeRet, resultObj, isIntTC, hx]
  case uint64 | pointer =>
    have hsz := hs 8 (by rw [htc]; rfl)
    rw [hsz] at hr hl
    simp only [retFlag, htc, storeRet, resultObj, isIntTC, if_true, extend64]
    rw [e8 v hl, hr trivial]
  case sint64 =>
    have hsz := hs 8 (by rw [htc]; rfl)
    rw [hsz] at hr hl
    simp only [retFlag, htc, storeRet, resultObj, isIntTC, if_true, extend64]
    rw [e8s v hl, hr trivial]
  case uint8 | uint16 | uint32 =>
    have hsz := hs _ (by rw [htc]; rfl)
    rw [hsz] at hr hl
    simp only [retFlag, htc, storeRet, resultObj, isIntTC, if_true, extend64]
    rw [hr trivial]
  case int | sint8 | sint16 | sint32 =>
    have hsz := hs _ (by rw [htc]; rfl)
    rw [hsz] at hr hl
    simp only [retFlag, htc, storeRet, resultObj, isIntTC, if_true, extend64]
    rw [hr trivial, X64.sext64_spec (by omega) (by omega)]

theorem resultObj_take {t : FType} (hs : SizeOk t) {v : List Byte} (hl : v.length = t.size) :
    (resultObj t.tc v).take t.size = v := by
  unfold resultObj
  split_ifs with h
  · have : 0 < t.size ∧ t.size ≤ 8 := by
      cases htc : t.tc <;> simp only [isIntTC, htc, Bool.false_eq_true] at h <;>
        · have := hs _ (by rw [htc]; rfl)
          omega
    rw [leBytes_take _ this.2]
    have e : extend64 t.tc v % 256 ^ v.length = leNat v := by
      have hlt := leNat_lt v
      have key : (if 2 * leNat v < 256 ^ v.length then leNat v else leNat v + 2 ^ 64 - 256 ^ v.length) % 256 ^ v.length = leNat v := by
        split_ifs
        · exact Nat.mod_eq_of_lt hlt
        · have h64 : (2:Nat) ^ 64 = 256 ^ v.length * 256 ^ (8 - v.length) := by
            rw [← Nat.pow_add, show v.length + (8 - v.length) = 8 by omega]
            norm_num
          have h1 : 1 ≤ 256 ^ (8 - v.length) := Nat.one_le_pow _ _ (by decide)
          obtain ⟨c, hc⟩ := Nat.exists_eq_add_of_le h1
          rw [h64, hc, Nat.mul_add, Nat.mul_one,
            show leNat v + (256 ^ v.length + 256 ^ v.length * c) - 256 ^ v.length
              = leNat v + 256 ^ v.length * c by omega, Nat.add_mul_mod_self_left]
          exact Nat.mod_eq_of_lt hlt
      unfold extend64
      split
      all_goals first | exact key | exact Nat.mod_eq_of_lt hlt
    rw [← hl, ← leBytes_mod, e]
    exact leBytes_leNat v
  · rw [← hl, List.take_length]

end Verif.Win64
