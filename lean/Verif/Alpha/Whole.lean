import Verif.Alpha.AsmCall
import Verif.Alpha.AsmClosure
import Verif.Alpha.Closure

/-! Results: `ffi_call_osf` stores them, `ffi_closure_osf` loads them. -/
namespace Verif.Alpha.Asm
open Verif Verif.Spec Verif.Spec.Alpha Verif.Alpha

/-- Argument registers, as the convention has them. -/
def mregs (s : M) : Regs := ⟨fun k => if k < 6 then s.r (16 + k) else 0, fun k => s.f (16 + k), s.mem, s.r 30⟩

theorem mregs_int (s : M) {k : Nat} (h : k < 6) : (mregs s).int k = s.r (16 + k) := if_pos h

/-- The function has returned as the convention wants: `t` is the state when it was entered, `u` when it is back.  The return
address is still in $26. -/
structure Conforms (t u : M) : Prop where
  pc : u.pc = t.r 26
  ra : u.r 26 = t.r 26
  sp : u.r 30 = t.r 30
  r : ∀ k, 9 ≤ k → k ≤ 15 → u.r k = t.r k
  f : ∀ k, 2 ≤ k → k ≤ 9 → u.f k = t.f k

/-- Bytes that a result takes at `rvalue`. -/
def resSize (rt : FType) : Nat :=
  match retPlace rt with
  | .void | .mem => 0
  | .int => 8
  | .fp | .cfp => rt.size

/-- The value is at `p`; integers are extended to a word. -/
def Got (rt : FType) (v : List Byte) (m : Mem) (p : Nat) : Prop :=
  match retPlace rt with
  | .void | .mem => True
  | .int => if rt.tc = .complex then m.rd p rt.size = v else (leNat (m.rd p 8) : Int) = intVal rt.tc v % 2 ^ 64
  | .fp | .cfp => m.rd p rt.size = v

/-- Return types, by what the code does with them. -/
theorem rcls {rt : FType} (h : rt.tc = .void ∨ WF lp64 rt) :
    (retPlace rt = .void ∧ retFlags rt = 0) ∨ (retPlace rt = .mem ∧ retFlags rt = 0x10000) ∨
    (retPlace rt = .int ∧ rt.tc ≠ .complex ∧ lp64 rt.tc = some (rt.size, rt.align) ∧ rt.tc ≠ .longdouble ∧
      ∃ l, retFlags rt = flagsOf 1 l ∧ ((rt.size = 8 ∧ l = 1) ∨ (rt.size = 4 ∧ signed rt.tc = true ∧ l = 2) ∨ (rt.size = 2 ∧ signed rt.tc = false ∧ l = 3) ∨
        (rt.size = 2 ∧ signed rt.tc = true ∧ l = 4) ∨ (rt.size = 1 ∧ signed rt.tc = false ∧ l = 5) ∨ (rt.size = 1 ∧ signed rt.tc = true ∧ l = 6))) ∨
    (retPlace rt = .int ∧ rt.tc = .complex ∧ rt.size ≤ 8 ∧ retFlags rt = flagsOf 1 1) ∨
    (retPlace rt = .fp ∧ rt.tc = .float ∧ rt.size = 4 ∧ retFlags rt = flagsOf 2 7) ∨
    (retPlace rt = .fp ∧ rt.tc = .double ∧ rt.size = 8 ∧ retFlags rt = flagsOf 3 8) ∨
    (retPlace rt = .cfp ∧ part rt = .float ∧ rt.size = 8 ∧ retFlags rt = flagsOf 4 9) ∨
    (retPlace rt = .cfp ∧ part rt = .double ∧ rt.size = 16 ∧ retFlags rt = flagsOf 5 10) := by
  rcases h with h | h
  · left; unfold retPlace retFlags; rw [h]; exact ⟨rfl, rfl⟩
  · cases h with
    | @scalar tc s al h =>
      have h0 := h
      cases tc <;> simp [lp64] at h <;> obtain ⟨rfl, rfl⟩ := h
      case float => right; right; right; right; left; exact ⟨rfl, rfl, rfl, rfl⟩
      case double => right; right; right; right; right; left; exact ⟨rfl, rfl, rfl, rfl⟩
      case longdouble => right; left; exact ⟨rfl, rfl⟩
      all_goals
        right; right; left
        refine ⟨rfl, by decide, h0, by decide, _, rfl, by decide⟩
    | @complex tc s al hb h =>
      cases tc <;> simp [lp64] at h <;> obtain ⟨rfl, rfl⟩ := h <;> first | (cases hb; done) | skip
      case float => right; right; right; right; right; right; left; exact ⟨rfl, rfl, rfl, rfl⟩
      case double => right; right; right; right; right; right; right; exact ⟨rfl, rfl, rfl, rfl⟩
      all_goals first
        | (right; left; exact ⟨rfl, rfl⟩)
        | (right; right; right; left; exact ⟨rfl, rfl, by decide, rfl⟩)
    | struct => right; left; exact ⟨rfl, rfl⟩

theorem retFlags_st {rt : FType} (h : rt.tc = .void ∨ WF lp64 rt) : retFlags rt &&& 0xff ≤ 5 ∧ retFlags rt >>> 8 &&& 0xff < 11 := by
  rcases rcls h with ⟨_, e⟩ | ⟨_, e⟩ | ⟨_, _, _, _, l, e, hl⟩ | ⟨_, _, _, e⟩ | ⟨_, _, _, e⟩ | ⟨_, _, _, e⟩ | ⟨_, _, _, e⟩ | ⟨_, _, _, e⟩ <;> rw [e]
  case inr.inr.inl => rcases hl with ⟨_, rfl⟩ | ⟨_, _, rfl⟩ | ⟨_, _, rfl⟩ | ⟨_, _, rfl⟩ | ⟨_, _, rfl⟩ | ⟨_, _, rfl⟩ <;> decide
  all_goals decide

theorem sts4 {v : List Byte} (h : v.length = 4) : leBytes 4 (sts (lds (leNat v))) = v := by
  have := leNat_lt v
  rw [h] at this
  rw [sts_lds this, ← h, leBytes_leNat]

theorem half {v : List Byte} {n k : Nat} (h : v.length = n) (hk : n / 2 = k) (he : n = 2 * k) : (v.take (n / 2)).length = k ∧ (v.drop (n / 2)).length = k ∧
    v.take (n / 2) ++ v.drop (n / 2) = v := by
  rw [List.length_take, List.length_drop, List.take_append_drop]
  exact ⟨by omega, by omega, rfl⟩

theorem stored_ok {rt : FType} (h : rt.tc = .void ∨ WF lp64 rt) {u : M} (p : Nat) :
    (∀ x, x < p ∨ p + resSize rt ≤ x → stored (retFlags rt &&& 0xff) p u x = u.mem x) ∧
    ∀ val, Returned rt val (u.r 0) (u.f 0) (u.f 1) → u.r 0 < 2 ^ 64 → Got rt val (stored (retFlags rt &&& 0xff) p u) p := by
  rcases rcls h with ⟨a, e⟩ | ⟨a, e⟩ | ⟨a, a1, a2, a3, l, e, hl⟩ | ⟨a, a1, a2, e⟩ | ⟨a, a1, a2, e⟩ | ⟨a, a1, a2, e⟩ | ⟨a, a1, a2, e⟩ | ⟨a, a1, a2, e⟩ <;>
    unfold resSize Got <;> rw [e, a]
  · exact ⟨fun _ _ => rfl, fun _ _ _ => trivial⟩
  · exact ⟨fun _ _ => rfl, fun _ _ _ => trivial⟩
  · have e1 : flagsOf 1 l &&& 0xff = 1 := by rcases hl with ⟨_, rfl⟩ | ⟨_, _, rfl⟩ | ⟨_, _, rfl⟩ | ⟨_, _, rfl⟩ | ⟨_, _, rfl⟩ | ⟨_, _, rfl⟩ <;> rfl
    rw [e1]
    refine ⟨fun x hx => Mem.wr_out _ _ _ _ (by rw [leBytes_length]; dsimp only at hx; omega), fun val hr hlt => ?_⟩
    have := hr.2.1 a
    rw [if_neg a1] at this
    show if rt.tc = .complex then _ else _
    rw [if_neg a1]
    show ((leNat ((u.mem.wr p (leBytes 8 (u.r 0))).rd p 8) : Nat) : Int) = _
    rw [wr_rd _ _ (leBytes_length _ _), leNat8 hlt, this]
  · refine ⟨fun x hx => Mem.wr_out _ _ _ _ (by rw [leBytes_length]; dsimp only at hx; omega), fun val hr _ => ?_⟩
    have := hr.2.1 a
    rw [if_pos a1] at this
    show if rt.tc = .complex then _ else _
    rw [if_pos a1, ← this]
    show (u.mem.wr p (leBytes 8 (u.r 0))).rd p rt.size = _
    have e2 := wr_rd u.mem p (leBytes_length 8 (u.r 0))
    rw [← e2, Mem.rd_take _ _ a2, e2]
  · refine ⟨fun x hx => Mem.wr_out _ _ _ _ (by rw [leBytes_length]; dsimp only at hx; omega), fun val hr _ => ?_⟩
    have := hr.2.2.1 a
    unfold fpReg at this
    rw [if_pos a1] at this
    show (u.mem.wr p (leBytes 4 (sts (u.f 0)))).rd p rt.size = val
    rw [this, sts4 (hr.1.trans a2), a2, wr_rd _ _ (hr.1.trans a2)]
  · refine ⟨fun x hx => Mem.wr_out _ _ _ _ (by rw [leBytes_length]; dsimp only at hx; omega), fun val hr _ => ?_⟩
    have := hr.2.2.1 a
    unfold fpReg at this
    rw [if_neg (by rw [a1]; decide)] at this
    show (u.mem.wr p (leBytes 8 (u.f 0))).rd p rt.size = val
    have hl := hr.1.trans a2
    rw [this, show leBytes 8 (leNat val) = val by rw [← hl, leBytes_leNat], a2, wr_rd _ _ hl]
  · refine ⟨fun x hx => ?_, fun val hr _ => ?_⟩
    · show ((u.mem.wr p (leBytes 4 (sts (u.f 0)))).wr (p + 4) (leBytes 4 (sts (u.f 1)))) x = _
      dsimp only at hx
      rw [Mem.wr_out _ _ _ _ (by rw [leBytes_length]; omega), Mem.wr_out _ _ _ _ (by rw [leBytes_length]; omega)]
    · obtain ⟨h1, h2⟩ := hr.2.2.2 a
      obtain ⟨l1, l2, l3⟩ := half (k := 4) hr.1 (by omega) (by omega)
      unfold fpReg at h1 h2
      rw [if_pos a1] at h1 h2
      show ((u.mem.wr p (leBytes 4 (sts (u.f 0)))).wr (p + 4) (leBytes 4 (sts (u.f 1)))).rd p rt.size = val
      rw [h1, h2, sts4 l1, sts4 l2, a2, wr_append _ _ 4 4 _ (by rw [← a2]; exact l2), ← a2, wr_rd _ _ l1, l3]
  · refine ⟨fun x hx => ?_, fun val hr _ => ?_⟩
    · show ((u.mem.wr p (leBytes 8 (u.f 0))).wr (p + 8) (leBytes 8 (u.f 1))) x = _
      dsimp only at hx
      rw [Mem.wr_out _ _ _ _ (by rw [leBytes_length]; omega), Mem.wr_out _ _ _ _ (by rw [leBytes_length]; omega)]
    · obtain ⟨h1, h2⟩ := hr.2.2.2 a
      obtain ⟨l1, l2, l3⟩ := half (k := 8) hr.1 (by omega) (by omega)
      unfold fpReg at h1 h2
      rw [if_neg (by rw [a1]; decide)] at h1 h2
      have f8 : ∀ {w : List Byte}, w.length = 8 → leBytes 8 (leNat w) = w := fun hw => by rw [← hw, leBytes_leNat]
      show ((u.mem.wr p (leBytes 8 (u.f 0))).wr (p + 8) (leBytes 8 (u.f 1))).rd p rt.size = val
      rw [h1, h2, f8 l1, f8 l2, a2, wr_append _ _ 8 8 _ (by rw [← a2]; exact l2), ← a2, wr_rd _ _ l1, l3]

theorem ldf_keep {code b k : Nat} {m : Mem} {f : Nat → Nat} (hk : 2 ≤ k) : ldf code b k m f = f k := by
  obtain ⟨j, rfl⟩ : ∃ j, k = j + 2 := ⟨k - 2, by omega⟩
  rcases code with _ | _ | _ | _ | _ | _ | _ | _ | _ | _ | _ | code <;> rfl

theorem ld0_lt (code b : Nat) (m : Mem) : ld0 code b m < 2 ^ 64 := by
  have h8 := rd_lt8 m (b + 16)
  unfold ld0
  generalize leNat (m.rd (b + 16) 8) = x at *
  have s4 : sext 4 (x % 2 ^ 32) < 2 ^ 64 := (sext_ok (n := 4) (by decide) (Nat.mod_lt x (by decide))).1
  have s2 : sext 2 (x % 2 ^ 16) < 2 ^ 64 := (sext_ok (n := 2) (by decide) (Nat.mod_lt x (by decide))).1
  have s1 : sext 1 (x % 2 ^ 8) < 2 ^ 64 := (sext_ok (n := 1) (by decide) (Nat.mod_lt x (by decide))).1
  have m2 := Nat.lt_of_le_of_lt (Nat.mod_le x (2 ^ 16)) h8
  have m1 := Nat.lt_of_le_of_lt (Nat.mod_le x (2 ^ 8)) h8
  dsimp only
  split
  · exact s4
  · exact m2
  · exact s2
  · exact m1
  · exact s1
  · exact h8

/-- The handler's result is returned. -/
theorem loaded_ok {rt : FType} (h : rt.tc = .void ∨ WF lp64 rt) {m : Mem} {b : Nat} (f : Nat → Nat) {val : List Byte} (hl : val.length = rt.size)
    (hv : retPlace rt ≠ .mem → m.rd (b + 16) rt.size = val) :
    Returned rt val (ld0 (retFlags rt >>> 8 &&& 0xff) b m) (ldf (retFlags rt >>> 8 &&& 0xff) b 0 m f) (ldf (retFlags rt >>> 8 &&& 0xff) b 1 m f) := by
  have low : ∀ n, n ≤ 8 → leNat (m.rd (b + 16) 8) % 256 ^ n = leNat (m.rd (b + 16) n) := by
    intro n hn
    rw [← Mem.rd_take _ _ hn, ← leNat_leBytes n, ← leBytes_take _ hn, leBytes_rd8]
  have low4 : leNat (m.rd (b + 16) 8) % 2 ^ 32 = leNat (m.rd (b + 16) 4) := low 4 (by decide)
  have low2 : leNat (m.rd (b + 16) 8) % 2 ^ 16 = leNat (m.rd (b + 16) 2) := low 2 (by decide)
  have low1 : leNat (m.rd (b + 16) 8) % 2 ^ 8 = leNat (m.rd (b + 16) 1) := low 1 (by decide)
  have vlt := leNat_lt val
  refine ⟨hl, ?_, ?_, ?_⟩
  all_goals
    intro hp
    have hv := hv (by rw [hp]; decide)
    rcases rcls h with ⟨a, e⟩ | ⟨a, e⟩ | ⟨a, a1, a2, a3, l, e, hc⟩ | ⟨a, a1, a2, e⟩ | ⟨a, a1, a2, e⟩ | ⟨a, a1, a2, e⟩ | ⟨a, a1, a2, e⟩ | ⟨a, a1, a2, e⟩ <;>
      first | (rw [a] at hp; cases hp; done) | rw [e]
  · rw [if_neg a1]
    rw [hl] at vlt
    rcases hc with ⟨hs, rfl⟩ | ⟨hs, sg, rfl⟩ | ⟨hs, sg, rfl⟩ | ⟨hs, sg, rfl⟩ | ⟨hs, sg, rfl⟩ | ⟨hs, sg, rfl⟩ <;> rw [hs] at hv hl vlt
    · have el : ld0 (flagsOf 1 1 >>> 8 &&& 0xff) b m = leNat (m.rd (b + 16) 8) := rfl
      rw [el, hv]
      unfold intVal
      rw [hl]
      split <;> omega
    · have el : ld0 (flagsOf 1 2 >>> 8 &&& 0xff) b m = sext 4 (leNat (m.rd (b + 16) 8) % 2 ^ 32) := rfl
      rw [el, low4, hv, (sext_ok (by omega) vlt).2]
      unfold intVal
      rw [hl, sg]; simp
    · have el : ld0 (flagsOf 1 3 >>> 8 &&& 0xff) b m = leNat (m.rd (b + 16) 8) % 2 ^ 16 := rfl
      rw [el, low2, hv]
      unfold intVal
      rw [sg, if_neg (by simp)]
      omega
    · have el : ld0 (flagsOf 1 4 >>> 8 &&& 0xff) b m = sext 2 (leNat (m.rd (b + 16) 8) % 2 ^ 16) := rfl
      rw [el, low2, hv, (sext_ok (by omega) vlt).2]
      unfold intVal
      rw [hl, sg]; simp
    · have el : ld0 (flagsOf 1 5 >>> 8 &&& 0xff) b m = leNat (m.rd (b + 16) 8) % 2 ^ 8 := rfl
      rw [el, low1, hv]
      unfold intVal
      rw [sg, if_neg (by simp)]
      omega
    · have el : ld0 (flagsOf 1 6 >>> 8 &&& 0xff) b m = sext 1 (leNat (m.rd (b + 16) 8) % 2 ^ 8) := rfl
      rw [el, low1, hv, (sext_ok (by omega) vlt).2]
      unfold intVal
      rw [hl, sg]; simp
  · rw [if_pos a1, ← hv]
    show (leBytes 8 (leNat (m.rd (b + 16) 8))).take rt.size = _
    rw [leBytes_rd8, Mem.rd_take _ _ a2]
  · unfold fpReg; rw [if_pos a1, ← hv, a2]; rfl
  · unfold fpReg; rw [if_neg (by rw [a1]; decide), ← hv, a2]; rfl
  · unfold fpReg; rw [if_pos a1, if_pos a1, ← hv, a2]
    have := rd_part m (b + 16) 4
    rw [this.1, this.2]; exact ⟨rfl, rfl⟩
  · unfold fpReg; rw [if_neg (by rw [a1]; decide), if_neg (by rw [a1]; decide), ← hv, a2]
    have := rd_part m (b + 16) 8
    rw [this.1, this.2]; exact ⟨rfl, rfl⟩

end Verif.Alpha.Asm
