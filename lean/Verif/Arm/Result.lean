import Verif.Arm.Call

/-! Results of calls. -/
namespace Verif.Arm
open Verif Spec
open Verif.Spec.A32 (RPlace retPlace cat Regs Returned)
open Verif.Spec.X86 (word signed intVal WidenedTo resultRoom)

theorem num_small (fl : Flag) : fl.num < 256 ^ 4 ∧ Flag.ofNum fl.num = some fl := by
  cases fl <;> exact ⟨by decide, rfl⟩

/-- The result area may hold the bytes that are stored: complex types of two bytes do
not. -/
def Holds (rt : FType) : Prop := rt.tc = .complex → 4 ≤ rt.size

theorem word_size {t : FType} (h : WF A32.tab t) (hw : word t.tc = true) : t.size ≤ 4 ∧ 0 < t.size := by
  rcases tc_cases h with h1 | h1 | h1 | h1 | h1
  · exact ⟨h1.2, h.size_pos tab_ok⟩
  · rw [h1.1] at hw; cases hw
  · rcases h1.1 with h1 | h1 | h1 <;> rw [h1] at hw <;> cases hw
  · rw [h1] at hw; cases hw
  · rw [h1] at hw; cases hw

theorem cat2 (f : Nat → List Byte) : cat f 0 2 = f 0 ++ f 1 := by simp [cat]

theorem cat_length {f : Nat → List Byte} (h : ∀ i, (f i).length = 4) (k : Nat) : ∀ n, (cat f k n).length = 4 * n
  | 0 => rfl
  | n + 1 => by rw [cat, List.length_append, cat_length h k n, h]; omega

/-- What is stored at the address of the result. -/
theorem finishAsm_spec {hard : Bool} {rt : FType} {fl : Flag} {frame p : Nat} {m : Mem} {r s : Nat → List Byte} {v : List Byte}
    (hr : Res rt) (hf : FlagOk hard rt fl) (hp : p < 2 ^ 32) (h1 : m.rd (frame + 8) 4 = leBytes 4 p)
    (h2 : m.rd (frame + 12) 4 = leBytes 4 fl.num) (lr : ∀ i, (r i).length = 4) (ls : ∀ i, (s i).length = 4)
    (hv : retPlace hard rt ≠ .mem → Returned hard rt v r s) :
    ∃ m', finishAsm frame r s m = some m' ∧
      (rt.tc ≠ .void → retPlace hard rt ≠ .mem → m'.rd p rt.size = v ∧ WidenedTo rt v (m'.rd p 4)) ∧
      ∀ x, (x < p ∨ p + (match fl with | .vfpS | .int => 4 | .vfpD | .int64 => 8 | .vfpN => 32 | _ => 0) ≤ x) → m' x = m x := by
  have e1 : leNat (m.rd (frame + 8) 4) = p := by rw [h1, leNat_leBytes]; exact Nat.mod_eq_of_lt hp
  have e2 : Flag.ofNum (leNat (m.rd (frame + 12) 4)) = some fl := by
    rw [h2, leNat_leBytes, Nat.mod_eq_of_lt (num_small fl).1]; exact (num_small fl).2
  unfold finishAsm
  rw [e1, e2]
  simp only [Option.map_some]
  -- a block of registers that begins with the value
  have block : ∀ (bs : List Byte), rt.size ≤ bs.length → bs.take rt.size = v →
      (word rt.tc = true → WidenedTo rt v bs ∧ 4 ≤ bs.length) →
      (m.wr p bs).rd p rt.size = v ∧ WidenedTo rt v ((m.wr p bs).rd p 4) := by
    intro bs hl ht hw
    refine ⟨by rw [Mem.rd_wr_prefix _ _ _ hl, ht], fun hwd => ?_⟩
    obtain ⟨g1, g2⟩ := hw hwd
    rw [Mem.rd_wr_prefix _ _ _ g2, List.take_take, Nat.min_self]
    exact g1 hwd
  have mono : ∀ (q : Nat) (bs : List Byte) (n : Nat), p ≤ q → q + bs.length ≤ p + n → ∀ (m0 : Mem) x, x < p ∨ p + n ≤ x → (m0.wr q bs) x = m0 x := by
    intro q bs n a1 a2 m0 x hx
    exact Mem.wr_out _ _ _ _ (by omega)
  cases fl with
  | void =>
    refine ⟨m, rfl, fun hn _ => absurd hf.1 hn, fun x _ => rfl⟩
  | struct =>
    refine ⟨m, rfl, fun _ hn => absurd hf.1 hn, fun x _ => rfl⟩
  | int =>
    obtain ⟨g1, g2, g3⟩ := hf
    have hv := hv (by rw [g2]; decide)
    refine ⟨_, rfl, fun _ _ => ?_, mono _ _ _ (Nat.le_refl _) (by rw [lr]) m⟩
    obtain ⟨v1, v2, -⟩ := hv
    obtain ⟨v2, v3⟩ := v2 g2
    refine block _ (by rw [lr]; exact g3) ?_ (fun _ => ⟨v3, by rw [lr]⟩)
    rw [← v2, cat2, List.take_append_of_le_length (by rw [lr]; exact g3)]
  | int64 =>
    obtain ⟨g1, g2, g3, g4⟩ := hf
    have hv := hv (by rw [g3]; decide)
    have hj : (m.wr (p + 4) (r 1)).wr p (r 0) = m.wr p (cat r 0 2) := by
      funext x
      by_cases hx : p ≤ x ∧ x < p + 8
      · obtain ⟨i, rfl⟩ : ∃ i, x = p + i := ⟨x - p, by omega⟩
        rw [Mem.wr_in m p (cat r 0 2) i (by rw [cat_length lr]; omega), cat2]
        by_cases hi : i < 4
        · rw [Mem.wr_in _ p (r 0) i (by rw [lr]; omega), List.getD_eq_getElem?_getD, List.getD_eq_getElem?_getD,
            List.getElem?_append_left (by rw [lr]; omega)]
        · rw [Mem.wr_out _ _ _ _ (by rw [lr]; omega)]
          have := Mem.wr_in m (p + 4) (r 1) (i - 4) (by rw [lr]; omega)
          rw [show p + 4 + (i - 4) = p + i by omega] at this
          rw [this, List.getD_eq_getElem?_getD, List.getD_eq_getElem?_getD, List.getElem?_append_right (by rw [lr]; omega), lr]
      · rw [Mem.wr_out _ _ _ _ (by rw [lr]; omega), Mem.wr_out _ _ _ _ (by rw [lr]; omega),
          Mem.wr_out _ _ _ _ (by rw [cat_length lr]; omega)]
    refine ⟨_, rfl, fun _ _ => ?_, ?_⟩
    · rw [hj]
      exact block _ (by rw [cat_length lr]; omega) (hv.2.1 g3).1 (fun h => by rw [g2] at h; cases h)
    · rw [hj]
      exact mono _ _ _ (Nat.le_refl _) (by rw [cat_length lr])  m
  | vfpS =>
    obtain ⟨g1, g2, g3, g4⟩ := hf
    have hv := hv (by rw [g3]; decide)
    refine ⟨_, rfl, fun _ _ => ?_, mono _ _ _ (Nat.le_refl _) (by rw [ls]) m⟩
    refine block _ (by rw [ls]; omega) ?_ (fun h => by rw [g2] at h; cases h)
    rw [← hv.2.2 g3, show (16 : Nat) = 1 + 15 by rfl, cat_add, List.take_append_of_le_length (by rw [cat_length ls]; omega)]
    simp [cat]
  | vfpD =>
    obtain ⟨g1, g2, g3, g4⟩ := hf
    have hv := hv (by rw [g3]; decide)
    refine ⟨_, rfl, fun _ _ => ?_, mono _ _ _ (Nat.le_refl _) (by rw [cat_length ls]) m⟩
    refine block _ (by rw [cat_length ls]; omega) ?_ (fun h => by rw [g2] at h; cases h)
    rw [← hv.2.2 g3, show (16 : Nat) = 2 + 14 by rfl, cat_add, List.take_append_of_le_length (by rw [cat_length ls]; omega)]
  | vfpN =>
    obtain ⟨g1, g2, g3, g4⟩ := hf
    have hv := hv (by rw [g3]; decide)
    refine ⟨_, rfl, fun _ _ => ?_, mono _ _ _ (Nat.le_refl _) (by rw [cat_length ls]) m⟩
    refine block _ (by rw [cat_length ls]; omega) ?_ (fun h => by rw [g2] at h; cases h)
    rw [← hv.2.2 g3, show (16 : Nat) = 8 + 8 by rfl, cat_add, List.take_append_of_le_length (by rw [cat_length ls]; omega)]

/-- The result of a call with a place for it. -/
theorem finish_some {hard : Bool} {rt : FType} {c : Cif} {ats : List FType} {I : CallIn} {O : CallOut} {m : Mem}
    {r s : Nat → List Byte} {v : List Byte} {p : Nat} (hr : Res rt) (hp : Prepared hard rt ats c) (hE : Entered c rt I O)
    (hsp : I.sp < 2 ^ 32) (hrv : I.rvalue = some p) (hp32 : p < 2 ^ 32)
    (hm : ∀ x, O.frame + 8 ≤ x → x < O.frame + 16 → m x = O.entry.mem x) (lr : ∀ i, (r i).length = 4)
    (ls : ∀ i, (s i).length = 4) (hv : retPlace hard rt ≠ .mem → Returned hard rt v r s) :
    ∃ m', finishCall rt I.rvalue O.rvalue O.frame r s m = some m' ∧
      (rt.tc ≠ .void → retPlace hard rt ≠ .mem → m'.rd p rt.size = v ∧ WidenedTo rt v (m'.rd p 4)) ∧
      (Holds rt → ∀ x, (x < p ∨ p + (if retPlace hard rt = .mem then 0 else resultRoom rt) ≤ x) →
        (x < O.frame + 20 ∨ O.frame + 20 + rsize c.flag rt I.rvalue ≤ x) → m' x = m x) := by
  have hrvO := hE.rvalue
  have hrs : rsize c.flag rt I.rvalue = if c.flag = .vfpN then 32 else if c.flag = .int ∧ rt.tc = .struct then 4 else 0 := by
    rw [hrv]; rfl
  have hcf : callFlag c.flag I.rvalue = c.flag := by rw [hrv]; rfl
  have hO32 : O.rvalue < 2 ^ 32 := by
    rw [hrvO, hrv]
    have := hE.hi
    split
    · omega
    · exact hp32
  have rdm : ∀ a, O.frame + 8 ≤ a → a + 4 ≤ O.frame + 16 → m.rd a 4 = O.entry.mem.rd a 4 :=
    fun a h1 h2 => Mem.rd_congr fun i hi => hm _ (by omega) (by omega)
  obtain ⟨m1, q1, q2, q3⟩ := finishAsm_spec (p := O.rvalue) (frame := O.frame) (m := m) hr hp.flag hO32 (by rw [rdm _ (by omega) (by omega), hE.rvp])
    (by rw [rdm _ (by omega) (by omega), hE.flag, hcf]) lr ls hv
  unfold finishCall
  rw [q1, hrv]
  simp only [Option.map_some]
  have hst : ∀ hn : rt.tc ≠ .void, retPlace hard rt ≠ .mem → word rt.tc = true → rsize c.flag rt I.rvalue = 0 := by
    intro hn hm hw
    rw [hrs]
    have h1 : c.flag ≠ .vfpN := by
      intro h
      have := hp.flag
      rw [h] at this
      rw [this.2.1] at hw
      cases hw
    have h2 : rt.tc ≠ .struct := by intro h; rw [h] at hw; cases hw
    rw [if_neg h1, if_neg (fun h => h2 h.2)]
  by_cases hz : rsize c.flag rt I.rvalue = 0
  · -- stored directly
    have hpe : O.rvalue = p := by rw [hrvO, if_neg (by omega), hrv]; rfl
    rw [hpe] at q2 q3 ⊢
    refine ⟨m1, by simp, q2, fun hh x hx _ => q3 x ?_⟩
    rw [hrs] at hz
    have hflag := hp.flag
    by_cases hmem : retPlace hard rt = .mem
    · rw [(flag_struct hflag).2 hmem]
      rw [if_pos hmem] at hx
      exact hx
    · rw [if_neg hmem] at hx
      unfold resultRoom at hx
      cases hfl : c.flag <;> rw [hfl] at hflag hz <;> simp only [FlagOk] at hflag <;> dsimp only
      case vfpN => simp at hz
      case void => omega
      case struct => omega
      case vfpS => rw [if_neg hflag.1, hflag.2.1] at hx; simpa [hflag.2.2.2] using hx
      case vfpD => rw [if_neg hflag.1, hflag.2.1] at hx; simpa [hflag.2.2.2] using hx
      case int64 => rw [if_neg hflag.1, hflag.2.1] at hx; simpa [hflag.2.2.2] using hx
      case int =>
        have h4 : (if word rt.tc = true then 4 else rt.size) = 4 := by
          by_cases hw : word rt.tc = true
          · rw [if_pos hw]
          · rw [if_neg hw]
            have hnv : rt.tc ≠ .void := hflag.1
            have hwf := hr.resolve_left hnv
            have hns : rt.tc ≠ .struct := by intro h; simp [h] at hz
            have := hflag.2.2
            rcases tc_cases hwf with h1 | h1 | h1 | h1 | h1
            · exact absurd h1.1 hw
            · exact h1.2
            · omega
            · exact absurd h1 hns
            · have := hh h1; omega
        rw [if_neg hflag.1, h4] at hx
        exact hx
  · -- copied from the temporary
    have hOe : O.rvalue = O.frame + 20 := by rw [hrvO, if_pos hz]
    have hsz : rt.size ≤ rsize c.flag rt I.rvalue ∧ rt.tc ≠ .void ∧ retPlace hard rt ≠ .mem ∧ word rt.tc = false ∧
        (match c.flag with | .vfpS | .int => 4 | .vfpD | .int64 => 8 | .vfpN => 32 | _ => 0) = rsize c.flag rt I.rvalue := by
      have hflag := hp.flag
      rw [hrs] at hz ⊢
      cases hfl : c.flag <;> rw [hfl] at hflag hz <;> simp only [FlagOk] at hflag <;> simp at hz ⊢
      case int => simp [hz, hflag, word]
      case vfpN => simp [hflag]
    obtain ⟨z1, z2, z3, z4, z5⟩ := hsz
    obtain ⟨q2, -⟩ := q2 z2 z3
    rw [z5] at q3
    by_cases hpe : p = O.rvalue
    · refine ⟨m1, by rw [if_neg (fun h => h hpe)], fun _ _ => ⟨by rw [hpe]; exact q2, fun h => by rw [z4] at h; cases h⟩, fun _ x _ hx2 => ?_⟩
      exact q3 x (by rw [hOe, hrv]; exact hx2)
    · refine ⟨_, by rw [if_pos hpe], fun _ _ => ⟨?_, fun h => by rw [z4] at h; cases h⟩, fun _ x hx1 hx2 => ?_⟩
      · have := Mem.rd_wr_same m1 p (m1.rd O.rvalue rt.size)
        rw [Mem.rd_length] at this
        rw [this, q2]
      · rw [if_neg z3] at hx1
        unfold resultRoom at hx1
        rw [if_neg z2, z4] at hx1
        rw [Mem.wr_out _ _ _ _ (by rw [Mem.rd_length]; simpa using hx1)]
        exact q3 x (by rw [hOe, hrv]; exact hx2)

/-- Without a place for the result nothing is stored. -/
theorem finish_none {rt : FType} {c : Cif} {I : CallIn} {O : CallOut} {m : Mem}
    {r s : Nat → List Byte} (hE : Entered c rt I O) (hrv : I.rvalue = none)
    (hm : ∀ x, O.frame + 8 ≤ x → x < O.frame + 16 → m x = O.entry.mem x) :
    finishCall rt I.rvalue O.rvalue O.frame r s m = some m := by
  have hfl : m.rd (O.frame + 12) 4 = leBytes 4 (callFlag c.flag I.rvalue).num := by
    rw [← hE.flag]
    exact Mem.rd_congr fun i hi => hm _ (by omega) (by omega)
  have e2 : Flag.ofNum (leNat (m.rd (O.frame + 12) 4)) = some (callFlag c.flag I.rvalue) := by
    rw [hfl, leNat_leBytes, Nat.mod_eq_of_lt (num_small _).1]; exact (num_small _).2
  unfold finishCall finishAsm
  rw [e2, hrv]
  unfold callFlag
  dsimp only
  split <;> rfl

end Verif.Arm
