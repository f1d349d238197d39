import Verif.S390.Whole

/-! Closures: what the helper finds, and what it leaves. -/
namespace Verif.S390
open Verif Verif.Spec Verif.Spec.S390 Verif.S390.Asm

theorem stores_out {w : Nat} (r : Nat → Nat) : ∀ (n k a : Nat) (m : Mem) (x : Nat), x < a ∨ a + n * w ≤ x → stores w r k n a m x = m x
  | 0, _, _, _, _, _ => rfl
  | n + 1, k, a, m, x, h => by
    rw [Nat.add_mul] at h
    rw [stores, stores_out r n _ _ _ _ (by omega), Mem.wr_out _ _ _ _ (by rw [beBytes_length]; omega)]

theorem stores_rd {w : Nat} (r : Nat → Nat) : ∀ (n k a : Nat) (m : Mem) (i : Nat), i < n → (stores w r k n a m).rd (a + i * w) w = beBytes w (r (k + i))
  | 0, _, _, _, _, h => by omega
  | n + 1, k, a, m, 0, _ => by
    rw [stores]
    have : (stores w r (k + 1) n (a + w) (m.wr a (beBytes w (r k)))).rd (a + 0 * w) w = (m.wr a (beBytes w (r k))).rd a w := by
      rw [Nat.zero_mul, Nat.add_zero]
      exact Mem.rd_congr fun i hi => stores_out r _ _ _ _ _ (by omega)
    rw [this, wr_rd _ _ (beBytes_length _ _), Nat.add_zero]
  | n + 1, k, a, m, i + 1, h => by
    rw [stores, show a + (i + 1) * w = a + w + i * w by rw [Nat.add_mul]; omega, stores_rd r n _ _ _ _ (by omega), show k + 1 + i = k + (i + 1) by omega]

/-- The memory in which the helper is called. -/
structure Clos (w : Nat) (s : M) (m : Mem) : Prop where
  gpr : ∀ k, k < 5 → m.rd (s.r 15 + 2 * w + w * k) w = beBytes w (s.r (2 + k))
  fpr : ∀ k, k < fprs w → m.rd (s.r 15 + 16 * w + 8 * k) 8 = s.f (2 * k)
  saved : ∀ k, firstSaved w ≤ k → k ≤ 15 → m.rd (s.r 15 + k * w) w = beBytes w (s.r k)
  chain : m.rd (closSp w s) w = beBytes w (s.r 15)
  ov : m.rd (closSp w s + saveArea w) w = beBytes w (s.r 15 + saveArea w)
  out : ∀ x, x < closSp w s ∨ s.r 15 + saveArea w ≤ x → m x = s.mem x

theorem stores_disj {w : Nat} (r : Nat → Nat) {n k a b len : Nat} (m : Mem) (h : b + len ≤ a ∨ a + n * w ≤ b) : (stores w r k n a m).rd b len = m.rd b len :=
  Mem.rd_congr fun i hi => stores_out r _ _ _ _ _ (by omega)

theorem clos_ok {w : Nat} (hw : w = 4 ∨ w = 8) {s : M} (hr : saveArea w + 2 * w ≤ s.r 15) (hf : ∀ k, (s.f k).length = 8) : Clos w s (closMem w s) := by
  have hsp : closSp w s + (saveArea w + 2 * w) = s.r 15 := by unfold closSp; omega
  generalize hA : closSp w s = A at hsp
  rcases hw with rfl | rfl
  · have e : closMem 4 s = ((((stores 4 s.r 12 4 (s.r 15 + 48) (argMem 4 s)).wr A (beBytes 4 (s.r 15))).wr (s.r 15 + 64) (s.f 0)).wr (s.r 15 + 72) (s.f 2)).wr (A + 96)
        (beBytes 4 (s.r 15 + 96)) := by
      unfold closMem; rw [hA]; rfl
    have hsp : A + 104 = s.r 15 := hsp
    have hsa : saveArea 4 = 96 := rfl
    constructor
    · intro k hk
      rw [e]
      repeat rw [Mem.rd_wr_disj _ _ _ _ _ (by simp only [beBytes_length, hf]; omega)]
      rw [stores_disj _ _ (by omega), argMem, Nat.mul_comm 4 k]
      exact stores_rd s.r 5 2 _ _ k hk
    · intro k hk
      have hk : k < 2 := hk
      rw [e]
      rcases (show k = 0 ∨ k = 1 by omega) with rfl | rfl
      all_goals
        repeat rw [Mem.rd_wr_disj _ _ _ _ _ (by simp only [beBytes_length, hf]; omega)]
        exact wr_rd _ _ (hf _)
    · intro k h1 h2
      have h1 : 12 ≤ k := h1
      rw [e]
      repeat rw [Mem.rd_wr_disj _ _ _ _ _ (by simp only [beBytes_length, hf]; omega)]
      obtain ⟨j, rfl⟩ : ∃ j, k = 12 + j := ⟨k - 12, by omega⟩
      rw [show s.r 15 + (12 + j) * 4 = s.r 15 + 48 + j * 4 by omega]
      exact stores_rd s.r 4 12 _ _ j (by omega)
    · rw [e, hA]
      repeat rw [Mem.rd_wr_disj _ _ _ _ _ (by simp only [beBytes_length, hf]; omega)]
      exact wr_rd _ _ (beBytes_length _ _)
    · rw [e, hA]
      exact wr_rd _ _ (beBytes_length _ _)
    · intro x hx
      rw [hA] at hx
      rw [e]
      repeat rw [Mem.wr_out _ _ _ _ (by simp only [beBytes_length, hf]; omega)]
      rw [stores_out _ _ _ _ _ _ (by omega), argMem, stores_out _ _ _ _ _ _ (by omega)]
  · have e : closMem 8 s = ((((((stores 8 s.r 13 3 (s.r 15 + 104) (argMem 8 s)).wr A (beBytes 8 (s.r 15))).wr (s.r 15 + 128) (s.f 0)).wr (s.r 15 + 136) (s.f 2)).wr
        (s.r 15 + 144) (s.f 4)).wr (s.r 15 + 152) (s.f 6)).wr (A + 160) (beBytes 8 (s.r 15 + 160)) := by
      unfold closMem; rw [hA]; rfl
    have hsp : A + 176 = s.r 15 := hsp
    have hsa : saveArea 8 = 160 := rfl
    constructor
    · intro k hk
      rw [e]
      repeat rw [Mem.rd_wr_disj _ _ _ _ _ (by simp only [beBytes_length, hf]; omega)]
      rw [stores_disj _ _ (by omega), argMem, Nat.mul_comm 8 k]
      exact stores_rd s.r 5 2 _ _ k hk
    · intro k hk
      have hk : k < 4 := hk
      rw [e]
      rcases (show k = 0 ∨ k = 1 ∨ k = 2 ∨ k = 3 by omega) with rfl | rfl | rfl | rfl
      all_goals
        repeat rw [Mem.rd_wr_disj _ _ _ _ _ (by simp only [beBytes_length, hf]; omega)]
        exact wr_rd _ _ (hf _)
    · intro k h1 h2
      have h1 : 13 ≤ k := h1
      rw [e]
      repeat rw [Mem.rd_wr_disj _ _ _ _ _ (by simp only [beBytes_length, hf]; omega)]
      obtain ⟨j, rfl⟩ : ∃ j, k = 13 + j := ⟨k - 13, by omega⟩
      rw [show s.r 15 + (13 + j) * 8 = s.r 15 + 104 + j * 8 by omega]
      exact stores_rd s.r 3 13 _ _ j (by omega)
    · rw [e, hA]
      repeat rw [Mem.rd_wr_disj _ _ _ _ _ (by simp only [beBytes_length, hf]; omega)]
      exact wr_rd _ _ (beBytes_length _ _)
    · rw [e, hA]
      exact wr_rd _ _ (beBytes_length _ _)
    · intro x hx
      rw [hA] at hx
      rw [e]
      repeat rw [Mem.wr_out _ _ _ _ (by simp only [beBytes_length, hf]; omega)]
      rw [stores_out _ _ _ _ _ _ (by omega), argMem, stores_out _ _ _ _ _ _ (by omega)]

theorem view_ok {w : Nat} {s : M} (hr : saveArea w + 2 * w ≤ s.r 15) {m m1 : Mem} (hm : Clos w s m) {lo : Nat}
    (h1 : ∀ x, x < lo ∨ closSp w s ≤ x → m1 x = m x) : View ⟨w⟩ (mregs w s) (s.r 15 + 2 * w) (s.r 15 + 16 * w) (s.r 15 + saveArea w) m1 := by
  have hsp : closSp w s ≤ s.r 15 := by unfold closSp; omega
  refine ⟨fun k hk => ?_, fun k hk => ?_, rfl, fun x hx => ?_⟩
  · exact (Mem.rd_congr fun i hi => h1 _ (.inr (by show closSp w s ≤ s.r 15 + 2 * w + w * k + i; omega))).trans (hm.gpr k hk)
  · exact (Mem.rd_congr fun i hi => h1 _ (.inr (by omega))).trans (hm.fpr k hk)
  · rw [h1 x (.inr (by omega)), hm.out x (.inr hx)]; rfl

theorem closureRet_mem {c : Cfg} {rt : FType} (h : retPlace rt = .mem) (pg pf rv : Nat) (m : Mem) : closureRet c rt pg pf rv m = m := by
  unfold retPlace at h
  unfold closureRet
  cases h' : rt.tc <;> rw [h'] at h <;> simp at h ⊢

/-- What the handler gets. -/
theorem helper_view {w : Nat} (hw : w = 4 ∨ w = 8) {rt : FType} {ats : List FType} (hwf : ∀ t ∈ ats, WF (tab w) t) {s : M} (hr : saveArea w + 2 * w ≤ s.r 15)
    (hreg : ∀ k, 2 ≤ k → k ≤ 15 → s.r k < 256 ^ w) {vs : List (List Byte)} (hl : vs.map (·.length) = ats.map (·.size)) (hp : AllPassed w (mregs w s) ats vs (places w rt ats))
    {m m1 : Mem} (hm : Clos w s m) {lo : Nat} (h1 : ∀ x, x < lo ∨ closSp w s ≤ x → m1 x = m x)
    (hcp : ∀ x ∈ copies w (mregs w s) ats (places w rt ats), x.1 + x.2 ≤ closSp w s ∧ x.1 + x.2 ≤ lo ∨ s.r 15 + saveArea w ≤ x.1) (ret : Nat) :
    (closureView ⟨w⟩ (prepCif ⟨w⟩ rt ats) ats (s.r 15 + 2 * w) (s.r 15 + 16 * w) (s.r 15 + saveArea w) ret m1).1 = (if retPlace rt = .mem then s.r 2 else ret) ∧
    (closureView ⟨w⟩ (prepCif ⟨w⟩ rt ats) ats (s.r 15 + 2 * w) (s.r 15 + 16 * w) (s.r 15 + saveArea w) ret m1).2.length = ats.length ∧
    vals m1 ats (closureView ⟨w⟩ (prepCif ⟨w⟩ rt ats) ats (s.r 15 + 2 * w) (s.r 15 + 16 * w) (s.r 15 + saveArea w) ret m1).2 = vs := by
  have hv := view_ok hr hm h1
  have hsp : closSp w s ≤ s.r 15 := by unfold closSp; omega
  have hcp' : ∀ x ∈ copies w (mregs w s) ats (placeFrom w ats (start rt)), ∀ i, i < x.2 → m1 (x.1 + i) = (mregs w s).mem (x.1 + i) := by
    intro x hx i hi
    rcases hcp x hx with h | h
    · rw [h1 _ (.inl (by omega)), hm.out _ (.inl (by omega))]; rfl
    · rw [h1 _ (.inr (by omega)), hm.out _ (.inr (by omega))]; rfl
  have hfl : ((prepCif ⟨w⟩ rt ats).flags &&& retInMem ≠ 0) ↔ retPlace rt = .mem := flags_mem (c := ⟨w⟩) rt
  have hg := hv.gpr 0 (by decide)
  unfold closureView
  by_cases hmem : retPlace rt = .mem
  · rw [if_pos (hfl.2 hmem), if_pos hmem]
    refine ⟨?_, closureLoop_ok (c := ⟨w⟩) hw hv hwf (p := start rt) ?_ hl hp hcp'⟩
    · show beNat (m1.rd _ w) = _
      rw [show m1.rd (s.r 15 + 2 * w) w = beBytes w (s.r 2) from hg, beNat_beBytes, Nat.mod_eq_of_lt (hreg 2 (by decide) (by decide))]
    · unfold start; rw [if_pos hmem]; exact ⟨rfl, rfl, Nat.mul_zero _, (by decide), Nat.zero_le _⟩
  · rw [if_neg (fun h => hmem (hfl.1 h)), if_neg hmem]
    refine ⟨rfl, closureLoop_ok (c := ⟨w⟩) hw hv hwf (p := start rt) ?_ hl hp hcp'⟩
    unfold start; rw [if_neg hmem]; exact ⟨rfl, rfl, Nat.mul_zero _, (by decide), Nat.zero_le _⟩

/-- The helper has returned; all but r6. -/
theorem closure_back {w : Nat} (hw : w = 4 ∨ w = 8) {L H : Nat} {rt : FType} (hrt : rt.tc = .void ∨ WF (tab w) rt) {s t u : M} {cif fn user : Nat}
    (hh : Helped w L H s t cif fn user) (hr : saveArea w + 2 * w ≤ s.r 15) (hreg : ∀ k, 2 ≤ k → k ≤ 15 → s.r k < 256 ^ w) (hcl : Clos w s t.mem) (hu : Conforms w t u) {ret : Nat}
    (hret : ret + 8 ≤ closSp w s) {m2 : Mem} (hkeep : ∀ x, s.r 15 + firstSaved w * w ≤ x → x < s.r 15 + 16 * w → m2 x = t.mem x)
    (hum : ∀ x, closSp w s ≤ x → u.mem x = closureRet ⟨w⟩ rt (t.r 5) (t.r 6) (if retPlace rt = .mem then s.r 2 else ret) m2 x) :
    ∃ v, Runs w L H u v ∧ v.pc = s.r 14 ∧ v.r 15 = s.r 15 ∧ (∀ k, 7 ≤ k → k ≤ 13 → v.r k = s.r k) ∧ v.r 6 = beNat (m2.rd (s.r 15 + 6 * w) w) ∧
      (∀ k, fprSaved w k → v.f k = s.f k) ∧ (v.f 0).length = 8 ∧ v.mem = u.mem ∧ ∀ val, val.length = rt.size → Got w rt val m2 ret →
        Returned w rt val (beBytes w (v.r 2)) (beBytes w (v.r 3)) (v.f 0) := by
  have hsp : closSp w s ≤ s.r 15 := by unfold closSp; omega
  have hfs : firstSaved w = 12 ∧ w = 4 ∨ firstSaved w = 13 ∧ w = 8 := by rcases hw with rfl | rfl <;> decide
  obtain ⟨v, hv, hl⟩ := closure_tail hw (L := L) (H := H) (sp := s.r 15) (u := u) (by rw [hu.pc, hh.ra])
    (by rw [hu.r _ (by omega) (by omega), hh.base])
  have e : ∀ x, closureRet ⟨w⟩ rt (t.r 5) (t.r 6) (if retPlace rt = .mem then s.r 2 else ret) m2 x = closureRet ⟨w⟩ rt (s.r 15 + 2 * w) (s.r 15 + 16 * w) ret m2 x := by
    intro x
    rw [hh.gpr, hh.fpr]
    by_cases h : retPlace rt = .mem
    · rw [closureRet_mem h, closureRet_mem h]
    · rw [if_neg h]
  obtain ⟨c1, c2⟩ := closureRet_ok (c := ⟨w⟩) hw hrt (pg := s.r 15 + 2 * w) (pf := s.r 15 + 16 * w) (rv := ret) (m := m2) (.inl (by omega))
  -- reading what the helper left
  have rdE : ∀ a n, closSp w s ≤ a → u.mem.rd a n = (closureRet ⟨w⟩ rt (s.r 15 + 2 * w) (s.r 15 + 16 * w) ret m2).rd a n :=
    fun a n ha => Mem.rd_congr fun i _ => (hum _ (by omega)).trans (e _)
  have rdO : ∀ a n, s.r 15 ≤ a → (a + n ≤ s.r 15 + 2 * w ∨ s.r 15 + 2 * w + 8 ≤ a) → a + n ≤ s.r 15 + 16 * w → u.mem.rd a n = m2.rd a n := by
    intro a n h1 h2 h3
    rw [rdE a n (by omega)]
    exact Mem.rd_congr fun i _ => c1 _ (by omega) (by omega)
  have sv : ∀ k, firstSaved w ≤ k → k ≤ 15 → beNat (u.mem.rd (s.r 15 + k * w) w) = s.r k := by
    intro k h1 h2
    have a1 : firstSaved w * w ≤ k * w := Nat.mul_le_mul_right _ h1
    have a2 : k * w ≤ 15 * w := Nat.mul_le_mul_right _ h2
    have a3 : 2 * w + 8 ≤ firstSaved w * w := by rcases hw with rfl | rfl <;> decide
    rw [rdO _ _ (by omega) (by omega) (by omega),
      show m2.rd (s.r 15 + k * w) w = t.mem.rd (s.r 15 + k * w) w from Mem.rd_congr fun i hi => hkeep _ (by omega) (by omega), hcl.saved k h1 h2,
      beNat_beBytes, Nat.mod_eq_of_lt (hreg k (by omega) h2)]
  refine ⟨v, hv, ?_, hl.r15, ?_, ?_, ?_, ?_, hl.mem, ?_⟩
  · rw [hl.pc]; exact sv 14 (by omega) (by decide)
  · intro k h1 h2
    by_cases h3 : firstSaved w ≤ k
    · rw [hl.saved k h3 h2]; exact sv k h3 (by omega)
    · rw [hl.rest k h1 (by omega), hu.r k (by omega) (.inl h2), hh.rest k h1 h2 (by omega)]
  · rw [hl.r6, rdO _ _ (by omega) (by rcases hw with rfl | rfl <;> omega) (by rcases hw with rfl | rfl <;> omega)]
  · intro k hk
    have : k ≠ 0 := by
      unfold fprSaved at hk
      split at hk <;> omega
    rw [hl.f k this, hu.f k hk, hh.f]
  · rw [hl.f0, Mem.rd_length]
  · intro val hlen hg
    have h2 := c2 val hlen hg
    have e2 : beBytes w (v.r 2) = (closureRet ⟨w⟩ rt (s.r 15 + 2 * w) (s.r 15 + 16 * w) ret m2).rd (s.r 15 + 2 * w) w := by
      rw [hl.r2, rdE _ _ (by omega)]; exact beBytes_beNat' (Mem.rd_length _ _ _)
    have e0 : v.f 0 = (closureRet ⟨w⟩ rt (s.r 15 + 2 * w) (s.r 15 + 16 * w) ret m2).rd (s.r 15 + 16 * w) 8 := by rw [hl.f0, rdE _ _ (by omega)]
    rw [e2, e0]
    rcases hw with rfl | rfl
    · have e3 : beBytes 4 (v.r 3) = (closureRet ⟨4⟩ rt (s.r 15 + 2 * 4) (s.r 15 + 16 * 4) ret m2).rd (s.r 15 + 2 * 4 + 4) 4 := by
        rw [hl.r3 rfl, rdE _ _ (by omega)]; exact beBytes_beNat' (Mem.rd_length _ _ _)
      rw [e3]; exact h2
    · refine ⟨hlen, fun hi => ?_, h2.2.2⟩
      have h := h2.2.1 hi
      have hsz : rt.size ≤ 8 := by
        rcases rcls (.inr rfl) hrt with ⟨h1, h2⟩ | ⟨h1, h2, h3, h4⟩ | ⟨h1, h2, h3, h4⟩ | ⟨h1, h2, h3, h4, h5⟩ | ⟨h1, h2, h3, h4⟩
        · rcases h1 with h1 | h1 <;> rw [h1] at hi <;> cases hi
        all_goals omega
      rw [if_pos hsz] at h ⊢
      exact h

end Verif.S390
