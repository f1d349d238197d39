import Verif.S390.Asm
import Verif.Spec.S390

/-! `ffi_call_SYSV`. -/
namespace Verif.S390.Asm
open Verif Verif.S390

/-- Memory when the function is called: registers 6, 12, 13, 14 in the frame, and the back chain. -/
def savedMem (w : Nat) (s : M) : Mem :=
  ((((s.mem.wr (s.r 2 + 11 * w) (beBytes w (s.r 6))).wr (s.r 2 + 12 * w) (beBytes w (s.r 12))).wr (s.r 2 + 13 * w) (beBytes w (s.r 13))).wr
    (s.r 2 + 14 * w) (beBytes w (s.r 14))).wr (s.r 15) (beBytes w (s.r 2))

theorem savedMem_out {w : Nat} (s : M) {x : Nat} (h1 : x < s.r 15 ∨ s.r 15 + w ≤ x) (h2 : x < s.r 2 + 11 * w ∨ s.r 2 + 15 * w ≤ x) :
    savedMem w s x = s.mem x := by
  unfold savedMem
  rw [Mem.wr_out _ _ _ _ (by rw [beBytes_length]; omega), Mem.wr_out _ _ _ _ (by rw [beBytes_length]; omega),
    Mem.wr_out _ _ _ _ (by rw [beBytes_length]; omega), Mem.wr_out _ _ _ _ (by rw [beBytes_length]; omega),
    Mem.wr_out _ _ _ _ (by rw [beBytes_length]; omega)]

theorem savedMem_rd {w : Nat} (s : M) {a n : Nat} (h1 : a + n ≤ s.r 15 ∨ s.r 15 + w ≤ a) (h2 : a + n ≤ s.r 2 + 11 * w ∨ s.r 2 + 15 * w ≤ a) :
    (savedMem w s).rd a n = s.mem.rd a n :=
  Mem.rd_congr fun i hi => savedMem_out s (by omega) (by omega)

theorem wr_rd (m : Mem) (a : Nat) {n : Nat} {bs : List Byte} (h : bs.length = n) : (m.wr a bs).rd a n = bs := by
  rw [← h, Mem.rd_wr_same]

theorem savedMem_regs {w : Nat} (s : M) (h : s.r 15 + w ≤ s.r 2) :
    (savedMem w s).rd (s.r 2 + 11 * w) w = beBytes w (s.r 6) ∧ (savedMem w s).rd (s.r 2 + 12 * w) w = beBytes w (s.r 12) ∧
    (savedMem w s).rd (s.r 2 + 13 * w) w = beBytes w (s.r 13) ∧ (savedMem w s).rd (s.r 2 + 14 * w) w = beBytes w (s.r 14) := by
  unfold savedMem
  refine ⟨?_, ?_, ?_, ?_⟩
  · rw [Mem.rd_wr_disj _ _ _ _ _ (by rw [beBytes_length]; omega), Mem.rd_wr_disj _ _ _ _ _ (by rw [beBytes_length]; omega),
      Mem.rd_wr_disj _ _ _ _ _ (by rw [beBytes_length]; omega), Mem.rd_wr_disj _ _ _ _ _ (by rw [beBytes_length]; omega), wr_rd _ _ (beBytes_length _ _)]
  · rw [Mem.rd_wr_disj _ _ _ _ _ (by rw [beBytes_length]; omega), Mem.rd_wr_disj _ _ _ _ _ (by rw [beBytes_length]; omega),
      Mem.rd_wr_disj _ _ _ _ _ (by rw [beBytes_length]; omega), wr_rd _ _ (beBytes_length _ _)]
  · rw [Mem.rd_wr_disj _ _ _ _ _ (by rw [beBytes_length]; omega), Mem.rd_wr_disj _ _ _ _ _ (by rw [beBytes_length]; omega), wr_rd _ _ (beBytes_length _ _)]
  · rw [Mem.rd_wr_disj _ _ _ _ _ (by rw [beBytes_length]; omega), wr_rd _ _ (beBytes_length _ _)]

/-- The state in which the function is entered. -/
structure Called (w L : Nat) (s t : M) : Prop where
  pc : t.pc = s.r 5
  args : ∀ k, k < 5 → t.r (2 + k) = beNat (s.mem.rd (s.r 2 + gprOff ⟨w⟩ k) w)
  fp : ∀ k, k < Spec.S390.fprs w → t.f (2 * k) = s.mem.rd (s.r 2 + fprOff ⟨w⟩ k) 8
  chain : t.r 0 = s.r 6
  ra : t.r 14 = L + off w .table + 8 * s.r 3
  frame : t.r 13 = s.r 2
  rv : t.r 12 = s.r 4
  rest : ∀ k, 7 ≤ k → k ≤ 11 ∨ k = 15 → t.r k = s.r k
  frest : ∀ k, k % 2 = 1 ∨ 2 * Spec.S390.fprs w ≤ k → t.f k = s.f k
  mem : t.mem = savedMem w s

theorem call_head {w : Nat} (hw : w = 4 ∨ w = 8) {L H : Nat} {s : M} (hpc : s.pc = L) (hL : L + 512 < 256 ^ w) (h3 : s.r 3 ≤ 4)
    (hsp : s.r 15 + w ≤ s.r 2) : ∃ t, Runs w L H s t ∧ Called w L s t := by
  rcases hw with rfl | rfl
  · have h1 := runs_block (w := 4) (L := L) (H := H) (o := 0) (s := s)
      (is := [.st 6 2 44, .stm 12 3 2 48, .lr 13 2, .st 2 15 0, .sla 3 3, .lr 12 4, .lr 1 5, .lr 0 6,
        .larl 14 .table, .ar 14 3, .lm 2 5 13 8, .ld 0 13 64, .ld 2 13 72]) (by decide +kernel) hpc
    refine ⟨_, h1.trans (runs_br (o := 44) (a := 1) (by decide +kernel) rfl), ?_⟩
    have ho : off 4 .table = 48 := by decide +kernel
    constructor
    · simp [exec, upd]
    · intro k hk
      have e : s.mem.rd (s.r 2 + gprOff ⟨4⟩ k) 4 = (savedMem 4 s).rd (s.r 2 + gprOff ⟨4⟩ k) 4 :=
        (savedMem_rd s (by unfold gprOff; dsimp only; omega) (by unfold gprOff; dsimp only; omega)).symm
      rw [e]
      rcases k with _ | _ | _ | _ | _ | k <;> first | (simp [exec, upd, stores, gprOff, savedMem, Nat.add_assoc]; done) | omega
    · intro k hk
      have e : s.mem.rd (s.r 2 + fprOff ⟨4⟩ k) 8 = (savedMem 4 s).rd (s.r 2 + fprOff ⟨4⟩ k) 8 :=
        (savedMem_rd s (by unfold fprOff; dsimp only; omega) (by unfold fprOff; dsimp only; omega)).symm
      rw [e]
      have hk : k < 2 := hk
      rcases k with _ | _ | _ | _ | k <;> first | (simp [exec, upd, stores, fprOff, savedMem, Nat.add_assoc]; done) | omega
    · simp [exec, upd]
    · rw [ho]
      simp [exec, upd, ho]
      omega
    · simp [exec, upd]
    · simp [exec, upd]
    · intro k h1 h2
      rcases (show k = 7 ∨ k = 8 ∨ k = 9 ∨ k = 10 ∨ k = 11 ∨ k = 15 by omega) with rfl | rfl | rfl | rfl | rfl | rfl <;> simp [exec, upd]
    · intro k hk
      have hk : k % 2 = 1 ∨ 4 ≤ k := hk
      have h0 : ∀ j, j % 2 = 0 → j < 4 → k ≠ j := by omega
      simp [exec, upd, h0 0, h0 2, h0 4, h0 6]
    · simp [exec, upd, stores, savedMem, Nat.add_assoc]
  · have h1 := runs_block (w := 8) (L := L) (H := H) (o := 0) (s := s)
      (is := [.st 6 2 88, .stm 12 3 2 96, .lr 13 2, .st 2 15 0, .larl 14 .table, .sla 3 3, .lr 12 4, .lr 1 5, .lr 0 6,
        .ar 14 3, .lm 2 5 13 16, .ld 0 13 128, .ld 2 13 136, .ld 4 13 144, .ld 6 13 152]) (by decide +kernel) hpc
    refine ⟨_, h1.trans (runs_br (o := 72) (a := 1) (by decide +kernel) rfl), ?_⟩
    have ho : off 8 .table = 80 := by decide +kernel
    constructor
    · simp [exec, upd]
    · intro k hk
      have e : s.mem.rd (s.r 2 + gprOff ⟨8⟩ k) 8 = (savedMem 8 s).rd (s.r 2 + gprOff ⟨8⟩ k) 8 :=
        (savedMem_rd s (by unfold gprOff; dsimp only; omega) (by unfold gprOff; dsimp only; omega)).symm
      rw [e]
      rcases k with _ | _ | _ | _ | _ | k <;> first | (simp [exec, upd, stores, gprOff, savedMem, Nat.add_assoc]; done) | omega
    · intro k hk
      have e : s.mem.rd (s.r 2 + fprOff ⟨8⟩ k) 8 = (savedMem 8 s).rd (s.r 2 + fprOff ⟨8⟩ k) 8 :=
        (savedMem_rd s (by unfold fprOff; dsimp only; omega) (by unfold fprOff; dsimp only; omega)).symm
      rw [e]
      have hk : k < 4 := hk
      rcases k with _ | _ | _ | _ | k <;> first | (simp [exec, upd, stores, fprOff, savedMem, Nat.add_assoc]; done) | omega
    · simp [exec, upd]
    · rw [ho]
      simp [exec, upd, ho]
      omega
    · simp [exec, upd]
    · simp [exec, upd]
    · intro k h1 h2
      rcases (show k = 7 ∨ k = 8 ∨ k = 9 ∨ k = 10 ∨ k = 11 ∨ k = 15 by omega) with rfl | rfl | rfl | rfl | rfl | rfl <;> simp [exec, upd]
    · intro k hk
      have hk : k % 2 = 1 ∨ 8 ≤ k := hk
      have h0 : ∀ j, j % 2 = 0 → j < 8 → k ≠ j := by omega
      simp [exec, upd, h0 0, h0 2, h0 4, h0 6]
    · simp [exec, upd, stores, savedMem, Nat.add_assoc]

/-- What is stored for a result, by `ret_type`: `u` is the state when the function returns. -/
def stored (w : Nat) (ret rv : Nat) (u : M) : Mem :=
  match ret with
  | 0 => u.mem.wr rv (u.f 0)
  | 1 => u.mem.wr rv ((u.f 0).take 4)
  | 2 => if w = 8 then u.mem.wr rv (beBytes w (u.r 2)) else (u.mem.wr (rv + 4) (beBytes w (u.r 3))).wr rv (beBytes w (u.r 2))
  | 3 => if w = 8 then u.mem else u.mem.wr rv (beBytes w (u.r 2))
  | _ => u.mem

/-- Nothing but eight bytes is written. -/
theorem stored_out {w : Nat} (hw : w = 4 ∨ w = 8) {ret rv : Nat} {u : M} (hf : (u.f 0).length = 8) {x : Nat} (hx : x < rv ∨ rv + 8 ≤ x) :
    stored w ret rv u x = u.mem x := by
  unfold stored
  split
  · exact Mem.wr_out _ _ _ _ (by omega)
  · exact Mem.wr_out _ _ _ _ (by rw [List.length_take]; omega)
  · split
    · exact Mem.wr_out _ _ _ _ (by rw [beBytes_length]; omega)
    · rw [Mem.wr_out _ _ _ _ (by rw [beBytes_length]; omega), Mem.wr_out _ _ _ _ (by rw [beBytes_length]; omega)]
  · split
    · rfl
    · exact Mem.wr_out _ _ _ _ (by rw [beBytes_length]; omega)
  · rfl

/-- Back in the caller of `ffi_call_SYSV`: `F` is the frame. -/
structure Back (w F rv ret : Nat) (u v : M) : Prop where
  pc : v.pc = beNat ((stored w ret rv u).rd (F + 14 * w) w)
  r6 : v.r 6 = beNat ((stored w ret rv u).rd (F + 11 * w) w)
  r12 : v.r 12 = beNat ((stored w ret rv u).rd (F + 12 * w) w)
  r13 : v.r 13 = beNat ((stored w ret rv u).rd (F + 13 * w) w)
  rest : ∀ k, 7 ≤ k → k ≤ 11 ∨ k = 15 → v.r k = u.r k
  f : v.f = u.f
  mem : v.mem = stored w ret rv u

theorem call_done {w : Nat} (hw : w = 4 ∨ w = 8) {L H F rv ret : Nat} {u x : M} (hpc : x.pc = L + off w .done) (hF : x.r 13 = F)
    (hr : ∀ k, 7 ≤ k → k ≤ 11 ∨ k = 15 → x.r k = u.r k) (hf : x.f = u.f) (hm : x.mem = stored w ret rv u) :
    ∃ v, Runs w L H x v ∧ Back w F rv ret u v := by
  rcases hw with rfl | rfl
  · have h1 := runs_block (w := 4) (L := L) (H := H) (o := 80) (s := x) (is := [.l 14 13 56, .l 12 13 48, .l 6 13 44, .l 13 13 52])
      (by decide +kernel) (by rw [hpc, show off 4 .done = 80 by decide +kernel])
    refine ⟨_, h1.trans (runs_br (o := 96) (a := 14) (by decide +kernel) rfl), ?_⟩
    constructor
    · simp [exec, upd, hF, hm]
    · simp [exec, upd, hF, hm]
    · simp [exec, upd, hF, hm]
    · simp [exec, upd, hF, hm]
    · intro k h1 h2
      rw [← hr k h1 h2]
      rcases (show k = 7 ∨ k = 8 ∨ k = 9 ∨ k = 10 ∨ k = 11 ∨ k = 15 by omega) with rfl | rfl | rfl | rfl | rfl | rfl <;> simp [exec, upd]
    · simp [exec, upd, hf]
    · simp [exec, upd, hm]
  · have h1 := runs_block (w := 8) (L := L) (H := H) (o := 112) (s := x) (is := [.l 14 13 112, .l 12 13 96, .l 6 13 88, .l 13 13 104])
      (by decide +kernel) (by rw [hpc, show off 8 .done = 112 by decide +kernel])
    refine ⟨_, h1.trans (runs_br (o := 136) (a := 14) (by decide +kernel) rfl), ?_⟩
    constructor
    · simp [exec, upd, hF, hm]
    · simp [exec, upd, hF, hm]
    · simp [exec, upd, hF, hm]
    · simp [exec, upd, hF, hm]
    · intro k h1 h2
      rw [← hr k h1 h2]
      rcases (show k = 7 ∨ k = 8 ∨ k = 9 ∨ k = 10 ∨ k = 11 ∨ k = 15 by omega) with rfl | rfl | rfl | rfl | rfl | rfl <;> simp [exec, upd]
    · simp [exec, upd, hf]
    · simp [exec, upd, hm]

/-- From the entry of the table. -/
theorem call_tail {w : Nat} (hw : w = 4 ∨ w = 8) {L H F rv ret : Nat} (hret : ret ≤ 4) {u : M} (hpc : u.pc = L + off w .table + 8 * ret)
    (hF : u.r 13 = F) (hR : u.r 12 = rv) : ∃ v, Runs w L H u v ∧ Back w F rv ret u v := by
  have fin : ∀ x, Runs w L H u x → x.pc = L + off w .done → x.r = u.r → x.f = u.f → x.mem = stored w ret rv u →
      ∃ v, Runs w L H u v ∧ Back w F rv ret u v := by
    intro x h1 h2 h3 h4 h5
    obtain ⟨v, h6, h7⟩ := call_done (ret := ret) (rv := rv) (u := u) (F := F) hw (L := L) (H := H) h2 (by rw [h3]; exact hF) (fun k _ _ => by rw [h3]) h4 h5
    exact ⟨v, h1.trans h6, h7⟩
  have hcase : ret = 0 ∨ ret = 1 ∨ ret = 2 ∨ ret = 3 ∨ ret = 4 := by omega
  rcases hw with rfl | rfl
  · have ht : off 4 .table = 48 := by decide +kernel
    have hd : off 4 .done = 80 := by decide +kernel
    rw [ht] at hpc
    rcases hcase with rfl | rfl | rfl | rfl | rfl
    · have h1 := runs_block (w := 4) (L := L) (H := H) (o := 48) (s := u) (is := [.std 0 12 0]) (by decide +kernel) hpc
      refine fin _ (h1.trans (runs_j (o := 52) (l := .done) (by decide +kernel) rfl)) rfl ?_ ?_ ?_ <;> simp [exec, stored, hR]
    · have h1 := runs_block (w := 4) (L := L) (H := H) (o := 56) (s := u) (is := [.ste 0 12 0]) (by decide +kernel) hpc
      refine fin _ (h1.trans (runs_j (o := 60) (l := .done) (by decide +kernel) rfl)) rfl ?_ ?_ ?_ <;> simp [exec, stored, hR]
    · have h1 := runs_block (w := 4) (L := L) (H := H) (o := 64) (s := u) (is := [.st 3 12 4, .nop, .st 2 12 0, .nop]) (by decide +kernel) hpc
      refine fin _ h1 (by rw [hd]; rfl) ?_ ?_ ?_ <;> simp [exec, stored, hR]
    · have h1 := runs_block (w := 4) (L := L) (H := H) (o := 72) (s := u) (is := [.st 2 12 0, .nop]) (by decide +kernel) hpc
      refine fin _ h1 (by rw [hd]; rfl) ?_ ?_ ?_ <;> simp [exec, stored, hR]
    · exact fin u (.refl _) (by rw [hpc, hd]) rfl rfl (by simp [stored])
  · have ht : off 8 .table = 80 := by decide +kernel
    have hd : off 8 .done = 112 := by decide +kernel
    rw [ht] at hpc
    rcases hcase with rfl | rfl | rfl | rfl | rfl
    · have h1 := runs_block (w := 8) (L := L) (H := H) (o := 80) (s := u) (is := [.std 0 12 0]) (by decide +kernel) hpc
      refine fin _ (h1.trans (runs_j (o := 84) (l := .done) (by decide +kernel) rfl)) rfl ?_ ?_ ?_ <;> simp [exec, stored, hR]
    · have h1 := runs_block (w := 8) (L := L) (H := H) (o := 88) (s := u) (is := [.ste 0 12 0]) (by decide +kernel) hpc
      refine fin _ (h1.trans (runs_j (o := 92) (l := .done) (by decide +kernel) rfl)) rfl ?_ ?_ ?_ <;> simp [exec, stored, hR]
    · have h1 := runs_block (w := 8) (L := L) (H := H) (o := 96) (s := u) (is := [.st 2 12 0, .nopr, .nop, .nop]) (by decide +kernel) hpc
      refine fin _ h1 (by rw [hd]; rfl) ?_ ?_ ?_ <;> simp [exec, stored, hR]
    · have h1 := runs_block (w := 8) (L := L) (H := H) (o := 104) (s := u) (is := [.nop, .nop]) (by decide +kernel) hpc
      refine fin _ h1 (by rw [hd]; rfl) ?_ ?_ ?_ <;> simp [exec, stored]
    · exact fin u (.refl _) (by rw [hpc, hd]) rfl rfl (by simp [stored])

end Verif.S390.Asm
