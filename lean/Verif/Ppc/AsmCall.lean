import Verif.Ppc.Asm
import Verif.Spec.Ppc
import Mathlib.Tactic.IntervalCases
import Mathlib.Tactic.NormNum

/-! `ffi_call_LINUX64`. -/
namespace Verif.Ppc.Asm
open Verif Verif.Ppc

theorem wr_rd (m : Mem) (a : Nat) {n : Nat} {bs : List Byte} (h : bs.length = n) : (m.wr a bs).rd a n = bs := by
  rw [← h, Mem.rd_wr_same]

/-- Memory when `ffi_prep_args64` is called; `B` is `cif->bytes`. -/
def savedMem (B : Nat) (s : M) : Mem :=
  (((((((s.mem.wr (s.r 1 - 32) (leBytes 8 (s.r 28))).wr (s.r 1 - 24) (leBytes 8 (s.r 29))).wr (s.r 1 - 16) (leBytes 8 (s.r 30))).wr
    (s.r 1 - 8) (leBytes 8 (s.r 31))).wr (s.r 1 + 8) (leBytes 8 (s.r 7))).wr (s.r 1 + 16) (leBytes 8 s.lr)).wr
    (s.r 1 - B) (leBytes 8 (s.r 1))).wr (s.r 1 - B + 24) (leBytes 8 (s.r 2))

theorem savedMem_out {B : Nat} {s : M} (hB : 128 ≤ B) (hsp : B ≤ s.r 1) {x : Nat} (h1 : x < s.r 1 - B ∨ s.r 1 - B + 32 ≤ x)
    (h2 : x < s.r 1 - 32 ∨ s.r 1 ≤ x) (h3 : x < s.r 1 + 8 ∨ s.r 1 + 24 ≤ x) : savedMem B s x = s.mem x := by
  unfold savedMem
  rw [Mem.wr_out _ _ _ _ (by rw [leBytes_length]; omega), Mem.wr_out _ _ _ _ (by rw [leBytes_length]; omega),
    Mem.wr_out _ _ _ _ (by rw [leBytes_length]; omega), Mem.wr_out _ _ _ _ (by rw [leBytes_length]; omega),
    Mem.wr_out _ _ _ _ (by rw [leBytes_length]; omega), Mem.wr_out _ _ _ _ (by rw [leBytes_length]; omega),
    Mem.wr_out _ _ _ _ (by rw [leBytes_length]; omega), Mem.wr_out _ _ _ _ (by rw [leBytes_length]; omega)]

/-- What the frame holds. -/
structure Frame (B : Nat) (s : M) (m : Mem) : Prop where
  r28 : m.rd (s.r 1 - 32) 8 = leBytes 8 (s.r 28)
  r29 : m.rd (s.r 1 - 24) 8 = leBytes 8 (s.r 29)
  r30 : m.rd (s.r 1 - 16) 8 = leBytes 8 (s.r 30)
  r31 : m.rd (s.r 1 - 8) 8 = leBytes 8 (s.r 31)
  chain : m.rd (s.r 1 + 8) 8 = leBytes 8 (s.r 7)
  lr : m.rd (s.r 1 + 16) 8 = leBytes 8 s.lr
  back : m.rd (s.r 1 - B) 8 = leBytes 8 (s.r 1)
  toc : m.rd (s.r 1 - B + 24) 8 = leBytes 8 (s.r 2)

theorem savedMem_frame {B : Nat} {s : M} (hB : 128 ≤ B) (hsp : B ≤ s.r 1) : Frame B s (savedMem B s) := by
  unfold savedMem
  constructor
  · repeat rw [Mem.rd_wr_disj _ _ _ _ _ (by rw [leBytes_length]; omega)]
    exact wr_rd _ _ (leBytes_length _ _)
  · repeat rw [Mem.rd_wr_disj _ _ _ _ _ (by rw [leBytes_length]; omega)]
    exact wr_rd _ _ (leBytes_length _ _)
  · repeat rw [Mem.rd_wr_disj _ _ _ _ _ (by rw [leBytes_length]; omega)]
    exact wr_rd _ _ (leBytes_length _ _)
  · repeat rw [Mem.rd_wr_disj _ _ _ _ _ (by rw [leBytes_length]; omega)]
    exact wr_rd _ _ (leBytes_length _ _)
  · repeat rw [Mem.rd_wr_disj _ _ _ _ _ (by rw [leBytes_length]; omega)]
    exact wr_rd _ _ (leBytes_length _ _)
  · repeat rw [Mem.rd_wr_disj _ _ _ _ _ (by rw [leBytes_length]; omega)]
    exact wr_rd _ _ (leBytes_length _ _)
  · repeat rw [Mem.rd_wr_disj _ _ _ _ _ (by rw [leBytes_length]; omega)]
    exact wr_rd _ _ (leBytes_length _ _)
  · exact wr_rd _ _ (leBytes_length _ _)

/-- `ffi_prep_args64` is called. -/
structure AtPrep (B : Nat) (E : Env) (s t : M) : Prop where
  pc : t.pc = E.H
  lr : t.lr = E.L + 4 * 17
  r3 : t.r 3 = s.r 3
  r4 : t.r 4 = s.r 1 - B
  sp : t.r 1 = s.r 1 - B
  r2 : t.r 2 = s.r 2
  r28 : t.r 28 = s.r 1
  r29 : t.r 29 = s.r 4
  r30 : t.r 30 = s.r 5
  r31 : t.r 31 = s.r 6
  rest : ∀ k, 14 ≤ k → k ≤ 27 → t.r k = s.r k
  f : t.f = s.f
  v : t.v = s.v
  cr : t.cr = s.cr
  mem : t.mem = savedMem B s

theorem call_prep {B : Nat} {E : Env} {s : M} (hpc : s.pc = E.L + 4 * off .call .callLocal) (h8 : s.r 8 = 2 ^ 64 - B) (hsp : B ≤ s.r 1)
    (h1 : s.r 1 < 2 ^ 64) (hB0 : 0 < B) : ∃ t, Runs .call E s t ∧ AtPrep B E s t := by
  have ho : off .call .callLocal = 2 := by decide +kernel
  rw [ho] at hpc
  have hea : (s.r 1 + s.r 8) % 2 ^ 64 = s.r 1 - B := by rw [h8]; omega
  have hb := runs_block (c := .call) (E := E) [.mflr 0, .std 28 1 0 32, .std 29 1 0 24, .std 30 1 0 16, .std 31 1 0 8, .std 7 1 8 0, .std 0 1 16 0,
    .mr 28 1, .stdux 1 8, .mr 31 6, .mr 30 5, .mr 29 4, .std 2 1 24 0, .mr 4 1] 2 (s := s) (by decide +kernel) hpc
  refine ⟨_, hb.trans (runs_bl (o := 16) (by decide +kernel) rfl), ?_⟩
  constructor
  · rfl
  · rfl
  · simp [exec, upd]
  · simp only [List.foldl, exec, upd, Nat.reduceEqDiff, if_true, if_false]; exact hea
  · simp only [List.foldl, exec, upd, Nat.reduceEqDiff, if_true, if_false]; exact hea
  · simp [exec, upd]
  · simp [exec, upd]
  · simp [exec, upd]
  · simp [exec, upd]
  · simp [exec, upd]
  · intro k h1 h2
    have h0 : ∀ j, j < 14 ∨ 27 < j → k ≠ j := by omega
    simp [exec, upd, h0 0, h0 28, h0 1, h0 31, h0 30, h0 29, h0 4]
  · rfl
  · rfl
  · rfl
  · simp only [List.foldl, exec, upd, Nat.reduceEqDiff, if_true, if_false, hea]
    rfl

/-- General registers are loaded, src/powerpc/linux64.S:108-132. -/
structure Loaded1 (u t : M) : Prop where
  gpr : ∀ k, k < 4 → t.r (3 + k) = leNat (u.mem.rd (u.r 28 - 96 + 8 * k) 8)
  gpr2 : (u.r 31).testBit 26 = true → ∀ k, 4 ≤ k → k < 8 → t.r (3 + k) = leNat (u.mem.rd (u.r 28 - 96 + 8 * k) 8)
  r12 : t.r 12 = u.r 29
  ctr : t.ctr = u.r 29
  r29 : t.r 29 = u.r 28 - 96
  r : ∀ k, k ≤ 2 ∨ 14 ≤ k ∧ k ≠ 29 → t.r k = u.r k
  cr : ∀ k, k < 8 → t.cr k = (u.r 31).testBit (31 - k)
  cr2 : ∀ k, 8 ≤ k → t.cr k = u.cr k
  f : t.f = u.f
  v : t.v = u.v
  mem : t.mem = u.mem

theorem call_load1 {E : Env} {u : M} (hpc : u.pc = E.L + 4 * 17) : ∃ t, Runs .call E u t ∧ t.pc = E.L + 4 * 31 ∧ Loaded1 u t := by
  have hb := runs_block (c := .call) (E := E) [.nop, .mr 12 29, .mtcrf 0xc0 31, .mtctr 12, .addi 29 28 0 96, .ld 3 29 0 0, .ld 4 29 8 0, .ld 5 29 16 0, .ld 6 29 24 0] 17
    (s := u) (by decide +kernel) hpc
  have hb2 := hb.trans (runs_bf (o := 26) (k := 5) (l := .l1) (by decide +kernel) rfl)
  have ho : off .call .l1 = 31 := by decide +kernel
  have hcr : ∀ k, k < 8 → k < 32 ∧ (192 : Nat).testBit (7 - k / 4) = true := by
    intro k hk
    refine ⟨by omega, ?_⟩
    interval_cases k <;> decide
  have hcr2 : ∀ k, 8 ≤ k → ¬ (k < 32 ∧ (192 : Nat).testBit (7 - k / 4) = true) := by
    rintro k hk ⟨h1, h2⟩
    interval_cases k <;> revert h2 <;> decide
  have hz : ∀ k, k ≤ 2 ∨ 14 ≤ k ∧ k ≠ 29 → ∀ j, 3 ≤ j ∧ j < 14 ∨ j = 29 → k ≠ j := by omega
  cases h5 : (u.r 31).testBit 26 with
  | false =>
    refine ⟨_, hb2, ?_, ?_⟩
    · simp [exec, upd, ho, h5, (show (192 : Nat).testBit 6 = true by decide)]
    · constructor
      · intro k hk
        rcases k with _ | _ | _ | _ | k <;> first | omega | simp [exec, upd]
      · rw [h5]; intro h; cases h
      · simp [exec, upd]
      · simp [exec, upd]
      · simp [exec, upd]
      · intro k hk
        have h0 := hz k hk
        simp [exec, upd, h0 3, h0 4, h0 5, h0 6, h0 12, h0 29]
      · intro k hk
        simp only [List.foldl, exec]
        rw [if_pos (hcr k hk)]
        rfl
      · intro k hk
        simp only [List.foldl, exec]
        rw [if_neg (hcr2 k hk)]
      · rfl
      · rfl
      · rfl
  | true =>
    have hb3 := hb2.trans (runs_block (c := .call) (E := E) [.ld 7 29 32 0, .ld 8 29 40 0, .ld 9 29 48 0, .ld 10 29 56 0] 27 (by decide +kernel)
      (by simp [exec, upd, h5, (show (192 : Nat).testBit 6 = true by decide)]))
    refine ⟨_, hb3, rfl, ?_⟩
    constructor
    · intro k hk
      rcases k with _ | _ | _ | _ | k <;> first | omega | simp [exec, upd]
    · intro _ k h1 h2
      rcases k with _ | _ | _ | _ | _ | _ | _ | _ | k <;> first | omega | simp [exec, upd]
    · simp [exec, upd]
    · simp [exec, upd]
    · simp [exec, upd]
    · intro k hk
      have h0 := hz k hk
      simp [exec, upd, h0 3, h0 4, h0 5, h0 6, h0 7, h0 8, h0 9, h0 10, h0 12, h0 29]
    · intro k hk
      simp only [List.foldl, exec]
      rw [if_pos (hcr k hk)]
      rfl
    · intro k hk
      simp only [List.foldl, exec]
      rw [if_neg (hcr2 k hk)]
    · rfl
    · rfl
    · rfl

/-- Floating-point registers, src/powerpc/linux64.S:132-148. -/
theorem call_load2 {E : Env} {u : M} (hpc : u.pc = E.L + 4 * 31) :
    ∃ t, Runs .call E u t ∧ t = { u with
      pc := E.L + 4 * 46, r := if u.cr 6 then upd u.r 29 (u.r 29 - 112) else u.r,
      f := fun k => if u.cr 6 = true ∧ 1 ≤ k ∧ k ≤ 13 then leNat (u.mem.rd (u.r 29 - 112 + 8 * k) 8) else u.f k } := by
  have hb := runs_bf (c := .call) (E := E) (o := 31) (k := 6) (l := .l2) (by decide +kernel) hpc
  have ho : off .call .l2 = 46 := by decide +kernel
  cases h6 : u.cr 6 with
  | false =>
    refine ⟨_, hb, ?_⟩
    rw [h6, ho]
    simp
  | true =>
    rw [h6] at hb
    have hb2 := hb.trans (runs_block (c := .call) (E := E) [.addi 29 29 0 112, .lfd 1 29 8 0, .lfd 2 29 16 0, .lfd 3 29 24 0, .lfd 4 29 32 0, .lfd 5 29 40 0, .lfd 6 29 48 0,
      .lfd 7 29 56 0, .lfd 8 29 64 0, .lfd 9 29 72 0, .lfd 10 29 80 0, .lfd 11 29 88 0, .lfd 12 29 96 0, .lfd 13 29 104 0] 32 (by decide +kernel) rfl)
    refine ⟨_, hb2, ?_⟩
    simp only [List.foldl, exec, List.length_cons, List.length_nil, if_true]
    congr 1
    funext k
    by_cases hk : 1 ≤ k ∧ k ≤ 13
    · rw [if_pos ⟨trivial, hk⟩]
      obtain ⟨h1, h2⟩ := hk
      interval_cases k <;> simp [upd]
    · rw [if_neg (fun h => hk h.2)]
      have h0 : ∀ j, 1 ≤ j ∧ j ≤ 13 → k ≠ j := by omega
      simp [upd, h0 1, h0 2, h0 3, h0 4, h0 5, h0 6, h0 7, h0 8, h0 9, h0 10, h0 11, h0 12, h0 13]

/-- Vector registers and the call, src/powerpc/linux64.S:150-180. -/
theorem call_load3 {E : Env} {u : M} (hpc : u.pc = E.L + 4 * 46) (h29 : u.r 29 % 16 = 0) (h29' : 192 ≤ u.r 29) :
    ∃ t, Runs .call E u t ∧ t = { u with
      pc := u.ctr / 4 * 4, lr := E.L + 4 * 73, r := upd (if u.cr 3 then upd u.r 29 (u.r 29 - 192) else u.r) 11 (leNat (u.mem.rd (u.r 28 + 8) 8)),
      v := fun k => if u.cr 3 = true ∧ 2 ≤ k ∧ k ≤ 13 then leNat (u.mem.rd (u.r 29 - 192 + 16 * (k - 2)) 16) else u.v k } := by
  have hb := runs_bf (c := .call) (E := E) (o := 46) (k := 3) (l := .l3) (by decide +kernel) hpc
  have ho : off .call .l3 = 71 := by decide +kernel
  cases h6 : u.cr 3 with
  | false =>
    rw [h6, ho] at hb
    have hb2 := hb.trans (runs_block (c := .call) (E := E) [.ld 11 28 8 0] 71 (by decide +kernel) rfl)
    refine ⟨_, hb2.trans (runs_bctrl (o := 72) (by decide +kernel) rfl), ?_⟩
    simp [exec]
  | true =>
    rw [h6] at hb
    have hb2 := hb.trans (runs_block (c := .call) (E := E) [.addi 29 29 0 16, .lvx 13 29, .addi 29 29 0 16, .lvx 12 29, .addi 29 29 0 16, .lvx 11 29, .addi 29 29 0 16, .lvx 10 29,
      .addi 29 29 0 16, .lvx 9 29, .addi 29 29 0 16, .lvx 8 29, .addi 29 29 0 16, .lvx 7 29, .addi 29 29 0 16, .lvx 6 29, .addi 29 29 0 16, .lvx 5 29, .addi 29 29 0 16, .lvx 4 29,
      .addi 29 29 0 16, .lvx 3 29, .addi 29 29 0 16, .lvx 2 29, .ld 11 28 8 0] 47 (by decide +kernel) rfl)
    refine ⟨_, hb2.trans (runs_bctrl (o := 72) (by decide +kernel) rfl), ?_⟩
    have hu : ∀ (f : Nat → Nat) (a b : Nat), upd (upd f 29 a) 29 b = upd f 29 b := by
      intro f a b; funext x; unfold upd; split <;> simp_all
    have hv : ∀ (f : Nat → Nat) (a : Nat), upd f 29 a 29 = a := by intro f a; simp [upd]
    have hv2 : ∀ (f : Nat → Nat) (a : Nat), upd f 29 a 28 = f 28 := by intro f a; simp [upd]
    simp only [List.foldl, exec, List.length_cons, List.length_nil, if_true, hu, hv, hv2, Nat.add_zero]
    generalize u.r 29 = x at h29 h29'
    have hd : ∀ j, 1 ≤ j → j ≤ 12 → (x - 16 * j) / 16 * 16 = x - 192 + 16 * (12 - j) := by omega
    have e : ∀ j, x - 16 * j - 16 = x - 16 * (j + 1) := by omega
    have e1 := e 1; have e2 := e 2; have e3 := e 3; have e4 := e 4; have e5 := e 5; have e6 := e 6; have e7 := e 7; have e8 := e 8; have e9 := e 9; have e10 := e 10; have e11 := e 11
    norm_num at e1 e2 e3 e4 e5 e6 e7 e8 e9 e10 e11
    simp only [Nat.sub_sub] 
    have d1 := hd 1; have d2 := hd 2; have d3 := hd 3; have d4 := hd 4; have d5 := hd 5; have d6 := hd 6; have d7 := hd 7; have d8 := hd 8; have d9 := hd 9; have d10 := hd 10
    have d11 := hd 11; have d12 := hd 12
    norm_num at d1 d2 d3 d4 d5 d6 d7 d8 d9 d10 d11 d12
    norm_num [d1, d2, d3, d4, d5, d6, d7, d8, d9, d10, d11, d12]
    funext k
    by_cases hk : 2 ≤ k ∧ k ≤ 13
    · rw [if_pos hk]
      obtain ⟨h1, h2⟩ := hk
      interval_cases k <;> simp [upd]
    · rw [if_neg hk]
      have h0 : ∀ j, 2 ≤ j ∧ j ≤ 13 → k ≠ j := by omega
      simp [upd, h0 2, h0 3, h0 4, h0 5, h0 6, h0 7, h0 8, h0 9, h0 10, h0 11, h0 12, h0 13]

/-- The function is entered from `u`, the state after `ffi_prep_args64`. -/
structure Loaded (E : Env) (u t : M) : Prop where
  gpr : ∀ k, k < 4 → t.r (3 + k) = leNat (u.mem.rd (u.r 28 - 96 + 8 * k) 8)
  gpr2 : (u.r 31).testBit 26 = true → ∀ k, 4 ≤ k → k < 8 → t.r (3 + k) = leNat (u.mem.rd (u.r 28 - 96 + 8 * k) 8)
  fpr : (u.r 31).testBit 25 = true → ∀ k, k < 13 → t.f (1 + k) = leNat (u.mem.rd (u.r 28 - 200 + 8 * k) 8)
  vec : (u.r 31).testBit 28 = true → ∀ k, k < 12 →
    t.v (2 + k) = leNat (u.mem.rd ((if (u.r 31).testBit 25 then u.r 28 - 400 else u.r 28 - 288) + 16 * k) 16)
  r11 : t.r 11 = leNat (u.mem.rd (u.r 28 + 8) 8)
  r12 : t.r 12 = u.r 29
  pc : t.pc = u.r 29 / 4 * 4
  lr : t.lr = E.L + 4 * 73
  mem : t.mem = u.mem
  r : ∀ k, k ≤ 2 ∨ 14 ≤ k ∧ k ≠ 29 → t.r k = u.r k
  f : ∀ k, 14 ≤ k → t.f k = u.f k
  v : ∀ k, 14 ≤ k → t.v k = u.v k
  cr : ∀ k, 8 ≤ k → t.cr k = u.cr k

theorem call_load {E : Env} {u : M} (hpc : u.pc = E.L + 4 * 17) (hal : u.r 28 % 16 = 0) (hsp : 400 ≤ u.r 28) : ∃ t, Runs .call E u t ∧ Loaded E u t := by
  obtain ⟨a, ra, pa, la⟩ := call_load1 hpc
  obtain ⟨b, rb, eb⟩ := call_load2 (E := E) pa
  have hb29 : b.r 29 = if (u.r 31).testBit 25 then u.r 28 - 208 else u.r 28 - 96 := by
    rw [eb, la.cr 6 (by decide)]
    dsimp only
    split
    · rw [show upd a.r 29 (a.r 29 - 112) 29 = a.r 29 - 112 from rfl, la.r29]; omega
    · rw [la.r29]
  have hbr : ∀ k, k ≠ 29 → b.r k = a.r k := by
    intro k hk
    rw [eb]
    dsimp only
    split
    · simp [upd, hk]
    · rfl
  obtain ⟨c, rc, ec⟩ := call_load3 (E := E) (u := b) (by rw [eb]) (by rw [hb29]; split <;> omega) (by rw [hb29]; split <;> omega)
  have hbm : b.mem = u.mem := by rw [eb]; exact la.mem
  have hbc : b.cr = a.cr := by rw [eb]
  have hcr : ∀ k, k ≠ 29 → k ≠ 11 → c.r k = a.r k := by
    intro k h1 h2
    rw [ec, ← hbr k h1]
    dsimp only
    split <;> simp [upd, h1, h2]
  refine ⟨c, ra.trans (rb.trans rc), ?_⟩
  constructor
  · intro k hk
    rw [hcr _ (by omega) (by omega), la.gpr k hk]
  · intro hb k h1 h2
    rw [hcr _ (by omega) (by omega), la.gpr2 hb k h1 h2]
  · intro hb k hk
    have h6 : a.cr 6 = true := by rw [la.cr 6 (by decide)]; exact hb
    rw [ec, eb]
    dsimp only
    rw [if_pos ⟨h6, by omega, by omega⟩, la.mem, la.r29, show u.r 28 - 96 - 112 + 8 * (1 + k) = u.r 28 - 200 + 8 * k by omega]
  · intro hb k hk
    have h3 : b.cr 3 = true := by rw [hbc, la.cr 3 (by decide)]; exact hb
    rw [ec]
    dsimp only
    rw [if_pos ⟨h3, by omega, by omega⟩, hbm, hb29, show 2 + k - 2 = k by omega]
    cases (u.r 31).testBit 25
    · rw [if_neg (by decide), if_neg (by decide), show u.r 28 - 96 - 192 = u.r 28 - 288 by omega]
    · rw [if_pos rfl, if_pos rfl, show u.r 28 - 208 - 192 = u.r 28 - 400 by omega]
  · rw [ec]
    dsimp only
    rw [hbm, hbr 28 (by decide), la.r 28 (.inr (by decide))]
    split <;> rfl
  · rw [hcr 12 (by decide) (by decide), la.r12]
  · rw [ec, eb]
    dsimp only
    rw [la.ctr]
  · rw [ec]
  · rw [ec]; exact hbm
  · intro k hk
    rw [hcr k (by omega) (by omega), la.r k hk]
  · intro k hk
    rw [ec, eb]
    dsimp only
    rw [if_neg (by omega), la.f]
  · intro k hk
    rw [ec]
    dsimp only
    rw [if_neg (by omega), eb]
    exact congrFun la.v k
  · intro k hk
    rw [ec]
    dsimp only
    rw [hbc, la.cr2 k hk]

/-! ## After the call -/

/-- `n` times `w` bytes. -/
def stores (m : Mem) (a w : Nat) (g : Nat → List Byte) : Nat → Mem
  | 0 => m
  | n + 1 => (stores m a w g n).wr (a + w * n) (g n)

theorem stores_out {m : Mem} {a w : Nat} {g : Nat → List Byte} (hg : ∀ k, (g k).length = w) {x : Nat} : ∀ {n : Nat}, x < a ∨ a + w * n ≤ x → stores m a w g n x = m x
  | 0, _ => rfl
  | n + 1, h => by
    rw [Nat.mul_succ] at h
    rw [stores, Mem.wr_out _ _ _ _ (by rw [hg]; omega), stores_out hg (by omega)]

theorem stores_rd {m : Mem} {a w : Nat} {g : Nat → List Byte} (hg : ∀ k, (g k).length = w) {k : Nat} : ∀ {n : Nat}, k < n → (stores m a w g n).rd (a + w * k) w = g k
  | 0, h => by omega
  | n + 1, h => by
    rw [stores]
    by_cases hk : k = n
    · subst hk; exact wr_rd _ _ (hg _)
    · have : w * (k + 1) ≤ w * n := Nat.mul_le_mul_left _ (by omega)
      rw [Nat.mul_succ] at this
      rw [Mem.rd_wr_disj _ _ _ _ _ (by rw [hg]; omega), stores_rd hg (by omega)]

/-- What is stored at `rv`; `fl` are the flags. -/
def stored (fl rv : Nat) (u : M) : Mem :=
  if fl.testBit 0 then
    if fl.testBit 2 then
      if fl.testBit 4 then stores u.mem rv 8 (fun k => leBytes 8 (u.f (1 + k))) 8 else stores u.mem rv 4 (fun k => leBytes 4 (sglOf (u.f (1 + k)))) 8
    else if fl.testBit 3 then stores u.mem rv 16 (fun k => leBytes 16 (u.v (2 + k))) 8
    else stores u.mem rv 8 (fun k => leBytes 8 (u.r (3 + k))) 2
  else if fl.testBit 1 then u.mem
  else if fl.testBit 2 then
    if fl.testBit 4 then stores u.mem rv 8 (fun k => leBytes 8 (u.f (1 + k))) (if fl.testBit 5 then 2 else 1)
    else u.mem.wr rv (leBytes 4 (sglOf (u.f 1)))
  else if fl.testBit 3 then u.mem.wr rv (leBytes 16 (u.v 2))
  else u.mem.wr rv (leBytes 8 (u.r 3))

/-- `.Ldone_return_value` is reached. -/
structure Fin (u x : M) (m : Mem) : Prop where
  r28 : x.r 28 = u.r 28
  r2 : x.r 2 = leNat (u.mem.rd (u.r 1 + 24) 8)
  rest : ∀ k, 14 ≤ k → k ≤ 27 → x.r k = u.r k
  f : x.f = u.f
  v : x.v = u.v
  cr : ∀ k, 8 ≤ k → k < 20 → x.cr k = u.cr k
  mem : x.mem = m

theorem call_store_struct {E : Env} {u : M} {fl rv : Nat} (hpc : u.pc = E.L + 4 * 73) (h31 : u.r 31 = fl) (h30 : u.r 30 = rv)
    (hal : fl.testBit 3 = true → fl.testBit 1 = false → rv % 16 = 0) (hb1 : fl.testBit 1 = false) (b0 : fl.testBit 0 = true) :
    ∃ x, Runs .call E u x ∧ x.pc = E.L + 4 * 80 ∧ Fin u x (stored fl rv u) := by
  subst h31 h30
  have hb := runs_block (c := .call) (E := E) [.ld 2 1 24 0, .mtcrf 0x01 31] 73 (s := u) (by decide +kernel) hpc
  have hb := hb.trans (runs_bt (o := 75) (k := 31) (l := .struct) (by decide +kernel) rfl)
  have oS : off .call .struct = 98 := by decide +kernel
  have oD : off .call .done = 80 := by decide +kernel
  have oF : off .call .fp = 90 := by decide +kernel
  have oV : off .call .vec = 88 := by decide +kernel
  have oFl : off .call .float = 96 := by decide +kernel
  have oFH : off .call .floatHomog = 110 := by decide +kernel
  have oVS : off .call .vecOrSmall = 119 := by decide +kernel
  have oSm : off .call .smallS = 136 := by decide +kernel
  have tb : (1 : Nat).testBit 0 = true ∧ (1 : Nat).testBit 1 = false ∧ (2 : Nat).testBit 1 = true ∧ (2 : Nat).testBit 0 = false := by decide
  obtain ⟨tb1, tb2, tb3, tb4⟩ := tb
  have hz : ∀ k, 14 ≤ k → k ≤ 27 → ∀ j, j < 14 ∨ 27 < j → k ≠ j := by omega
  have hc : ∀ k, 8 ≤ k → k < 20 → (1 : Nat).testBit (7 - k / 4) = false ∧ (2 : Nat).testBit (7 - k / 4) = false := by
    intro k h1 h2
    interval_cases k <;> decide
  unfold stored
  rw [b0]
  simp only [if_true]
  have hb := hb.trans (runs_bf (o := 98) (k := 29) (l := .vecOrSmall) (by decide +kernel) (by simp [exec, upd, b0, tb1, tb2, oS]))
  cases b2 : (u.r 31).testBit 2 with
  | true =>
    simp only [if_true]
    have hb := hb.trans (runs_block (c := .call) (E := E) [.mtcrf 0x02 31] 99 (by decide +kernel) (by simp [exec, upd, b2, tb1, tb2, oVS]))
    have hb := hb.trans (runs_bf (o := 100) (k := 27) (l := .floatHomog) (by decide +kernel) rfl)
    cases b4 : (u.r 31).testBit 4 with
    | true =>
      simp only [if_true]
      have hb := hb.trans (runs_block (c := .call) (E := E) [.stfd 1 30 0 0, .stfd 2 30 8 0, .stfd 3 30 16 0, .stfd 4 30 24 0, .stfd 5 30 32 0, .stfd 6 30 40 0, .stfd 7 30 48 0, .stfd 8 30 56 0]
        101 (by decide +kernel) (by simp [exec, upd, b4, tb1, tb2, tb3, tb4]))
      refine ⟨_, hb.trans (runs_b (o := 109) (l := .done) (by decide +kernel) rfl), by rw [oD], ?_⟩
      constructor
      · simp [exec, upd]
      · simp [exec, upd]
      · intro k h1 h2; have h0 := hz k h1 h2; simp [exec, upd, h0 2]
      · rfl
      · rfl
      · intro k h1 h2; simp [exec, hc k h1 h2]
      · simp [exec, upd, stores]
    | false =>
      simp only [Bool.false_eq_true, if_false]
      have hb := hb.trans (runs_block (c := .call) (E := E) [.stfs 1 30 0 0, .stfs 2 30 4 0, .stfs 3 30 8 0, .stfs 4 30 12 0, .stfs 5 30 16 0, .stfs 6 30 20 0, .stfs 7 30 24 0, .stfs 8 30 28 0]
        110 (by decide +kernel) (by simp [exec, upd, b4, tb1, tb2, tb3, tb4, oFH]))
      refine ⟨_, hb.trans (runs_b (o := 118) (l := .done) (by decide +kernel) rfl), by rw [oD], ?_⟩
      constructor
      · simp [exec, upd]
      · simp [exec, upd]
      · intro k h1 h2; have h0 := hz k h1 h2; simp [exec, upd, h0 2]
      · rfl
      · rfl
      · intro k h1 h2; simp [exec, hc k h1 h2]
      · simp [exec, upd, stores]
  | false =>
    simp only [Bool.false_eq_true, if_false]
    have hb := hb.trans (runs_bf (o := 119) (k := 28) (l := .smallS) (by decide +kernel) (by simp [exec, upd, b2, tb1, tb2, oVS]))
    cases b3 : (u.r 31).testBit 3 with
    | true =>
      have hal : u.r 30 % 16 = 0 := by
        cases b1 : (u.r 31).testBit 1 with
        | false => exact hal b3 b1
        | true => exact absurd b1 (by rw [hb1]; decide)
      simp only [if_true]
      have hb := hb.trans (runs_block (c := .call) (E := E) [.stvx 2 30, .addi 30 30 16 0, .stvx 3 30, .addi 30 30 16 0, .stvx 4 30, .addi 30 30 16 0, .stvx 5 30, .addi 30 30 16 0, .stvx 6 30,
        .addi 30 30 16 0, .stvx 7 30, .addi 30 30 16 0, .stvx 8 30, .addi 30 30 16 0, .stvx 9 30] 120 (by decide +kernel) (by simp [exec, upd, b3, tb1, tb2, tb3, tb4, oSm]))
      refine ⟨_, hb.trans (runs_b (o := 135) (l := .done) (by decide +kernel) rfl), by rw [oD], ?_⟩
      constructor
      · simp [exec, upd]
      · simp [exec, upd]
      · intro k h1 h2; have h0 := hz k h1 h2; simp [exec, upd, h0 2, h0 30]
      · rfl
      · rfl
      · intro k h1 h2; simp [exec, hc k h1 h2]
      · have hd : ∀ j, (u.r 30 + 16 * j) / 16 * 16 = u.r 30 + 16 * j := by omega
        have d0 := hd 0; have d1 := hd 1; have d2 := hd 2; have d3 := hd 3; have d4 := hd 4; have d5 := hd 5; have d6 := hd 6; have d7 := hd 7
        norm_num at d0 d1 d2 d3 d4 d5 d6 d7
        simp [exec, upd, stores, Nat.add_assoc, d0, d1, d2, d3, d4, d5, d6, d7]
    | false =>
      simp only [Bool.false_eq_true, if_false]
      have hb := hb.trans (runs_block (c := .call) (E := E) [.std 3 30 0 0, .std 4 30 8 0]
        136 (by decide +kernel) (by simp [exec, upd, b3, tb1, tb2, tb3, tb4, oSm]))
      refine ⟨_, hb.trans (runs_b (o := 138) (l := .done) (by decide +kernel) rfl), by rw [oD], ?_⟩
      constructor
      · simp [exec, upd]
      · simp [exec, upd]
      · intro k h1 h2; have h0 := hz k h1 h2; simp [exec, upd, h0 2]
      · rfl
      · rfl
      · intro k h1 h2; simp [exec, hc k h1 h2]
      · simp [exec, upd, stores]

set_option maxHeartbeats 1000000 in
theorem call_store_scalar {E : Env} {u : M} {fl rv : Nat} (hpc : u.pc = E.L + 4 * 73) (h31 : u.r 31 = fl) (h30 : u.r 30 = rv)
    (hal : fl.testBit 3 = true → fl.testBit 1 = false → rv % 16 = 0) (b0 : fl.testBit 0 = false) :
    ∃ x, Runs .call E u x ∧ x.pc = E.L + 4 * 80 ∧ Fin u x (stored fl rv u) := by
  subst h31 h30
  have hb := runs_block (c := .call) (E := E) [.ld 2 1 24 0, .mtcrf 0x01 31] 73 (s := u) (by decide +kernel) hpc
  have hb := hb.trans (runs_bt (o := 75) (k := 31) (l := .struct) (by decide +kernel) rfl)
  have oS : off .call .struct = 98 := by decide +kernel
  have oD : off .call .done = 80 := by decide +kernel
  have oF : off .call .fp = 90 := by decide +kernel
  have oV : off .call .vec = 88 := by decide +kernel
  have oFl : off .call .float = 96 := by decide +kernel
  have oFH : off .call .floatHomog = 110 := by decide +kernel
  have oVS : off .call .vecOrSmall = 119 := by decide +kernel
  have oSm : off .call .smallS = 136 := by decide +kernel
  have tb : (1 : Nat).testBit 0 = true ∧ (1 : Nat).testBit 1 = false ∧ (2 : Nat).testBit 1 = true ∧ (2 : Nat).testBit 0 = false := by decide
  obtain ⟨tb1, tb2, tb3, tb4⟩ := tb
  have hz : ∀ k, 14 ≤ k → k ≤ 27 → ∀ j, j < 14 ∨ 27 < j → k ≠ j := by omega
  have hc : ∀ k, 8 ≤ k → k < 20 → (1 : Nat).testBit (7 - k / 4) = false ∧ (2 : Nat).testBit (7 - k / 4) = false := by
    intro k h1 h2
    interval_cases k <;> decide
  unfold stored
  rw [b0]
  simp only [Bool.false_eq_true, if_false]
  have hb := hb.trans (runs_bt (o := 76) (k := 30) (l := .done) (by decide +kernel) (by simp [exec, upd, b0, tb1, tb2, oS]))
  cases b1 : (u.r 31).testBit 1 with
  | true =>
    simp only [if_true]
    refine ⟨_, hb, by simp [exec, upd, b1, tb1, oD], ?_⟩
    constructor
    · simp [exec, upd]
    · simp [exec, upd]
    · intro k h1 h2; have h0 := hz k h1 h2; simp [exec, upd, h0 2]
    · rfl
    · rfl
    · intro k h1 h2; simp [exec, hc k h1 h2]
    · simp [exec]
  | false =>
    simp only [Bool.false_eq_true, if_false]
    have hb := hb.trans (runs_bt (o := 77) (k := 29) (l := .fp) (by decide +kernel) (by simp [exec, upd, b1, tb1, tb2, oD]))
    cases b2 : (u.r 31).testBit 2 with
    | true =>
      simp only [if_true]
      have hb := hb.trans (runs_block (c := .call) (E := E) [.mtcrf 0x02 31] 90 (by decide +kernel) (by simp [exec, upd, b2, tb1, tb2, oF]))
      have hb := hb.trans (runs_bf (o := 91) (k := 27) (l := .float) (by decide +kernel) rfl)
      cases b4 : (u.r 31).testBit 4 with
      | true =>
        simp only [if_true]
        have hb := hb.trans (runs_block (c := .call) (E := E) [.stfd 1 30 0 0] 92 (by decide +kernel) (by simp [exec, upd, b4, tb1, tb2, tb3, tb4]))
        have hb := hb.trans (runs_bf (o := 93) (k := 26) (l := .done) (by decide +kernel) rfl)
        cases b5 : (u.r 31).testBit 5 with
        | true =>
          have hb := hb.trans (runs_block (c := .call) (E := E) [.stfd 2 30 8 0] 94 (by decide +kernel) (by simp [exec, upd, b5, tb1, tb2, tb3, tb4]))
          refine ⟨_, hb.trans (runs_b (o := 95) (l := .done) (by decide +kernel) rfl), by rw [oD], ?_⟩
          constructor
          · simp [exec, upd]
          · simp [exec, upd]
          · intro k h1 h2; have h0 := hz k h1 h2; simp [exec, upd, h0 2]
          · rfl
          · rfl
          · intro k h1 h2; simp [exec, hc k h1 h2]
          · simp [exec, upd, stores]
        | false =>
          refine ⟨_, hb, by simp [exec, upd, b5, tb1, tb2, tb3, tb4, oD], ?_⟩
          constructor
          · simp [exec, upd]
          · simp [exec, upd]
          · intro k h1 h2; have h0 := hz k h1 h2; simp [exec, upd, h0 2]
          · rfl
          · rfl
          · intro k h1 h2; simp [exec, hc k h1 h2]
          · simp [exec, upd, stores]
      | false =>
        simp only [Bool.false_eq_true, if_false]
        have hb := hb.trans (runs_block (c := .call) (E := E) [.stfs 1 30 0 0] 96 (by decide +kernel) (by simp [exec, upd, b4, tb1, tb2, tb3, tb4, oFl]))
        refine ⟨_, hb.trans (runs_b (o := 97) (l := .done) (by decide +kernel) rfl), by rw [oD], ?_⟩
        constructor
        · simp [exec, upd]
        · simp [exec, upd]
        · intro k h1 h2; have h0 := hz k h1 h2; simp [exec, upd, h0 2]
        · rfl
        · rfl
        · intro k h1 h2; simp [exec, hc k h1 h2]
        · simp [exec, upd]
    | false =>
      simp only [Bool.false_eq_true, if_false]
      have hb := hb.trans (runs_bt (o := 78) (k := 28) (l := .vec) (by decide +kernel) (by simp [exec, upd, b2, tb1, tb2, oF]))
      cases b3 : (u.r 31).testBit 3 with
      | true =>
        have hal := hal b3 b1
        simp only [if_true]
        have hb := hb.trans (runs_block (c := .call) (E := E) [.stvx 2 30] 88 (by decide +kernel) (by simp [exec, upd, b3, tb1, tb2, oV]))
        refine ⟨_, hb.trans (runs_b (o := 89) (l := .done) (by decide +kernel) rfl), by rw [oD], ?_⟩
        constructor
        · simp [exec, upd]
        · simp [exec, upd]
        · intro k h1 h2; have h0 := hz k h1 h2; simp [exec, upd, h0 2]
        · rfl
        · rfl
        · intro k h1 h2; simp [exec, hc k h1 h2]
        · simp [exec, upd]; rw [show u.r 30 / 16 * 16 = u.r 30 by omega]
      | false =>
        simp only [Bool.false_eq_true, if_false]
        have hb := hb.trans (runs_block (c := .call) (E := E) [.std 3 30 0 0] 79 (by decide +kernel) (by simp [exec, upd, b3, tb1, tb2, oV]))
        refine ⟨_, hb, rfl, ?_⟩
        constructor
        · simp [exec, upd]
        · simp [exec, upd]
        · intro k h1 h2; have h0 := hz k h1 h2; simp [exec, upd, h0 2]
        · rfl
        · rfl
        · intro k h1 h2; simp [exec, hc k h1 h2]
        · simp [exec, upd]

theorem call_store {E : Env} {u : M} {fl rv : Nat} (hpc : u.pc = E.L + 4 * 73) (h31 : u.r 31 = fl) (h30 : u.r 30 = rv)
    (hal : fl.testBit 3 = true → fl.testBit 1 = false → rv % 16 = 0) (hb1 : fl.testBit 0 = true → fl.testBit 1 = false) :
    ∃ x, Runs .call E u x ∧ x.pc = E.L + 4 * 80 ∧ Fin u x (stored fl rv u) := by
  cases b0 : fl.testBit 0 with
  | true => exact call_store_struct hpc h31 h30 hal (hb1 b0) b0
  | false => exact call_store_scalar hpc h31 h30 hal b0

/-- Back in `ffi_call_int`. -/
structure Back (AP : Nat) (u v : M) (m : Mem) : Prop where
  pc : v.pc = leNat (m.rd (AP + 16) 8) / 4 * 4
  sp : v.r 1 = AP
  r2 : v.r 2 = leNat (u.mem.rd (u.r 1 + 24) 8)
  r28 : v.r 28 = leNat (m.rd (AP - 32) 8)
  r29 : v.r 29 = leNat (m.rd (AP - 24) 8)
  r30 : v.r 30 = leNat (m.rd (AP - 16) 8)
  r31 : v.r 31 = leNat (m.rd (AP - 8) 8)
  rest : ∀ k, 14 ≤ k → k ≤ 27 → v.r k = u.r k
  fr : v.f = u.f
  vr : v.v = u.v
  cr : ∀ k, 8 ≤ k → k < 20 → v.cr k = u.cr k
  mem : v.mem = m

theorem call_done {E : Env} {u x : M} {m : Mem} {AP : Nat} (hpc : x.pc = E.L + 4 * 80) (h : Fin u x m) (hAP : u.r 28 = AP) :
    ∃ v, Runs .call E x v ∧ Back AP u v m := by
  have hb := runs_block (c := .call) (E := E) [.mr 1 28, .ld 0 28 16 0, .ld 28 28 0 32, .mtlr 0, .ld 29 1 0 24, .ld 30 1 0 16, .ld 31 1 0 8] 80 (s := x) (by decide +kernel) hpc
  refine ⟨_, hb.trans (runs_blr (o := 87) (by decide +kernel) rfl), ?_⟩
  have hr := h.r28
  rw [hAP] at hr
  constructor
  · simp [exec, upd, hr, h.mem]
  · simp [exec, upd, hr]
  · simp [exec, upd, h.r2]
  · simp [exec, upd, hr, h.mem]
  · simp [exec, upd, hr, h.mem]
  · simp [exec, upd, hr, h.mem]
  · simp [exec, upd, hr, h.mem]
  · intro k h1 h2
    have h0 : ∀ j, j < 14 ∨ 27 < j → k ≠ j := by omega
    rw [← h.rest k h1 h2]
    simp [exec, upd, h0 0, h0 1, h0 28, h0 29, h0 30, h0 31]
  · simp [exec, h.f]
  · simp [exec, h.v]
  · intro k h1 h2
    rw [← h.cr k h1 h2]
    rfl
  · simp [exec, h.mem]

theorem call_tail {E : Env} {u : M} {fl rv AP : Nat} (hpc : u.pc = E.L + 4 * 73) (h31 : u.r 31 = fl) (h30 : u.r 30 = rv) (hAP : u.r 28 = AP)
    (hal : fl.testBit 3 = true → fl.testBit 1 = false → rv % 16 = 0) (hb1 : fl.testBit 0 = true → fl.testBit 1 = false) :
    ∃ v, Runs .call E u v ∧ Back AP u v (stored fl rv u) := by
  obtain ⟨x, h1, h2, h3⟩ := call_store hpc h31 h30 hal hb1
  obtain ⟨v, h4, h5⟩ := call_done h2 h3 hAP
  exact ⟨v, h1.trans h4, h5⟩

end Verif.Ppc.Asm
