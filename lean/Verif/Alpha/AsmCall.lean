import Verif.Alpha.Asm
import Verif.Alpha.Call

/-! `ffi_call_osf`. -/
namespace Verif.Alpha.Asm
open Verif Verif.Alpha Verif.Spec.Alpha

/-- Memory when the function is called: $26, $15, the flags and `rvalue` in the frame. -/
def savedMem (s : M) : Mem :=
  (((s.mem.wr (s.r 17) (leBytes 8 (s.r 26))).wr (s.r 17 + 8) (leBytes 8 (s.r 15))).wr (s.r 17 + 16) (leBytes 8 (s.r 18))).wr
    (s.r 17 + 24) (leBytes 8 (s.r 19))

theorem savedMem_out (s : M) {x : Nat} (h : x < s.r 17 ∨ s.r 17 + 32 ≤ x) : savedMem s x = s.mem x := by
  unfold savedMem
  rw [Mem.wr_out _ _ _ _ (by rw [leBytes_length]; omega), Mem.wr_out _ _ _ _ (by rw [leBytes_length]; omega),
    Mem.wr_out _ _ _ _ (by rw [leBytes_length]; omega), Mem.wr_out _ _ _ _ (by rw [leBytes_length]; omega)]

theorem savedMem_rd (s : M) {a n : Nat} (h : a + n ≤ s.r 17 ∨ s.r 17 + 32 ≤ a) : (savedMem s).rd a n = s.mem.rd a n :=
  Mem.rd_congr fun i hi => savedMem_out s (by omega)

theorem savedMem_regs (s : M) :
    (savedMem s).rd (s.r 17) 8 = leBytes 8 (s.r 26) ∧ (savedMem s).rd (s.r 17 + 8) 8 = leBytes 8 (s.r 15) ∧
    (savedMem s).rd (s.r 17 + 16) 8 = leBytes 8 (s.r 18) ∧ (savedMem s).rd (s.r 17 + 24) 8 = leBytes 8 (s.r 19) := by
  unfold savedMem
  refine ⟨?_, ?_, ?_, ?_⟩
  · rw [Mem.rd_wr_disj _ _ _ _ _ (by omega), Mem.rd_wr_disj _ _ _ _ _ (by omega),
      Mem.rd_wr_disj _ _ _ _ _ (by omega), wr_rd _ _ (leBytes_length _ _)]
  · rw [Mem.rd_wr_disj _ _ _ _ _ (by omega), Mem.rd_wr_disj _ _ _ _ _ (by omega), wr_rd _ _ (leBytes_length _ _)]
  · rw [Mem.rd_wr_disj _ _ _ _ _ (by omega), wr_rd _ _ (leBytes_length _ _)]
  · rw [wr_rd _ _ (leBytes_length _ _)]

/-- The state in which the function is entered. -/
structure Called (E : Env) (s t : M) : Prop where
  pc : t.pc = s.r 20
  pv : t.r 27 = s.r 20
  args : ∀ k, k < 6 → t.r (16 + k) = leNat (s.mem.rd (s.r 16 + 8 * k) 8)
  fp : ∀ k, k < 6 → t.f (16 + k) = leNat (s.mem.rd (s.r 16 + 8 * k) 8)
  chain : t.r 1 = s.r 21
  ra : t.r 26 = E.L + 88
  frame : t.r 15 = s.r 17
  sp : t.r 30 = s.r 16 + 48
  rest : ∀ k, 9 ≤ k → k ≤ 14 → t.r k = s.r k
  frest : ∀ k, k < 16 ∨ 22 ≤ k → t.f k = s.f k
  mem : t.mem = savedMem s

/-- The instructions before the call. -/
def head1 : List Ins := [.mov 16 30, .stq 26 0 17, .stq 15 8 17, .mov 17 15, .stq 18 16 17, .stq 19 24 17]
def head2 : List Ins := [.mov 20 27, .mov 21 1,
    .ldq 16 0 30, .ldt 16 0 30, .ldt 17 8 30, .ldq 17 8 30, .ldt 18 16 30, .ldq 18 16 30, .ldt 19 24 30, .ldq 19 24 30, .ldt 20 32 30, .ldq 20 32 30,
    .ldt 21 40 30, .ldq 21 40 30]

theorem call_block (b : Bool) : block b 0 (head1 ++ head2 ++ [Ins.lda 30 48 30]) = true ∧ fetch b 84 = some .jsr := by
  revert b; decide +kernel

/-- The state after `jsr`. -/
def afterJsr (s : M) : M := { s with r := upd s.r 26 (s.pc + 4), pc := s.r 27 }

theorem called_fold {E : Env} {s : M} (hsp : s.r 16 + 48 ≤ s.r 17) :
    Called E s (afterJsr { (head1 ++ head2 ++ [Ins.lda 30 48 30]).foldl (exec E) s with pc := E.L + 84 }) := by
  have arg : ∀ k, k < 6 → s.mem.rd (s.r 16 + 8 * k) 8 = (savedMem s).rd (s.r 16 + 8 * k) 8 := fun k hk => (savedMem_rd s (by omega)).symm
  constructor
  · simp [afterJsr, head1, head2, exec, upd]
  · simp [afterJsr, head1, head2, exec, upd]
  · intro k hk
    rw [arg k hk]
    rcases k with _ | _ | _ | _ | _ | _ | k <;> first | (simp [afterJsr, head1, head2, exec, upd, savedMem]; done) | omega
  · intro k hk
    rw [arg k hk]
    rcases k with _ | _ | _ | _ | _ | _ | k <;> first | (simp [afterJsr, head1, head2, exec, upd, savedMem]; done) | omega
  · simp [afterJsr, head1, head2, exec, upd]
  · simp [afterJsr, head1, head2, exec, upd]
  · simp [afterJsr, head1, head2, exec, upd]
  · simp [afterJsr, head1, head2, exec, upd]
  · intro k h1 h2
    rcases (show k = 9 ∨ k = 10 ∨ k = 11 ∨ k = 12 ∨ k = 13 ∨ k = 14 by omega) with rfl | rfl | rfl | rfl | rfl | rfl <;> simp [afterJsr, head1, head2, exec, upd]
  · intro k hk
    have h0 : ∀ j, 16 ≤ j → j < 22 → k ≠ j := by omega
    simp [afterJsr, head1, head2, exec, upd, h0 16, h0 17, h0 18, h0 19, h0 20, h0 21]
  · simp [afterJsr, head1, head2, exec, upd, savedMem]

theorem call_head {E : Env} {s : M} (hpc : s.pc = E.L) (hsp : s.r 16 + 48 ≤ s.r 17) : ∃ t, Runs E s t ∧ Called E s t := by
  have h1 := runs_block (E := E) (o := 0) (s := s) (call_block E.bwx).1 hpc
  exact ⟨_, h1.trans (runs_jsr (o := 84) (call_block E.bwx).2 rfl), called_fold hsp⟩

/-- What is stored for a result, by the code ALPHA_ST_*: `u` is the state when the function returns. -/
def stored (st rv : Nat) (u : M) : Mem :=
  match st with
  | 1 => u.mem.wr rv (leBytes 8 (u.r 0))
  | 2 => u.mem.wr rv (leBytes 4 (Spec.Alpha.sts (u.f 0)))
  | 3 => u.mem.wr rv (leBytes 8 (u.f 0))
  | 4 => (u.mem.wr rv (leBytes 4 (Spec.Alpha.sts (u.f 0)))).wr (rv + 4) (leBytes 4 (Spec.Alpha.sts (u.f 1)))
  | 5 => (u.mem.wr rv (leBytes 8 (u.f 0))).wr (rv + 8) (leBytes 8 (u.f 1))
  | _ => u.mem

/-- Back in the caller of `ffi_call_osf`: `F` is the frame; `st` and `rv` are what it saved. -/
structure Back (E : Env) (F st rv : Nat) (u v : M) : Prop where
  pc : v.pc = leNat (u.mem.rd F 8)
  r26 : v.r 26 = leNat (u.mem.rd F 8)
  r15 : v.r 15 = leNat (u.mem.rd (F + 8) 8)
  gp : v.r 29 = E.gp
  rest : ∀ k, 9 ≤ k → k ≤ 14 ∨ k = 30 → v.r k = u.r k
  f : v.f = u.f
  mem : v.mem = stored (if rv = 0 then 0 else st) rv u

/-- The instructions after the call. -/
def tail1 : List Ins := [.gpHi .callRet 26, .ldq 2 24 15, .gpLo .callRet, .ldq 3 16 15, .ldaTab 1 .stTab .callRet 26, .ldq 26 0 15]
def tail2 : List Ins := [.cmoveq 2 0 3, .addq 3 3 3, .s8addq 3 1 1]

theorem ret_block (b : Bool) : block b 88 (tail1 ++ [Ins.ldq 15 8 15] ++ tail2) = true ∧ fetch b 128 = some (.jmp 1) := by
  revert b; decide +kernel

theorem st_block (b : Bool) : fetch b 144 = some .ret ∧
    block b 160 [.stq 0 0 2] = true ∧ fetch b 164 = some .ret ∧ block b 176 [.sts 0 0 2] = true ∧ fetch b 180 = some .ret ∧
    block b 192 [.stt 0 0 2] = true ∧ fetch b 196 = some .ret ∧ block b 208 [.sts 0 0 2, .sts 1 4 2] = true ∧ fetch b 216 = some .ret ∧
    block b 224 [.stt 0 0 2, .stt 1 8 2] = true ∧ fetch b 232 = some .ret := by
  revert b; decide +kernel

/-- At the table of stores. -/
structure AtTab (E : Env) (F st rv : Nat) (u x : M) : Prop where
  pc : x.pc = E.L + 144 + 16 * st
  rv : x.r 2 = rv
  r26 : x.r 26 = leNat (u.mem.rd F 8)
  r15 : x.r 15 = leNat (u.mem.rd (F + 8) 8)
  gp : x.r 29 = E.gp
  r0 : x.r 0 = u.r 0
  rest : ∀ k, 9 ≤ k → k ≤ 14 ∨ k = 30 → x.r k = u.r k
  f : x.f = u.f
  mem : x.mem = u.mem

/-- The state after a jump to the address in $1. -/
def afterJmp (s : M) : M := { s with pc := s.r 1 }

theorem attab_fold {E : Env} (hE : E.Ok) {F st rv : Nat} {u : M} (hst : st ≤ 5) (h26 : u.r 26 = E.L + 88) (h15 : u.r 15 = F)
    (hfl : leNat (u.mem.rd (F + 16) 8) = st) (hrv : leNat (u.mem.rd (F + 24) 8) = rv) :
    AtTab E F (if rv = 0 then 0 else st) rv u (afterJmp { (tail1 ++ [Ins.ldq 15 8 15] ++ tail2).foldl (exec E) u with pc := E.L + 128 }) := by
  have hb := hE.base
  have hg := hE.gp .callRet
  obtain ⟨-, o1, o2, -⟩ := off_eq E.bwx
  rw [o1] at hg
  constructor
  · simp only [afterJmp, tail1, tail2, List.cons_append, List.nil_append, exec, upd, List.foldl, h26, h15, o1, o2, hfl, hrv, reduceIte, Nat.reduceEqDiff]
    split <;> omega
  · simp [afterJmp, tail1, tail2, exec, upd, h15, hrv]
  · simp [afterJmp, tail1, tail2, exec, upd, h15]
  · simp [afterJmp, tail1, tail2, exec, upd, h15]
  · simp only [afterJmp, tail1, tail2, List.cons_append, List.nil_append, exec, upd, List.foldl, h26, reduceIte, Nat.reduceEqDiff]
    omega
  · simp [afterJmp, tail1, tail2, exec, upd]
  · intro k h1 h2
    rcases (show k = 9 ∨ k = 10 ∨ k = 11 ∨ k = 12 ∨ k = 13 ∨ k = 14 ∨ k = 30 by omega) with rfl | rfl | rfl | rfl | rfl | rfl | rfl <;> simp [afterJmp, tail1, tail2, exec, upd]
  · simp [afterJmp, tail1, tail2, exec]
  · simp [afterJmp, tail1, tail2, exec]

theorem call_ret {E : Env} (hE : E.Ok) {F st rv : Nat} {u : M} (hst : st ≤ 5) (hpc : u.pc = E.L + 88) (h26 : u.r 26 = E.L + 88) (h15 : u.r 15 = F)
    (hfl : leNat (u.mem.rd (F + 16) 8) = st) (hrv : leNat (u.mem.rd (F + 24) 8) = rv) : ∃ x, Runs E u x ∧ AtTab E F (if rv = 0 then 0 else st) rv u x := by
  have h1 := runs_block (E := E) (o := 88) (s := u) (ret_block E.bwx).1 hpc
  exact ⟨_, h1.trans (runs_jmp (o := 128) (a := 1) (ret_block E.bwx).2 rfl), attab_fold hE hst h26 h15 hfl hrv⟩

theorem AtTab.back {E : Env} {F st rv sc : Nat} {u x y : M} (a : AtTab E F sc rv u x) (hsc : (if rv = 0 then 0 else st) = sc) (h2 : y.pc = x.r 26) (h3 : y.r = x.r) (h4 : y.f = x.f)
    (h5 : y.mem = stored sc rv u) : Back E F st rv u y :=
  ⟨h2.trans a.r26, (congrFun h3 26).trans a.r26, (congrFun h3 15).trans a.r15, (congrFun h3 29).trans a.gp,
      fun k h1 h2 => (congrFun h3 k).trans (a.rest k h1 h2), h4.trans a.f, by rw [h5, hsc]⟩

theorem call_tail {E : Env} (hE : E.Ok) {F st rv : Nat} {u : M} (hst : st ≤ 5) (hpc : u.pc = E.L + 88) (h26 : u.r 26 = E.L + 88) (h15 : u.r 15 = F)
    (hfl : leNat (u.mem.rd (F + 16) 8) = st) (hrv : leNat (u.mem.rd (F + 24) 8) = rv) : ∃ v, Runs E u v ∧ Back E F st rv u v := by
  obtain ⟨x, hx, a⟩ := call_ret hE hst hpc h26 h15 hfl hrv
  obtain ⟨b0, b1, c1, b2, c2, b3, c3, b4, c4, b5, c5⟩ := st_block E.bwx
  have hst' : (if rv = 0 then 0 else st) ≤ 5 := by split <;> omega
  obtain ⟨sc, hsc⟩ : ∃ sc, (if rv = 0 then 0 else st) = sc := ⟨_, rfl⟩
  rw [hsc] at a hst'
  have fin : ∀ y, Runs E x y → y.pc = x.r 26 → y.r = x.r → y.f = x.f → y.mem = stored sc rv u → ∃ v, Runs E u v ∧ Back E F st rv u v := by
    intro y h1 h2 h3 h4 h5
    exact ⟨y, hx.trans h1, a.back hsc h2 h3 h4 h5⟩
  have hpc := a.pc
  rcases (show sc = 0 ∨ sc = 1 ∨ sc = 2 ∨ sc = 3 ∨ sc = 4 ∨ sc = 5 by omega) with rfl | rfl | rfl | rfl | rfl | rfl
  · exact fin _ (runs_ret (o := 144) b0 hpc) rfl rfl rfl a.mem
  · refine fin _ ((runs_block (o := 160) b1 hpc).trans (runs_ret (o := 164) c1 rfl)) ?_ ?_ ?_ ?_ <;> simp [exec, stored, a.mem, a.rv, a.r0]
  · refine fin _ ((runs_block (o := 176) b2 hpc).trans (runs_ret (o := 180) c2 rfl)) ?_ ?_ ?_ ?_ <;> simp [exec, stored, a.mem, a.rv, a.f]
  · refine fin _ ((runs_block (o := 192) b3 hpc).trans (runs_ret (o := 196) c3 rfl)) ?_ ?_ ?_ ?_ <;> simp [exec, stored, a.mem, a.rv, a.f]
  · refine fin _ ((runs_block (o := 208) b4 hpc).trans (runs_ret (o := 216) c4 rfl)) ?_ ?_ ?_ ?_ <;> simp [exec, stored, a.mem, a.rv, a.f]
  · refine fin _ ((runs_block (o := 224) b5 hpc).trans (runs_ret (o := 232) c5 rfl)) ?_ ?_ ?_ ?_ <;> simp [exec, stored, a.mem, a.rv, a.f]

end Verif.Alpha.Asm
