import Verif.Alpha.AsmCall

/-! `ffi_closure_osf` and `ffi_go_closure_osf`. -/
namespace Verif.Alpha.Asm
open Verif Verif.Alpha Verif.Spec.Alpha

/-- Memory when `ffi_closure_osf_inner` is called: the frame is at `b`. -/
def frameMem (s : M) (b : Nat) : Mem :=
  let m := s.mem.wr b (leBytes 8 (s.r 26))
  let m := ((m.wr (b + 80) (leBytes 8 (s.r 16))).wr (b + 88) (leBytes 8 (s.r 17))).wr (b + 96) (leBytes 8 (s.r 18))
  let m := ((m.wr (b + 104) (leBytes 8 (s.r 19))).wr (b + 112) (leBytes 8 (s.r 20))).wr (b + 120) (leBytes 8 (s.r 21))
  let m := ((m.wr (b + 32) (leBytes 8 (s.f 16))).wr (b + 40) (leBytes 8 (s.f 17))).wr (b + 48) (leBytes 8 (s.f 18))
  ((m.wr (b + 56) (leBytes 8 (s.f 19))).wr (b + 64) (leBytes 8 (s.f 20))).wr (b + 72) (leBytes 8 (s.f 21))

theorem frameMem_out (s : M) (b : Nat) {x : Nat} (h : x < b ∨ b + 128 ≤ x) : frameMem s b x = s.mem x := by
  simp only [frameMem]
  repeat rw [Mem.wr_out _ _ _ _ (by rw [leBytes_length]; omega)]

theorem frameMem_rd (s : M) (b : Nat) {a n : Nat} (h : a + n ≤ b ∨ b + 128 ≤ a) : (frameMem s b).rd a n = s.mem.rd a n :=
  Mem.rd_congr fun i hi => frameMem_out s b (by omega)

theorem frameMem_ra (s : M) (b : Nat) : (frameMem s b).rd b 8 = leBytes 8 (s.r 26) := by
  simp only [frameMem]
  repeat rw [Mem.rd_wr_disj _ _ _ _ _ (by rw [leBytes_length]; omega)]
  exact wr_rd _ _ (leBytes_length _ _)

theorem frameMem_int (s : M) (b : Nat) {k : Nat} (hk : k < 6) : (frameMem s b).rd (b + 80 + 8 * k) 8 = leBytes 8 (s.r (16 + k)) := by
  rcases k with _ | _ | _ | _ | _ | _ | k
  all_goals first
    | omega
    | (simp only [frameMem]
       repeat rw [Mem.rd_wr_disj _ _ _ _ _ (by rw [leBytes_length]; omega)]
       exact wr_rd _ _ (leBytes_length _ _))

theorem frameMem_fp (s : M) (b : Nat) {k : Nat} (hk : k < 6) : (frameMem s b).rd (b + 32 + 8 * k) 8 = leBytes 8 (s.f (16 + k)) := by
  rcases k with _ | _ | _ | _ | _ | _ | k
  all_goals first
    | omega
    | (simp only [frameMem]
       repeat rw [Mem.rd_wr_disj _ _ _ _ _ (by rw [leBytes_length]; omega)]
       exact wr_rd _ _ (leBytes_length _ _))

/-- `ffi_closure_osf_inner` is entered; `cif`, `fn`, `ud` are its first arguments. -/
structure AtInner (E : Env) (s t : M) (cif fn ud : Nat) : Prop where
  pc : t.pc = E.inner
  pv : t.r 27 = E.inner
  gp : t.r 29 = E.gp
  cif : t.r 16 = cif
  fn : t.r 17 = fn
  ud : t.r 18 = ud
  rvalue : t.r 19 = s.r 30 - 128 + 16
  argp : t.r 20 = s.r 30 - 128 + 80
  ra : t.r 26 = E.L + 380
  sp : t.r 30 = s.r 30 - 128
  rest : ∀ k, 9 ≤ k → k ≤ 15 → t.r k = s.r k
  f : t.f = s.f
  mem : t.mem = frameMem s (s.r 30 - 128)

/-- The instructions of the entry points, and those common to both. -/
def open3 (l : Lbl) : List Ins := [.gpHi l 27, .gpLo l, .subi 30 128]
def loadC : List Ins := [.stq 16 80 30, .stq 17 88 30, .stq 18 96 30, .ldq 16 24 1, .ldq 17 32 1, .ldq 18 40 1]
def loadG : List Ins := [.stq 16 80 30, .stq 17 88 30, .stq 18 96 30, .ldq 16 8 1, .ldq 17 16 1, .mov 1 18]
def doIns : List Ins := [.stq 19 104 30, .stq 20 112 30, .stq 21 120 30, .stt 16 32 30, .stt 17 40 30, .stt 18 48 30, .stt 19 56 30, .stt 20 64 30, .stt 21 72 30,
      .lda 19 16 30, .lda 20 80 30, .ldInner]

theorem closure_blocks (b : Bool) :
    block b 288 (open3 .closure ++ [Ins.stq 26 0 30] ++ loadC) = true ∧
    block b 240 (open3 .goClosure ++ [Ins.stq 26 0 30] ++ loadG) = true ∧ fetch b 280 = some (.br .doClosure) ∧
    block b 328 doIns = true ∧ fetch b 376 = some .jsr := by
  revert b; decide +kernel

/-- Before the common part: registers are replaced, four stores are made. -/
structure AtDo (E : Env) (s t : M) (cif fn ud : Nat) : Prop where
  pc : t.pc = E.L + 328
  gp : t.r 29 = E.gp
  cif : t.r 16 = cif
  fn : t.r 17 = fn
  ud : t.r 18 = ud
  sp : t.r 30 = s.r 30 - 128
  rest : ∀ k, (9 ≤ k → k ≤ 15 → t.r k = s.r k) ∧ (19 ≤ k → k ≤ 21 → t.r k = s.r k)
  f : t.f = s.f
  mem : t.mem = (((s.mem.wr (s.r 30 - 128) (leBytes 8 (s.r 26))).wr (s.r 30 - 128 + 80) (leBytes 8 (s.r 16))).wr (s.r 30 - 128 + 88) (leBytes 8 (s.r 17))).wr
    (s.r 30 - 128 + 96) (leBytes 8 (s.r 18))

theorem head4_rd (s : M) (b : Nat) {a n : Nat} (h : a + n ≤ b ∨ b + 128 ≤ a) :
    ((((s.mem.wr b (leBytes 8 (s.r 26))).wr (b + 80) (leBytes 8 (s.r 16))).wr (b + 88) (leBytes 8 (s.r 17))).wr (b + 96) (leBytes 8 (s.r 18))).rd a n = s.mem.rd a n := by
  repeat rw [Mem.rd_wr_disj _ _ _ _ _ (by rw [leBytes_length]; omega)]

theorem closure_fold {E : Env} (hE : E.Ok) {s : M} (hpv : s.r 27 = E.L + 288) (hsp : 128 ≤ s.r 30)
    (hc : s.r 1 + 48 ≤ s.r 30 - 128 ∨ s.r 30 ≤ s.r 1) :
    AtDo E s { (open3 .closure ++ [Ins.stq 26 0 30] ++ loadC).foldl (exec E) s with pc := E.L + 328 }
      (leNat (s.mem.rd (s.r 1 + 24) 8)) (leNat (s.mem.rd (s.r 1 + 32) 8)) (leNat (s.mem.rd (s.r 1 + 40) 8)) := by
  have hg := hE.gp .closure
  rw [(off_eq E.bwx).2.2.2.2.1] at hg
  have rd4 : ∀ k, k < 3 → _ := fun k (hk : k < 3) => head4_rd s (s.r 30 - 128) (a := s.r 1 + (24 + 8 * k)) (n := 8) (by omega)
  have r0 := rd4 0 (by omega)
  have r1 := rd4 1 (by omega)
  have r2 := rd4 2 (by omega)
  constructor
  · rfl
  · simp only [open3, loadC, loadG, List.cons_append, List.nil_append, exec, upd, List.foldl, hpv, reduceIte, Nat.reduceEqDiff]; omega
  · simp only [open3, loadC, loadG, List.cons_append, List.nil_append, exec, upd, List.foldl, reduceIte, Nat.reduceEqDiff, Nat.add_zero]; exact congrArg leNat r0
  · simp only [open3, loadC, loadG, List.cons_append, List.nil_append, exec, upd, List.foldl, reduceIte, Nat.reduceEqDiff, Nat.add_zero]; exact congrArg leNat r1
  · simp only [open3, loadC, loadG, List.cons_append, List.nil_append, exec, upd, List.foldl, reduceIte, Nat.reduceEqDiff, Nat.add_zero]; exact congrArg leNat r2
  · simp [open3, loadC, loadG, exec, upd]
  · intro k
    have e : ∀ j, (j = 1 ∨ 16 ≤ j ∧ j ≤ 18 ∨ 22 ≤ j) → (9 ≤ k ∧ k ≤ 15 ∨ 19 ≤ k ∧ k ≤ 21) → k ≠ j := by omega
    constructor <;> intro h1 h2 <;>
    · have e := fun j hj => e j hj (by omega)
      simp [open3, loadC, loadG, exec, upd, e 29 (by omega), e 30 (by omega), e 16 (by omega), e 17 (by omega), e 18 (by omega)]
  · simp [open3, loadC, loadG, exec]
  · simp [open3, loadC, loadG, exec, upd]

theorem closure_start {E : Env} (hE : E.Ok) {s : M} (hpc : s.pc = E.L + 288) (hpv : s.r 27 = E.L + 288) (hsp : 128 ≤ s.r 30)
    (hc : s.r 1 + 48 ≤ s.r 30 - 128 ∨ s.r 30 ≤ s.r 1) :
    ∃ t, Runs E s t ∧ AtDo E s t (leNat (s.mem.rd (s.r 1 + 24) 8)) (leNat (s.mem.rd (s.r 1 + 32) 8)) (leNat (s.mem.rd (s.r 1 + 40) 8)) :=
  ⟨_, runs_block (o := 288) (closure_blocks E.bwx).1 hpc, closure_fold hE hpv hsp hc⟩

theorem go_fold {E : Env} (hE : E.Ok) {s : M} (hpv : s.r 27 = E.L + 240) (hsp : 128 ≤ s.r 30)
    (hc : s.r 1 + 24 ≤ s.r 30 - 128 ∨ s.r 30 ≤ s.r 1) :
    AtDo E s { (open3 .goClosure ++ [Ins.stq 26 0 30] ++ loadG).foldl (exec E) s with pc := E.L + off E.bwx .doClosure }
      (leNat (s.mem.rd (s.r 1 + 8) 8)) (leNat (s.mem.rd (s.r 1 + 16) 8)) (s.r 1) := by
  have hg := hE.gp .goClosure
  rw [(off_eq E.bwx).2.2.2.1] at hg
  have r0 := head4_rd s (s.r 30 - 128) (a := s.r 1 + 8) (n := 8) (by omega)
  have r1 := head4_rd s (s.r 30 - 128) (a := s.r 1 + 16) (n := 8) (by omega)
  constructor
  · show E.L + off E.bwx .doClosure = _
    rw [(off_eq E.bwx).2.2.2.2.2.1]
  · simp only [open3, loadC, loadG, List.cons_append, List.nil_append, exec, upd, List.foldl, hpv, reduceIte, Nat.reduceEqDiff]; omega
  · simp only [open3, loadC, loadG, List.cons_append, List.nil_append, exec, upd, List.foldl, reduceIte, Nat.reduceEqDiff, Nat.add_zero]; exact congrArg leNat r0
  · simp only [open3, loadC, loadG, List.cons_append, List.nil_append, exec, upd, List.foldl, reduceIte, Nat.reduceEqDiff, Nat.add_zero]; exact congrArg leNat r1
  · simp [open3, loadC, loadG, exec, upd]
  · simp [open3, loadC, loadG, exec, upd]
  · intro k
    have e : ∀ j, (j = 1 ∨ 16 ≤ j ∧ j ≤ 18 ∨ 22 ≤ j) → (9 ≤ k ∧ k ≤ 15 ∨ 19 ≤ k ∧ k ≤ 21) → k ≠ j := by omega
    constructor <;> intro h1 h2 <;>
    · have e := fun j hj => e j hj (by omega)
      simp [open3, loadC, loadG, exec, upd, e 29 (by omega), e 30 (by omega), e 16 (by omega), e 17 (by omega), e 18 (by omega)]
  · simp [open3, loadC, loadG, exec]
  · simp [open3, loadC, loadG, exec, upd]

theorem go_start {E : Env} (hE : E.Ok) {s : M} (hpc : s.pc = E.L + 240) (hpv : s.r 27 = E.L + 240) (hsp : 128 ≤ s.r 30)
    (hc : s.r 1 + 24 ≤ s.r 30 - 128 ∨ s.r 30 ≤ s.r 1) :
    ∃ t, Runs E s t ∧ AtDo E s t (leNat (s.mem.rd (s.r 1 + 8) 8)) (leNat (s.mem.rd (s.r 1 + 16) 8)) (s.r 1) := by
  have h1 := runs_block (o := 240) (closure_blocks E.bwx).2.1 hpc
  have h3 := go_fold hE hpv hsp hc
  generalize (open3 .goClosure ++ [Ins.stq 26 0 30] ++ loadG).foldl (exec E) s = x at h1 h3
  exact ⟨_, h1.trans (runs_br (o := 280) (closure_blocks E.bwx).2.2.1 rfl), h3⟩

theorem inner_fold {E : Env} {s t : M} {cif fn ud : Nat} (a : AtDo E s t cif fn ud) (hsp : 128 ≤ s.r 30)
    (hs : E.slot + 8 ≤ s.r 30 - 128 ∨ s.r 30 ≤ E.slot) (hg : leNat (s.mem.rd E.slot 8) = E.inner) :
    AtInner E s (afterJsr { doIns.foldl (exec E) t with pc := E.L + 376 }) cif fn ud := by
  have hr := frameMem_rd s (s.r 30 - 128) (a := E.slot) (n := 8) (by omega)
  have r19 := (a.rest 19).2 (by omega) (by omega)
  have r20 := (a.rest 20).2 (by omega) (by omega)
  have r21 := (a.rest 21).2 (by omega) (by omega)
  have h27 : leNat ((frameMem s (s.r 30 - 128)).rd ((E.gp + E.got) % 2 ^ 64) 8) = E.inner := by
    rw [show (E.gp + E.got) % 2 ^ 64 = E.slot from rfl, hr, hg]
  simp only [frameMem] at h27
  constructor
  · simp only [afterJsr, doIns, exec, upd, List.foldl, reduceIte, Nat.reduceEqDiff, a.sp, a.gp, a.mem, a.f, r19, r20, r21]; exact h27
  · simp only [afterJsr, doIns, exec, upd, List.foldl, reduceIte, Nat.reduceEqDiff, a.sp, a.gp, a.mem, a.f, r19, r20, r21]; exact h27
  · simp [afterJsr, doIns, exec, upd, a.gp]
  · simp [afterJsr, doIns, exec, upd, a.cif]
  · simp [afterJsr, doIns, exec, upd, a.fn]
  · simp [afterJsr, doIns, exec, upd, a.ud]
  · simp [afterJsr, doIns, exec, upd, a.sp]
  · simp [afterJsr, doIns, exec, upd, a.sp]
  · simp [afterJsr, doIns, exec, upd]
  · simp [afterJsr, doIns, exec, upd, a.sp]
  · intro k h1 h2
    have e : ∀ j, 16 ≤ j → k ≠ j := by omega
    simp [afterJsr, doIns, exec, upd, e 19, e 20, e 27, e 26, (a.rest k).1 h1 h2]
  · simp [afterJsr, doIns, exec, a.f]
  · simp [afterJsr, doIns, exec, upd, frameMem, a.sp, a.mem, a.f, r19, r20, r21]

theorem do_inner {E : Env} {s t : M} {cif fn ud : Nat} (a : AtDo E s t cif fn ud) (hsp : 128 ≤ s.r 30)
    (hs : E.slot + 8 ≤ s.r 30 - 128 ∨ s.r 30 ≤ E.slot) (hg : leNat (s.mem.rd E.slot 8) = E.inner) :
    ∃ w, Runs E t w ∧ AtInner E s w cif fn ud :=
  ⟨_, (runs_block (o := 328) (closure_blocks E.bwx).2.2.2.1 a.pc).trans (runs_jsr (o := 376) (closure_blocks E.bwx).2.2.2.2 rfl), inner_fold a hsp hs hg⟩

/-! ## The way back -/

/-- $0, $f0 and $f1 when the closure returns, by the code ALPHA_LD_*: `m` is memory, `b` the frame. -/
def ld0 (code b : Nat) (m : Mem) : Nat :=
  let x := leNat (m.rd (b + 16) 8)
  match code with
  | 2 => sext 4 (x % 2 ^ 32)
  | 3 => x % 2 ^ 16
  | 4 => sext 2 (x % 2 ^ 16)
  | 5 => x % 2 ^ 8
  | 6 => sext 1 (x % 2 ^ 8)
  | _ => x

def ldf (code b k : Nat) (m : Mem) (f : Nat → Nat) : Nat :=
  match code, k with
  | 7, 0 => Spec.Alpha.lds (leNat (m.rd (b + 16) 4))
  | 8, 0 => leNat (m.rd (b + 16) 8)
  | 9, 0 => Spec.Alpha.lds (leNat (m.rd (b + 16) 4))
  | 9, 1 => Spec.Alpha.lds (leNat (m.rd (b + 20) 4))
  | 10, 0 => leNat (m.rd (b + 16) 8)
  | 10, 1 => leNat (m.rd (b + 24) 8)
  | _, k => f k

/-- Back in the caller of the closure. -/
structure CBack (E : Env) (code : Nat) (u v : M) : Prop where
  pc : v.pc = leNat (u.mem.rd (u.r 30) 8)
  r26 : v.r 26 = leNat (u.mem.rd (u.r 30) 8)
  sp : v.r 30 = u.r 30 + 128
  gp : v.r 29 = E.gp
  rest : ∀ k, 9 ≤ k → k ≤ 15 → v.r k = u.r k
  r0 : v.r 0 = ld0 code (u.r 30) u.mem
  f : ∀ k, v.f k = ldf code (u.r 30) k u.mem u.f
  mem : v.mem = u.mem

/-- The instructions after the call. -/
def back7 : List Ins := [.gpHi .innerRet 26, .ldaTab 2 .ldTab .innerRet 26, .s4addi 0 1, .ldq 0 16 30, .s4addq 1 2 1, .gpLo .innerRet, .ldq 26 0 30]

theorem inner_block (b : Bool) : block b 380 back7 = true ∧ fetch b 408 = some (.jmp 1) := by
  revert b; decide +kernel

/-- The instructions of an entry of the table. -/
def entry (b : Bool) : Nat → List Ins
  | 2 => [.sextl 0]
  | 3 => [.zapnot3 0]
  | 4 => if b then [.sextw 0] else [.sll 0 48, .sra 0 48]
  | 5 => [.andff 0]
  | 6 => if b then [.sextb 0] else [.sll 0 56, .sra 0 56]
  | 7 => [.lds 0 16 30]
  | 8 => [.ldt 0 16 30]
  | 9 => [.lds 0 16 30, .lds 1 20 30]
  | 10 => [.ldt 0 16 30, .ldt 1 24 30]
  | _ => []

theorem entry_block (b : Bool) : ∀ k, k < 11 → block b (416 + 16 * k) (entry b k ++ [.addi 30 128]) = true ∧
    fetch b (416 + 16 * k + 4 * (entry b k ++ [Ins.addi 30 128]).length) = some .ret := by
  revert b; decide +kernel

theorem sra_sll48 {x : Nat} : sra (x * 2 ^ 48 % 2 ^ 64) 48 = sext 2 (x % 2 ^ 16) := by
  have e : x * 2 ^ 48 % 2 ^ 64 = x % 2 ^ 16 * 2 ^ 48 := by omega
  rw [e]
  unfold sra sext
  have h := Nat.mod_lt x (show 0 < 2 ^ 16 by decide)
  generalize x % 2 ^ 16 = y at *
  rw [Nat.mul_div_cancel _ (by decide)]
  by_cases hy : 2 ^ 15 ≤ y
  · rw [if_pos (by omega), if_pos (by simpa using hy)]
    norm_num
  · rw [if_neg (by omega), if_neg (by simpa using hy)]

theorem sra_sll56 {x : Nat} : sra (x * 2 ^ 56 % 2 ^ 64) 56 = sext 1 (x % 2 ^ 8) := by
  have e : x * 2 ^ 56 % 2 ^ 64 = x % 2 ^ 8 * 2 ^ 56 := by omega
  rw [e]
  unfold sra sext
  have h := Nat.mod_lt x (show 0 < 2 ^ 8 by decide)
  generalize x % 2 ^ 8 = y at *
  rw [Nat.mul_div_cancel _ (by decide)]
  by_cases hy : 2 ^ 7 ≤ y
  · rw [if_pos (by omega), if_pos (by simpa using hy)]
    norm_num
  · rw [if_neg (by omega), if_neg (by simpa using hy)]

/-- At the table of loads. -/
structure AtLd (E : Env) (code : Nat) (u x : M) : Prop where
  pc : x.pc = E.L + (416 + 16 * code)
  r26 : x.r 26 = leNat (u.mem.rd (u.r 30) 8)
  sp : x.r 30 = u.r 30
  gp : x.r 29 = E.gp
  r0 : x.r 0 = leNat (u.mem.rd (u.r 30 + 16) 8)
  rest : ∀ k, 9 ≤ k → k ≤ 15 → x.r k = u.r k
  f : x.f = u.f
  mem : x.mem = u.mem

theorem atld_fold {E : Env} (hE : E.Ok) {code : Nat} {u : M} (hc : code < 11) (h26 : u.r 26 = E.L + 380) (h0 : u.r 0 = code) :
    AtLd E code u (afterJmp { back7.foldl (exec E) u with pc := E.L + 408 }) := by
  have hg := hE.gp .innerRet
  have hb := hE.base
  obtain ⟨-, -, -, -, -, -, o1, o2⟩ := off_eq E.bwx
  rw [o1] at hg
  constructor
  · simp only [afterJmp, back7, exec, upd, List.foldl, h26, h0, o1, o2, reduceIte, Nat.reduceEqDiff]; omega
  · simp [afterJmp, back7, exec, upd]
  · simp [afterJmp, back7, exec, upd]
  · simp only [afterJmp, back7, exec, upd, List.foldl, h26, reduceIte, Nat.reduceEqDiff]; omega
  · simp [afterJmp, back7, exec, upd]
  · intro k h1 h2
    have e : ∀ j, j < 9 ∨ 16 ≤ j → k ≠ j := by omega
    simp [afterJmp, back7, exec, upd, e 0, e 1, e 2, e 26, e 29]
  · simp [afterJmp, back7, exec]
  · simp [afterJmp, back7, exec]

/-- The state after `ret`. -/
def afterRet (s : M) : M := { s with pc := s.r 26 }

theorem cback_fold {E : Env} {code : Nat} {u x : M} (hc : code < 11) (a : AtLd E code u x) (p : Nat) :
    CBack E code u (afterRet { (entry E.bwx code ++ [Ins.addi 30 128]).foldl (exec E) x with pc := p }) := by
  obtain ⟨-, x26, x30, x29, x0, xr, xf, xm⟩ := a
  have hk : ∀ {k}, 9 ≤ k → k ≤ 15 → k ≠ 0 ∧ k ≠ 30 := by omega
  rcases (show code = 0 ∨ code = 1 ∨ code = 2 ∨ code = 3 ∨ code = 4 ∨ code = 5 ∨ code = 6 ∨ code = 7 ∨ code = 8 ∨ code = 9 ∨ code = 10 by omega) with
    rfl | rfl | rfl | rfl | rfl | rfl | rfl | rfl | rfl | rfl | rfl
  case inr.inr.inr.inr.inl =>
    rcases hbw : E.bwx with _ | _ <;>
    exact ⟨by simp [afterRet, exec, upd, entry, x26], by simp [afterRet, exec, upd, entry, x26], by simp [afterRet, exec, upd, entry, x30], by simp [afterRet, exec, upd, entry, x29],
      fun k h1 h2 => by simp [afterRet, exec, upd, entry, hk h1 h2, xr k h1 h2],
      by first
        | (simp only [afterRet, exec, upd, entry, x0, ld0, List.foldl, List.cons_append, List.nil_append, reduceIte, Nat.reduceEqDiff, Bool.false_eq_true]; done)
        | (simp only [afterRet, exec, upd, entry, x0, ld0, List.foldl, List.cons_append, List.nil_append, reduceIte, Nat.reduceEqDiff, Bool.false_eq_true]; exact sra_sll48),
      fun k => by simp [afterRet, exec, entry, ldf, xf], by simp [afterRet, exec, entry, xm]⟩
  case inr.inr.inr.inr.inr.inr.inl =>
    rcases hbw : E.bwx with _ | _ <;>
    exact ⟨by simp [afterRet, exec, upd, entry, x26], by simp [afterRet, exec, upd, entry, x26], by simp [afterRet, exec, upd, entry, x30], by simp [afterRet, exec, upd, entry, x29],
      fun k h1 h2 => by simp [afterRet, exec, upd, entry, hk h1 h2, xr k h1 h2],
      by first
        | (simp only [afterRet, exec, upd, entry, x0, ld0, List.foldl, List.cons_append, List.nil_append, reduceIte, Nat.reduceEqDiff, Bool.false_eq_true]; done)
        | (simp only [afterRet, exec, upd, entry, x0, ld0, List.foldl, List.cons_append, List.nil_append, reduceIte, Nat.reduceEqDiff, Bool.false_eq_true]; exact sra_sll56),
      fun k => by simp [afterRet, exec, entry, ldf, xf], by simp [afterRet, exec, entry, xm]⟩
  all_goals
    exact ⟨by simp [afterRet, exec, upd, entry, x26], by simp [afterRet, exec, upd, entry, x26], by simp [afterRet, exec, upd, entry, x30], by simp [afterRet, exec, upd, entry, x29],
      fun k h1 h2 => by simp [afterRet, exec, upd, entry, hk h1 h2, xr k h1 h2],
      by simp [afterRet, exec, upd, entry, x0, ld0],
      fun k => by rcases k with _ | _ | k <;> simp [afterRet, exec, upd, entry, ldf, xf, x30, xm],
      by simp [afterRet, exec, entry, xm]⟩

theorem closure_tail {E : Env} (hE : E.Ok) {code : Nat} {u : M} (hc : code < 11) (hpc : u.pc = E.L + 380) (h26 : u.r 26 = E.L + 380) (h0 : u.r 0 = code) :
    ∃ v, Runs E u v ∧ CBack E code u v := by
  have a := atld_fold hE hc h26 h0
  obtain ⟨b1, b2⟩ := entry_block E.bwx code hc
  exact ⟨_, ((runs_block (o := 380) (inner_block E.bwx).1 hpc).trans (runs_jmp (o := 408) (inner_block E.bwx).2 rfl)).trans
    ((runs_block b1 a.pc).trans (runs_ret b2 (by simp only []; omega))), cback_fold hc a _⟩

end Verif.Alpha.Asm
