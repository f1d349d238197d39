import Verif.LoongArch.Asm

namespace Verif.LA.Asm
open Verif RV RV.Asm

/-- Consecutive loads of integer registers. -/
theorem run_larg {c : Cfg} {off : Nat → Int} {A : Nat → Nat} {b : Nat} {s : AState} (hb : b < 4 ∨ 12 ≤ b) :
    ∀ n, n ≤ 8 → (∀ k, k < n → ea c (s.x b) (off k) = A k) →
    run c (each n fun k => .larg (a0 + k) (off k) b) s =
      { s with x := fun r => if 4 ≤ r ∧ r < 4 + n then leNat (s.mem.rd (A (r - 4)) c.w) else s.x r }
  | 0, _, _ => by
    show s = _
    have : (fun r => if 4 ≤ r ∧ r < 4 + 0 then leNat (s.mem.rd (A (r - 4)) c.w) else s.x r) = s.x := by
      funext r; rw [if_neg (by omega)]
    rw [this]
  | n + 1, hn, h => by
    rw [each_succ, run_append, run_larg hb n (by omega) fun k hk => h k (by omega), run_cons, run_nil]
    simp only [exec]
    rw [if_neg (by omega), h n (by omega)]
    congr 1
    funext r
    unfold upd a0
    by_cases hr : r = 4 + n
    · rw [if_pos hr, if_pos (by omega), hr, Nat.add_sub_cancel_left]
    · rw [if_neg hr]
      dsimp only
      by_cases h' : 4 ≤ r ∧ r < 4 + n
      · rw [if_pos h', if_pos (by omega)]
      · rw [if_neg h', if_neg (by omega)]

theorem run_flarg {c : Cfg} {off : Nat → Int} {A : Nat → Nat} {b : Nat} {s : AState} :
    ∀ n, (∀ k, k < n → ea c (s.x b) (off k) = A k) →
    run c (each n fun k => .flarg (fa0 + k) (off k) b) s =
      { s with f := fun r => if 0 ≤ r ∧ r < 0 + n then s.mem.rd (A (r - 0)) c.fl else s.f r }
  | 0, _ => by
    show s = _
    have : (fun r => if 0 ≤ r ∧ r < 0 + 0 then s.mem.rd (A (r - 0)) c.fl else s.f r) = s.f := by
      funext r; rw [if_neg (by omega)]
    rw [this]
  | n + 1, h => by
    rw [each_succ, run_append, run_flarg n fun k hk => h k (by omega), run_cons, run_nil]
    simp only [exec]
    rw [h n (by omega)]
    congr 1
    funext r
    unfold upd fa0
    by_cases hr : r = 0 + n
    · rw [if_pos hr, if_pos (by omega), hr, Nat.add_sub_cancel_left]
    · rw [if_neg hr]
      dsimp only
      by_cases h' : 0 ≤ r ∧ r < 0 + n
      · rw [if_pos h', if_pos (by omega)]
      · rw [if_neg h', if_neg (by omega)]

theorem run_sarg {c : Cfg} {off : Nat → Int} {A : Nat} {b : Nat} {s : AState} :
    ∀ n, (∀ k, k < n → ea c (s.x b) (off k) = A + c.w * k) →
    run c (each n fun k => .sarg (a0 + k) (off k) b) s =
      { s with mem := saveRegs A c.w (fun k => leBytes c.w (s.x (a0 + k))) n s.mem }
  | 0, _ => rfl
  | n + 1, h => by
    rw [each_succ, run_append, run_sarg n fun k hk => h k (by omega), run_cons, run_nil]
    simp only [exec, saveRegs]
    rw [h n (by omega)]

theorem run_fsarg {c : Cfg} {off : Nat → Int} {A : Nat} {b : Nat} {s : AState} :
    ∀ n, (∀ k, k < n → ea c (s.x b) (off k) = A + c.fl * k) →
    run c (each n fun k => .fsarg (fa0 + k) (off k) b) s =
      { s with mem := saveRegs A c.fl (fun k => s.f (fa0 + k)) n s.mem }
  | 0, _ => rfl
  | n + 1, h => by
    rw [each_succ, run_append, run_fsarg n fun k hk => h k (by omega), run_cons, run_nil]
    simp only [exec, saveRegs]
    rw [h n (by omega)]

/-- The frame of a closure: what is stored on entry. -/
def frameMem (c : Cfg) (s : AState) : Mem :=
  let ctx := s.x sp - ctxSize c
  saveRegs (aAddr c ctx 0) c.w (fun k => leBytes c.w (s.x (a0 + k))) 8
    (saveRegs (faAddr c ctx 0) c.fl (fun k => s.f (fa0 + k)) 8
      (s.mem.wr (s.x sp - 2 * c.w) (leBytes c.w (s.x fp) ++ leBytes c.w (s.x ra))))

theorem closureSave_run {c : Cfg} (hw : c.w = 4 ∨ c.w = 8) {s : AState} (hf : ∀ k, (s.f k).length = c.fl)
    (hs : ctxSize c ≤ s.x sp) (hs' : s.x sp < 256 ^ c.w) :
    run c (closureSave c) s =
      { x := upd (upd s.x sp (s.x sp - ctxSize c)) fp (s.x sp), f := s.f, mem := frameMem c s } := by
  have hF : ctxSize c = 8 * c.fl + 8 * c.w + 16 := rfl
  obtain ⟨P, hP⟩ : ∃ P, s.x sp - ctxSize c = P := ⟨_, rfl⟩
  unfold closureSave
  rw [run_append, run_append, run_cons, run_cons, run_cons, run_cons, run_nil]
  have e1 : exec c s (.addi sp sp (-(ctxSize c : Int))) = { s with x := upd s.x sp P } := by
    simp only [exec]
    rw [ea_eq (n := P) (by omega) (by omega)]
  rw [e1]
  have e2 : exec c { s with x := upd s.x sp P } (.sarg fp (ctxSize c - 2 * c.w) sp) =
      { s with x := upd s.x sp P, mem := s.mem.wr (s.x sp - 2 * c.w) (leBytes c.w (s.x fp)) } := by
    have hb : upd s.x sp P sp = P := rfl
    have hb2 : upd s.x sp P fp = s.x fp := rfl
    simp only [exec, hb, hb2]
    rw [ea_eq (n := s.x sp - 2 * c.w) (by omega) (by omega)]
  rw [e2]
  have e3 : exec c { s with x := upd s.x sp P, mem := s.mem.wr (s.x sp - 2 * c.w) (leBytes c.w (s.x fp)) }
      (.sarg ra (ctxSize c - 1 * c.w) sp) =
      { s with x := upd s.x sp P, mem := s.mem.wr (s.x sp - 2 * c.w) (leBytes c.w (s.x fp) ++ leBytes c.w (s.x ra)) } := by
    have hb : upd s.x sp P sp = P := rfl
    have hb2 : upd s.x sp P ra = s.x ra := rfl
    simp only [exec, hb, hb2]
    rw [ea_eq (n := s.x sp - 2 * c.w + c.w) (by omega) (by omega), wr_append, leBytes_length]
  rw [e3]
  have e4 : exec c { s with x := upd s.x sp P, mem := s.mem.wr (s.x sp - 2 * c.w) (leBytes c.w (s.x fp) ++ leBytes c.w (s.x ra)) }
      (.addi fp sp (ctxSize c)) =
      { s with x := upd (upd s.x sp P) fp (s.x sp), mem := s.mem.wr (s.x sp - 2 * c.w) (leBytes c.w (s.x fp) ++ leBytes c.w (s.x ra)) } := by
    have hb : upd s.x sp P sp = P := rfl
    simp only [exec, hb]
    rw [ea_eq (n := s.x sp) (by omega) hs']
  rw [e4]
  have hsp : upd (upd s.x sp P) fp (s.x sp) sp = P := rfl
  have hfl : run c (if c.fl = 0 then [] else each 8 fun k => .fsarg (fa0 + k) (k * c.fl) sp)
      { s with x := upd (upd s.x sp P) fp (s.x sp), mem := s.mem.wr (s.x sp - 2 * c.w) (leBytes c.w (s.x fp) ++ leBytes c.w (s.x ra)) } =
      { s with
        x := upd (upd s.x sp P) fp (s.x sp)
        mem := saveRegs (faAddr c P 0) c.fl (fun k => s.f (fa0 + k)) 8
          (s.mem.wr (s.x sp - 2 * c.w) (leBytes c.w (s.x fp) ++ leBytes c.w (s.x ra))) } := by
    apply run_if_fl
    · intro _
      apply run_fsarg (A := faAddr c P 0)
      intro k hk
      have hm : c.fl * k ≤ c.fl * 8 := Nat.mul_le_mul_left _ (by omega)
      dsimp only
      rw [hsp, ea_eq (n := P + c.fl * k) (by rw [Nat.mul_comm]; push_cast; rfl) (by omega)]
      simp [faAddr]
    · intro h0
      rw [h0, saveRegs_zero _ _ (fun k => List.eq_nil_of_length_eq_zero (by rw [hf, h0]))]
  rw [hfl, run_sarg (A := aAddr c P 0)]
  · unfold frameMem
    rw [hP]
    rfl
  · intro k hk
    have hm : c.w * k ≤ c.w * 8 := Nat.mul_le_mul_left _ (by omega)
    dsimp only
    rw [hsp, ea_eq (n := P + 8 * c.fl + c.w * k) (by push_cast; rw [Int.mul_comm (k : Int)]; omega) (by omega)]
    simp [aAddr]

/-- The end of a closure. -/
theorem closureOut_run {c : Cfg} (hw : c.w = 4 ∨ c.w = 8) {s : AState} {ctx : Nat} (hsp : s.x sp = ctx)
    (hs : ctx + ctxSize c < 256 ^ c.w) :
    ∃ t, run c (closureOut c) s = t ∧ t.mem = s.mem ∧ t.x sp = ctx + ctxSize c ∧
      t.x ra = leNat (s.mem.rd (ctx + ctxSize c - c.w) c.w) ∧ t.x fp = leNat (s.mem.rd (ctx + ctxSize c - 2 * c.w) c.w) ∧
      (∀ k, k < 2 → t.x (a0 + k) = leNat (s.mem.rd (aAddr c ctx k) c.w)) ∧
      (c.fl ≠ 0 → ∀ k, k < 2 → t.f (fa0 + k) = s.mem.rd (faAddr c ctx k) c.fl) ∧
      (∀ r, r ≠ ra → r ≠ sp → r ≠ fp → (r < 4 ∨ 6 ≤ r) → t.x r = s.x r) ∧
      ∀ r, (r < 0 ∨ 2 ≤ r) → t.f r = s.f r := by
  have hF : ctxSize c = 8 * c.fl + 8 * c.w + 16 := rfl
  refine ⟨_, rfl, ?_⟩
  unfold closureOut
  rw [run_append, run_append]
  have hfl : ∃ u, run c (if c.fl = 0 then [] else each 2 fun k => .flarg (fa0 + k) (k * c.fl) sp) s = u ∧ u.x = s.x ∧
      u.mem = s.mem ∧ (c.fl ≠ 0 → ∀ k, k < 2 → u.f (fa0 + k) = s.mem.rd (faAddr c ctx k) c.fl) ∧
      ∀ r, (r < 0 ∨ 2 ≤ r) → u.f r = s.f r := by
    by_cases h0 : c.fl = 0
    · rw [if_pos h0]
      exact ⟨_, rfl, rfl, rfl, fun h => absurd h0 h, fun _ _ => rfl⟩
    · rw [if_neg h0, run_flarg (A := fun k => faAddr c ctx k)]
      · refine ⟨_, rfl, rfl, rfl, fun _ k hk => ?_, fun r hr => ?_⟩
        · dsimp only
          unfold fa0
          rw [if_pos (by omega), Nat.add_sub_cancel_left]
        · dsimp only
          rw [if_neg (by omega)]
      · intro k hk
        have hm : c.fl * k ≤ c.fl * 8 := Nat.mul_le_mul_left _ (by omega)
        rw [hsp, ea_eq (n := ctx + c.fl * k) (by rw [Nat.mul_comm]; push_cast; rfl) (by omega)]
        rfl
  obtain ⟨u, hu, u1, u2, u3, u4⟩ := hfl
  rw [hu]
  have hur : ∀ r, u.x r = s.x r := fun r => by rw [u1]
  have hA : ∀ k : Nat, k < 2 → ea c (u.x sp) ((8 * c.fl + k * c.w : Int)) = aAddr c ctx k := by
    intro k hk
    have hm : c.w * k ≤ c.w * 8 := Nat.mul_le_mul_left _ (by omega)
    rw [hur, hsp, ea_eq (n := ctx + 8 * c.fl + c.w * k) (by push_cast; rw [Int.mul_comm (k : Int)]; omega) (by omega)]
    rfl
  rw [run_larg (A := fun k => aAddr c ctx k) (by decide) 2 (by omega) hA, run_cons, run_cons, run_cons, run_nil, u2]
  obtain ⟨x', hx'⟩ : ∃ x', x' = fun r => if 4 ≤ r ∧ r < 4 + 2 then leNat (s.mem.rd (aAddr c ctx (r - 4)) c.w) else u.x r :=
    ⟨_, rfl⟩
  rw [← hx']
  have hx : ∀ r, (r < 4 ∨ 6 ≤ r) → x' r = s.x r := by
    intro r hr
    rw [hx']
    dsimp only
    rw [if_neg (by omega), hur]
  have hxa : ∀ k, k < 2 → x' (4 + k) = leNat (s.mem.rd (aAddr c ctx k) c.w) := by
    intro k hk
    rw [hx']
    dsimp only
    rw [if_pos (by omega), Nat.add_sub_cancel_left]
  clear hx'
  have hsp' : x' sp = ctx := (hx _ (by decide)).trans hsp
  have e1 : exec c { x := x', f := u.f, mem := s.mem } (.larg ra (ctxSize c - 1 * c.w) sp) =
      { x := upd x' ra (leNat (s.mem.rd (ctx + ctxSize c - c.w) c.w)), f := u.f, mem := s.mem } := by
    simp only [exec, hsp']
    rw [ea_eq (n := ctx + ctxSize c - c.w) (by omega) (by omega)]
  rw [e1]
  obtain ⟨y, hy⟩ : ∃ y, y = upd x' ra (leNat (s.mem.rd (ctx + ctxSize c - c.w) c.w)) := ⟨_, rfl⟩
  have hsy : y sp = ctx := by rw [hy]; exact hsp'
  rw [← hy]
  have e2 : exec c { x := y, f := u.f, mem := s.mem } (.larg fp (ctxSize c - 2 * c.w) sp) =
      { x := upd y fp (leNat (s.mem.rd (ctx + ctxSize c - 2 * c.w) c.w)), f := u.f, mem := s.mem } := by
    simp only [exec, hsy]
    rw [ea_eq (n := ctx + ctxSize c - 2 * c.w) (by omega) (by omega)]
  rw [e2]
  have e3 : exec c { x := upd y fp (leNat (s.mem.rd (ctx + ctxSize c - 2 * c.w) c.w)), f := u.f, mem := s.mem }
      (.addi sp sp (ctxSize c)) =
      { x := upd (upd y fp (leNat (s.mem.rd (ctx + ctxSize c - 2 * c.w) c.w))) sp (ctx + ctxSize c), f := u.f, mem := s.mem } := by
    have hb : upd y fp (leNat (s.mem.rd (ctx + ctxSize c - 2 * c.w) c.w)) sp = ctx := hsy
    simp only [exec, hb]
    rw [ea_eq (n := ctx + ctxSize c) (by omega) hs]
  rw [e3]
  have hup : ∀ {x : Nat → Nat} {n v r : Nat}, r ≠ n → upd x n v r = x r := fun h => if_neg h
  refine ⟨rfl, rfl, ?_, rfl, ?_, u3, ?_, u4⟩
  · rw [hy]; rfl
  · intro k hk
    dsimp only
    rw [hup (by unfold a0 sp; omega), hup (by unfold a0 fp; omega), hy, hup (by unfold a0 ra; omega)]
    exact hxa k hk
  · intro r h1 h2 h3 h4
    dsimp only
    rw [hup h2, hup h3, hy, hup h1, hx r h4]

/-- `ffi_call_asm` up to the call. -/
theorem callIn_run {c : Cfg} (hw : c.w = 4 ∨ c.w = 8) {s : AState} {stk ctx fn clo : Nat} (h0 : s.x a0 = stk)
    (h1 : s.x (a0 + 1) = ctx) (h2 : s.x (a0 + 2) = fn) (h3 : s.x (a0 + 3) = clo) (hstk : stk < 256 ^ c.w)
    (hfn : fn < 256 ^ c.w) (hclo : clo < 256 ^ c.w) (hs : ctx + ctxSize c < 256 ^ c.w) :
    ∃ t, run c (callIn c) s = t ∧
      t.mem = s.mem.wr (ctx + ctxSize c - 2 * c.w) (leBytes c.w (s.x fp) ++ leBytes c.w (s.x ra)) ∧ t.x sp = stk ∧
      t.x t1 = fn ∧ t.x t2 = clo ∧ t.x fp = ctx + ctxSize c ∧
      (∀ k, k < 8 → t.x (a0 + k) = leNat (t.mem.rd (aAddr c ctx k) c.w)) ∧
      (c.fl ≠ 0 → ∀ k, k < 8 → t.f (fa0 + k) = t.mem.rd (faAddr c ctx k) c.fl) ∧
      (∀ r, r ≠ sp → r ≠ t1 → r ≠ t2 → r ≠ fp → (r < 4 ∨ 12 ≤ r) → t.x r = s.x r) ∧
      ∀ r, (r < 0 ∨ 8 ≤ r) → t.f r = s.f r := by
  have hF : ctxSize c = 8 * c.fl + 8 * c.w + 16 := rfl
  refine ⟨_, rfl, ?_⟩
  unfold callIn
  rw [run_append, run_append, run_cons, run_cons, run_cons, run_cons, run_cons, run_cons, run_nil]
  have hup : ∀ {x : Nat → Nat} {n v r : Nat}, r ≠ n → upd x n v r = x r := fun h => if_neg h
  have e1 : exec c s (.sarg fp (ctxSize c - 2 * c.w) (a0 + 1)) =
      { s with mem := s.mem.wr (ctx + ctxSize c - 2 * c.w) (leBytes c.w (s.x fp)) } := by
    simp only [exec, h1]
    rw [ea_eq (n := ctx + ctxSize c - 2 * c.w) (by omega) (by omega)]
  have e2 : exec c { s with mem := s.mem.wr (ctx + ctxSize c - 2 * c.w) (leBytes c.w (s.x fp)) }
      (.sarg ra (ctxSize c - 1 * c.w) (a0 + 1)) =
      { s with mem := s.mem.wr (ctx + ctxSize c - 2 * c.w) (leBytes c.w (s.x fp) ++ leBytes c.w (s.x ra)) } := by
    simp only [exec, h1]
    rw [ea_eq (n := ctx + ctxSize c - 2 * c.w + c.w) (by omega) (by omega), wr_append, leBytes_length]
  rw [e1, e2]
  generalize s.mem.wr (ctx + ctxSize c - 2 * c.w) (leBytes c.w (s.x fp) ++ leBytes c.w (s.x ra)) = m
  have e3 : exec c { s with mem := m } (.addi fp (a0 + 1) (ctxSize c)) = { s with x := upd s.x fp (ctx + ctxSize c), mem := m } := by
    simp only [exec, h1]
    rw [ea_eq (n := ctx + ctxSize c) (by omega) hs]
  rw [e3]
  have e4 : exec c { s with x := upd s.x fp (ctx + ctxSize c), mem := m } (.addi sp a0 0) =
      { s with x := upd (upd s.x fp (ctx + ctxSize c)) sp stk, mem := m } := by
    have hb : upd s.x fp (ctx + ctxSize c) a0 = stk := h0
    simp only [exec, hb]
    rw [ea_eq (n := stk) (by omega) hstk]
  rw [e4]
  have e5 : exec c { s with x := upd (upd s.x fp (ctx + ctxSize c)) sp stk, mem := m } (.addi t1 (a0 + 2) 0) =
      { s with x := upd (upd (upd s.x fp (ctx + ctxSize c)) sp stk) t1 fn, mem := m } := by
    have hb : upd (upd s.x fp (ctx + ctxSize c)) sp stk (a0 + 2) = fn := h2
    simp only [exec, hb]
    rw [ea_eq (n := fn) (by omega) hfn]
  rw [e5]
  have e6 : exec c { s with x := upd (upd (upd s.x fp (ctx + ctxSize c)) sp stk) t1 fn, mem := m } (.addi t2 (a0 + 3) 0) =
      { s with x := upd (upd (upd (upd s.x fp (ctx + ctxSize c)) sp stk) t1 fn) t2 clo, mem := m } := by
    have hb : upd (upd (upd s.x fp (ctx + ctxSize c)) sp stk) t1 fn (a0 + 3) = clo := h3
    simp only [exec, hb]
    rw [ea_eq (n := clo) (by omega) hclo]
  rw [e6]
  obtain ⟨y, hy⟩ : ∃ y, y = upd (upd (upd (upd s.x fp (ctx + ctxSize c)) sp stk) t1 fn) t2 clo := ⟨_, rfl⟩
  rw [← hy]
  have hyfp : y fp = ctx + ctxSize c := by rw [hy]; rfl
  have hfl : ∃ u, run c (if c.fl = 0 then [] else each 8 fun k => .flarg (fa0 + k) (-(ctxSize c : Int) + k * c.fl) fp)
      { s with x := y, mem := m } = u ∧ u.x = y ∧ u.mem = m ∧
      (c.fl ≠ 0 → ∀ k, k < 8 → u.f (fa0 + k) = m.rd (faAddr c ctx k) c.fl) ∧
      ∀ r, (r < 0 ∨ 8 ≤ r) → u.f r = s.f r := by
    by_cases h0 : c.fl = 0
    · rw [if_pos h0]
      exact ⟨_, rfl, rfl, rfl, fun h => absurd h0 h, fun _ _ => rfl⟩
    · rw [if_neg h0, run_flarg (A := fun k => faAddr c ctx k)]
      · refine ⟨_, rfl, rfl, rfl, fun _ k hk => ?_, fun r hr => ?_⟩
        · dsimp only
          unfold fa0
          rw [if_pos (by omega), Nat.add_sub_cancel_left]
        · dsimp only
          rw [if_neg (by omega)]
      · intro k hk
        have hm : c.fl * k ≤ c.fl * 8 := Nat.mul_le_mul_left _ (by omega)
        dsimp only
        rw [hyfp, ea_eq (n := ctx + c.fl * k) (by push_cast; rw [Int.mul_comm (k : Int)]; omega) (by omega)]
        rfl
  obtain ⟨u, hu, u1, u2, u3, u4⟩ := hfl
  rw [hu]
  have hur : ∀ r, u.x r = y r := fun r => by rw [u1]
  have hA : ∀ k : Nat, k < 8 → ea c (u.x fp) ((-(ctxSize c : Int) + 8 * c.fl + k * c.w : Int)) = aAddr c ctx k := by
    intro k hk
    have hm : c.w * k ≤ c.w * 8 := Nat.mul_le_mul_left _ (by omega)
    rw [hur, hyfp, ea_eq (n := ctx + 8 * c.fl + c.w * k) (by push_cast; rw [Int.mul_comm (k : Int)]; omega) (by omega)]
    rfl
  rw [run_larg (A := fun k => aAddr c ctx k) (by decide) 8 (by omega) hA, u2]
  have hout : ∀ r, (r < 4 ∨ 12 ≤ r) →
      (if 4 ≤ r ∧ r < 4 + 8 then leNat (m.rd (aAddr c ctx (r - 4)) c.w) else u.x r) = y r := by
    intro r hr
    rw [if_neg (by omega), hur]
  refine ⟨rfl, ?_, ?_, ?_, ?_, ?_, u3, ?_, u4⟩
  · dsimp only; rw [hout _ (by decide), hy]; rfl
  · dsimp only; rw [hout _ (by decide), hy]; rfl
  · dsimp only; rw [hout _ (by decide), hy]; rfl
  · dsimp only; rw [hout _ (by decide), hyfp]
  · intro k hk
    dsimp only
    unfold a0
    rw [if_pos (by omega), Nat.add_sub_cancel_left]
  · intro r r1 r2 r3 r4 r5
    dsimp only
    rw [hout r r5, hy, hup r3, hup r2, hup r1, hup r4]

/-- `ffi_call_asm` after the call. -/
theorem callOut_run {c : Cfg} (hw : c.w = 4 ∨ c.w = 8) {s : AState} {ctx : Nat} (hfp : s.x fp = ctx + ctxSize c)
    (hf : ∀ k, (s.f k).length = c.fl) (hs : ctx + ctxSize c < 256 ^ c.w) :
    ∃ t, run c (callOut c) s = t ∧
      t.mem = (s.mem.wr (faAddr c ctx 0) (s.f fa0 ++ s.f (fa0 + 1))).wr (aAddr c ctx 0)
        (leBytes c.w (s.x a0) ++ leBytes c.w (s.x (a0 + 1))) ∧
      t.x sp = ctx ∧ t.x ra = leNat (s.mem.rd (ctx + ctxSize c - c.w) c.w) ∧
      t.x fp = leNat (s.mem.rd (ctx + ctxSize c - 2 * c.w) c.w) ∧
      (∀ r, r ≠ ra → r ≠ sp → r ≠ fp → t.x r = s.x r) ∧ t.f = s.f := by
  have hF : ctxSize c = 8 * c.fl + 8 * c.w + 16 := rfl
  refine ⟨_, rfl, ?_⟩
  unfold callOut
  rw [run_append, run_append]
  have hfl : run c (if c.fl = 0 then [] else each 2 fun k => .fsarg (fa0 + k) (-(ctxSize c : Int) + k * c.fl) fp) s =
      { s with mem := s.mem.wr (faAddr c ctx 0) (s.f fa0 ++ s.f (fa0 + 1)) } := by
    apply run_if_fl
    · intro _
      rw [run_fsarg (A := faAddr c ctx 0), saveRegs_two _ _ _ (fun k => hf _)]
      · rfl
      · intro k hk
        have hm : c.fl * k ≤ c.fl * 8 := Nat.mul_le_mul_left _ (by omega)
        rw [hfp, ea_eq (n := ctx + c.fl * k) (by push_cast; rw [Int.mul_comm (k : Int)]; omega) (by omega)]
        simp [faAddr]
    · intro h0
      have : s.f fa0 ++ s.f (fa0 + 1) = [] := List.eq_nil_of_length_eq_zero (by rw [List.length_append, hf, hf, h0])
      rw [this, wr_nil]
  rw [hfl]
  have hA : ∀ k : Nat, k < 2 → ea c (s.x fp) ((-(ctxSize c : Int) + 8 * c.fl + k * c.w : Int)) = aAddr c ctx 0 + c.w * k := by
    intro k hk
    have hm : c.w * k ≤ c.w * 8 := Nat.mul_le_mul_left _ (by omega)
    rw [hfp, ea_eq (n := ctx + 8 * c.fl + c.w * k) (by push_cast; rw [Int.mul_comm (k : Int)]; omega) (by omega)]
    simp [aAddr]
  rw [run_sarg (s := ⟨s.x, s.f, s.mem.wr (faAddr c ctx 0) (s.f fa0 ++ s.f (fa0 + 1))⟩) (A := aAddr c ctx 0) 2 hA, saveRegs_two _ _ _ (fun k => leBytes_length _ _)]
  obtain ⟨m, hm⟩ : ∃ m, m = (s.mem.wr (faAddr c ctx 0) (s.f fa0 ++ s.f (fa0 + 1))).wr (aAddr c ctx 0)
        (leBytes c.w (s.x a0) ++ leBytes c.w (s.x (a0 + 1))) := ⟨_, rfl⟩
  have hkeep : ∀ a, ctx + ctxSize c - 2 * c.w ≤ a → m.rd a c.w = s.mem.rd a c.w := by
    intro a ha
    apply Mem.rd_congr
    intro i _
    rw [hm, Mem.wr_out _ _ _ _ (.inr (by simp only [List.length_append, leBytes_length, aAddr]; omega)),
      Mem.wr_out _ _ _ _ (.inr (by simp only [List.length_append, hf, faAddr]; omega))]
  show AState.mem (run c _ ⟨s.x, s.f, _⟩) = _ ∧ _
  have hm' : (s.mem.wr (faAddr c ctx 0) (s.f fa0 ++ s.f (fa0 + 1))).wr (aAddr c ctx 0)
        (leBytes c.w (s.x (a0 + 0)) ++ leBytes c.w (s.x (a0 + 1))) = m := hm.symm
  dsimp only
  rw [hm', ← hm, run_cons, run_cons, run_cons, run_nil]
  have e1 : exec c ⟨s.x, s.f, m⟩ (.addi sp fp (-(ctxSize c : Int))) = ⟨upd s.x sp ctx, s.f, m⟩ := by
    simp only [exec, hfp]
    rw [ea_eq (n := ctx) (by omega) (by omega)]
  have e2 : exec c ⟨upd s.x sp ctx, s.f, m⟩ (.larg ra (-1 * (c.w : Int)) fp) =
      ⟨upd (upd s.x sp ctx) ra (leNat (s.mem.rd (ctx + ctxSize c - c.w) c.w)), s.f, m⟩ := by
    have hb : upd s.x sp ctx fp = ctx + ctxSize c := hfp
    simp only [exec, hb]
    rw [ea_eq (n := ctx + ctxSize c - c.w) (by omega) (by omega), hkeep _ (by omega)]
  have e3 : exec c ⟨upd (upd s.x sp ctx) ra (leNat (s.mem.rd (ctx + ctxSize c - c.w) c.w)), s.f, m⟩ (.larg fp (-2 * (c.w : Int)) fp) =
      ⟨upd (upd (upd s.x sp ctx) ra (leNat (s.mem.rd (ctx + ctxSize c - c.w) c.w))) fp
        (leNat (s.mem.rd (ctx + ctxSize c - 2 * c.w) c.w)), s.f, m⟩ := by
    have hb : upd (upd s.x sp ctx) ra (leNat (s.mem.rd (ctx + ctxSize c - c.w) c.w)) fp = ctx + ctxSize c := hfp
    simp only [exec, hb]
    rw [ea_eq (n := ctx + ctxSize c - 2 * c.w) (by omega) (by omega), hkeep _ (by omega)]
  rw [e1, e2, e3]
  refine ⟨rfl, rfl, rfl, rfl, ?_, rfl⟩
  intro r h1 h2 h3
  have hup : ∀ {x : Nat → Nat} {n v r : Nat}, r ≠ n → upd x n v r = x r := fun h => if_neg h
  dsimp only
  rw [hup h3, hup h1, hup h2]

/-- The arguments of `ffi_closure_inner`. -/
theorem closureArgs_run {c : Cfg} {s : AState} {P a cif fn ud : Nat} (hsp : s.x sp = P)
    (hP : P + ctxSize c < 256 ^ c.w) (ht : s.x t0 = a) (ha : a + 24 + 3 * c.w < 256 ^ c.w)
    (h1 : leNat (s.mem.rd (a + 24) c.w) = cif) (h2 : leNat (s.mem.rd (a + 24 + c.w) c.w) = fn)
    (h3 : leNat (s.mem.rd (a + 24 + 2 * c.w) c.w) = ud) :
    run c (closureArgs c) s =
      { s with x := upd (upd (upd (upd (upd s.x a0 cif) (a0 + 1) fn) (a0 + 2) ud) (a0 + 3) (P + ctxSize c)) (a0 + 4) P } := by
  unfold closureArgs
  rw [run_cons, run_cons, run_cons, run_cons, run_cons, run_nil]
  have e1 : exec c s (.larg a0 (24 + 0 * c.w) t0) = { s with x := upd s.x a0 cif } := by
    simp only [exec, ht]
    rw [ea_eq (n := a + 24) (by omega) (by omega), h1]
  rw [e1]
  have b1 : upd s.x a0 cif t0 = a := ht
  have e2 : exec c { s with x := upd s.x a0 cif } (.larg (a0 + 1) (24 + 1 * c.w) t0) =
      { s with x := upd (upd s.x a0 cif) (a0 + 1) fn } := by
    simp only [exec, b1]
    rw [ea_eq (n := a + 24 + c.w) (by omega) (by omega), h2]
  rw [e2]
  have b2 : upd (upd s.x a0 cif) (a0 + 1) fn t0 = a := ht
  have e3 : exec c { s with x := upd (upd s.x a0 cif) (a0 + 1) fn } (.larg (a0 + 2) (24 + 2 * c.w) t0) =
      { s with x := upd (upd (upd s.x a0 cif) (a0 + 1) fn) (a0 + 2) ud } := by
    simp only [exec, b2]
    rw [ea_eq (n := a + 24 + 2 * c.w) (by omega) (by omega), h3]
  rw [e3]
  have b3 : upd (upd (upd s.x a0 cif) (a0 + 1) fn) (a0 + 2) ud sp = P := hsp
  have e4 : exec c { s with x := upd (upd (upd s.x a0 cif) (a0 + 1) fn) (a0 + 2) ud } (.addi (a0 + 3) sp (ctxSize c)) =
      { s with x := upd (upd (upd (upd s.x a0 cif) (a0 + 1) fn) (a0 + 2) ud) (a0 + 3) (P + ctxSize c) } := by
    simp only [exec, b3]
    rw [ea_eq (n := P + ctxSize c) (by omega) hP]
  rw [e4]
  have b4 : upd (upd (upd (upd s.x a0 cif) (a0 + 1) fn) (a0 + 2) ud) (a0 + 3) (P + ctxSize c) sp = P := hsp
  simp only [exec, b4]
  rw [ea_eq (n := P) (by omega) (by omega)]

/-- The same for a Go closure. -/
theorem goArgs_run {c : Cfg} {s : AState} {P a cif fn : Nat} (hw : 0 < c.w) (hsp : s.x sp = P)
    (hP : P + ctxSize c < 256 ^ c.w) (ht : s.x t2 = a) (ha : a + 3 * c.w < 256 ^ c.w)
    (h1 : leNat (s.mem.rd (a + c.w) c.w) = cif) (h2 : leNat (s.mem.rd (a + 2 * c.w) c.w) = fn) :
    run c (goArgs c) s =
      { s with x := upd (upd (upd (upd (upd s.x a0 cif) (a0 + 1) fn) (a0 + 2) a) (a0 + 3) (P + ctxSize c)) (a0 + 4) P } := by
  unfold goArgs
  rw [run_cons, run_cons, run_cons, run_cons, run_cons, run_nil]
  have e1 : exec c s (.larg a0 (1 * c.w) t2) = { s with x := upd s.x a0 cif } := by
    simp only [exec, ht]
    rw [ea_eq (n := a + c.w) (by omega) (by omega), h1]
  rw [e1]
  have b1 : upd s.x a0 cif t2 = a := ht
  have e2 : exec c { s with x := upd s.x a0 cif } (.larg (a0 + 1) (2 * c.w) t2) =
      { s with x := upd (upd s.x a0 cif) (a0 + 1) fn } := by
    simp only [exec, b1]
    rw [ea_eq (n := a + 2 * c.w) (by omega) (by omega), h2]
  rw [e2]
  have b2 : upd (upd s.x a0 cif) (a0 + 1) fn t2 = a := ht
  have e3 : exec c { s with x := upd (upd s.x a0 cif) (a0 + 1) fn } (.addi (a0 + 2) t2 0) =
      { s with x := upd (upd (upd s.x a0 cif) (a0 + 1) fn) (a0 + 2) a } := by
    simp only [exec, b2]
    rw [ea_eq (n := a) (by omega) (by omega)]
  rw [e3]
  have b3 : upd (upd (upd s.x a0 cif) (a0 + 1) fn) (a0 + 2) a sp = P := hsp
  have e4 : exec c { s with x := upd (upd (upd s.x a0 cif) (a0 + 1) fn) (a0 + 2) a } (.addi (a0 + 3) sp (ctxSize c)) =
      { s with x := upd (upd (upd (upd s.x a0 cif) (a0 + 1) fn) (a0 + 2) a) (a0 + 3) (P + ctxSize c) } := by
    simp only [exec, b3]
    rw [ea_eq (n := P + ctxSize c) (by omega) hP]
  rw [e4]
  have b4 : upd (upd (upd (upd s.x a0 cif) (a0 + 1) fn) (a0 + 2) a) (a0 + 3) (P + ctxSize c) sp = P := hsp
  simp only [exec, b4]
  rw [ea_eq (n := P) (by omega) (by omega)]

/-- Nothing outside the frame changes. -/
theorem frameMem_out {c : Cfg} (hw : c.w = 4 ∨ c.w = 8) {s : AState} (hf : ∀ k, (s.f k).length = c.fl) (hs : ctxSize c ≤ s.x sp)
    {x : Nat} (hx : x < s.x sp - ctxSize c ∨ s.x sp ≤ x) : frameMem c s x = s.mem x := by
  have hF : ctxSize c = 8 * c.fl + 8 * c.w + 16 := rfl
  unfold frameMem
  rw [saveRegs_out _ _ _ (fun k => leBytes_length _ _) _ _ _ (by simp only [aAddr]; omega),
    saveRegs_out _ _ _ (fun k => hf _) _ _ _ (by simp only [faAddr]; omega),
    Mem.wr_out _ _ _ _ (by simp only [List.length_append, leBytes_length]; omega)]

/-- The frame record is in place. -/
theorem frameMem_record {c : Cfg} (hw : c.w = 4 ∨ c.w = 8) {s : AState} (hf : ∀ k, (s.f k).length = c.fl) (hs : ctxSize c ≤ s.x sp) :
    (frameMem c s).rd (s.x sp - 2 * c.w) c.w = leBytes c.w (s.x fp) ∧ (frameMem c s).rd (s.x sp - c.w) c.w = leBytes c.w (s.x ra) := by
  have hF : ctxSize c = 8 * c.fl + 8 * c.w + 16 := rfl
  have key : ∀ a, s.x sp - 2 * c.w ≤ a → a + c.w ≤ s.x sp → (frameMem c s).rd a c.w =
      (s.mem.wr (s.x sp - 2 * c.w) (leBytes c.w (s.x fp) ++ leBytes c.w (s.x ra))).rd a c.w := by
    intro a h1 h2
    apply Mem.rd_congr
    intro i hi
    unfold frameMem
    rw [saveRegs_out _ _ _ (fun k => leBytes_length _ _) _ _ _ (.inr (by simp only [aAddr]; omega)),
      saveRegs_out _ _ _ (fun k => hf _) _ _ _ (.inr (by simp only [faAddr]; omega))]
  have hc : Code (s.mem.wr (s.x sp - 2 * c.w) (leBytes c.w (s.x fp) ++ leBytes c.w (s.x ra))) (s.x sp - 2 * c.w)
      (leBytes c.w (s.x fp) ++ leBytes c.w (s.x ra)) := Code.same
  obtain ⟨c1, c2⟩ := hc.append
  unfold Code at c1 c2
  simp only [leBytes_length] at c1 c2
  rw [show s.x sp - 2 * c.w + c.w = s.x sp - c.w by omega] at c2
  exact ⟨(key _ (by omega) (by omega)).trans c1, (key _ (by omega) (by omega)).trans c2⟩

end Verif.LA.Asm
