import Verif.RiscV.Asm
import Verif.RiscV.Closure

namespace Verif.RV.Asm
open Verif Verif.RV

theorem run_append (c : Cfg) (is js : List Ins) (s : AState) : run c (is ++ js) s = run c js (run c is s) :=
  List.foldl_append ..

theorem run_cons (c : Cfg) (i : Ins) (is : List Ins) (s : AState) : run c (i :: is) s = run c is (exec c s i) := rfl

theorem run_nil (c : Cfg) (s : AState) : run c [] s = s := rfl

theorem ea_eq {c : Cfg} {b n : Nat} {k : Int} (h : (b : Int) + k = n) (hn : n < 256 ^ c.w) : ea c b k = n := by
  unfold ea
  rw [h, Int.emod_eq_of_lt (by omega) (by exact_mod_cast hn)]
  rfl

theorem each_succ (n : Nat) (i : Nat → Ins) : each (n + 1) i = each n i ++ [i n] := by
  simp [each, List.range_succ]

/-- Consecutive loads of integer registers. -/
theorem run_larg {c : Cfg} {off : Nat → Int} {A : Nat → Nat} {b : Nat} {s : AState} (hb : b < 10 ∨ 18 ≤ b) :
    ∀ n, n ≤ 8 → (∀ k, k < n → ea c (s.x b) (off k) = A k) →
    run c (each n fun k => .larg (a0 + k) (off k) b) s =
      { s with x := fun r => if 10 ≤ r ∧ r < 10 + n then leNat (s.mem.rd (A (r - 10)) c.w) else s.x r }
  | 0, _, _ => by
    show s = _
    have : (fun r => if 10 ≤ r ∧ r < 10 + 0 then leNat (s.mem.rd (A (r - 10)) c.w) else s.x r) = s.x := by
      funext r; rw [if_neg (by omega)]
    rw [this]
  | n + 1, hn, h => by
    rw [each_succ, run_append, run_larg hb n (by omega) fun k hk => h k (by omega), run_cons, run_nil]
    simp only [exec]
    rw [if_neg (by omega), h n (by omega)]
    congr 1
    funext r
    unfold upd a0
    by_cases hr : r = 10 + n
    · rw [if_pos hr, if_pos (by omega), hr, Nat.add_sub_cancel_left]
    · rw [if_neg hr]
      dsimp only
      by_cases h' : 10 ≤ r ∧ r < 10 + n
      · rw [if_pos h', if_pos (by omega)]
      · rw [if_neg h', if_neg (by omega)]

theorem run_flarg {c : Cfg} {off : Nat → Int} {A : Nat → Nat} {b : Nat} {s : AState} :
    ∀ n, (∀ k, k < n → ea c (s.x b) (off k) = A k) →
    run c (each n fun k => .flarg (a0 + k) (off k) b) s =
      { s with f := fun r => if 10 ≤ r ∧ r < 10 + n then s.mem.rd (A (r - 10)) c.fl else s.f r }
  | 0, _ => by
    show s = _
    have : (fun r => if 10 ≤ r ∧ r < 10 + 0 then s.mem.rd (A (r - 10)) c.fl else s.f r) = s.f := by
      funext r; rw [if_neg (by omega)]
    rw [this]
  | n + 1, h => by
    rw [each_succ, run_append, run_flarg n fun k hk => h k (by omega), run_cons, run_nil]
    simp only [exec]
    rw [h n (by omega)]
    congr 1
    funext r
    unfold upd a0
    by_cases hr : r = 10 + n
    · rw [if_pos hr, if_pos (by omega), hr, Nat.add_sub_cancel_left]
    · rw [if_neg hr]
      dsimp only
      by_cases h' : 10 ≤ r ∧ r < 10 + n
      · rw [if_pos h', if_pos (by omega)]
      · rw [if_neg h', if_neg (by omega)]

theorem run_sarg {c : Cfg} {off : Nat → Int} {A : Nat} {b : Nat} {s : AState} :
    ∀ n, (∀ k, k < n → ea c (s.x b) (off k) = A + c.w * k) →
    run c (each n fun k => .sarg (a0 + k) (off k) b) s =
      { s with mem := saveRegs A c.w (fun k => leBytes c.w (s.x (a0 + k))) n s.mem }
  | 0, _ => rfl
  | n + 1, h => by
    rw [each_succ, run_append, run_sarg n fun k hk => h k (by omega), run_cons, run_nil]
    simp only [exec, saveRegs]
    rw [h n (by omega)]

theorem run_fsarg {c : Cfg} {off : Nat → Int} {A : Nat} {b : Nat} {s : AState} :
    ∀ n, (∀ k, k < n → ea c (s.x b) (off k) = A + c.fl * k) →
    run c (each n fun k => .fsarg (a0 + k) (off k) b) s =
      { s with mem := saveRegs A c.fl (fun k => s.f (a0 + k)) n s.mem }
  | 0, _ => rfl
  | n + 1, h => by
    rw [each_succ, run_append, run_fsarg n fun k hk => h k (by omega), run_cons, run_nil]
    simp only [exec, saveRegs]
    rw [h n (by omega)]

theorem wr_nil (m : Mem) (a : Nat) : m.wr a [] = m := by
  funext x
  exact Mem.wr_out _ _ _ _ (by simp; omega)

/-- Registers of no bytes. -/
theorem saveRegs_zero (a : Nat) (r : Nat → List Byte) (hr : ∀ k, r k = []) (n : Nat) (m : Mem) : saveRegs a 0 r n m = m := by
  induction n with
  | zero => rfl
  | succ n ih => rw [saveRegs, hr, wr_nil, ih]

theorem wr_append (m : Mem) (a : Nat) (xs ys : List Byte) : m.wr a (xs ++ ys) = (m.wr a xs).wr (a + xs.length) ys := by
  funext x
  by_cases h1 : x < a
  · rw [Mem.wr_out _ _ _ _ (.inl h1), Mem.wr_out _ _ _ _ (by omega), Mem.wr_out _ _ _ _ (.inl h1)]
  · by_cases h2 : x < a + xs.length
    · obtain ⟨i, rfl⟩ : ∃ i, x = a + i := ⟨x - a, by omega⟩
      rw [Mem.wr_in _ _ _ _ (by simp; omega), Mem.wr_out _ _ _ _ (.inl h2), Mem.wr_in _ _ _ _ (by omega)]
      simp [List.getElem?_append_left (show i < xs.length by omega), List.getD]
    · by_cases h3 : x < a + xs.length + ys.length
      · obtain ⟨i, rfl⟩ : ∃ i, x = a + xs.length + i := ⟨x - (a + xs.length), by omega⟩
        rw [Mem.wr_in _ _ _ _ (by omega), show a + xs.length + i = a + (xs.length + i) by omega,
          Mem.wr_in _ _ _ _ (by simp; omega)]
        simp [List.getD, List.getElem?_append_right (show xs.length ≤ xs.length + i by omega)]
      · rw [Mem.wr_out _ _ _ _ (by simp; omega), Mem.wr_out _ _ _ _ (by omega), Mem.wr_out _ _ _ _ (by omega)]

/-- Registers that a function must preserve, by the psABI: sp, gp, tp, s0–s11. -/
def saved (r : Nat) : Prop := r = 2 ∨ r = 3 ∨ r = 4 ∨ r = 8 ∨ r = 9 ∨ (18 ≤ r ∧ r ≤ 27)

/-- Floating-point registers fs0–fs11. -/
def fsaved (r : Nat) : Prop := r = 8 ∨ r = 9 ∨ (18 ≤ r ∧ r ≤ 27)

/-- State when the function that was entered in `s` has returned. -/
def Returned (s t : AState) : Prop := (∀ r, saved r → t.x r = s.x r) ∧ ∀ r, fsaved r → t.f r = s.f r

/-- The frame of a closure: what is stored on entry. -/
def frameMem (c : Cfg) (s : AState) : Mem :=
  let ctx := s.x sp - ctxSize c
  saveRegs (aAddr c ctx 0) c.w (fun k => leBytes c.w (s.x (a0 + k))) 8
    (saveRegs (faAddr c ctx 0) c.fl (fun k => s.f (a0 + k)) 8
      (s.mem.wr (s.x sp - 2 * c.w) (leBytes c.w (s.x fp) ++ leBytes c.w (s.x ra))))

theorem run_if_fl {c : Cfg} {is : List Ins} {s t : AState} (h : c.fl ≠ 0 → run c is s = t) (h0 : c.fl = 0 → s = t) :
    run c (if c.fl = 0 then [] else is) s = t := by
  split
  · next e => exact h0 e
  · next e => exact h e

theorem closureSave_run {c : Cfg} (hw : c.w = 4 ∨ c.w = 8) {s : AState} (hf : ∀ k, (s.f k).length = c.fl)
    (hs : ctxSize c ≤ s.x sp) (hs' : s.x sp < 256 ^ c.w) :
    run c (closureSave c) s =
      { x := upd (upd s.x sp (s.x sp - ctxSize c)) fp (s.x sp), f := s.f, mem := frameMem c s } := by
  have hF : ctxSize c = 8 * c.fl + 8 * c.w + 16 := rfl
  obtain ⟨P, hP⟩ : ∃ P, s.x sp - ctxSize c = P := ⟨_, rfl⟩
  unfold closureSave
  rw [run_append, run_append, run_cons, run_cons, run_cons, run_cons, run_nil]
  have e1 : exec c s (.addi sp sp (-(ctxSize c : Int))) = { s with x := upd s.x sp P } := by
    simp only [exec]
    rw [ea_eq (n := P) (by omega) (by omega)]
  rw [e1]
  have e2 : exec c { s with x := upd s.x sp P } (.sarg fp (ctxSize c - 2 * c.w) sp) =
      { s with x := upd s.x sp P, mem := s.mem.wr (s.x sp - 2 * c.w) (leBytes c.w (s.x fp)) } := by
    have hb : upd s.x sp P sp = P := rfl
    have hb2 : upd s.x sp P fp = s.x fp := rfl
    simp only [exec, hb, hb2]
    rw [ea_eq (n := s.x sp - 2 * c.w) (by omega) (by omega)]
  rw [e2]
  have e3 : exec c { s with x := upd s.x sp P, mem := s.mem.wr (s.x sp - 2 * c.w) (leBytes c.w (s.x fp)) }
      (.sarg ra (ctxSize c - 1 * c.w) sp) =
      { s with x := upd s.x sp P, mem := s.mem.wr (s.x sp - 2 * c.w) (leBytes c.w (s.x fp) ++ leBytes c.w (s.x ra)) } := by
    have hb : upd s.x sp P sp = P := rfl
    have hb2 : upd s.x sp P ra = s.x ra := rfl
    simp only [exec, hb, hb2]
    rw [ea_eq (n := s.x sp - 2 * c.w + c.w) (by omega) (by omega), wr_append, leBytes_length]
  rw [e3]
  have e4 : exec c { s with x := upd s.x sp P, mem := s.mem.wr (s.x sp - 2 * c.w) (leBytes c.w (s.x fp) ++ leBytes c.w (s.x ra)) }
      (.addi fp sp (ctxSize c)) =
      { s with x := upd (upd s.x sp P) fp (s.x sp), mem := s.mem.wr (s.x sp - 2 * c.w) (leBytes c.w (s.x fp) ++ leBytes c.w (s.x ra)) } := by
    have hb : upd s.x sp P sp = P := rfl
    simp only [exec, hb]
    rw [ea_eq (n := s.x sp) (by omega) hs']
  rw [e4]
  have hsp : upd (upd s.x sp P) fp (s.x sp) sp = P := rfl
  have hfl : run c (if c.fl = 0 then [] else each 8 fun k => .fsarg (a0 + k) (k * c.fl) sp)
      { s with x := upd (upd s.x sp P) fp (s.x sp), mem := s.mem.wr (s.x sp - 2 * c.w) (leBytes c.w (s.x fp) ++ leBytes c.w (s.x ra)) } =
      { s with
        x := upd (upd s.x sp P) fp (s.x sp)
        mem := saveRegs (faAddr c P 0) c.fl (fun k => s.f (a0 + k)) 8
          (s.mem.wr (s.x sp - 2 * c.w) (leBytes c.w (s.x fp) ++ leBytes c.w (s.x ra))) } := by
    apply run_if_fl
    · intro _
      apply run_fsarg (A := faAddr c P 0)
      intro k hk
      have hm : c.fl * k ≤ c.fl * 8 := Nat.mul_le_mul_left _ (by omega)
      dsimp only
      rw [hsp, ea_eq (n := P + c.fl * k) (by rw [Nat.mul_comm]; push_cast; rfl) (by omega)]
      simp [faAddr]
    · intro h0
      rw [h0, saveRegs_zero _ _ (fun k => List.eq_nil_of_length_eq_zero (by rw [hf, h0]))]
  rw [hfl, run_sarg (A := aAddr c P 0)]
  · unfold frameMem
    rw [hP]
    rfl
  · intro k hk
    have hm : c.w * k ≤ c.w * 8 := Nat.mul_le_mul_left _ (by omega)
    dsimp only
    rw [hsp, ea_eq (n := P + 8 * c.fl + c.w * k) (by push_cast; rw [Int.mul_comm (k : Int)]; omega) (by omega)]
    simp [aAddr]

/-- The end of a closure. -/
theorem closureOut_run {c : Cfg} (hw : c.w = 4 ∨ c.w = 8) {s : AState} {ctx : Nat} (hsp : s.x sp = ctx)
    (hs : ctx + ctxSize c < 256 ^ c.w) :
    ∃ t, run c (closureOut c) s = t ∧ t.mem = s.mem ∧ t.x sp = ctx + ctxSize c ∧
      t.x ra = leNat (s.mem.rd (ctx + ctxSize c - c.w) c.w) ∧ t.x fp = leNat (s.mem.rd (ctx + ctxSize c - 2 * c.w) c.w) ∧
      (∀ k, k < 2 → t.x (a0 + k) = leNat (s.mem.rd (aAddr c ctx k) c.w)) ∧
      (c.fl ≠ 0 → ∀ k, k < 2 → t.f (a0 + k) = s.mem.rd (faAddr c ctx k) c.fl) ∧
      (∀ r, r ≠ ra → r ≠ sp → r ≠ fp → (r < 10 ∨ 12 ≤ r) → t.x r = s.x r) ∧
      ∀ r, (r < 10 ∨ 12 ≤ r) → t.f r = s.f r := by
  have hF : ctxSize c = 8 * c.fl + 8 * c.w + 16 := rfl
  refine ⟨_, rfl, ?_⟩
  unfold closureOut
  rw [run_append, run_append]
  have hfl : ∃ u, run c (if c.fl = 0 then [] else each 2 fun k => .flarg (a0 + k) (k * c.fl) sp) s = u ∧ u.x = s.x ∧
      u.mem = s.mem ∧ (c.fl ≠ 0 → ∀ k, k < 2 → u.f (a0 + k) = s.mem.rd (faAddr c ctx k) c.fl) ∧
      ∀ r, (r < 10 ∨ 12 ≤ r) → u.f r = s.f r := by
    by_cases h0 : c.fl = 0
    · rw [if_pos h0]
      exact ⟨_, rfl, rfl, rfl, fun h => absurd h0 h, fun _ _ => rfl⟩
    · rw [if_neg h0, run_flarg (A := fun k => faAddr c ctx k)]
      · refine ⟨_, rfl, rfl, rfl, fun _ k hk => ?_, fun r hr => ?_⟩
        · dsimp only
          unfold a0
          rw [if_pos (by omega), Nat.add_sub_cancel_left]
        · dsimp only
          rw [if_neg (by omega)]
      · intro k hk
        have hm : c.fl * k ≤ c.fl * 8 := Nat.mul_le_mul_left _ (by omega)
        rw [hsp, ea_eq (n := ctx + c.fl * k) (by rw [Nat.mul_comm]; push_cast; rfl) (by omega)]
        rfl
  obtain ⟨u, hu, u1, u2, u3, u4⟩ := hfl
  rw [hu]
  have hur : ∀ r, u.x r = s.x r := fun r => by rw [u1]
  have hA : ∀ k : Nat, k < 2 → ea c (u.x sp) ((8 * c.fl + k * c.w : Int)) = aAddr c ctx k := by
    intro k hk
    have hm : c.w * k ≤ c.w * 8 := Nat.mul_le_mul_left _ (by omega)
    rw [hur, hsp, ea_eq (n := ctx + 8 * c.fl + c.w * k) (by push_cast; rw [Int.mul_comm (k : Int)]; omega) (by omega)]
    rfl
  rw [run_larg (A := fun k => aAddr c ctx k) (.inl (by decide)) 2 (by omega) hA, run_cons, run_cons, run_cons, run_nil, u2]
  obtain ⟨x', hx'⟩ : ∃ x', x' = fun r => if 10 ≤ r ∧ r < 10 + 2 then leNat (s.mem.rd (aAddr c ctx (r - 10)) c.w) else u.x r :=
    ⟨_, rfl⟩
  rw [← hx']
  have hx : ∀ r, (r < 10 ∨ 12 ≤ r) → x' r = s.x r := by
    intro r hr
    rw [hx']
    dsimp only
    rw [if_neg (by omega), hur]
  have hxa : ∀ k, k < 2 → x' (10 + k) = leNat (s.mem.rd (aAddr c ctx k) c.w) := by
    intro k hk
    rw [hx']
    dsimp only
    rw [if_pos (by omega), Nat.add_sub_cancel_left]
  clear hx'
  have hsp' : x' sp = ctx := (hx _ (.inl (by decide))).trans hsp
  have e1 : exec c { x := x', f := u.f, mem := s.mem } (.larg ra (ctxSize c - 1 * c.w) sp) =
      { x := upd x' ra (leNat (s.mem.rd (ctx + ctxSize c - c.w) c.w)), f := u.f, mem := s.mem } := by
    simp only [exec, hsp']
    rw [ea_eq (n := ctx + ctxSize c - c.w) (by omega) (by omega)]
  rw [e1]
  obtain ⟨y, hy⟩ : ∃ y, y = upd x' ra (leNat (s.mem.rd (ctx + ctxSize c - c.w) c.w)) := ⟨_, rfl⟩
  have hsy : y sp = ctx := by rw [hy]; exact hsp'
  rw [← hy]
  have e2 : exec c { x := y, f := u.f, mem := s.mem } (.larg fp (ctxSize c - 2 * c.w) sp) =
      { x := upd y fp (leNat (s.mem.rd (ctx + ctxSize c - 2 * c.w) c.w)), f := u.f, mem := s.mem } := by
    simp only [exec, hsy]
    rw [ea_eq (n := ctx + ctxSize c - 2 * c.w) (by omega) (by omega)]
  rw [e2]
  have e3 : exec c { x := upd y fp (leNat (s.mem.rd (ctx + ctxSize c - 2 * c.w) c.w)), f := u.f, mem := s.mem }
      (.addi sp sp (ctxSize c)) =
      { x := upd (upd y fp (leNat (s.mem.rd (ctx + ctxSize c - 2 * c.w) c.w))) sp (ctx + ctxSize c), f := u.f, mem := s.mem } := by
    have hb : upd y fp (leNat (s.mem.rd (ctx + ctxSize c - 2 * c.w) c.w)) sp = ctx := hsy
    simp only [exec, hb]
    rw [ea_eq (n := ctx + ctxSize c) (by omega) hs]
  rw [e3]
  have hup : ∀ {x : Nat → Nat} {n v r : Nat}, r ≠ n → upd x n v r = x r := fun h => if_neg h
  refine ⟨rfl, rfl, ?_, rfl, ?_, u3, ?_, u4⟩
  · rw [hy]; rfl
  · intro k hk
    dsimp only
    rw [hup (by unfold a0 sp; omega), hup (by unfold a0 fp; omega), hy, hup (by unfold a0 ra; omega)]
    exact hxa k hk
  · intro r h1 h2 h3 h4
    dsimp only
    rw [hup h2, hup h3, hy, hup h1, hx r h4]

/-- `ffi_call_asm` up to the call. -/
theorem callIn_run {c : Cfg} (hw : c.w = 4 ∨ c.w = 8) {s : AState} {stk ctx fn clo : Nat} (h0 : s.x a0 = stk)
    (h1 : s.x (a0 + 1) = ctx) (h2 : s.x (a0 + 2) = fn) (h3 : s.x (a0 + 3) = clo) (hstk : stk < 256 ^ c.w)
    (hfn : fn < 256 ^ c.w) (hclo : clo < 256 ^ c.w) (hs : ctx + ctxSize c < 256 ^ c.w) :
    ∃ t, run c (callIn c) s = t ∧
      t.mem = s.mem.wr (ctx + ctxSize c - 2 * c.w) (leBytes c.w (s.x fp) ++ leBytes c.w (s.x ra)) ∧ t.x sp = stk ∧
      t.x t1 = fn ∧ t.x t2 = clo ∧ t.x fp = ctx + ctxSize c ∧
      (∀ k, k < 8 → t.x (a0 + k) = leNat (t.mem.rd (aAddr c ctx k) c.w)) ∧
      (c.fl ≠ 0 → ∀ k, k < 8 → t.f (a0 + k) = t.mem.rd (faAddr c ctx k) c.fl) ∧
      (∀ r, r ≠ sp → r ≠ t1 → r ≠ t2 → r ≠ fp → (r < 10 ∨ 18 ≤ r) → t.x r = s.x r) ∧
      ∀ r, (r < 10 ∨ 18 ≤ r) → t.f r = s.f r := by
  have hF : ctxSize c = 8 * c.fl + 8 * c.w + 16 := rfl
  refine ⟨_, rfl, ?_⟩
  unfold callIn
  rw [run_append, run_append, run_cons, run_cons, run_cons, run_cons, run_cons, run_cons, run_nil]
  have hup : ∀ {x : Nat → Nat} {n v r : Nat}, r ≠ n → upd x n v r = x r := fun h => if_neg h
  have e1 : exec c s (.sarg fp (ctxSize c - 2 * c.w) (a0 + 1)) =
      { s with mem := s.mem.wr (ctx + ctxSize c - 2 * c.w) (leBytes c.w (s.x fp)) } := by
    simp only [exec, h1]
    rw [ea_eq (n := ctx + ctxSize c - 2 * c.w) (by omega) (by omega)]
  have e2 : exec c { s with mem := s.mem.wr (ctx + ctxSize c - 2 * c.w) (leBytes c.w (s.x fp)) }
      (.sarg ra (ctxSize c - 1 * c.w) (a0 + 1)) =
      { s with mem := s.mem.wr (ctx + ctxSize c - 2 * c.w) (leBytes c.w (s.x fp) ++ leBytes c.w (s.x ra)) } := by
    simp only [exec, h1]
    rw [ea_eq (n := ctx + ctxSize c - 2 * c.w + c.w) (by omega) (by omega), wr_append, leBytes_length]
  rw [e1, e2]
  generalize s.mem.wr (ctx + ctxSize c - 2 * c.w) (leBytes c.w (s.x fp) ++ leBytes c.w (s.x ra)) = m
  have e3 : exec c { s with mem := m } (.addi fp (a0 + 1) (ctxSize c)) = { s with x := upd s.x fp (ctx + ctxSize c), mem := m } := by
    simp only [exec, h1]
    rw [ea_eq (n := ctx + ctxSize c) (by omega) hs]
  rw [e3]
  have e4 : exec c { s with x := upd s.x fp (ctx + ctxSize c), mem := m } (.addi sp a0 0) =
      { s with x := upd (upd s.x fp (ctx + ctxSize c)) sp stk, mem := m } := by
    have hb : upd s.x fp (ctx + ctxSize c) a0 = stk := h0
    simp only [exec, hb]
    rw [ea_eq (n := stk) (by omega) hstk]
  rw [e4]
  have e5 : exec c { s with x := upd (upd s.x fp (ctx + ctxSize c)) sp stk, mem := m } (.addi t1 (a0 + 2) 0) =
      { s with x := upd (upd (upd s.x fp (ctx + ctxSize c)) sp stk) t1 fn, mem := m } := by
    have hb : upd (upd s.x fp (ctx + ctxSize c)) sp stk (a0 + 2) = fn := h2
    simp only [exec, hb]
    rw [ea_eq (n := fn) (by omega) hfn]
  rw [e5]
  have e6 : exec c { s with x := upd (upd (upd s.x fp (ctx + ctxSize c)) sp stk) t1 fn, mem := m } (.addi t2 (a0 + 3) 0) =
      { s with x := upd (upd (upd (upd s.x fp (ctx + ctxSize c)) sp stk) t1 fn) t2 clo, mem := m } := by
    have hb : upd (upd (upd s.x fp (ctx + ctxSize c)) sp stk) t1 fn (a0 + 3) = clo := h3
    simp only [exec, hb]
    rw [ea_eq (n := clo) (by omega) hclo]
  rw [e6]
  obtain ⟨y, hy⟩ : ∃ y, y = upd (upd (upd (upd s.x fp (ctx + ctxSize c)) sp stk) t1 fn) t2 clo := ⟨_, rfl⟩
  rw [← hy]
  have hyfp : y fp = ctx + ctxSize c := by rw [hy]; rfl
  have hfl : ∃ u, run c (if c.fl = 0 then [] else each 8 fun k => .flarg (a0 + k) (-(ctxSize c : Int) + k * c.fl) fp)
      { s with x := y, mem := m } = u ∧ u.x = y ∧ u.mem = m ∧
      (c.fl ≠ 0 → ∀ k, k < 8 → u.f (a0 + k) = m.rd (faAddr c ctx k) c.fl) ∧
      ∀ r, (r < 10 ∨ 18 ≤ r) → u.f r = s.f r := by
    by_cases h0 : c.fl = 0
    · rw [if_pos h0]
      exact ⟨_, rfl, rfl, rfl, fun h => absurd h0 h, fun _ _ => rfl⟩
    · rw [if_neg h0, run_flarg (A := fun k => faAddr c ctx k)]
      · refine ⟨_, rfl, rfl, rfl, fun _ k hk => ?_, fun r hr => ?_⟩
        · dsimp only
          unfold a0
          rw [if_pos (by omega), Nat.add_sub_cancel_left]
        · dsimp only
          rw [if_neg (by omega)]
      · intro k hk
        have hm : c.fl * k ≤ c.fl * 8 := Nat.mul_le_mul_left _ (by omega)
        dsimp only
        rw [hyfp, ea_eq (n := ctx + c.fl * k) (by push_cast; rw [Int.mul_comm (k : Int)]; omega) (by omega)]
        rfl
  obtain ⟨u, hu, u1, u2, u3, u4⟩ := hfl
  rw [hu]
  have hur : ∀ r, u.x r = y r := fun r => by rw [u1]
  have hA : ∀ k : Nat, k < 8 → ea c (u.x fp) ((-(ctxSize c : Int) + 8 * c.fl + k * c.w : Int)) = aAddr c ctx k := by
    intro k hk
    have hm : c.w * k ≤ c.w * 8 := Nat.mul_le_mul_left _ (by omega)
    rw [hur, hyfp, ea_eq (n := ctx + 8 * c.fl + c.w * k) (by push_cast; rw [Int.mul_comm (k : Int)]; omega) (by omega)]
    rfl
  rw [run_larg (A := fun k => aAddr c ctx k) (.inl (by decide)) 8 (by omega) hA, u2]
  have hout : ∀ r, (r < 10 ∨ 18 ≤ r) →
      (if 10 ≤ r ∧ r < 10 + 8 then leNat (m.rd (aAddr c ctx (r - 10)) c.w) else u.x r) = y r := by
    intro r hr
    rw [if_neg (by omega), hur]
  refine ⟨rfl, ?_, ?_, ?_, ?_, ?_, u3, ?_, u4⟩
  · dsimp only; rw [hout _ (.inl (by decide)), hy]; rfl
  · dsimp only; rw [hout _ (.inl (by decide)), hy]; rfl
  · dsimp only; rw [hout _ (.inl (by decide)), hy]; rfl
  · dsimp only; rw [hout _ (.inl (by decide)), hyfp]
  · intro k hk
    dsimp only
    unfold a0
    rw [if_pos (by omega), Nat.add_sub_cancel_left]
  · intro r r1 r2 r3 r4 r5
    dsimp only
    rw [hout r r5, hy, hup r3, hup r2, hup r1, hup r4]

theorem saveRegs_two (a z : Nat) (r : Nat → List Byte) (hr : ∀ k, (r k).length = z) (m : Mem) :
    saveRegs a z r 2 m = m.wr a (r 0 ++ r 1) := by
  simp only [saveRegs, Nat.mul_zero, Nat.add_zero, Nat.mul_one]
  rw [wr_append, hr]

/-- `ffi_call_asm` after the call. -/
theorem callOut_run {c : Cfg} (hw : c.w = 4 ∨ c.w = 8) {s : AState} {ctx : Nat} (hfp : s.x fp = ctx + ctxSize c)
    (hf : ∀ k, (s.f k).length = c.fl) (hs : ctx + ctxSize c < 256 ^ c.w) :
    ∃ t, run c (callOut c) s = t ∧
      t.mem = (s.mem.wr (faAddr c ctx 0) (s.f a0 ++ s.f (a0 + 1))).wr (aAddr c ctx 0)
        (leBytes c.w (s.x a0) ++ leBytes c.w (s.x (a0 + 1))) ∧
      t.x sp = ctx ∧ t.x ra = leNat (s.mem.rd (ctx + ctxSize c - c.w) c.w) ∧
      t.x fp = leNat (s.mem.rd (ctx + ctxSize c - 2 * c.w) c.w) ∧
      (∀ r, r ≠ ra → r ≠ sp → r ≠ fp → t.x r = s.x r) ∧ t.f = s.f := by
  have hF : ctxSize c = 8 * c.fl + 8 * c.w + 16 := rfl
  refine ⟨_, rfl, ?_⟩
  unfold callOut
  rw [run_append, run_append]
  have hfl : run c (if c.fl = 0 then [] else each 2 fun k => .fsarg (a0 + k) (-(ctxSize c : Int) + k * c.fl) fp) s =
      { s with mem := s.mem.wr (faAddr c ctx 0) (s.f a0 ++ s.f (a0 + 1)) } := by
    apply run_if_fl
    · intro _
      rw [run_fsarg (A := faAddr c ctx 0), saveRegs_two _ _ _ (fun k => hf _)]
      · rfl
      · intro k hk
        have hm : c.fl * k ≤ c.fl * 8 := Nat.mul_le_mul_left _ (by omega)
        rw [hfp, ea_eq (n := ctx + c.fl * k) (by push_cast; rw [Int.mul_comm (k : Int)]; omega) (by omega)]
        simp [faAddr]
    · intro h0
      have : s.f a0 ++ s.f (a0 + 1) = [] := List.eq_nil_of_length_eq_zero (by rw [List.length_append, hf, hf, h0])
      rw [this, wr_nil]
  rw [hfl]
  have hA : ∀ k : Nat, k < 2 → ea c (s.x fp) ((-(ctxSize c : Int) + 8 * c.fl + k * c.w : Int)) = aAddr c ctx 0 + c.w * k := by
    intro k hk
    have hm : c.w * k ≤ c.w * 8 := Nat.mul_le_mul_left _ (by omega)
    rw [hfp, ea_eq (n := ctx + 8 * c.fl + c.w * k) (by push_cast; rw [Int.mul_comm (k : Int)]; omega) (by omega)]
    simp [aAddr]
  rw [run_sarg (s := ⟨s.x, s.f, s.mem.wr (faAddr c ctx 0) (s.f a0 ++ s.f (a0 + 1))⟩) (A := aAddr c ctx 0) 2 hA, saveRegs_two _ _ _ (fun k => leBytes_length _ _)]
  obtain ⟨m, hm⟩ : ∃ m, m = (s.mem.wr (faAddr c ctx 0) (s.f a0 ++ s.f (a0 + 1))).wr (aAddr c ctx 0)
        (leBytes c.w (s.x a0) ++ leBytes c.w (s.x (a0 + 1))) := ⟨_, rfl⟩
  have hkeep : ∀ a, ctx + ctxSize c - 2 * c.w ≤ a → m.rd a c.w = s.mem.rd a c.w := by
    intro a ha
    apply Mem.rd_congr
    intro i _
    rw [hm, Mem.wr_out _ _ _ _ (.inr (by simp only [List.length_append, leBytes_length, aAddr]; omega)),
      Mem.wr_out _ _ _ _ (.inr (by simp only [List.length_append, hf, faAddr]; omega))]
  show AState.mem (run c _ ⟨s.x, s.f, _⟩) = _ ∧ _
  have hm' : (s.mem.wr (faAddr c ctx 0) (s.f a0 ++ s.f (a0 + 1))).wr (aAddr c ctx 0)
        (leBytes c.w (s.x (a0 + 0)) ++ leBytes c.w (s.x (a0 + 1))) = m := hm.symm
  dsimp only
  rw [hm', ← hm, run_cons, run_cons, run_cons, run_nil]
  have e1 : exec c ⟨s.x, s.f, m⟩ (.addi sp fp (-(ctxSize c : Int))) = ⟨upd s.x sp ctx, s.f, m⟩ := by
    simp only [exec, hfp]
    rw [ea_eq (n := ctx) (by omega) (by omega)]
  have e2 : exec c ⟨upd s.x sp ctx, s.f, m⟩ (.larg ra (-1 * (c.w : Int)) fp) =
      ⟨upd (upd s.x sp ctx) ra (leNat (s.mem.rd (ctx + ctxSize c - c.w) c.w)), s.f, m⟩ := by
    have hb : upd s.x sp ctx fp = ctx + ctxSize c := hfp
    simp only [exec, hb]
    rw [ea_eq (n := ctx + ctxSize c - c.w) (by omega) (by omega), hkeep _ (by omega)]
  have e3 : exec c ⟨upd (upd s.x sp ctx) ra (leNat (s.mem.rd (ctx + ctxSize c - c.w) c.w)), s.f, m⟩ (.larg fp (-2 * (c.w : Int)) fp) =
      ⟨upd (upd (upd s.x sp ctx) ra (leNat (s.mem.rd (ctx + ctxSize c - c.w) c.w))) fp
        (leNat (s.mem.rd (ctx + ctxSize c - 2 * c.w) c.w)), s.f, m⟩ := by
    have hb : upd (upd s.x sp ctx) ra (leNat (s.mem.rd (ctx + ctxSize c - c.w) c.w)) fp = ctx + ctxSize c := hfp
    simp only [exec, hb]
    rw [ea_eq (n := ctx + ctxSize c - 2 * c.w) (by omega) (by omega), hkeep _ (by omega)]
  rw [e1, e2, e3]
  refine ⟨rfl, rfl, rfl, rfl, ?_, rfl⟩
  intro r h1 h2 h3
  have hup : ∀ {x : Nat → Nat} {n v r : Nat}, r ≠ n → upd x n v r = x r := fun h => if_neg h
  dsimp only
  rw [hup h3, hup h1, hup h2]

end Verif.RV.Asm

namespace Verif.RV.Asm
open Verif Verif.RV

theorem upd_ne {α : Type} {x : Nat → α} {n r : Nat} {v : α} (h : r ≠ n) : upd x n v r = x r := if_neg h

theorem leNat_lt_w {c : Cfg} {v : Nat} (h : v < 256 ^ c.w) : leNat (leBytes c.w v) = v := by
  rw [leNat_leBytes, Nat.mod_eq_of_lt h]

/-- A word in memory. -/
theorem rd_word {c : Cfg} {m : Mem} {a v : Nat} (h : Code m a (leBytes c.w v)) (hv : v < 256 ^ c.w) :
    leNat (m.rd a c.w) = v := by
  unfold Code at h
  rw [leBytes_length] at h
  rw [h, leNat_lt_w hv]

theorem ea_ld {c : Cfg} (hw : c.w = 4 ∨ c.w = 8) {v : Nat} (hv : v < 256 ^ c.w) : ea c 0 (sext (8 * c.w) v) = v := by
  unfold ea sext
  rcases hw with h | h <;> rw [h] at hv ⊢
  · have hv' : v < 4294967296 := hv
    by_cases hl : v < 2 ^ (8 * 4 - 1)
    · rw [if_pos hl]; omega
    · rw [if_neg hl]; omega
  · have hv' : v < 18446744073709551616 := hv
    by_cases hl : v < 2 ^ (8 * 8 - 1)
    · rw [if_pos hl]; omega
    · rw [if_neg hl]; omega

/-- What `ffi_prep_closure_loc` leaves in the object. -/
structure Image (c : Cfg) (m : Mem) (a entry cif fn ud : Nat) : Prop where
  w0 : Code m a (leBytes 4 0x00000317)
  w1 : Code m (a + 4) (leBytes 4 (if c.w = 8 then 0x01033383 else 0x01032383))
  w2 : Code m (a + 8) (leBytes 4 0x00038067)
  entry : Code m (a + 16) (leBytes c.w entry)
  cif : Code m (a + 24) (leBytes c.w cif)
  fn : Code m (a + 24 + c.w) (leBytes c.w fn)
  ud : Code m (a + 24 + 2 * c.w) (leBytes c.w ud)

theorem leBytes_split {n k v : Nat} : leBytes (n + k) v = leBytes n v ++ leBytes k (v / 256 ^ n) := by
  induction n generalizing v with
  | zero => simp [leBytes]
  | succ n ih =>
    rw [Nat.succ_add]
    simp only [leBytes, List.cons_append]
    rw [ih, Nat.div_div_eq_div_mul, ← Nat.pow_succ']

theorem prep_image {c : Cfg} (hw : c.w = 4 ∨ c.w = 8) {abi entry closure cif fn ud : Nat} {m m' : Mem}
    (h : prepClosure c abi entry closure cif fn ud m = some m') : Image c m' closure entry cif fn ud := by
  unfold prepClosure at h
  split at h
  · simp only [Option.some.injEq] at h
    subst h
    have hlen : ((trampWords c).flatMap (leBytes 4)).length = 16 := by simp [trampWords]
    have hcode : Code (m.wr closure ((trampWords c).flatMap (leBytes 4))) closure
        (leBytes 4 0x00000317 ++ (leBytes 4 (if c.w = 8 then 0x01033383 else 0x01032383) ++ (leBytes 4 0x00038067 ++
          (leBytes 4 0x13 ++ [])))) := Code.same
    obtain ⟨c0, hcode⟩ := hcode.append
    obtain ⟨c1, hcode⟩ := hcode.append
    obtain ⟨c2, -⟩ := hcode.append
    rw [leBytes_length] at c1 c2
    rw [leBytes_length] at c2
    generalize m.wr closure ((trampWords c).flatMap (leBytes 4)) = m1 at *
    refine ⟨?_, ?_, ?_, ?_, ?_, ?_, Code.same⟩
    · refine Code.wr (Code.wr (Code.wr (Code.wr (Code.wr c0 ?_) ?_) ?_) ?_) ?_ <;> simp <;> omega
    · refine Code.wr (Code.wr (Code.wr (Code.wr (Code.wr c1 ?_) ?_) ?_) ?_) ?_ <;> simp <;> omega
    · refine Code.wr (Code.wr (Code.wr (Code.wr (Code.wr c2 ?_) ?_) ?_) ?_) ?_ <;> simp <;> omega
    · rcases hw with hw | hw <;> rw [hw]
      · refine Code.wr (Code.wr (Code.wr (Code.wr Code.same ?_) ?_) ?_) ?_ <;> simp <;> omega
      · refine Code.wr (Code.wr (Code.wr ?_ ?_) ?_) ?_ <;> try (simp; done)
        rw [show leBytes 8 entry = leBytes 4 entry ++ leBytes 4 (entry / 2 ^ 32) from leBytes_split (n := 4) (k := 4)]
        exact Code.join (Code.wr Code.same (by simp)) (by rw [leBytes_length]; exact Code.same)
    · refine Code.wr (Code.wr Code.same ?_) ?_ <;> simp <;> omega
    · exact Code.wr Code.same (by simp; omega)
  · cases h

theorem Image.view {c : Cfg} (hw : c.w = 4 ∨ c.w = 8) {m m' : Mem} {a b entry cif fn ud : Nat} (h : Image c m a entry cif fn ud)
    (hv : ∀ i, i < 24 + 3 * c.w → m' (b + i) = m (a + i)) : Image c m' b entry cif fn ud := by
  have t : ∀ {k : Nat} {bs : List Byte}, k + bs.length ≤ 24 + 3 * c.w → Code m (a + k) bs → Code m' (b + k) bs := by
    intro k bs hk hc
    refine hc.congr ?_
    intro i hi
    rw [Nat.add_assoc, Nat.add_assoc, hv _ (by omega)]
  refine ⟨?_, t (by simp; omega) h.w1, t (by simp; omega) h.w2, t (by simp; omega) h.entry, t (by simp; omega) h.cif, ?_, ?_⟩
  · have := t (k := 0) (by simp; omega) h.w0
    simpa using this
  · rw [Nat.add_assoc]
    exact t (by simp; omega) (by rw [← Nat.add_assoc]; exact h.fn)
  · rw [Nat.add_assoc]
    exact t (by simp; omega) (by rw [← Nat.add_assoc]; exact h.ud)

theorem tstep_word {c : Cfg} {m : MState} {w : Nat} {i : TIns} (h : Code m.s.mem m.pc (leBytes 4 w)) (hw : w < 2 ^ 32)
    (hd : decode w = some i) : tstep c m = texec c m i := by
  unfold tstep
  unfold Code at h
  rw [leBytes_length] at h
  rw [h, leNat_leBytes, show 256 ^ 4 = 2 ^ 32 from rfl, Nat.mod_eq_of_lt hw, hd]
  rfl

theorem tsteps_succ {c : Cfg} {n : Nat} {s t : MState} (h : tstep c s = some t) : tsteps c (n + 1) s = tsteps c n t := by
  simp [tsteps, h]

theorem tramp_run {c : Cfg} (hw : c.w = 4 ∨ c.w = 8) {s : AState} {a entry cif fn ud : Nat} (h : Image c s.mem a entry cif fn ud)
    (ha : a + 24 + 3 * c.w < 256 ^ c.w) (he : entry < 256 ^ c.w) (he2 : 2 ∣ entry) :
    tsteps c 3 ⟨a, s⟩ = some ⟨entry, { s with x := upd (upd s.x t1 a) t2 entry }⟩ := by
  have e0 : texec c ⟨a, s⟩ (.auipc 6 0) = some ⟨a + 4, { s with x := upd s.x t1 a }⟩ := by
    simp only [texec]
    rw [ea_eq (n := a + 4) (by omega) (by omega), ea_eq (n := a) (by simp [sext]) (by omega)]
    rfl
  rw [tsteps_succ ((tstep_word (m := ⟨a, s⟩) h.w0 (by decide) (by decide)).trans e0)]
  have e1 : texec c ⟨a + 4, { s with x := upd s.x t1 a }⟩ (.load 7 6 16 c.w) =
      some ⟨a + 8, { s with x := upd (upd s.x t1 a) t2 entry }⟩ := by
    have hr : rdX { s with x := upd s.x t1 a } 6 = a := rfl
    simp only [texec, hr]
    rw [if_pos (Nat.le_refl _), ea_eq (n := a + 8) (by omega) (by omega), ea_eq (b := a) (k := sext 12 16) (n := a + 16) (by simp [sext]) (by omega),
      rd_word h.entry he, ea_ld hw he]
    rfl
  have d1 : decode (if c.w = 8 then 0x01033383 else 0x01032383) = some (.load 7 6 16 c.w) := by
    rcases hw with hw | hw <;> rw [hw] <;> decide
  rw [tsteps_succ ((tstep_word (m := ⟨a + 4, { s with x := upd s.x t1 a }⟩) h.w1 (by split <;> decide) d1).trans e1)]
  have e2 : texec c ⟨a + 8, { s with x := upd (upd s.x t1 a) t2 entry }⟩ (.jalr 0 7 0) =
      some ⟨entry, { s with x := upd (upd s.x t1 a) t2 entry }⟩ := by
    have hr : rdX { s with x := upd (upd s.x t1 a) t2 entry } 7 = entry := rfl
    simp only [texec, hr]
    rw [ea_eq (n := entry) (by simp [sext]) he, Nat.div_mul_cancel he2]
    rfl
  rw [tsteps_succ ((tstep_word (m := ⟨a + 8, { s with x := upd (upd s.x t1 a) t2 entry }⟩) h.w2 (by decide) (by decide)).trans e2)]
  rfl

/-- The arguments of `ffi_closure_inner`. -/
theorem closureArgs_run {c : Cfg} {s : AState} {P a cif fn ud : Nat} (hsp : s.x sp = P)
    (hP : P + ctxSize c < 256 ^ c.w) (ht : s.x t1 = a) (ha : a + 24 + 3 * c.w < 256 ^ c.w)
    (h1 : leNat (s.mem.rd (a + 24) c.w) = cif) (h2 : leNat (s.mem.rd (a + 24 + c.w) c.w) = fn)
    (h3 : leNat (s.mem.rd (a + 24 + 2 * c.w) c.w) = ud) :
    run c (closureArgs c) s =
      { s with x := upd (upd (upd (upd (upd s.x a0 cif) (a0 + 1) fn) (a0 + 2) ud) (a0 + 3) (P + ctxSize c)) (a0 + 4) P } := by
  unfold closureArgs
  rw [run_cons, run_cons, run_cons, run_cons, run_cons, run_nil]
  have e1 : exec c s (.larg a0 (24 + 0 * c.w) t1) = { s with x := upd s.x a0 cif } := by
    simp only [exec, ht]
    rw [ea_eq (n := a + 24) (by omega) (by omega), h1]
  rw [e1]
  have b1 : upd s.x a0 cif t1 = a := ht
  have e2 : exec c { s with x := upd s.x a0 cif } (.larg (a0 + 1) (24 + 1 * c.w) t1) =
      { s with x := upd (upd s.x a0 cif) (a0 + 1) fn } := by
    simp only [exec, b1]
    rw [ea_eq (n := a + 24 + c.w) (by omega) (by omega), h2]
  rw [e2]
  have b2 : upd (upd s.x a0 cif) (a0 + 1) fn t1 = a := ht
  have e3 : exec c { s with x := upd (upd s.x a0 cif) (a0 + 1) fn } (.larg (a0 + 2) (24 + 2 * c.w) t1) =
      { s with x := upd (upd (upd s.x a0 cif) (a0 + 1) fn) (a0 + 2) ud } := by
    simp only [exec, b2]
    rw [ea_eq (n := a + 24 + 2 * c.w) (by omega) (by omega), h3]
  rw [e3]
  have b3 : upd (upd (upd s.x a0 cif) (a0 + 1) fn) (a0 + 2) ud sp = P := hsp
  have e4 : exec c { s with x := upd (upd (upd s.x a0 cif) (a0 + 1) fn) (a0 + 2) ud } (.addi (a0 + 3) sp (ctxSize c)) =
      { s with x := upd (upd (upd (upd s.x a0 cif) (a0 + 1) fn) (a0 + 2) ud) (a0 + 3) (P + ctxSize c) } := by
    simp only [exec, b3]
    rw [ea_eq (n := P + ctxSize c) (by omega) hP]
  rw [e4]
  have b4 : upd (upd (upd (upd s.x a0 cif) (a0 + 1) fn) (a0 + 2) ud) (a0 + 3) (P + ctxSize c) sp = P := hsp
  simp only [exec, b4]
  rw [ea_eq (n := P) (by omega) (by omega)]

/-- The same for a Go closure. -/
theorem goArgs_run {c : Cfg} {s : AState} {P a cif fn : Nat} (hw : 0 < c.w) (hsp : s.x sp = P)
    (hP : P + ctxSize c < 256 ^ c.w) (ht : s.x t2 = a) (ha : a + 3 * c.w < 256 ^ c.w)
    (h1 : leNat (s.mem.rd (a + c.w) c.w) = cif) (h2 : leNat (s.mem.rd (a + 2 * c.w) c.w) = fn) :
    run c (goArgs c) s =
      { s with x := upd (upd (upd (upd (upd s.x a0 cif) (a0 + 1) fn) (a0 + 2) a) (a0 + 3) (P + ctxSize c)) (a0 + 4) P } := by
  unfold goArgs
  rw [run_cons, run_cons, run_cons, run_cons, run_cons, run_nil]
  have e1 : exec c s (.larg a0 (1 * c.w) t2) = { s with x := upd s.x a0 cif } := by
    simp only [exec, ht]
    rw [ea_eq (n := a + c.w) (by omega) (by omega), h1]
  rw [e1]
  have b1 : upd s.x a0 cif t2 = a := ht
  have e2 : exec c { s with x := upd s.x a0 cif } (.larg (a0 + 1) (2 * c.w) t2) =
      { s with x := upd (upd s.x a0 cif) (a0 + 1) fn } := by
    simp only [exec, b1]
    rw [ea_eq (n := a + 2 * c.w) (by omega) (by omega), h2]
  rw [e2]
  have b2 : upd (upd s.x a0 cif) (a0 + 1) fn t2 = a := ht
  have e3 : exec c { s with x := upd (upd s.x a0 cif) (a0 + 1) fn } (.addi (a0 + 2) t2 0) =
      { s with x := upd (upd (upd s.x a0 cif) (a0 + 1) fn) (a0 + 2) a } := by
    simp only [exec, b2]
    rw [ea_eq (n := a) (by omega) (by omega)]
  rw [e3]
  have b3 : upd (upd (upd s.x a0 cif) (a0 + 1) fn) (a0 + 2) a sp = P := hsp
  have e4 : exec c { s with x := upd (upd (upd s.x a0 cif) (a0 + 1) fn) (a0 + 2) a } (.addi (a0 + 3) sp (ctxSize c)) =
      { s with x := upd (upd (upd (upd s.x a0 cif) (a0 + 1) fn) (a0 + 2) a) (a0 + 3) (P + ctxSize c) } := by
    simp only [exec, b3]
    rw [ea_eq (n := P + ctxSize c) (by omega) hP]
  rw [e4]
  have b4 : upd (upd (upd (upd s.x a0 cif) (a0 + 1) fn) (a0 + 2) a) (a0 + 3) (P + ctxSize c) sp = P := hsp
  simp only [exec, b4]
  rw [ea_eq (n := P) (by omega) (by omega)]

/-- Nothing outside the frame changes. -/
theorem frameMem_out {c : Cfg} (hw : c.w = 4 ∨ c.w = 8) {s : AState} (hf : ∀ k, (s.f k).length = c.fl) (hs : ctxSize c ≤ s.x sp)
    {x : Nat} (hx : x < s.x sp - ctxSize c ∨ s.x sp ≤ x) : frameMem c s x = s.mem x := by
  have hF : ctxSize c = 8 * c.fl + 8 * c.w + 16 := rfl
  unfold frameMem
  rw [saveRegs_out _ _ _ (fun k => leBytes_length _ _) _ _ _ (by simp only [aAddr]; omega),
    saveRegs_out _ _ _ (fun k => hf _) _ _ _ (by simp only [faAddr]; omega),
    Mem.wr_out _ _ _ _ (by simp only [List.length_append, leBytes_length]; omega)]

/-- The frame record is in place. -/
theorem frameMem_record {c : Cfg} (hw : c.w = 4 ∨ c.w = 8) {s : AState} (hf : ∀ k, (s.f k).length = c.fl) (hs : ctxSize c ≤ s.x sp) :
    (frameMem c s).rd (s.x sp - 2 * c.w) c.w = leBytes c.w (s.x fp) ∧ (frameMem c s).rd (s.x sp - c.w) c.w = leBytes c.w (s.x ra) := by
  have hF : ctxSize c = 8 * c.fl + 8 * c.w + 16 := rfl
  have key : ∀ a, s.x sp - 2 * c.w ≤ a → a + c.w ≤ s.x sp → (frameMem c s).rd a c.w =
      (s.mem.wr (s.x sp - 2 * c.w) (leBytes c.w (s.x fp) ++ leBytes c.w (s.x ra))).rd a c.w := by
    intro a h1 h2
    apply Mem.rd_congr
    intro i hi
    unfold frameMem
    rw [saveRegs_out _ _ _ (fun k => leBytes_length _ _) _ _ _ (.inr (by simp only [aAddr]; omega)),
      saveRegs_out _ _ _ (fun k => hf _) _ _ _ (.inr (by simp only [faAddr]; omega))]
  have hc : Code (s.mem.wr (s.x sp - 2 * c.w) (leBytes c.w (s.x fp) ++ leBytes c.w (s.x ra))) (s.x sp - 2 * c.w)
      (leBytes c.w (s.x fp) ++ leBytes c.w (s.x ra)) := Code.same
  obtain ⟨c1, c2⟩ := hc.append
  unfold Code at c1 c2
  simp only [leBytes_length] at c1 c2
  rw [show s.x sp - 2 * c.w + c.w = s.x sp - c.w by omega] at c2
  exact ⟨(key _ (by omega) (by omega)).trans c1, (key _ (by omega) (by omega)).trans c2⟩

end Verif.RV.Asm
