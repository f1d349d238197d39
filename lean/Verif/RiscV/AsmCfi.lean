import Verif.RiscV.AsmInt

/-! The call frame directives of src/riscv/sysv.S, and that they and the code fit. -/
namespace Verif.RV.Asm
open Verif Verif.RV

theorem code_ins (P : List Ins) (R : List Item) : code (P.map .ins ++ R) = P.map some ++ code R := by
  induction P with
  | nil => rfl
  | cons i P ih => show some i :: code (P.map .ins ++ R) = _; rw [ih]; rfl

theorem rows_ins (P : List Ins) (R : List Item) (w : Row) : rows (P.map .ins ++ R) w = List.replicate P.length w ++ rows R w := by
  induction P with
  | nil => rfl
  | cons i P ih => show w :: rows (P.map .ins ++ R) w = _; rw [ih]; rfl

/-- The rows at the call and before it, and those after it. -/
theorem unw_mk {c : Cfg} {kept : Nat → Prop} {w : Row} {s : AState} {C p : Nat} {g : Nat → Nat} (hc : w.cfa c s = C)
    (h1 : ∀ r, kept r ∨ r = 1 → w.saved r = none → s.x r = if r = 1 then p else g r)
    (h2 : ∀ r k, w.saved r = some k → leNat (s.mem.rd (ea c C k) c.w) = if r = 1 then p else g r) (hk : ¬kept 1) : Unw c kept w s C p g := by
  have hv : ∀ r, kept r ∨ r = 1 → w.val c s r = if r = 1 then p else g r := by
    intro r hr
    unfold Row.val
    rw [hc]
    cases hs : w.saved r with
    | none => exact h1 r hr hs
    | some k => exact h2 r k hs
  refine ⟨hc, (hv 1 (.inr rfl)).trans (if_pos rfl), fun r hr => (hv r (.inl hr)).trans (if_neg ?_)⟩
  rintro rfl
  exact hk hr

/-- What `fp` and `ra` are described by once both are saved. -/
def both (c : Cfg) (fp : Nat) : Nat → Option Int := upd (upd (fun _ => none) fp (some (-2 * (c.w : Int)))) 1 (some (-1 * (c.w : Int)))

theorem both_some {c : Cfg} {fp r : Nat} {k : Int} (h : both c fp r = some k) : (r = 1 ∧ k = -1 * (c.w : Int)) ∨ (r ≠ 1 ∧ r = fp ∧ k = -2 * (c.w : Int)) := by
  unfold both upd at h
  split at h
  · rename_i h1; cases h; exact .inl ⟨h1, rfl⟩
  · split at h
    · rename_i h1 h2; cases h; exact .inr ⟨h1, h2, rfl⟩
    · cases h

theorem both_none {c : Cfg} {fp r : Nat} (h : both c fp r = none) : r ≠ 1 ∧ r ≠ fp := by
  unfold both upd at h
  split at h
  · cases h
  · split at h
    · cases h
    · rename_i h1 h2; exact ⟨h1, h2⟩

theorem ea_rec {c : Cfg} (hw : c.w = 4 ∨ c.w = 8) {C : Nat} (h1 : 2 * c.w ≤ C) (h2 : C < 256 ^ c.w) :
    ea c C (-2 * (c.w : Int)) = C - 2 * c.w ∧ ea c C (-1 * (c.w : Int)) = C - c.w :=
  ⟨ea_eq (by omega) (by omega), ea_eq (by omega) (by omega)⟩

/-- A row with both saved, in a state with the frame record below `C`. -/
theorem unw_both0 {c : Cfg} (hw : c.w = 4 ∨ c.w = 8) {kept : Nat → Prop} {w : Row} {s : AState} {C p fp : Nat} {g : Nat → Nat} (hs : w.saved = both c fp)
    (hk : ¬kept 1) (hc : w.cfa c s = C) (hC1 : 2 * c.w ≤ C) (hC2 : C < 256 ^ c.w) (r1 : leNat (s.mem.rd (C - 2 * c.w) c.w) = g fp)
    (r2 : leNat (s.mem.rd (C - c.w) c.w) = p) (hr : ∀ r, kept r → r ≠ fp → s.x r = g r) : Unw c kept w s C p g := by
  obtain ⟨e2, e1⟩ := ea_rec hw hC1 hC2
  refine unw_mk hc (fun r h h' => ?_) (fun r k h => ?_) hk
  · rw [hs] at h'
    obtain ⟨n1, n2⟩ := both_none h'
    rw [if_neg n1]
    exact hr r (h.resolve_right n1) n2
  · rw [hs] at h
    obtain ⟨rfl, rfl⟩ | ⟨n1, rfl, rfl⟩ := both_some h
    · rw [e1, r2, if_pos rfl]
    · rw [e2, r1, if_neg n1]

theorem unw_both {c : Cfg} (hw : c.w = 4 ∨ c.w = 8) {kept : Nat → Prop} {w : Row} {s : AState} {C p fp spr : Nat} {g : Nat → Nat} (hs : w.saved = both c fp)
    (_ : fp ≠ 1) (hk : ¬kept 1) (hc : w.cfa c s = C) (hC1 : 2 * c.w ≤ C) (hC2 : C < 256 ^ c.w) (r1 : leNat (s.mem.rd (C - 2 * c.w) c.w) = g fp)
    (r2 : leNat (s.mem.rd (C - c.w) c.w) = p) (hr : ∀ r, kept r → r ≠ fp → s.x r = g r) (hsp : s.x spr ≤ C - 2 * c.w) :
    Unw c kept w s C p g ∧ w.Above c spr s := by
  obtain ⟨e2, e1⟩ := ea_rec hw hC1 hC2
  refine ⟨unw_both0 hw hs hk hc hC1 hC2 r1 r2 hr, fun r k h => ?_⟩
  rw [hs] at h
  rw [hc]
  obtain ⟨rfl, rfl⟩ | ⟨n1, rfl, rfl⟩ := both_some h
  · rw [e1]; omega
  · rw [e2]; omega

/-- A row with only `fp` saved. -/
theorem unw_fp {c : Cfg} (hw : c.w = 4 ∨ c.w = 8) {kept : Nat → Prop} {w : Row} {s : AState} {C p fp spr : Nat} {g : Nat → Nat}
    (hs : w.saved = upd (fun _ => none) fp (some (-2 * (c.w : Int))))
    (hfp : fp ≠ 1) (hk : ¬kept 1) (hc : w.cfa c s = C) (hC1 : 2 * c.w ≤ C) (hC2 : C < 256 ^ c.w) (r1 : leNat (s.mem.rd (C - 2 * c.w) c.w) = g fp)
    (r2 : s.x 1 = p) (hr : ∀ r, kept r → r ≠ fp → s.x r = g r) (hsp : s.x spr ≤ C - 2 * c.w) :
    Unw c kept w s C p g ∧ w.Above c spr s := by
  obtain ⟨e2, e1⟩ := ea_rec hw hC1 hC2
  have hsome : ∀ {r k}, w.saved r = some k → r = fp ∧ k = -2 * (c.w : Int) := by
    intro r k h
    rw [hs] at h
    unfold upd at h
    split at h
    · rename_i h1; cases h; exact ⟨h1, rfl⟩
    · cases h
  have hnone : ∀ {r}, w.saved r = none → r ≠ fp := by
    rintro r h rfl
    rw [hs] at h
    simp [upd] at h
  refine ⟨unw_mk hc (fun r h h' => ?_) (fun r k h => ?_) hk, fun r k h => ?_⟩
  · split
    · rename_i h1; rw [h1, r2]
    · rename_i h1; exact hr r (h.resolve_right h1) (hnone h')
  · obtain ⟨rfl, rfl⟩ := hsome h
    rw [e2, r1, if_neg hfp]
  · obtain ⟨rfl, rfl⟩ := hsome h
    rw [hc, e2]
    omega

/-- A row with nothing saved. -/
theorem unw_none {c : Cfg} {kept : Nat → Prop} {w : Row} {s : AState} {C p spr : Nat} {g : Nat → Nat} (hs : ∀ r, w.saved r = none)
    (hk : ¬kept 1) (hc : w.cfa c s = C) (r2 : s.x 1 = p) (hr : ∀ r, kept r → s.x r = g r) : Unw c kept w s C p g ∧ w.Above c spr s := by
  refine ⟨unw_mk hc (fun r h _ => ?_) (fun r k h => by rw [hs] at h; cases h) hk, fun r k h => by rw [hs] at h; cases h⟩
  split
  · rename_i h1; rw [h1, r2]
  · rename_i h1; exact hr r (h.resolve_right h1)

/-- Words read back. -/
theorem rec_words {c : Cfg} {m : Mem} {C x y : Nat} (h1 : 2 * c.w ≤ C) (hx : x < 256 ^ c.w) (hy : y < 256 ^ c.w) :
    leNat (((m.wr (C - 2 * c.w) (leBytes c.w x)).wr (C - c.w) (leBytes c.w y)).rd (C - 2 * c.w) c.w) = x ∧
      leNat (((m.wr (C - 2 * c.w) (leBytes c.w x)).wr (C - c.w) (leBytes c.w y)).rd (C - c.w) c.w) = y ∧
      leNat ((m.wr (C - 2 * c.w) (leBytes c.w x)).rd (C - 2 * c.w) c.w) = x := by
  have h := fun m a v => Mem.rd_wr_same m a (leBytes c.w v)
  simp only [leBytes_length] at h
  refine ⟨?_, ?_, ?_⟩
  · rw [Mem.rd_wr_disj _ _ _ _ _ (by rw [leBytes_length]; omega), h]; exact leNat_lt_w hx
  · rw [h]; exact leNat_lt_w hy
  · rw [h]; exact leNat_lt_w hx

/-- The register with the closure's address in `ffi_closure_asm`. -/
abbrev tc : Nat := t1

/-! ## `ffi_call_asm`, src/riscv/sysv.S:77-143 -/

/-- The blocks of register loads and stores of `callIn`, `callOut`. -/
def callLoads (c : Cfg) : List Ins :=
  (if c.fl = 0 then [] else each 8 fun k => .flarg (a0 + k) (-(ctxSize c : Int) + k * c.fl) fp) ++
  each 8 fun k => .larg (a0 + k) (-(ctxSize c : Int) + 8 * c.fl + k * c.w) fp
def callStores (c : Cfg) : List Ins :=
  (if c.fl = 0 then [] else each 2 fun k => .fsarg (a0 + k) (-(ctxSize c : Int) + k * c.fl) fp) ++
  each 2 (fun k => .sarg (a0 + k) (-(ctxSize c : Int) + 8 * c.fl + k * c.w) fp)

/-- The lines of `ffi_call_asm`. -/
def callItems (c : Cfg) : List Item :=
  [.cfi (.defCfa (a0 + 1) (ctxSize c)), .ins (.sarg fp (ctxSize c - 2 * c.w) (a0 + 1)), .cfi (.offset fp (-2 * (c.w : Int))),
   .ins (.sarg ra (ctxSize c - 1 * c.w) (a0 + 1)), .cfi (.offset ra (-1 * (c.w : Int))),
   .ins (.addi fp (a0 + 1) (ctxSize c)), .ins (.addi sp a0 0), .cfi (.defCfa fp 0),
   .ins (.addi t1 (a0 + 2) 0), .ins (.addi t2 (a0 + 3) 0)] ++ ((callLoads c).map .ins ++ ([.call] ++
  ((callStores c).map .ins ++
  [.ins (.addi sp fp (-(ctxSize c : Int))), .cfi (.defCfa sp (ctxSize c)), .ins (.larg ra (-1 * (c.w : Int)) fp), .cfi (.restore ra),
   .ins (.larg fp (-2 * (c.w : Int)) fp), .cfi (.restore fp), .ret])))

/-- These are the instructions of `callIn` and `callOut`. -/
theorem callItems_code (c : Cfg) : code (callItems c) = (callIn c).map some ++ none :: ((callOut c).map some ++ [none]) := by
  unfold callItems
  simp only [List.cons_append, List.nil_append, code, code_ins]
  unfold callIn callOut callLoads callStores
  simp

/-- The row of a function on entry (from the common information entry): `sp`. -/
def entryRow : Row := ⟨sp, 0, fun _ => none⟩

/-- The rows at the call and before, and after the call. -/
def callRowsIn (c : Cfg) : List Row :=
  [⟨a0 + 1, ctxSize c, fun _ => none⟩, ⟨a0 + 1, ctxSize c, upd (fun _ => none) fp (some (-2 * (c.w : Int)))⟩,
   ⟨a0 + 1, ctxSize c, both c fp⟩, ⟨a0 + 1, ctxSize c, both c fp⟩, ⟨fp, 0, both c fp⟩, ⟨fp, 0, both c fp⟩] ++
  List.replicate ((callLoads c).length + 1) ⟨fp, 0, both c fp⟩
def callRowsOut (c : Cfg) : List Row :=
  List.replicate (callStores c).length ⟨fp, 0, both c fp⟩ ++
  [⟨fp, 0, both c fp⟩, ⟨sp, ctxSize c, both c fp⟩, ⟨sp, ctxSize c, upd (both c fp) ra none⟩,
   ⟨sp, ctxSize c, upd (upd (both c fp) ra none) fp none⟩]

theorem callItems_rows (c : Cfg) : rows (callItems c) entryRow = callRowsIn c ++ callRowsOut c := by
  unfold callItems callRowsIn callRowsOut
  simp only [List.cons_append, List.nil_append, rows, rows_ins, Row.apply, entryRow, List.append_assoc, List.replicate_succ', both, ra]

theorem callRowsIn_length (c : Cfg) : (callRowsIn c).length = (callIn c).length + 1 := by
  unfold callRowsIn callIn callLoads
  simp

/-- The registers whose values in the caller an unwinder has to find, apart from `sp`, are none that the code uses otherwise. -/
def KeptOk (kept : Nat → Prop) : Prop := ∀ r, kept r → r ≠ 1 ∧ r ≠ sp ∧ r ≠ t1 ∧ r ≠ t2 ∧ (r < a0 ∨ a0 + 8 ≤ r) ∧ r ≠ tc

theorem callIn_good {c : Cfg} (hw : c.w = 4 ∨ c.w = 8) {lo : Nat} {kept : Nat → Prop} (hk : KeptOk kept) {s : AState} {stk ctx : Nat}
    (hx : ∀ r, s.x r < 256 ^ c.w) (hf : ∀ r, (s.f r).length = c.fl) (h0 : s.x a0 = stk) (h1 : s.x (a0 + 1) = ctx) (top : ctx + ctxSize c < 256 ^ c.w)
    (hsp : s.x sp ≤ stk) (hstk : stk ≤ ctx) :
    Up c lo sp (callIn c) s ∧ Good c sp kept (ctx + ctxSize c) (s.x 1) s.x (callIn c) (callRowsIn c) s := by
  have hF : ctxSize c = 8 * c.fl + 8 * c.w + 16 := rfl
  obtain ⟨C, hC⟩ : ∃ C, ctx + ctxSize c = C := ⟨_, rfl⟩
  have hk1 : ¬kept 1 := fun h => (hk 1 h).1 rfl
  have e1 : exec c s (.sarg fp (ctxSize c - 2 * c.w) (a0 + 1)) = { s with mem := s.mem.wr (C - 2 * c.w) (leBytes c.w (s.x fp)) } := by
    simp only [exec, h1]
    rw [ea_eq (n := C - 2 * c.w) (by omega) (by omega)]
  obtain ⟨m1, hm1⟩ : ∃ m, s.mem.wr (C - 2 * c.w) (leBytes c.w (s.x fp)) = m := ⟨_, rfl⟩
  have e2 : exec c { s with mem := m1 } (.sarg ra (ctxSize c - 1 * c.w) (a0 + 1)) =
      { s with mem := m1.wr (C - c.w) (leBytes c.w (s.x ra)) } := by
    simp only [exec, h1]
    rw [ea_eq (n := C - c.w) (by omega) (by omega)]
  obtain ⟨m2, hm2⟩ : ∃ m, m1.wr (C - c.w) (leBytes c.w (s.x ra)) = m := ⟨_, rfl⟩
  have e3 : exec c { s with mem := m2 } (.addi fp (a0 + 1) (ctxSize c)) = ⟨upd s.x fp C, s.f, m2⟩ := by
    simp only [exec, h1]
    rw [ea_eq (n := C) (by omega) (by omega)]
  have e4 : exec c ⟨upd s.x fp C, s.f, m2⟩ (.addi sp a0 0) = ⟨upd (upd s.x fp C) sp stk, s.f, m2⟩ := by
    simp only [exec]
    rw [show upd s.x fp C a0 = stk from h0, ea_eq (n := stk) (by omega) (by omega)]
  obtain ⟨x4, hx4⟩ : ∃ x, upd (upd s.x fp C) sp stk = x := ⟨_, rfl⟩
  obtain ⟨v5, h5⟩ : ∃ v, ea c (x4 (a0 + 2)) 0 = v := ⟨_, rfl⟩
  have e5 : exec c ⟨x4, s.f, m2⟩ (.addi t1 (a0 + 2) 0) = ⟨upd x4 t1 v5, s.f, m2⟩ := by
    simp only [exec, h5]
  obtain ⟨v6, h6⟩ : ∃ v, ea c (upd x4 t1 v5 (a0 + 3)) 0 = v := ⟨_, rfl⟩
  have e6 : exec c ⟨upd x4 t1 v5, s.f, m2⟩ (.addi t2 (a0 + 3) 0) = ⟨upd (upd x4 t1 v5) t2 v6, s.f, m2⟩ := by
    simp only [exec, h6]
  rw [hm1] at e1
  rw [hm2] at e2
  rw [hx4] at e4
  obtain ⟨w2, w3, w1⟩ := rec_words (c := c) (m := s.mem) (C := C) (by omega) (hx fp) (hx ra)
  rw [hm1, hm2] at w2 w3
  rw [hm1] at w1
  have x4fp : x4 fp = C := by rw [← hx4]; rfl
  have x4sp : x4 sp = stk := by rw [← hx4]; rfl
  have x4r : ∀ r, r ≠ fp → r ≠ sp → x4 r = s.x r := fun r n1 n2 => by rw [← hx4, upd_ne n2, upd_ne n1]
  -- the rows
  have g0 : Unw c kept ⟨a0 + 1, ctxSize c, fun _ => none⟩ s C (s.x 1) s.x ∧ Row.Above c sp ⟨a0 + 1, ctxSize c, fun _ => none⟩ s :=
    unw_none (fun _ => rfl) hk1 (by simp only [Row.cfa, h1]; exact ea_eq (by omega) (by omega)) rfl fun _ _ => rfl
  have g1 := unw_fp (c := c) hw (kept := kept) (w := ⟨a0 + 1, ctxSize c, upd (fun _ => none) fp (some (-2 * (c.w : Int)))⟩) (s := { s with mem := m1 })
    (C := C) (p := s.x 1) (fp := fp) (spr := sp) (g := s.x) rfl (by decide) hk1 (by simp only [Row.cfa, h1]; exact ea_eq (by omega) (by omega))
    (by omega) (by omega) w1 rfl (fun _ _ _ => rfl) (by dsimp only; omega)
  have g2 := unw_both (c := c) hw (kept := kept) (w := ⟨a0 + 1, ctxSize c, both c fp⟩) (s := { s with mem := m2 })
    (C := C) (p := s.x 1) (fp := fp) (spr := sp) (g := s.x) rfl (by decide) hk1 (by simp only [Row.cfa, h1]; exact ea_eq (by omega) (by omega))
    (by omega) (by omega) w2 w3 (fun _ _ _ => rfl) (by dsimp only; omega)
  have g3 := unw_both (c := c) hw (kept := kept) (w := ⟨a0 + 1, ctxSize c, both c fp⟩) (s := ⟨upd s.x fp C, s.f, m2⟩)
    (C := C) (p := s.x 1) (fp := fp) (spr := sp) (g := s.x) rfl (by decide) hk1
    (by simp only [Row.cfa]; rw [show upd s.x fp C (a0 + 1) = ctx from h1]; exact ea_eq (by omega) (by omega))
    (by omega) (by omega) w2 w3 (fun r _ n => upd_ne n) (by show s.x sp ≤ _; omega)
  have g4 := unw_both (c := c) hw (kept := kept) (w := ⟨fp, 0, both c fp⟩) (s := ⟨x4, s.f, m2⟩)
    (C := C) (p := s.x 1) (fp := fp) (spr := sp) (g := s.x) rfl (by decide) hk1 (by simp only [Row.cfa, x4fp]; exact ea_eq (by omega) (by omega))
    (by omega) (by omega) w2 w3 (fun r h n => x4r r n (hk r h).2.1) (by show x4 sp ≤ _; omega)
  have g5 := unw_both (c := c) hw (kept := kept) (w := ⟨fp, 0, both c fp⟩) (s := ⟨upd x4 t1 v5, s.f, m2⟩)
    (C := C) (p := s.x 1) (fp := fp) (spr := sp) (g := s.x) rfl (by decide) hk1
    (by simp only [Row.cfa]; rw [show upd x4 t1 v5 fp = C from x4fp]; exact ea_eq (by omega) (by omega))
    (by omega) (by omega) w2 w3 (fun r h n => (upd_ne (hk r h).2.2.1).trans (x4r r n (hk r h).2.1)) (by show x4 sp ≤ _; omega)
  have x6sp : upd (upd x4 t1 v5) t2 v6 sp = stk := x4sp
  have x6fp : upd (upd x4 t1 v5) t2 v6 fp = C := x4fp
  obtain ⟨x6, hx6⟩ : ∃ x, upd (upd x4 t1 v5) t2 v6 = x := ⟨_, rfl⟩
  have x6r : ∀ r, kept r → r ≠ fp → x6 r = s.x r := fun r h n => by
    rw [← hx6, upd_ne (hk r h).2.2.2.1, upd_ne (hk r h).2.2.1, x4r r n (hk r h).2.1]
  rw [hx6] at x6sp x6fp
  rw [hx6] at e6
  have g6 := unw_both (c := c) hw (kept := kept) (w := ⟨fp, 0, both c fp⟩) (s := ⟨x6, s.f, m2⟩)
    (C := C) (p := s.x 1) (fp := fp) (spr := sp) (g := s.x) rfl (by decide) hk1 (by simp only [Row.cfa, x6fp]; exact ea_eq (by omega) (by omega))
    (by omega) (by omega) w2 w3 x6r (by show x6 sp ≤ _; omega)
  have hcfa : Row.cfa c ⟨fp, 0, both c fp⟩ ⟨x6, s.f, m2⟩ = C := g6.1.cfa
  obtain ⟨ea2, ea1⟩ := ea_rec hw (C := C) (by omega) (by omega)
  obtain ⟨u, g⟩ := quiet_block (c := c) (lo := lo) (spr := sp) (A := C - 2 * c.w) (B := C) (K := fun r => kept r ∨ r = sp ∨ r = fp) (kept := kept)
    (s0 := ⟨x6, s.f, m2⟩) (w := ⟨fp, 0, both c fp⟩) (.inr (.inl rfl)) (.inr (.inr rfl))
    (fun r h h' => .inl (h.resolve_right (both_none h').1))
    (fun r k h => by
      rw [hcfa]
      obtain ⟨-, rfl⟩ | ⟨-, -, rfl⟩ := both_some h
      · rw [ea1]; omega
      · rw [ea2]; omega) g6.1 g6.2 (P := callLoads c) (s := ⟨x6, s.f, m2⟩) ⟨fun _ _ => rfl, fun _ _ _ => rfl, hf⟩ (by
    have hn : ∀ k, k < 8 → ¬(kept (a0 + k) ∨ a0 + k = sp ∨ a0 + k = fp) := by
      rintro k hk8 (h | h | h)
      · have := (hk _ h).2.2.2.2.1; omega
      · unfold a0 sp at h; omega
      · unfold a0 fp at h; omega
    intro i hi
    unfold callLoads at hi
    rcases List.mem_append.1 hi with hi | hi
    · split at hi
      · cases hi
      · obtain ⟨k, hk8, rfl⟩ := mem_each hi
        have : k * c.fl ≤ 7 * c.fl := Nat.mul_le_mul_right _ (by omega)
        refine ⟨.inr (.inr rfl), .inr ?_⟩
        show x6 sp ≤ ea c (x6 fp) _
        rw [x6sp, x6fp, ea_eq (n := ctx + k * c.fl) (by push_cast; omega) (by omega)]
        omega
    · obtain ⟨k, hk8, rfl⟩ := mem_each hi
      have : k * c.w ≤ 7 * c.w := Nat.mul_le_mul_right _ (by omega)
      refine ⟨hn k hk8, .inr (.inr rfl), .inr ?_⟩
      show x6 sp ≤ ea c (x6 fp) _
      rw [x6sp, x6fp, ea_eq (n := ctx + 8 * c.fl + k * c.w) (by push_cast; omega) (by omega)]
      omega)
  have hin : callIn c = [.sarg fp (ctxSize c - 2 * c.w) (a0 + 1), .sarg ra (ctxSize c - 1 * c.w) (a0 + 1),
      .addi fp (a0 + 1) (ctxSize c), .addi sp a0 0, .addi t1 (a0 + 2) 0, .addi t2 (a0 + 3) 0] ++ callLoads c := by
    unfold callIn callLoads; rw [List.append_assoc]
  rw [hin, hC]
  constructor
  · refine ⟨fun _ _ h => (nomatch h), ?_, ?_⟩
    · rw [e1]
    rw [e1]
    refine ⟨fun _ _ h => (nomatch h), ?_, ?_⟩
    · rw [e2]
    rw [e2]
    refine ⟨fun _ _ h => (nomatch h), ?_, ?_⟩
    · rw [e3]; exact Nat.le_refl _
    rw [e3]
    refine ⟨fun _ _ h => (nomatch h), ?_, ?_⟩
    · rw [e4]; show s.x sp ≤ x4 sp; omega
    rw [e4]
    refine ⟨fun _ _ h => (nomatch h), ?_, ?_⟩
    · rw [e5]; exact Nat.le_refl _
    rw [e5]
    refine ⟨fun _ _ h => (nomatch h), ?_, ?_⟩
    · rw [e6]; show x4 sp ≤ x6 sp; omega
    rw [e6]
    exact u
  · refine ⟨g0, ?_⟩
    rw [e1]
    refine ⟨g1, ?_⟩
    rw [e2]
    refine ⟨g2, ?_⟩
    rw [e3]
    refine ⟨g3, ?_⟩
    rw [e4]
    refine ⟨g4, ?_⟩
    rw [e5]
    refine ⟨g5, ?_⟩
    rw [e6]
    exact g

theorem callOut_good {c : Cfg} (hw : c.w = 4 ∨ c.w = 8) {lo : Nat} {kept : Nat → Prop} (hk : KeptOk kept) {u : AState} {ctx p : Nat} {g : Nat → Nat}
    (hf : ∀ r, (u.f r).length = c.fl) (hfp : u.x fp = ctx + ctxSize c) (top : ctx + ctxSize c < 256 ^ c.w) (hsp : u.x sp ≤ ctx)
    (hr : ∀ r, kept r → r ≠ fp → u.x r = g r) (r1 : leNat (u.mem.rd (ctx + ctxSize c - 2 * c.w) c.w) = g fp)
    (r2 : leNat (u.mem.rd (ctx + ctxSize c - c.w) c.w) = p) :
    Up c lo sp (callOut c) u ∧ Good c sp kept (ctx + ctxSize c) p g (callOut c) (callRowsOut c) u := by
  have hF : ctxSize c = 8 * c.fl + 8 * c.w + 16 := rfl
  obtain ⟨C, hC⟩ : ∃ C, ctx + ctxSize c = C := ⟨_, rfl⟩
  rw [hC] at hfp r1 r2
  have hk1 : ¬kept 1 := fun h => (hk 1 h).1 rfl
  obtain ⟨ea2, ea1⟩ := ea_rec hw (C := C) (by omega) (by omega)
  have g0 := unw_both (c := c) hw (kept := kept) (w := ⟨fp, 0, both c fp⟩) (s := u)
    (C := C) (p := p) (fp := fp) (spr := sp) (g := g) rfl (by decide) hk1 (by simp only [Row.cfa, hfp]; exact ea_eq (by omega) (by omega))
    (by omega) (by omega) r1 r2 hr (by omega)
  have hq : ∀ i ∈ callStores c, Quiet c lo sp (fun r => kept r ∨ r = sp ∨ r = fp) (C - 2 * c.w) C u i := by
    intro i hi
    unfold callStores at hi
    rcases List.mem_append.1 hi with hi | hi
    · split at hi
      · cases hi
      · obtain ⟨k, hk8, rfl⟩ := mem_each hi
        have : k * c.fl ≤ 1 * c.fl := Nat.mul_le_mul_right _ (by omega)
        refine ⟨.inr (.inr rfl), .inl ?_⟩
        rw [hfp, ea_eq (n := ctx + k * c.fl) (by push_cast; omega) (by omega)]
        omega
    · obtain ⟨k, hk8, rfl⟩ := mem_each hi
      have : k * c.w ≤ 1 * c.w := Nat.mul_le_mul_right _ (by omega)
      refine ⟨.inr (.inr rfl), .inl ?_⟩
      rw [hfp, ea_eq (n := ctx + 8 * c.fl + k * c.w) (by push_cast; omega) (by omega)]
      omega
  have hsame0 : Same (fun r => kept r ∨ r = sp ∨ r = fp) (C - 2 * c.w) C c.fl u u := ⟨fun _ _ => rfl, fun _ _ _ => rfl, hf⟩
  obtain ⟨ub, gb⟩ := quiet_block (c := c) (lo := lo) (spr := sp) (A := C - 2 * c.w) (B := C) (K := fun r => kept r ∨ r = sp ∨ r = fp) (kept := kept)
    (s0 := u) (w := ⟨fp, 0, both c fp⟩) (.inr (.inl rfl)) (.inr (.inr rfl))
    (fun r h h' => .inl (h.resolve_right (both_none h').1))
    (fun r k h => by
      rw [g0.1.cfa]
      obtain ⟨-, rfl⟩ | ⟨-, -, rfl⟩ := both_some h
      · rw [ea1]; omega
      · rw [ea2]; omega) g0.1 g0.2 (P := callStores c) (s := u) hsame0 hq
  have hs1 := run_same hsame0 hq
  obtain ⟨v, hv⟩ : ∃ v, run c (callStores c) u = v := ⟨_, rfl⟩
  rw [hv] at hs1
  have vfp : v.x fp = C := (hs1.x fp (.inr (.inr rfl))).trans hfp
  have vsp : v.x sp = u.x sp := hs1.x sp (.inr (.inl rfl))
  have vr : ∀ r, kept r → r ≠ fp → v.x r = g r := fun r h n => (hs1.x r (.inl h)).trans (hr r h n)
  have v1 : leNat (v.mem.rd (C - 2 * c.w) c.w) = g fp :=
    (congrArg leNat (Mem.rd_congr fun i hi => hs1.mem _ (by omega) (by omega))).trans r1
  have v2 : leNat (v.mem.rd (C - c.w) c.w) = p :=
    (congrArg leNat (Mem.rd_congr fun i hi => hs1.mem _ (by omega) (by omega))).trans r2
  have e1 : exec c v (.addi sp fp (-(ctxSize c : Int))) = { v with x := upd v.x sp ctx } := by
    simp only [exec, vfp]
    rw [ea_eq (n := ctx) (by omega) (by omega)]
  have e2 : exec c { v with x := upd v.x sp ctx } (.larg ra (-1 * (c.w : Int)) fp) = { v with x := upd (upd v.x sp ctx) ra p } := by
    simp only [exec]
    rw [show upd v.x sp ctx fp = C from vfp, ea1, v2]
  have e3 : exec c { v with x := upd (upd v.x sp ctx) ra p } (.larg fp (-2 * (c.w : Int)) fp) =
      { v with x := upd (upd (upd v.x sp ctx) ra p) fp (g fp) } := by
    simp only [exec]
    rw [show upd (upd v.x sp ctx) ra p fp = C from vfp, ea2, v1]
  have h1 := unw_both (c := c) hw (kept := kept) (w := ⟨sp, ctxSize c, both c fp⟩) (s := { v with x := upd v.x sp ctx })
    (C := C) (p := p) (fp := fp) (spr := sp) (g := g) rfl (by decide) hk1
    (by simp only [Row.cfa]; rw [show upd v.x sp ctx sp = ctx from rfl]; exact ea_eq (by omega) (by omega))
    (by omega) (by omega) v1 v2 (fun r h n => (upd_ne (hk r h).2.1).trans (vr r h n)) (by show ctx ≤ _; omega)
  have h2 := unw_fp (c := c) hw (kept := kept) (w := ⟨sp, ctxSize c, upd (both c fp) ra none⟩) (s := { v with x := upd (upd v.x sp ctx) ra p })
    (C := C) (p := p) (fp := fp) (spr := sp) (g := g) (by funext r; simp only [both, upd, ra, fp]; split <;> simp_all) (by decide) hk1
    (by simp only [Row.cfa]; rw [show upd (upd v.x sp ctx) ra p sp = ctx from rfl]; exact ea_eq (by omega) (by omega))
    (by omega) (by omega) v1 rfl (fun r h n => (upd_ne (hk r h).1).trans ((upd_ne (hk r h).2.1).trans (vr r h n))) (by show ctx ≤ _; omega)
  have h3 := unw_none (c := c) (kept := kept) (w := ⟨sp, ctxSize c, upd (upd (both c fp) ra none) fp none⟩)
    (s := { v with x := upd (upd (upd v.x sp ctx) ra p) fp (g fp) }) (C := C) (p := p) (spr := sp) (g := g)
    (fun r => by by_cases n : r = fp <;> by_cases n' : r = 1 <;> simp [both, upd, ra, n, n']) hk1
    (by simp only [Row.cfa]; rw [show upd (upd (upd v.x sp ctx) ra p) fp (g fp) sp = ctx from rfl]; exact ea_eq (by omega) (by omega)) rfl
    (fun r h => by
      dsimp only
      by_cases n : r = fp
      · rw [n]; rfl
      · rw [upd_ne n, upd_ne (show r ≠ ra from (hk r h).1), upd_ne (hk r h).2.1, vr r h n])
  have ho : callOut c = callStores c ++ [.addi sp fp (-(ctxSize c : Int)), .larg ra (-1 * (c.w : Int)) fp, .larg fp (-2 * (c.w : Int)) fp] := rfl
  rw [ho, hC]
  constructor
  · refine up_append ub ?_
    rw [hv]
    refine ⟨fun _ _ h => (nomatch h), ?_, ?_⟩
    · rw [e1]; show v.x sp ≤ ctx; omega
    rw [e1]
    refine ⟨fun a n h => ?_, ?_, ?_⟩
    · cases h
      show _ ∨ ctx ≤ ea c (v.x fp) _
      rw [vfp, ea1]; omega
    · rw [e2]; exact Nat.le_refl _
    rw [e2]
    refine ⟨fun a n h => ?_, ?_, trivial⟩
    · cases h
      show _ ∨ ctx ≤ ea c (v.x fp) _
      rw [vfp, ea2]; omega
    · rw [e3]; exact Nat.le_refl _
  · refine good_append (ws := List.replicate (callStores c).length ⟨fp, 0, both c fp⟩) (by rw [← List.replicate_succ']; exact gb) ?_
    rw [hv]
    refine ⟨unw_both (c := c) hw rfl (by decide) hk1 (by simp only [Row.cfa, vfp]; exact ea_eq (by omega) (by omega)) (by omega) (by omega) v1 v2 vr (by omega), ?_⟩
    rw [e1]
    refine ⟨h1, ?_⟩
    rw [e2]
    refine ⟨h2, ?_⟩
    rw [e3]
    exact h3

/-! ## `ffi_closure_asm` and `ffi_go_closure_asm`, src/riscv/sysv.S:159-218, 233-292 -/

/-- The blocks of register stores and loads of `closureSave`, `closureOut`. -/
def closureStores (c : Cfg) : List Ins :=
  (if c.fl = 0 then [] else each 8 fun k => .fsarg (a0 + k) (k * c.fl) sp) ++
  each 8 fun k => .sarg (a0 + k) (8 * c.fl + k * c.w) sp
def closureLoads (c : Cfg) : List Ins :=
  (if c.fl = 0 then [] else each 2 fun k => .flarg (a0 + k) (k * c.fl) sp) ++
  each 2 (fun k => .larg (a0 + k) (8 * c.fl + k * c.w) sp)

/-- The lines of the two functions, which differ in `args`. -/
def closureItems (c : Cfg) (args : List Ins) : List Item :=
  [.ins (.addi sp sp (-(ctxSize c : Int))), .cfi (.defCfaOffset (ctxSize c)), .ins (.sarg fp (ctxSize c - 2 * c.w) sp), .cfi (.offset fp (-2 * (c.w : Int))),
   .ins (.sarg ra (ctxSize c - 1 * c.w) sp), .cfi (.offset ra (-1 * (c.w : Int))), .ins (.addi fp sp (ctxSize c))] ++
  ((closureStores c ++ args).map .ins ++ ([.call] ++ ((closureLoads c).map .ins ++
  [.ins (.larg ra (ctxSize c - 1 * c.w) sp), .cfi (.restore ra), .ins (.larg fp (ctxSize c - 2 * c.w) sp), .cfi (.restore fp),
   .ins (.addi sp sp (ctxSize c)), .cfi (.defCfaOffset 0), .ret])))

/-- These are the instructions of `closureSave`, `args` and `closureOut`. -/
theorem closureItems_code (c : Cfg) (args : List Ins) :
    code (closureItems c args) = (closureSave c ++ args).map some ++ none :: ((closureOut c).map some ++ [none]) := by
  unfold closureItems
  simp only [List.cons_append, List.nil_append, code, code_ins]
  unfold closureSave closureOut closureStores closureLoads
  simp

def closureRowsIn (c : Cfg) (args : List Ins) : List Row :=
  [entryRow, ⟨sp, ctxSize c, fun _ => none⟩, ⟨sp, ctxSize c, upd (fun _ => none) fp (some (-2 * (c.w : Int)))⟩, ⟨sp, ctxSize c, both c fp⟩] ++
  List.replicate ((closureStores c ++ args).length + 1) ⟨sp, ctxSize c, both c fp⟩
def closureRowsOut (c : Cfg) : List Row :=
  List.replicate (closureLoads c).length ⟨sp, ctxSize c, both c fp⟩ ++
  [⟨sp, ctxSize c, both c fp⟩, ⟨sp, ctxSize c, upd (both c fp) ra none⟩, ⟨sp, ctxSize c, upd (upd (both c fp) ra none) fp none⟩,
   ⟨sp, 0, upd (upd (both c fp) ra none) fp none⟩]

theorem closureItems_rows (c : Cfg) (args : List Ins) : rows (closureItems c args) entryRow = closureRowsIn c args ++ closureRowsOut c := by
  unfold closureItems closureRowsIn closureRowsOut
  simp only [List.cons_append, List.nil_append, rows, rows_ins, Row.apply, entryRow, List.append_assoc, List.replicate_succ', both, ra]

theorem closureRowsIn_length (c : Cfg) (args : List Ins) : (closureRowsIn c args).length = (closureSave c ++ args).length + 1 := by
  unfold closureRowsIn closureSave closureStores
  simp

theorem closureIn_good {c : Cfg} (hw : c.w = 4 ∨ c.w = 8) {lo : Nat} {kept : Nat → Prop} (hk : KeptOk kept) {s : AState} {args : List Ins}
    (hx : ∀ r, s.x r < 256 ^ c.w) (hf : ∀ r, (s.f r).length = c.fl) (room : ctxSize c ≤ s.x sp)
    (hargs : ∀ x m, x sp = s.x sp - ctxSize c → x tc = s.x tc → x t2 = s.x t2 → ∀ i ∈ args,
      Quiet c lo sp (fun r => kept r ∨ r = sp ∨ r = fp ∨ r = tc ∨ r = t2) (s.x sp - 2 * c.w) (s.x sp) ⟨x, s.f, m⟩ i) :
    let is := [.sarg fp (ctxSize c - 2 * c.w) sp, .sarg ra (ctxSize c - 1 * c.w) sp, .addi fp sp (ctxSize c)] ++ (closureStores c ++ args)
    let s1 : AState := { s with x := upd s.x sp (s.x sp - ctxSize c) }
    exec c s (.addi sp sp (-(ctxSize c : Int))) = s1 ∧
    Up c lo sp is s1 ∧ Good c sp kept (s.x sp) (s.x 1) s.x is (closureRowsIn c args).tail s1 := by
  intro is s1
  have hF : ctxSize c = 8 * c.fl + 8 * c.w + 16 := rfl
  obtain ⟨C, hC⟩ : ∃ C, s.x sp = C := ⟨_, rfl⟩
  obtain ⟨P, hP⟩ : ∃ P, C - ctxSize c = P := ⟨_, rfl⟩
  have hCx : C < 256 ^ c.w := hC ▸ hx sp
  have hk1 : ¬kept 1 := fun h => (hk 1 h).1 rfl
  have hs1 : s1 = ⟨upd s.x sp P, s.f, s.mem⟩ := by show AState.mk _ _ _ = _; rw [hC, hP]
  rw [hC] at room hargs ⊢
  rw [hP] at hargs
  refine ⟨?_, ?_⟩
  · rw [hs1]
    simp only [exec, hC]
    rw [ea_eq (n := P) (by omega) (by omega)]
  rw [hs1]
  have x1sp : upd s.x sp P sp = P := rfl
  have x1r : ∀ r, r ≠ sp → upd s.x sp P r = s.x r := fun r n => upd_ne n
  have x1fp : upd s.x sp P fp = s.x fp := rfl
  have x1ra : upd s.x sp P ra = s.x ra := rfl
  have x1tc : upd s.x sp P tc = s.x tc := rfl
  have x1t2 : upd s.x sp P t2 = s.x t2 := rfl
  obtain ⟨x1, hx1⟩ : ∃ x, upd s.x sp P = x := ⟨_, rfl⟩
  rw [hx1] at x1sp x1r x1fp x1ra x1tc x1t2 ⊢
  have e1 : exec c ⟨x1, s.f, s.mem⟩ (.sarg fp (ctxSize c - 2 * c.w) sp) = ⟨x1, s.f, s.mem.wr (C - 2 * c.w) (leBytes c.w (s.x fp))⟩ := by
    simp only [exec, x1sp, x1fp]
    rw [ea_eq (n := C - 2 * c.w) (by omega) (by omega)]
  obtain ⟨m1, hm1⟩ : ∃ m, s.mem.wr (C - 2 * c.w) (leBytes c.w (s.x fp)) = m := ⟨_, rfl⟩
  have e2 : exec c ⟨x1, s.f, m1⟩ (.sarg ra (ctxSize c - 1 * c.w) sp) = ⟨x1, s.f, m1.wr (C - c.w) (leBytes c.w (s.x ra))⟩ := by
    simp only [exec, x1sp, x1ra]
    rw [ea_eq (n := C - c.w) (by omega) (by omega)]
  obtain ⟨m2, hm2⟩ : ∃ m, m1.wr (C - c.w) (leBytes c.w (s.x ra)) = m := ⟨_, rfl⟩
  have e3 : exec c ⟨x1, s.f, m2⟩ (.addi fp sp (ctxSize c)) = ⟨upd x1 fp C, s.f, m2⟩ := by
    simp only [exec, x1sp]
    rw [ea_eq (n := C) (by omega) (by omega)]
  rw [hm1] at e1
  rw [hm2] at e2
  obtain ⟨w2, w3, w1⟩ := rec_words (c := c) (m := s.mem) (C := C) (by omega) (hx fp) (hx ra)
  rw [hm1, hm2] at w2 w3
  rw [hm1] at w1
  have g0 := unw_none (c := c) (kept := kept) (w := ⟨sp, ctxSize c, fun _ => none⟩) (s := ⟨x1, s.f, s.mem⟩) (C := C) (p := s.x 1) (spr := sp) (g := s.x)
    (fun _ => rfl) hk1 (by simp only [Row.cfa, x1sp]; exact ea_eq (by omega) (by omega)) x1ra fun r h => x1r r (hk r h).2.1
  have g1 := unw_fp (c := c) hw (kept := kept) (w := ⟨sp, ctxSize c, upd (fun _ => none) fp (some (-2 * (c.w : Int)))⟩) (s := ⟨x1, s.f, m1⟩)
    (C := C) (p := s.x 1) (fp := fp) (spr := sp) (g := s.x) rfl (by decide) hk1 (by simp only [Row.cfa, x1sp]; exact ea_eq (by omega) (by omega))
    (by omega) (by omega) w1 x1ra (fun r h _ => x1r r (hk r h).2.1) (by dsimp only; omega)
  have g2 := unw_both (c := c) hw (kept := kept) (w := ⟨sp, ctxSize c, both c fp⟩) (s := ⟨x1, s.f, m2⟩)
    (C := C) (p := s.x 1) (fp := fp) (spr := sp) (g := s.x) rfl (by decide) hk1 (by simp only [Row.cfa, x1sp]; exact ea_eq (by omega) (by omega))
    (by omega) (by omega) w2 w3 (fun r h _ => x1r r (hk r h).2.1) (by dsimp only; omega)
  have x3sp : upd x1 fp C sp = P := x1sp
  have x3r : ∀ r, r ≠ sp → r ≠ fp → upd x1 fp C r = s.x r := fun r n n' => (upd_ne n').trans (x1r r n)
  have x3tc : upd x1 fp C tc = s.x tc := x1tc
  have x3t2 : upd x1 fp C t2 = s.x t2 := x1t2
  obtain ⟨x3, hx3⟩ : ∃ x, upd x1 fp C = x := ⟨_, rfl⟩
  rw [hx3] at x3sp x3r e3 x3tc x3t2
  have g3 := unw_both (c := c) hw (kept := kept) (w := ⟨sp, ctxSize c, both c fp⟩) (s := ⟨x3, s.f, m2⟩)
    (C := C) (p := s.x 1) (fp := fp) (spr := sp) (g := s.x) rfl (by decide) hk1 (by simp only [Row.cfa, x3sp]; exact ea_eq (by omega) (by omega))
    (by omega) (by omega) w2 w3 (fun r h n => x3r r (hk r h).2.1 n) (by dsimp only; omega)
  obtain ⟨ea2, ea1⟩ := ea_rec hw (C := C) (by omega) (by omega)
  obtain ⟨u, g⟩ := quiet_block (c := c) (lo := lo) (spr := sp) (A := C - 2 * c.w) (B := C) (K := fun r => kept r ∨ r = sp ∨ r = fp ∨ r = tc ∨ r = t2)
    (kept := kept) (s0 := ⟨x3, s.f, m2⟩) (w := ⟨sp, ctxSize c, both c fp⟩) (.inr (.inl rfl)) (.inr (.inl rfl))
    (fun r h h' => .inl (h.resolve_right (both_none h').1))
    (fun r k h => by
      rw [g3.1.cfa]
      obtain ⟨-, rfl⟩ | ⟨-, -, rfl⟩ := both_some h
      · rw [ea1]; omega
      · rw [ea2]; omega) g3.1 g3.2 (P := closureStores c ++ args) (s := ⟨x3, s.f, m2⟩) ⟨fun _ _ => rfl, fun _ _ _ => rfl, hf⟩ (by
    intro i hi
    rcases List.mem_append.1 hi with hi | hi
    · unfold closureStores at hi
      rcases List.mem_append.1 hi with hi | hi
      · split at hi
        · cases hi
        · obtain ⟨k, hk8, rfl⟩ := mem_each hi
          have : k * c.fl ≤ 7 * c.fl := Nat.mul_le_mul_right _ (by omega)
          refine ⟨.inr (.inl rfl), .inl ?_⟩
          show ea c (x3 sp) _ + _ ≤ _
          rw [x3sp, ea_eq (n := P + k * c.fl) (by push_cast; omega) (by omega)]
          omega
      · obtain ⟨k, hk8, rfl⟩ := mem_each hi
        have : k * c.w ≤ 7 * c.w := Nat.mul_le_mul_right _ (by omega)
        refine ⟨.inr (.inl rfl), .inl ?_⟩
        show ea c (x3 sp) _ + _ ≤ _
        rw [x3sp, ea_eq (n := P + 8 * c.fl + k * c.w) (by push_cast; omega) (by omega)]
        omega
    · exact hargs x3 m2 x3sp x3tc x3t2 i hi)
  constructor
  · refine ⟨fun _ _ h => (nomatch h), ?_, ?_⟩
    · rw [e1]
    rw [e1]
    refine ⟨fun _ _ h => (nomatch h), ?_, ?_⟩
    · rw [e2]
    rw [e2]
    refine ⟨fun _ _ h => (nomatch h), ?_, ?_⟩
    · rw [e3]; show x1 sp ≤ x3 sp; omega
    rw [e3]
    exact u
  · refine ⟨g0, ?_⟩
    rw [e1]
    refine ⟨g1, ?_⟩
    rw [e2]
    refine ⟨g2, ?_⟩
    rw [e3]
    exact g

theorem closureOut_good {c : Cfg} (hw : c.w = 4 ∨ c.w = 8) {lo : Nat} {kept : Nat → Prop} (hk : KeptOk kept) {u : AState} {C p : Nat} {g : Nat → Nat}
    (hf : ∀ r, (u.f r).length = c.fl) (hsp : u.x sp = C - ctxSize c) (room : ctxSize c ≤ C) (top : C < 256 ^ c.w)
    (hr : ∀ r, kept r → r ≠ fp → u.x r = g r) (r1 : leNat (u.mem.rd (C - 2 * c.w) c.w) = g fp)
    (r2 : leNat (u.mem.rd (C - c.w) c.w) = p) :
    Up c lo sp (closureOut c) u ∧ Good c sp kept C p g (closureOut c) (closureRowsOut c) u := by
  have hF : ctxSize c = 8 * c.fl + 8 * c.w + 16 := rfl
  obtain ⟨P, hP⟩ : ∃ P, C - ctxSize c = P := ⟨_, rfl⟩
  rw [hP] at hsp
  have hk1 : ¬kept 1 := fun h => (hk 1 h).1 rfl
  obtain ⟨ea2, ea1⟩ := ea_rec hw (C := C) (by omega) (by omega)
  have g0 := unw_both (c := c) hw (kept := kept) (w := ⟨sp, ctxSize c, both c fp⟩) (s := u)
    (C := C) (p := p) (fp := fp) (spr := sp) (g := g) rfl (by decide) hk1 (by simp only [Row.cfa, hsp]; exact ea_eq (by omega) (by omega))
    (by omega) (by omega) r1 r2 hr (by omega)
  have hq : ∀ i ∈ closureLoads c, Quiet c lo sp (fun r => kept r ∨ r = sp) (C - 2 * c.w) C u i := by
    have hn : ∀ k, k < 2 → ¬(kept (a0 + k) ∨ a0 + k = sp) := by
      rintro k hk8 (h | h)
      · have := (hk _ h).2.2.2.2.1; omega
      · unfold a0 sp at h; omega
    intro i hi
    unfold closureLoads at hi
    rcases List.mem_append.1 hi with hi | hi
    · split at hi
      · cases hi
      · obtain ⟨k, hk8, rfl⟩ := mem_each hi
        have : k * c.fl ≤ 1 * c.fl := Nat.mul_le_mul_right _ (by omega)
        refine ⟨.inr rfl, .inr ?_⟩
        rw [hsp, ea_eq (n := P + k * c.fl) (by push_cast; omega) (by omega)]
        omega
    · obtain ⟨k, hk8, rfl⟩ := mem_each hi
      have : k * c.w ≤ 1 * c.w := Nat.mul_le_mul_right _ (by omega)
      refine ⟨hn k hk8, .inr rfl, .inr ?_⟩
      rw [hsp, ea_eq (n := P + 8 * c.fl + k * c.w) (by push_cast; omega) (by omega)]
      omega
  have hsame0 : Same (fun r => kept r ∨ r = sp) (C - 2 * c.w) C c.fl u u := ⟨fun _ _ => rfl, fun _ _ _ => rfl, hf⟩
  obtain ⟨ub, gb⟩ := quiet_block (c := c) (lo := lo) (spr := sp) (A := C - 2 * c.w) (B := C) (K := fun r => kept r ∨ r = sp) (kept := kept)
    (s0 := u) (w := ⟨sp, ctxSize c, both c fp⟩) (.inr rfl) (.inr rfl)
    (fun r h h' => .inl (h.resolve_right (both_none h').1))
    (fun r k h => by
      rw [g0.1.cfa]
      obtain ⟨-, rfl⟩ | ⟨-, -, rfl⟩ := both_some h
      · rw [ea1]; omega
      · rw [ea2]; omega) g0.1 g0.2 (P := closureLoads c) (s := u) hsame0 hq
  have hs1 := run_same hsame0 hq
  obtain ⟨v, hv⟩ : ∃ v, run c (closureLoads c) u = v := ⟨_, rfl⟩
  rw [hv] at hs1
  have vsp : v.x sp = P := (hs1.x sp (.inr rfl)).trans hsp
  have vr : ∀ r, kept r → r ≠ fp → v.x r = g r := fun r h n => (hs1.x r (.inl h)).trans (hr r h n)
  have v1 : leNat (v.mem.rd (C - 2 * c.w) c.w) = g fp :=
    (congrArg leNat (Mem.rd_congr fun i hi => hs1.mem _ (by omega) (by omega))).trans r1
  have v2 : leNat (v.mem.rd (C - c.w) c.w) = p :=
    (congrArg leNat (Mem.rd_congr fun i hi => hs1.mem _ (by omega) (by omega))).trans r2
  have eb1 : ea c P (ctxSize c - 1 * c.w) = C - c.w := ea_eq (by omega) (by omega)
  have eb2 : ea c P (ctxSize c - 2 * c.w) = C - 2 * c.w := ea_eq (by omega) (by omega)
  have e1 : exec c v (.larg ra (ctxSize c - 1 * c.w) sp) = { v with x := upd v.x ra p } := by
    simp only [exec, vsp]
    rw [eb1, v2]
  have e2 : exec c { v with x := upd v.x ra p } (.larg fp (ctxSize c - 2 * c.w) sp) = { v with x := upd (upd v.x ra p) fp (g fp) } := by
    simp only [exec]
    rw [show upd v.x ra p sp = P from vsp, eb2, v1]
  have e3 : exec c { v with x := upd (upd v.x ra p) fp (g fp) } (.addi sp sp (ctxSize c)) =
      { v with x := upd (upd (upd v.x ra p) fp (g fp)) sp C } := by
    simp only [exec]
    rw [show upd (upd v.x ra p) fp (g fp) sp = P from vsp, ea_eq (n := C) (by omega) (by omega)]
  have hno : ∀ r, upd (upd (both c fp) ra none) fp none r = none :=
    fun r => by by_cases n : r = fp <;> by_cases n' : r = 1 <;> simp [both, upd, ra, n, n']
  have hrr : ∀ r, kept r → upd (upd v.x ra p) fp (g fp) r = g r := fun r h => by
    by_cases n : r = fp
    · rw [n]; rfl
    · rw [upd_ne n, upd_ne (show r ≠ ra from (hk r h).1), vr r h n]
  have h0 := unw_both (c := c) hw (kept := kept) (w := ⟨sp, ctxSize c, both c fp⟩) (s := v)
    (C := C) (p := p) (fp := fp) (spr := sp) (g := g) rfl (by decide) hk1 (by simp only [Row.cfa, vsp]; exact ea_eq (by omega) (by omega))
    (by omega) (by omega) v1 v2 vr (by omega)
  have h1 := unw_fp (c := c) hw (kept := kept) (w := ⟨sp, ctxSize c, upd (both c fp) ra none⟩) (s := { v with x := upd v.x ra p })
    (C := C) (p := p) (fp := fp) (spr := sp) (g := g) (by funext r; simp only [both, upd, ra, fp]; split <;> simp_all) (by decide) hk1
    (by simp only [Row.cfa]; rw [show upd v.x ra p sp = P from vsp]; exact ea_eq (by omega) (by omega))
    (by omega) (by omega) v1 rfl (fun r h n => (upd_ne (hk r h).1).trans (vr r h n)) (by show v.x sp ≤ _; omega)
  have h2 := unw_none (c := c) (kept := kept) (w := ⟨sp, ctxSize c, upd (upd (both c fp) ra none) fp none⟩)
    (s := { v with x := upd (upd v.x ra p) fp (g fp) }) (C := C) (p := p) (spr := sp) (g := g) hno hk1
    (by simp only [Row.cfa]; rw [show upd (upd v.x ra p) fp (g fp) sp = P from vsp]; exact ea_eq (by omega) (by omega)) rfl hrr
  have h3 := unw_none (c := c) (kept := kept) (w := ⟨sp, 0, upd (upd (both c fp) ra none) fp none⟩)
    (s := { v with x := upd (upd (upd v.x ra p) fp (g fp)) sp C }) (C := C) (p := p) (spr := sp) (g := g) hno hk1
    (by simp only [Row.cfa]; rw [show upd (upd (upd v.x ra p) fp (g fp)) sp C sp = C from rfl]; exact ea_eq (by omega) (by omega)) rfl
    (fun r h => (upd_ne (hk r h).2.1).trans (hrr r h))
  have ho : closureOut c = closureLoads c ++ [.larg ra (ctxSize c - 1 * c.w) sp, .larg fp (ctxSize c - 2 * c.w) sp, .addi sp sp (ctxSize c)] := rfl
  rw [ho]
  constructor
  · refine up_append ub ?_
    rw [hv]
    refine ⟨fun a n h => ?_, ?_, ?_⟩
    · cases h
      rw [vsp, eb1]; omega
    · rw [e1]; exact Nat.le_refl _
    rw [e1]
    refine ⟨fun a n h => ?_, ?_, ?_⟩
    · cases h
      show _ ∨ v.x sp ≤ ea c (v.x sp) _
      rw [vsp, eb2]; omega
    · rw [e2]; exact Nat.le_refl _
    rw [e2]
    refine ⟨fun _ _ h => (nomatch h), ?_, trivial⟩
    rw [e3]
    show v.x sp ≤ C
    omega
  · refine good_append (ws := List.replicate (closureLoads c).length ⟨sp, ctxSize c, both c fp⟩) (by rw [← List.replicate_succ']; exact gb) ?_
    rw [hv]
    refine ⟨h0, ?_⟩
    rw [e1]
    refine ⟨h1, ?_⟩
    rw [e2]
    refine ⟨h2, ?_⟩
    rw [e3]
    exact h3

end Verif.RV.Asm
