import Verif.Win64.AsmSafe

/-! Executions of the entry points of win64.S: steps in blocks of code with one row of the
unwind tables; `ffi_call_win64` up to the call. -/
namespace Verif.Win64.Asm
open Verif

variable {c : Ctx} {lo : Nat}

/-- Both unwind tables have this row. -/
def rows (cfg : Cfg) (o : Nat) (row : Row) : Bool :=
  decide (dwarf cfg o = some row) && (!cfg.win || decide (sehRow cfg o = some row))

/-- Consecutive instructions with one row of the unwind tables. -/
def blockB (cfg : Cfg) (row : Row) : Nat → List (Nat × Ins) → Bool
  | _, [] => true
  | o, (n, i) :: l => decide (fetch cfg o = some (n, i)) && (rows cfg o row && blockB cfg row (o + n) l)

def Block (cfg : Cfg) (row : Row) (o : Nat) (l : List (Nat × Ins)) : Prop := blockB cfg row o l = true

instance instDecidableWin64Block (cfg : Cfg) (row : Row) (o : Nat) (l : List (Nat × Ins)) : Decidable (Block cfg row o l) :=
  inferInstanceAs (Decidable (blockB cfg row o l = true))

theorem Block.cons {cfg : Cfg} {row : Row} {o n : Nat} {i : Ins} {l : List (Nat × Ins)} (h : Block cfg row o ((n, i) :: l)) :
    fetch cfg o = some (n, i) ∧ rows cfg o row = true ∧ Block cfg row (o + n) l := by
  simp only [Block, blockB, Bool.and_eq_true, decide_eq_true_eq] at h
  exact h

/-- Everything but the stack below `L`. -/
def level (lo L a : Nat) : Prop := a < lo ∨ L ≤ a

/-- A step in a block. -/
theorem bstep {Q : St → Prop} {row : Row} {D D' : Nat → Prop} {o n : Nat} {i : Ins} {l : List (Nat × Ins)} {s s' : St}
    (hb : Block c.cfg row o ((n, i) :: l)) (hpc : s.pc = .at_ o) (hq : Quiet lo D s)
    (hQ : rows c.cfg o row = true → ∀ t, Agree D s t → Q t)
    (hl : ∀ a, (ld i s).1 ≤ a → a < (ld i s).1 + (ld i s).2 → D a) (he : exec c o n i s = some s')
    (hsub : ∀ a, D' a → D a ∨ (st i s).1 ≤ a ∧ a < (st i s).1 + (st i s).2)
    (h : Block c.cfg row (o + n) l → Safe c lo Q D' s') : Safe c lo Q D s :=
  .step hq (hQ hb.cons.2.1) hpc hb.cons.1 hl he hsub (h hb.cons.2.2)

/-- The same where all memory from `L` is known before, and from `L'` after the step. -/
theorem lstep {Q : St → Prop} {row : Row} {L L' o n : Nat} {i : Ins} {l : List (Nat × Ins)} {s s' : St}
    (hb : Block c.cfg row o ((n, i) :: l)) (hpc : s.pc = .at_ o) (hq : s.r 4 ≤ L)
    (hQ : rows c.cfg o row = true → ∀ t, Agree (level lo L) s t → Q t)
    (hl : (ld i s).2 = 0 ∨ L ≤ (ld i s).1 ∨ (ld i s).1 + (ld i s).2 ≤ lo) (he : exec c o n i s = some s') (hL : L ≤ L')
    (h : Block c.cfg row (o + n) l → Safe c lo Q (level lo L') s') : Safe c lo Q (level lo L) s := by
  refine bstep hb hpc (fun a ha => ?_) hQ (fun a h1 h2 => ?_) he (fun a ha => .inl (ha.imp_right fun h => by omega)) h
  · rcases ha with ha | ha
    · exact .inl ha
    · exact .inr (by omega)
  · rcases hl with hl | hl | hl
    · omega
    · exact .inr (by omega)
    · exact .inl (by omega)

/-- The general registers that a function preserves in this convention: rbx, rbp, rsi, rdi, r12 to r15. -/
def Saved (r g : Nat → Nat) : Prop :=
  r 3 = g 3 ∧ r 5 = g 5 ∧ r 6 = g 6 ∧ r 7 = g 7 ∧ r 12 = g 12 ∧ r 13 = g 13 ∧ r 14 = g 14 ∧ r 15 = g 15

/-- The vector registers that a function preserves: xmm6 to xmm15. -/
def SavedX (x y : Nat → List Byte) : Prop := ∀ i, 6 ≤ i → x i = y i

/-- At offset `o`, with these registers and this memory, an unwinder with either table finds the return
address `ra`, the registers `g`, and a stack pointer that satisfies `sp`. -/
def Unwinds (cfg : Cfg) (o : Nat) (r : Nat → Nat) (m : Mem) (ra : Nat) (g : Nat → Nat) (sp : Nat → Prop) : Prop :=
  ∃ row, dwarf cfg o = some row ∧ (cfg.win = true → sehRow cfg o = some row) ∧
    (unwind row r m).1 = ra ∧ sp ((unwind row r m).2 4) ∧ Saved (unwind row r m).2 g

theorem rows_both {cfg : Cfg} {o : Nat} {row : Row} (h : rows cfg o row = true) :
    dwarf cfg o = some row ∧ (cfg.win = true → sehRow cfg o = some row) := by
  simp only [rows, Bool.and_eq_true, decide_eq_true_eq, Bool.or_eq_true, Bool.not_eq_true'] at h
  refine ⟨h.1, fun hw => h.2.resolve_left ?_⟩
  rw [hw]
  exact Bool.noConfusion

theorem unwinds_rsp {cfg : Cfg} {o k ra : Nat} {r g : Nat → Nat} {m : Mem} {sp : Nat → Prop} (hr : rows cfg o ⟨4, k, []⟩ = true)
    (hm : leNat (m.rd (r 4 + k - 8) 8) = ra) (hs : sp (r 4 + k)) (hg : Saved r g) : Unwinds cfg o r m ra g sp := by
  subst hm
  exact ⟨_, (rows_both hr).1, (rows_both hr).2, rfl, hs, hg⟩

theorem unwinds_rbp {cfg : Cfg} {o ra : Nat} {r g : Nat → Nat} {m : Mem} {sp : Nat → Prop}
    (hr : rows cfg o ⟨5, 16, [(5, 16)]⟩ = true)
    (hm : leNat (m.rd (r 5 + 8) 8) = ra) (hb : leNat (m.rd (r 5) 8) = g 5) (hs : sp (r 5 + 16)) (hg : Saved (upd r 5 (g 5)) g) :
    Unwinds cfg o r m ra g sp := by
  subst hm
  refine ⟨_, (rows_both hr).1, (rows_both hr).2, rfl, hs, ?_⟩
  obtain ⟨h1, -, h2⟩ := hg
  exact ⟨h1, hb, h2⟩

/-- What is required of the states of an execution: in the code, unwinding leads to the
caller; outside, `post`. -/
def Holds (c : Ctx) (ra : Nat) (g : Nat → Nat) (sp : Nat → Prop) (post : Nat → St → Prop) (t : St) : Prop :=
  match t.pc with
  | .at_ o => Unwinds c.cfg o t.r t.mem ra g sp
  | .out a => post a t

/-- Unwinding where the frame has been built. -/
theorem holds_rbp {s : St} {o ra : Nat} {g : Nat → Nat} {sp : Nat → Prop} {post : Nat → St → Prop} {t : St} {D : Nat → Prop}
    (ht : Agree D s t) (hr : rows c.cfg o ⟨5, 16, [(5, 16)]⟩ = true) (hpc : s.pc = .at_ o)
    (hD : ∀ a, s.r 5 ≤ a → a < s.r 5 + 16 → D a) (hm : leNat (s.mem.rd (s.r 5 + 8) 8) = ra) (hb : leNat (s.mem.rd (s.r 5) 8) = g 5)
    (hs : sp (s.r 5 + 16)) (hg : Saved (upd s.r 5 (g 5)) g) :
    Holds c ra g sp post t := by
  unfold Holds
  rw [ht.pc, hpc, ht.r]
  refine unwinds_rbp hr ?_ ?_ hs hg
  · rw [ht.rd fun b h1 h2 => hD _ (by omega) (by omega), hm]
  · rw [ht.rd fun b h1 h2 => hD _ (by omega) (by omega), hb]

/-- Unwinding where the CFA is `k` bytes above the stack pointer. -/
theorem holds_rsp {s : St} {o k ra : Nat} {g : Nat → Nat} {sp : Nat → Prop} {post : Nat → St → Prop} {t : St} {D : Nat → Prop}
    (ht : Agree D s t) (hr : rows c.cfg o ⟨4, k, []⟩ = true) (hpc : s.pc = .at_ o)
    (hD : ∀ a, s.r 4 + k - 8 ≤ a → a < s.r 4 + k - 8 + 8 → D a) (hm : leNat (s.mem.rd (s.r 4 + k - 8) 8) = ra) (hs : sp (s.r 4 + k))
    (hg : Saved s.r g) :
    Holds c ra g sp post t := by
  unfold Holds
  rw [ht.pc, hpc, ht.r]
  refine unwinds_rsp hr ?_ hs hg
  rw [ht.rd hD, hm]

/-! ## `ffi_call_win64` -/

def rowA : Row := ⟨4, 8, []⟩
def rowB : Row := ⟨5, 16, [(5, 16)]⟩
def rowC : Row := ⟨4, 96, []⟩
def eo (cfg : Cfg) : Nat := if cfg.cet then 4 else 0

theorem callBlock1 (cfg : Cfg) : Block cfg rowA (eo cfg)
    [(4, .ld 8 0 4 0), (3, .st 8 5 (arg1 cfg) 0), (4, .st 8 0 (arg1 cfg) 8), (3, .mov 5 (arg1 cfg))] := by
  obtain ⟨_ | _, _ | _, _ | _⟩ := cfg <;> decide +kernel

theorem callBlock2 (cfg : Cfg) : Block cfg rowB (eo cfg + 14)
    [(3, .mov 4 (arg0 cfg)), (3, .mov 10 (arg2 cfg)), (4, .ld 8 1 4 0), (5, .ldx 0 4 0), (5, .ld 8 2 4 8), (6, .ldx 1 4 8),
     (5, .ld 8 8 4 16), (6, .ldx 2 4 16), (5, .ld 8 9 4 24), (6, .ldx 3 4 24), (3, .callm 5 16)] := by
  obtain ⟨_ | _, _ | _, _ | _⟩ := cfg <;> decide +kernel

theorem callBlock0 (win org : Bool) : Block ⟨win, true, org⟩ rowA 0 [(4, .endbr)] := by
  cases win <;> cases org <;> decide +kernel

attribute [local irreducible] fetch dwarf sehRow off Block eo rows

/-- The memory with the caller's frame pointer and return address in the frame. -/
def framed (m : Mem) (F rbp ra : Nat) : Mem := (m.wr F (leBytes 8 rbp)).wr (F + 8) (leBytes 8 ra)

theorem framed_out {m : Mem} {F p q a : Nat} (h : a < F ∨ F + 16 ≤ a) : framed m F p q a = m a := by
  unfold framed
  rw [Mem.wr_out _ _ _ _ (by rw [leBytes_length]; omega), Mem.wr_out _ _ _ _ (by rw [leBytes_length]; omega)]

theorem framed_rd {m : Mem} {F p q a n : Nat} (h : a + n ≤ F ∨ F + 16 ≤ a) : (framed m F p q).rd a n = m.rd a n :=
  Mem.rd_congr fun i hi => framed_out (by omega)

theorem rd8 (m : Mem) (a v : Nat) : (m.wr a (leBytes 8 v)).rd a 8 = leBytes 8 v := by
  have := Mem.rd_wr_same m a (leBytes 8 v)
  rwa [leBytes_length] at this

/-- The words of the frame. -/
theorem framed_words (m : Mem) (F p q : Nat) :
    (framed m F p q).rd F 8 = leBytes 8 p ∧ (framed m F p q).rd (F + 8) 8 = leBytes 8 q := by
  unfold framed
  refine ⟨?_, rd8 _ _ _⟩
  rw [Mem.rd_wr_disj _ _ _ _ _ (by rw [leBytes_length]; omega), rd8]

/-- The registers in which the function is entered: those with the slots, r10, rsp, rbp and rax; `S` is the
address of the slots. -/
def callRegs (r : Nat → Nat) (m : Mem) (S F chain ra : Nat) : Nat → Nat :=
  upd (upd (upd (upd (upd (upd (upd (upd r 0 ra) 5 F) 10 chain) 1 (leNat (m.rd S 8))) 2 (leNat (m.rd (S + 8) 8))) 8 (leNat (m.rd (S + 16) 8)))
    9 (leNat (m.rd (S + 24) 8))) 4 (S - 8)

/-- The vector registers with the slots. -/
def callX (x : Nat → List Byte) (m : Mem) (S : Nat) : Nat → List Byte :=
  upd (upd (upd (upd x 0 (m.rd S 8 ++ List.replicate 8 0)) 1 (m.rd (S + 8) 8 ++ List.replicate 8 0)) 2 (m.rd (S + 16) 8 ++ List.replicate 8 0))
    3 (m.rd (S + 24) 8 ++ List.replicate 8 0)

/-- The state in which `ffi_call_win64` enters the function; `M` is the memory with the frame. -/
def callState (c : Ctx) (s : St) (M : Mem) (ra : Nat) : St :=
  { pc := .out (leNat (M.rd (s.r (arg1 c.cfg) + 16) 8))
    r := callRegs s.r M (s.r (arg0 c.cfg)) (s.r (arg1 c.cfg)) (s.r (arg2 c.cfg)) ra
    x := callX s.x M (s.r (arg0 c.cfg)), zf := s.zf, cf := s.cf
    mem := M.wr (s.r (arg0 c.cfg) - 8) (leBytes 8 (c.base + (eo c.cfg + 65)))
    ss := (c.base + (eo c.cfg + 65)) :: s.ss }

theorem upd_call (f : Nat → Nat) (v0 v5 v4 v10 v1 v2 v8 v9 p : Nat) :
    upd (upd (upd (upd (upd (upd (upd (upd (upd f 0 v0) 5 v5) 4 v4) 10 v10) 1 v1) 2 v2) 8 v8) 9 v9) 4 p =
    upd (upd (upd (upd (upd (upd (upd (upd f 0 v0) 5 v5) 10 v10) 1 v1) 2 v2) 8 v8) 9 v9) 4 p := by
  funext d
  simp only [upd]
  by_cases h4 : d = 4
  · rw [if_pos h4, if_pos h4]
  · rw [if_neg h4, if_neg h4, if_neg h4]

/-- `ffi_call_win64` from its entry to the call. -/
theorem call_head {s : St} {post : Nat → St → Prop} {S F ra : Nat} {M : Mem} (hpc : s.pc = .at_ 0) (hS : s.r (arg0 c.cfg) = S) (hF : s.r (arg1 c.cfg) = F)
    (hsp : s.r 4 + 8 ≤ S) (hn : S + 32 ≤ F) (h5 : s.r 5 < 2 ^ 64) (hra : leNat (s.mem.rd (s.r 4) 8) = ra)
    (hM : M = framed s.mem F (s.r 5) ra)
    (hpost : ∀ t, Agree (level lo (S - 8)) (callState c s M ra) t → post (leNat (M.rd (F + 16) 8)) t) :
    Safe c lo (Holds c ra s.r (fun p => p = s.r 4 + 8 ∨ p = F + 16) post) (level lo (s.r 4)) s := by
  suffices H : ∀ pc, pc = .at_ (eo c.cfg) → Safe c lo (Holds c ra s.r (fun p => p = s.r 4 + 8 ∨ p = F + 16) post) (level lo (s.r 4)) { s with pc := pc } by
    obtain ⟨⟨win, cet, org⟩, base, ext⟩ := c
    cases cet
    · exact H s.pc (by rw [hpc]; unfold eo; rfl)
    · refine lstep (callBlock0 win org) hpc (by omega) (fun hr t ht => holds_rsp ht hr hpc (fun a h1 h2 => .inr (by omega)) (by rw [Nat.add_sub_cancel, hra])
        (.inl rfl) ⟨rfl, rfl, rfl, rfl, rfl, rfl, rfl, rfl⟩) (.inl rfl) rfl (Nat.le_refl _) fun _ => H _ ?_
      unfold eo; rfl
  intro pc hpc'
  have hw := framed_words s.mem F (s.r 5) ra
  have hralt : ra < 2 ^ 64 := by
    have := leNat_lt (s.mem.rd (s.r 4) 8)
    rw [Mem.rd_length] at this
    rw [← hra]
    exact this
  have w1 : leNat (M.rd F 8) = s.r 5 := by rw [hM, hw.1, leNat_leBytes]; exact Nat.mod_eq_of_lt h5
  have w2 : leNat (M.rd (F + 8) 8) = ra := by rw [hM, hw.2, leNat_leBytes]; exact Nat.mod_eq_of_lt hralt
  obtain ⟨pc0, r, x, zf, cf, m, ss⟩ := s
  dsimp only at hpc hS hF hsp hn h5 hra hM hpost w1 ⊢
  have hQ : ∀ {o : Nat} {r' : Nat → Nat} {m' : Mem} {pc' : Pc}, pc' = .at_ o → r' 4 = r 4 → Saved r' r →
      (m'.rd (r 4) 8 = m.rd (r 4) 8) → rows c.cfg o rowA = true → ∀ t, Agree (level lo (r 4)) ⟨pc', r', x, zf, cf, m', ss⟩ t →
        Holds c ra r (fun p => p = r 4 + 8 ∨ p = F + 16) post t := by
    intro o r' m' pc' hpc h4 hs hm hr t ht
    refine holds_rsp ht hr hpc (fun a h1 h2 => .inr (by dsimp only at h1; omega)) ?_ (.inl ?_) hs
    · dsimp only
      rw [Nat.add_sub_cancel, h4, hm, hra]
    · dsimp only
      rw [h4]
  have sv : Saved r r := ⟨rfl, rfl, rfl, rfl, rfl, rfl, rfl, rfl⟩
  have q : r 4 ≤ r 4 := Nat.le_refl _
  have hwr : ∀ {k v : Nat} {m' : Mem}, m'.rd (r 4) 8 = m.rd (r 4) 8 → (m'.wr (F + k) (leBytes 8 v)).rd (r 4) 8 = m.rd (r 4) 8 := by
    intro k v m' h
    rw [Mem.rd_wr_disj _ _ _ _ _ (.inl (by omega)), h]
  have hQ2 : ∀ {o L : Nat} {r' : Nat → Nat} {x' : Nat → List Byte} {pc' : Pc}, L ≤ F → pc' = .at_ o → r' 5 = F → Saved (upd r' 5 (r 5)) r →
      rows c.cfg o rowB = true → ∀ t, Agree (level lo L) ⟨pc', r', x', zf, cf, M, ss⟩ t →
        Holds c ra r (fun p => p = r 4 + 8 ∨ p = F + 16) post t := by
    intro o L r' x' pc' hL hpc h5 hs hr t ht
    refine holds_rbp ht hr hpc (fun a h1 h2 => .inr (by dsimp only at h1; omega)) ?_ ?_ (.inr ?_) hs
    · dsimp only; rw [h5, w2]
    · dsimp only; rw [h5, w1]
    · dsimp only; rw [h5]
  have b1 := callBlock1 c.cfg
  have b2 := callBlock2 c.cfg
  have hl : ∀ k, S ≤ S + k := fun k => by omega
  have hcall : ∀ {o n : Nat} {r' : Nat → Nat} {x' : Nat → List Byte} {pc' : Pc}, r' 4 = S → r' 5 = F → exec c o n (.callm 5 16) ⟨pc', r', x', zf, cf, M, ss⟩ =
      some ⟨.out (leNat (M.rd (F + 16) 8)), upd r' 4 (S - 8), x', zf, cf, M.wr (S - 8) (leBytes 8 (c.base + (o + n))), (c.base + (o + n)) :: ss⟩ := by
    intro o n r' x' pc' h4 h5
    simp only [exec]
    rw [h4, h5, if_pos (by omega)]
  have hpost' : ∀ (A0 A1 A2 : Nat), arg0 c.cfg = A0 → arg1 c.cfg = A1 → arg2 c.cfg = A2 → ∀ R, R = callRegs r M (r A0) (r A1) (r A2) ra → ∀ t,
      Agree (level lo (S - 8)) ⟨.out (leNat (M.rd (F + 16) 8)), R, callX x M (r A0), zf, cf, M.wr (r A0 - 8) (leBytes 8 (c.base + (eo c.cfg + 65))),
        (c.base + (eo c.cfg + 65)) :: ss⟩ t → post (leNat (M.rd (F + 16) 8)) t := by
    intro A0 A1 A2 e0 e1 e2 R hR t ht
    apply hpost
    unfold callState
    dsimp only
    rw [e0] at hS
    rw [e1] at hF
    rw [e0, e1, e2, ← hR, hF]
    exact ht
  have fin : ∀ {o n : Nat} {r' : Nat → Nat} {x' : Nat → List Byte} {l : List (Nat × Ins)} (A0 A1 A2 : Nat), arg0 c.cfg = A0 → arg1 c.cfg = A1 → arg2 c.cfg = A2 →
      Block c.cfg rowB o ((n, .callm 5 16) :: l) → o + n = eo c.cfg + 65 → r' 4 = S → r' 5 = F → Saved (upd r' 5 (r 5)) r →
      upd r' 4 (S - 8) = callRegs r M (r A0) (r A1) (r A2) ra → x' = callX x M (r A0) →
      Safe c lo (Holds c ra r (fun p => p = r 4 + 8 ∨ p = F + 16) post) (level lo S) ⟨.at_ o, r', x', zf, cf, M, ss⟩ := by
    intro o n r' x' l A0 A1 A2 e0 e1 e2 hb ho h4 h5' hs hR hx
    refine bstep (D' := level lo (S - 8)) hb rfl (fun a ha => ha.imp_right fun h => by dsimp only; rw [h4]; exact h)
      (hQ2 (by omega) rfl h5' hs) (fun a h1 h2 => .inr ?_) (hcall h4 h5') (fun a ha => ?_) fun _ => .stop (fun a ha => ?_) (fun t ht => ?_) rfl
    · have : F + 16 ≤ a := by rw [← h5']; exact h1
      omega
    · have : (Asm.st (.callm 5 16) ⟨.at_ o, r', x', zf, cf, M, ss⟩) = (r' 4 - 8, 8) := rfl
      rw [this, h4]
      dsimp only
      unfold level at ha ⊢
      omega
    · exact ha.imp_right fun h => h
    · unfold Holds
      rw [ht.pc]
      have hS0 : r A0 = S := by rw [← e0]; exact hS
      refine hpost' A0 A1 A2 e0 e1 e2 _ hR t ?_
      rw [← ho, hS0]
      rw [hx, hS0] at ht
      exact ht
  clear hpost hpost' hcall
  have hMM : (m.wr (F + 0) (leBytes 8 (r 5))).wr (F + 8) (leBytes 8 (leNat (m.rd (r 4 + 0) 8))) = M := by
    rw [Nat.add_zero, Nat.add_zero (r 4), hra, hM]; rfl
  have hstate : ∀ {D : Nat → Prop} {Q : St → Prop} {s' s'' : St}, s' = s'' → Safe c lo Q D s' → Safe c lo Q D s'' := fun h hs => h ▸ hs
  have e14 : eo c.cfg + 4 + 3 + 4 + 3 = eo c.cfg + 14 := by omega
  have e65 : eo c.cfg + 14 + 3 + 3 + 4 + 5 + 5 + 6 + 5 + 6 + 5 + 6 + 3 = eo c.cfg + 65 := by omega
  by_cases hwin : c.cfg.win = true
  all_goals
    first
      | have a0 : arg0 c.cfg = 1 := by unfold arg0; rw [if_pos hwin]
        have a1 : arg1 c.cfg = 2 := by unfold arg1; rw [if_pos hwin]
        have a2 : arg2 c.cfg = 8 := by unfold arg2; rw [if_pos hwin]
      | have a0 : arg0 c.cfg = 7 := by unfold arg0; rw [if_neg hwin]
        have a1 : arg1 c.cfg = 6 := by unfold arg1; rw [if_neg hwin]
        have a2 : arg2 c.cfg = 2 := by unfold arg2; rw [if_neg hwin]
    rw [a0] at hS
    rw [a1] at hF
    rw [a1] at b1
    rw [a0, a2] at b2
    subst hS hF
    refine lstep b1 hpc' q (hQ hpc' rfl sv rfl) (.inr (.inl (Nat.le_refl _))) rfl (Nat.le_refl _) fun b => ?_
    refine lstep b rfl q (hQ rfl rfl sv rfl) (.inl rfl) rfl (Nat.le_refl _) fun b => ?_
    refine lstep b rfl q (hQ rfl rfl sv (hwr rfl)) (.inl rfl) rfl (Nat.le_refl _) fun b => ?_
    refine lstep b rfl q (hQ rfl rfl sv (hwr (hwr rfl))) (.inl rfl) rfl (Nat.le_refl _) fun _ => ?_
    refine hstate (congrArg₂ (fun P N => St.mk (Pc.at_ P) _ x zf cf N ss) e14.symm hMM.symm) ?_
    refine lstep b2 rfl q (hQ2 (by omega) rfl rfl sv) (.inl rfl) rfl (Nat.le_trans (Nat.le_add_right _ _) hsp) fun b => ?_
    refine lstep b rfl (Nat.le_refl _) (hQ2 (by omega) rfl rfl sv) (.inl rfl) rfl (Nat.le_refl _) fun b => ?_
    refine lstep b rfl (Nat.le_refl _) (hQ2 (by omega) rfl rfl sv) (.inr (.inl (hl _))) rfl (Nat.le_refl _) fun b => ?_
    refine lstep b rfl (Nat.le_refl _) (hQ2 (by omega) rfl rfl sv) (.inr (.inl (hl _))) rfl (Nat.le_refl _) fun b => ?_
    refine lstep b rfl (Nat.le_refl _) (hQ2 (by omega) rfl rfl sv) (.inr (.inl (hl _))) rfl (Nat.le_refl _) fun b => ?_
    refine lstep b rfl (Nat.le_refl _) (hQ2 (by omega) rfl rfl sv) (.inr (.inl (hl _))) rfl (Nat.le_refl _) fun b => ?_
    refine lstep b rfl (Nat.le_refl _) (hQ2 (by omega) rfl rfl sv) (.inr (.inl (hl _))) rfl (Nat.le_refl _) fun b => ?_
    refine lstep b rfl (Nat.le_refl _) (hQ2 (by omega) rfl rfl sv) (.inr (.inl (hl _))) rfl (Nat.le_refl _) fun b => ?_
    refine lstep b rfl (Nat.le_refl _) (hQ2 (by omega) rfl rfl sv) (.inr (.inl (hl _))) rfl (Nat.le_refl _) fun b => ?_
    refine lstep b rfl (Nat.le_refl _) (hQ2 (by omega) rfl rfl sv) (.inr (.inl (hl _))) rfl (Nat.le_refl _) fun b => ?_
    refine fin _ _ _ a0 a1 a2 b e65 rfl rfl sv ?_ rfl
    exact hra ▸ upd_call r _ _ _ _ _ _ _ _ _

end Verif.Win64.Asm
