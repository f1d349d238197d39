import Verif.X64.AsmSafe

/-! Executions of the entry points of unix64.S: steps in blocks of code with one row of
the unwind table. -/
namespace Verif.X64.Asm
open Verif

variable {c : Ctx} {lo : Nat}

/-- Consecutive instructions with one row of the unwind table. -/
def blockB (cet : Bool) (row : Row) : Nat → List (Nat × Ins) → Bool
  | _, [] => true
  | o, (n, i) :: l => decide (fetch cet o = some (n, i)) && (decide (rowAt cet o = some row) && blockB cet row (o + n) l)

def Block (cet : Bool) (row : Row) (o : Nat) (l : List (Nat × Ins)) : Prop := blockB cet row o l = true

instance (cet : Bool) (row : Row) (o : Nat) (l : List (Nat × Ins)) : Decidable (Block cet row o l) :=
  inferInstanceAs (Decidable (blockB cet row o l = true))

theorem Block.cons {cet : Bool} {row : Row} {o n : Nat} {i : Ins} {l : List (Nat × Ins)} (h : Block cet row o ((n, i) :: l)) :
    fetch cet o = some (n, i) ∧ rowAt cet o = some row ∧ Block cet row (o + n) l := by
  simp only [Block, blockB, Bool.and_eq_true, decide_eq_true_eq] at h
  exact h

/-- Everything but the stack below `L`. -/
def level (lo L a : Nat) : Prop := a < lo ∨ L ≤ a

/-- A step in a block. -/
theorem bstep {Q : St → Prop} {row : Row} {D D' : Nat → Prop} {o n : Nat} {i : Ins} {l : List (Nat × Ins)} {s s' : St}
    (hb : Block c.cet row o ((n, i) :: l)) (hpc : s.pc = .at_ o) (hq : Quiet lo D s)
    (hQ : rowAt c.cet o = some row → ∀ t, Agree D s t → Q t)
    (hl : ∀ a, (ld i s).1 ≤ a → a < (ld i s).1 + (ld i s).2 → D a) (he : exec c o n i s = some s')
    (hsub : ∀ a, D' a → D a ∨ (st i s).1 ≤ a ∧ a < (st i s).1 + (st i s).2)
    (h : Block c.cet row (o + n) l → Safe c lo Q D' s') : Safe c lo Q D s :=
  .step hq (hQ hb.cons.2.1) hpc hb.cons.1 hl he hsub (h hb.cons.2.2)

/-- The same where all memory from `L` is known. -/
theorem lstep {Q : St → Prop} {row : Row} {L o n : Nat} {i : Ins} {l : List (Nat × Ins)} {s s' : St}
    (hb : Block c.cet row o ((n, i) :: l)) (hpc : s.pc = .at_ o) (hq : s.r 4 ≤ L + 128)
    (hQ : rowAt c.cet o = some row → ∀ t, Agree (level lo L) s t → Q t)
    (hl : (ld i s).2 = 0 ∨ L ≤ (ld i s).1 ∨ (ld i s).1 + (ld i s).2 ≤ lo) (he : exec c o n i s = some s')
    (h : Block c.cet row (o + n) l → Safe c lo Q (level lo L) s') : Safe c lo Q (level lo L) s := by
  refine bstep hb hpc (fun a ha => ?_) hQ (fun a h1 h2 => ?_) he (fun a ha => .inl ha) h
  · rcases ha with ha | ha
    · exact .inl ha
    · exact .inr (by omega)
  · rcases hl with hl | hl | hl
    · omega
    · exact .inr (by omega)
    · exact .inl (by omega)

/-- The registers that a function preserves: rbx, rbp, r12 to r15. -/
def Saved (r g : Nat → Nat) : Prop := r 3 = g 3 ∧ r 5 = g 5 ∧ r 12 = g 12 ∧ r 13 = g 13 ∧ r 14 = g 14 ∧ r 15 = g 15

/-- At offset `o`, with these registers and this memory, an unwinder finds the return
address `ra`, the registers `g`, and a stack pointer that satisfies `sp`. -/
def Unwinds (cet : Bool) (o : Nat) (r : Nat → Nat) (m : Mem) (ra : Nat) (g : Nat → Nat) (sp : Nat → Prop) : Prop :=
  ∃ row f, rowAt cet o = some row ∧ unwind row r m = some (ra, f) ∧ sp (f 4) ∧ Saved f g

theorem unwinds_rsp {cet : Bool} {o k ra : Nat} {r g : Nat → Nat} {m : Mem} {sp : Nat → Prop} (hr : rowAt cet o = some ⟨7, k, [(16, 1)]⟩)
    (hm : leNat (m.rd (r 4 + k - 8) 8) = ra) (hs : sp (r 4 + k)) (hg : Saved r g) : Unwinds cet o r m ra g sp := by
  subst hm
  exact ⟨_, _, hr, rfl, hs, hg⟩

theorem unwinds_rbp {cet : Bool} {o ra : Nat} {r g : Nat → Nat} {m : Mem} {sp : Nat → Prop}
    (hr : rowAt cet o = some ⟨6, 32, [(6, 2), (16, 1)]⟩)
    (hm : leNat (m.rd (r 5 + 24) 8) = ra) (hb : leNat (m.rd (r 5 + 16) 8) = g 5) (hs : sp (r 5 + 32)) (hg : Saved (upd r 5 (g 5)) g) :
    Unwinds cet o r m ra g sp := by
  subst hm
  refine ⟨_, _, hr, rfl, hs, ?_⟩
  obtain ⟨h1, -, h2⟩ := hg
  exact ⟨h1, hb, h2⟩

/-- What is required of the states of an execution: in the code, unwinding leads to the
caller; outside, `post`. -/
def Holds (c : Ctx) (ra : Nat) (g : Nat → Nat) (sp : Nat → Prop) (post : Nat → St → Prop) (t : St) : Prop :=
  match t.pc with
  | .at_ o => Unwinds c.cet o t.r t.mem ra g sp
  | .out a => post a t

/-! ## `ffi_call_unix64` -/

def row1 : Row := ⟨7, 8, [(16, 1)]⟩
def row2 : Row := ⟨6, 32, [(6, 2), (16, 1)]⟩
def eo (cet : Bool) : Nat := if cet then 4 else 0

theorem callBlock1 (cet : Bool) : Block cet row1 (eo cet)
    [(4, .ld 8 10 4 0), (4, .leax 0 7 6 1), (3, .st 2 0 0), (4, .st 1 0 8), (4, .st 5 0 16), (4, .st 10 0 24), (3, .mov 5 0)] := by
  cases cet <;> decide +kernel

theorem callBlock2 (cet : Bool) : Block cet row2 (eo cet + 26)
    [(3, .mov 10 7), (3, .mov 11 8), (3, .ld 8 7 10 0), (4, .ld 8 6 10 8), (4, .ld 8 2 10 16), (4, .ld 8 1 10 24), (4, .ld 8 8 10 32),
     (4, .ld 8 9 10 40), (7, .ld 4 0 10 176), (2, .test 0), (6, .jnz .loadSse)] := by
  cases cet <;> decide +kernel

theorem callBlock3 (cet : Bool) : Block cet row2 (eo cet + 70) [(7, .lea 4 10 184), (2, .pop 10), (3, .callr 11)] := by
  cases cet <;> decide +kernel

theorem callBlock4 (cet : Bool) : Block cet row2 (off cet .loadSse)
    [(6, .ldx 0 10 0x30), (6, .ldx 1 10 0x40), (6, .ldx 2 10 0x50), (6, .ldx 3 10 0x60), (6, .ldx 4 10 0x70),
     (9, .ldx 5 10 0x80), (9, .ldx 6 10 0x90), (9, .ldx 7 10 0xa0), (5, .jmp .retLoadSse)] := by
  cases cet <;> decide +kernel

theorem off_retLoadSse (cet : Bool) : off cet .retLoadSse = eo cet + 70 := by
  cases cet <;> decide +kernel

attribute [local irreducible] fetch rowAt off Block eo

/-- Unwinding where the frame has been built. -/
theorem holds_rbp {s : St} {o L ra : Nat} {g : Nat → Nat} {sp : Nat → Prop} {post : Nat → St → Prop} {t : St}
    (ht : Agree (level lo L) s t) (hr : rowAt c.cet o = some row2) (hpc : s.pc = .at_ o)
    (hL : L ≤ s.r 5) (hm : leNat (s.mem.rd (s.r 5 + 24) 8) = ra) (hb : leNat (s.mem.rd (s.r 5 + 16) 8) = g 5) (hs : sp (s.r 5 + 32))
    (hg : Saved (upd s.r 5 (g 5)) g) :
    Holds c ra g sp post t := by
  unfold Holds
  rw [ht.pc, hpc, ht.r]
  refine unwinds_rbp hr ?_ ?_ hs hg
  · rw [ht.rd fun b h1 h2 => .inr (by omega), hm]
  · rw [ht.rd fun b h1 h2 => .inr (by omega), hb]

/-- Unwinding where the return address is `k` bytes below the CFA. -/
theorem holds_rsp {s : St} {o k L ra : Nat} {g : Nat → Nat} {sp : Nat → Prop} {post : Nat → St → Prop} {t : St}
    (ht : Agree (level lo L) s t) (hr : rowAt c.cet o = some ⟨7, k, [(16, 1)]⟩) (hpc : s.pc = .at_ o) (hL : L ≤ s.r 4 + k - 8) (hm : leNat (s.mem.rd (s.r 4 + k - 8) 8) = ra) (hs : sp (s.r 4 + k))
    (hg : Saved s.r g) :
    Holds c ra g sp post t := by
  unfold Holds
  rw [ht.pc, hpc, ht.r]
  refine unwinds_rsp hr ?_ hs hg
  rw [ht.rd fun b h1 h2 => .inr (by omega), hm]

/-- The state in which the function is entered. -/
def called (c : Ctx) (u : St) : St :=
  { u with
    pc := .out (u.r 11)
    r := upd (upd u.r 10 (leNat (u.mem.rd (u.r 10 + 184) 8))) 4 (u.r 10 + 184)
    mem := u.mem.wr (u.r 10 + 184) (leBytes 8 (c.base + (eo c.cet + 82)))
    ss := (c.base + (eo c.cet + 82)) :: u.ss }

theorem exec_callr {o n a p : Nat} {pc : Pc} {r : Nat → Nat} {x : Nat → List Byte} {fp : List (List Byte)} {zf cf : Bool} {m : Mem}
    {ss : List Nat} (h : r 4 = p + 8) : exec c o n (.callr a) ⟨pc, r, x, fp, zf, cf, m, ss⟩ =
      some ⟨.out (r a), upd r 4 p, x, fp, zf, cf, m.wr p (leBytes 8 (c.base + (o + n))), (c.base + (o + n)) :: ss⟩ := by
  simp only [exec]
  rw [if_pos (by omega), h, Nat.add_sub_cancel]

/-- From `ret_from_load_sse` to the call. -/
theorem call_tail {u : St} {L ra : Nat} {g : Nat → Nat} {sp : Nat → Prop} {post : Nat → St → Prop} (hpc : u.pc = .at_ (eo c.cet + 70))
    (h4 : u.r 4 ≤ L + 128) (hL : L ≤ u.r 10 + 184) (h5 : u.r 10 + 192 ≤ u.r 5)
    (hm : leNat (u.mem.rd (u.r 5 + 24) 8) = ra) (hb : leNat (u.mem.rd (u.r 5 + 16) 8) = g 5) (hs : sp (u.r 5 + 32))
    (hg : Saved (upd u.r 5 (g 5)) g) (hpost : ∀ t, Agree (level lo (u.r 10 + 184)) (called c u) t → post (u.r 11) t) :
    Safe c lo (Holds c ra g sp post) (level lo L) u := by
  obtain ⟨pc, r, x, fp, zf, cf, m, ss⟩ := u
  dsimp only at hpc h4 hL h5 hm hb hs hg hpost
  refine bstep (D' := level lo (r 10 + 184)) (callBlock3 _) hpc (fun a ha => ha.imp_right fun h => by dsimp only; omega)
    (fun hr t ht => holds_rbp ht hr hpc (by dsimp only; omega) hm hb hs hg) (fun a h1 h2 => absurd h2 (by simp [ld])) rfl
    (fun a ha => .inl (ha.imp_right fun h => by omega)) fun b1 => ?_
  refine lstep b1 rfl (Nat.le_add_right _ _) (fun hr t ht => holds_rbp ht hr rfl ?_ ?_ ?_ ?_ ?_) ?_ rfl fun b2 => ?_
  · show r 10 + 184 ≤ r 5; omega
  · exact hm
  · exact hb
  · exact hs
  · exact hg
  · exact .inr (.inl (Nat.le_refl _))
  refine lstep b2 rfl ?_ (fun hr t ht => holds_rbp ht hr rfl ?_ ?_ ?_ ?_ ?_) (.inl rfl)
    (s' := called c ⟨pc, r, x, fp, zf, cf, m, ss⟩) ?_ fun _ => .stop ?_ ?_ rfl
  · show r 10 + 184 + 8 ≤ _; omega
  · show r 10 + 184 ≤ r 5; omega
  · exact hm
  · exact hb
  · exact hs
  · exact hg
  · refine (exec_callr rfl).trans (congrArg some ?_)
    unfold called
    rw [show eo c.cet + 70 + 7 + 2 + 3 = eo c.cet + 82 by omega]
    have e : ∀ (f : Nat → Nat) (p q : Nat), upd (upd (upd (upd f 4 p) 4 (p + 8)) 10 q) 4 p = upd (upd f 10 q) 4 p := by
      intro f p q
      funext d
      simp only [upd]
      split <;> rfl
    exact congrArg (fun R => St.mk (.out (r 11)) R x fp zf cf _ _) (e r (r 10 + 184) _)
  · intro a ha
    exact ha.imp_right fun h => by show r 10 + 184 ≤ _; omega
  · intro t ht
    unfold Holds
    rw [ht.pc]
    exact hpost t ht

/-- The registers xmm0 to xmm7 from memory. -/
def loadX (x : Nat → List Byte) (m : Mem) (a : Nat) : Nat → List Byte :=
  upd (upd (upd (upd (upd (upd (upd (upd x 0 (m.rd (a + 48) 16)) 1 (m.rd (a + 64) 16)) 2 (m.rd (a + 80) 16)) 3 (m.rd (a + 96) 16))
    4 (m.rd (a + 112) 16)) 5 (m.rd (a + 128) 16)) 6 (m.rd (a + 144) 16)) 7 (m.rd (a + 160) 16)

/-- `load_sse`. -/
theorem call_sse {u : St} {L ra : Nat} {g : Nat → Nat} {sp : Nat → Prop} {post : Nat → St → Prop} (hpc : u.pc = .at_ (off c.cet .loadSse))
    (h4 : u.r 4 ≤ L + 128) (hL : L ≤ u.r 10) (ha : u.r 10 % 16 = 0) (h5 : u.r 10 + 192 ≤ u.r 5)
    (hm : leNat (u.mem.rd (u.r 5 + 24) 8) = ra) (hb : leNat (u.mem.rd (u.r 5 + 16) 8) = g 5) (hs : sp (u.r 5 + 32))
    (hg : Saved (upd u.r 5 (g 5)) g)
    (h : Safe c lo (Holds c ra g sp post) (level lo L) { u with pc := .at_ (eo c.cet + 70), x := loadX u.x u.mem (u.r 10) }) :
    Safe c lo (Holds c ra g sp post) (level lo L) u := by
  obtain ⟨pc, r, x, fp, zf, cf, m, ss⟩ := u
  dsimp only at hpc h4 hL h5 hm hb hs hg h ha
  have hQ : ∀ {o : Nat} {x' : Nat → List Byte} {pc' : Pc}, pc' = .at_ o → rowAt c.cet o = some row2 → ∀ t,
      Agree (level lo L) ⟨pc', r, x', fp, zf, cf, m, ss⟩ t → Holds c ra g sp post t :=
    fun hpc hr t ht => holds_rbp ht hr hpc (by dsimp only; omega) hm hb hs hg
  have hl : ∀ k, L ≤ r 10 + k := fun k => by omega
  have he : ∀ {o n' n k : Nat} {x' : Nat → List Byte} {pc' : Pc}, k % 16 = 0 → exec c o n' (.ldx n 10 k) ⟨pc', r, x', fp, zf, cf, m, ss⟩ =
      some ⟨.at_ (o + n'), r, upd x' n (m.rd (r 10 + k) 16), fp, zf, cf, m, ss⟩ := by
    intro o n' n k x' pc' hk
    show (if _ then _ else _) = _
    rw [if_pos (by show (r 10 + k) % 16 = 0; omega)]
  refine lstep (callBlock4 _) hpc h4 (hQ hpc) (.inr (.inl (hl _))) (he rfl) fun b => ?_
  refine lstep b rfl h4 (hQ rfl) (.inr (.inl (hl _))) (he rfl) fun b => ?_
  refine lstep b rfl h4 (hQ rfl) (.inr (.inl (hl _))) (he rfl) fun b => ?_
  refine lstep b rfl h4 (hQ rfl) (.inr (.inl (hl _))) (he rfl) fun b => ?_
  refine lstep b rfl h4 (hQ rfl) (.inr (.inl (hl _))) (he rfl) fun b => ?_
  refine lstep b rfl h4 (hQ rfl) (.inr (.inl (hl _))) (he rfl) fun b => ?_
  refine lstep b rfl h4 (hQ rfl) (.inr (.inl (hl _))) (he rfl) fun b => ?_
  refine lstep b rfl h4 (hQ rfl) (.inr (.inl (hl _))) (he rfl) fun b => ?_
  refine lstep b rfl h4 (hQ rfl) (.inl rfl) rfl fun _ => ?_
  rw [off_retLoadSse]
  exact h

/-- The memory with the local frame. -/
def framed (s : St) : Mem :=
  (((s.mem.wr (s.r 7 + s.r 6) (leBytes 8 (s.r 2))).wr (s.r 7 + s.r 6 + 8) (leBytes 8 (s.r 1))).wr (s.r 7 + s.r 6 + 16)
    (leBytes 8 (s.r 5))).wr (s.r 7 + s.r 6 + 24) (s.mem.rd (s.r 4) 8)

theorem framed_out {s : St} {a : Nat} (h : a < s.r 7 + s.r 6 ∨ s.r 7 + s.r 6 + 32 ≤ a) : framed s a = s.mem a := by
  unfold framed
  rw [Mem.wr_out _ _ _ _ (by simp; omega), Mem.wr_out _ _ _ _ (by simp; omega), Mem.wr_out _ _ _ _ (by simp; omega),
    Mem.wr_out _ _ _ _ (by simp; omega)]

theorem framed_rd {s : St} {a n : Nat} (h : a + n ≤ s.r 7 + s.r 6) : (framed s).rd a n = s.mem.rd a n :=
  Mem.rd_congr fun i hi => framed_out (.inl (by omega))

/-- The words of the local frame. -/
theorem framed_words (s : St) :
    (framed s).rd (s.r 7 + s.r 6) 8 = leBytes 8 (s.r 2) ∧ (framed s).rd (s.r 7 + s.r 6 + 8) 8 = leBytes 8 (s.r 1) ∧
      (framed s).rd (s.r 7 + s.r 6 + 16) 8 = leBytes 8 (s.r 5) ∧ (framed s).rd (s.r 7 + s.r 6 + 24) 8 = s.mem.rd (s.r 4) 8 := by
  have same : ∀ (m : Mem) (a : Nat) (bs : List Byte), bs.length = 8 → (m.wr a bs).rd a 8 = bs := by
    intro m a bs h
    have := Mem.rd_wr_same m a bs
    rwa [h] at this
  unfold framed
  refine ⟨?_, ?_, ?_, ?_⟩
  · rw [Mem.rd_wr_disj _ _ _ _ _ (by simp <;> omega), Mem.rd_wr_disj _ _ _ _ _ (by simp <;> omega), Mem.rd_wr_disj _ _ _ _ _ (by simp <;> omega),
      same _ _ _ (by simp)]
  · rw [Mem.rd_wr_disj _ _ _ _ _ (by simp <;> omega), Mem.rd_wr_disj _ _ _ _ _ (by simp <;> omega), same _ _ _ (by simp)]
  · rw [Mem.rd_wr_disj _ _ _ _ _ (by simp <;> omega), same _ _ _ (by simp)]
  · rw [same _ _ _ (by simp)]

/-- The registers when the argument registers have been loaded. -/
def loaded (s : St) : Nat → Nat :=
  let m := framed s
  let a := s.r 7
  upd (upd (upd (upd (upd (upd (upd (upd (upd (upd s.r 5 (a + s.r 6)) 10 a) 11 (s.r 8)) 7 (leNat (m.rd a 8))) 6 (leNat (m.rd (a + 8) 8)))
    2 (leNat (m.rd (a + 16) 8))) 1 (leNat (m.rd (a + 24) 8))) 8 (leNat (m.rd (a + 32) 8))) 9 (leNat (m.rd (a + 40) 8)))
    0 (leNat (m.rd (a + 176) 4))

attribute [local irreducible] framed in
theorem loaded_saved (s : St) : Saved (upd (loaded s) 5 (s.r 5)) s.r := ⟨rfl, rfl, rfl, rfl, rfl, rfl⟩

/-- The state in which `ffi_call_unix64` calls the function. -/
def callState (c : Ctx) (s : St) : St :=
  called c { s with
    r := loaded s, mem := framed s, zf := decide (leNat (s.mem.rd (s.r 7 + 176) 4) = 0), cf := false
    x := if leNat (s.mem.rd (s.r 7 + 176) 4) = 0 then s.x else loadX s.x s.mem (s.r 7) }

theorem entry_endbr : fetch true 0 = some (4, .endbr) ∧ rowAt true 0 = some row1 := by decide +kernel

theorem framed_eq (s : St) : (((s.mem.wr (s.r 7 + s.r 6 * 1 + 0) (leBytes 8 (s.r 2))).wr (s.r 7 + s.r 6 * 1 + 8) (leBytes 8 (s.r 1))).wr
    (s.r 7 + s.r 6 * 1 + 16) (leBytes 8 (s.r 5))).wr (s.r 7 + s.r 6 * 1 + 24) (leBytes 8 (leNat (s.mem.rd (s.r 4 + 0) 8))) = framed s := by
  have := leBytes_leNat (s.mem.rd (s.r 4) 8)
  rw [Mem.rd_length] at this
  unfold framed
  rw [Nat.mul_one, Nat.add_zero (s.r 7 + s.r 6), Nat.add_zero (s.r 4), this]

theorem upd_twice (f : Nat → Nat) (b0 b1 b5 b10 b11 b7 b6 b2 b8 b9 b0' b10' : Nat) :
    upd (upd (upd (upd (upd (upd (upd (upd (upd (upd f 5 b5) 10 b10) 11 b11) 7 b7) 6 b6) 2 b2) 1 b1) 8 b8) 9 b9) 0 b0 =
    upd (upd (upd (upd (upd (upd (upd (upd (upd (upd (upd (upd f 10 b10') 0 b0') 5 b5) 10 b10) 11 b11) 7 b7) 6 b6) 2 b2) 1 b1) 8 b8)
      9 b9) 0 b0 := by
  funext d
  simp only [upd]
  by_cases h0 : d = 0
  · rw [if_pos h0, if_pos h0]
  · by_cases h1 : d = 10
    · subst h1; rfl
    · rw [if_neg h0, if_neg h0, if_neg h0, if_neg h1, if_neg h1, if_neg h1]

/-- `ffi_call_unix64` from its entry to the call. -/
theorem call_head {s : St} {post : Nat → St → Prop} (hpc : s.pc = .at_ 0) (hsp : s.r 4 + 8 ≤ s.r 7) (hn : 192 ≤ s.r 6)
    (ha : s.r 7 % 16 = 0) (h5 : s.r 5 < 2 ^ 64)
    (hpost : ∀ t, Agree (level lo (s.r 7 + 184)) (callState c s) t → post (s.r 8) t) :
    Safe c lo (Holds c (leNat (s.mem.rd (s.r 4) 8)) s.r (fun p => p = s.r 4 + 8 ∨ p = s.r 7 + s.r 6 + 32) post) (level lo (s.r 4)) s := by
  suffices H : ∀ pc, pc = .at_ (eo c.cet) → Safe c lo (Holds c (leNat (s.mem.rd (s.r 4) 8)) s.r
      (fun p => p = s.r 4 + 8 ∨ p = s.r 7 + s.r 6 + 32) post) (level lo (s.r 4)) { s with pc := pc } by
    obtain ⟨cet, base, ext⟩ := c
    cases cet
    · exact H s.pc (by rw [hpc]; unfold eo; rfl)
    · have h0 : Block true row1 0 [(4, .endbr)] := by decide +kernel
      refine lstep h0 hpc (by omega) (fun hr t ht => holds_rsp ht hr hpc (by omega) (by rw [Nat.add_sub_cancel]) (.inl rfl)
        ⟨rfl, rfl, rfl, rfl, rfl, rfl⟩) (.inl rfl) rfl fun _ => H _ ?_
      unfold eo; rfl
  intro pc hpc'
  have hfw := framed_words s
  have hout := @framed_out s
  have hfr := @framed_rd s
  have hfe := framed_eq s
  obtain ⟨pc0, r, x, fp, zf, cf, m, ss⟩ := s
  dsimp only at hpc hsp hn ha h5 hpost hfw hout hfr hfe ⊢
  have hQ : ∀ {o : Nat} {r' : Nat → Nat} {m' : Mem} {pc' : Pc}, pc' = .at_ o → r' 4 = r 4 → Saved r' r →
      (m'.rd (r 4) 8 = m.rd (r 4) 8) → rowAt c.cet o = some row1 → ∀ t,
      Agree (level lo (r 4)) ⟨pc', r', x, fp, zf, cf, m', ss⟩ t →
        Holds c (leNat (m.rd (r 4) 8)) r (fun p => p = r 4 + 8 ∨ p = r 7 + r 6 + 32) post t := by
    intro o r' m' pc' hpc h4 hs hm hr t ht
    refine holds_rsp ht hr hpc (by dsimp only; omega) ?_ (.inl ?_) hs
    · dsimp only
      rw [Nat.add_sub_cancel, h4, hm]
    · dsimp only
      rw [h4]
  have q : r 4 ≤ r 4 + 128 := Nat.le_add_right _ _
  have sv : Saved r r := ⟨rfl, rfl, rfl, rfl, rfl, rfl⟩
  refine lstep (callBlock1 _) hpc' q (hQ hpc' rfl sv rfl) (.inr (.inl (Nat.le_refl _))) rfl fun b => ?_
  refine lstep b rfl q (hQ rfl rfl sv rfl) (.inl rfl) rfl fun b => ?_
  refine lstep b rfl q (hQ rfl rfl sv rfl) (.inl rfl) rfl fun b => ?_
  have w : ∀ {m' : Mem} {k v : Nat}, m'.rd (r 4) 8 = m.rd (r 4) 8 →
      (m'.wr (r 7 + r 6 * 1 + k) (leBytes 8 v)).rd (r 4) 8 = m.rd (r 4) 8 := by
    intro m' k v h
    rw [Mem.rd_wr_disj _ _ _ _ _ (.inl (by omega)), h]
  refine lstep b rfl q (hQ rfl rfl sv (w rfl)) (.inl rfl) rfl fun b => ?_
  refine lstep b rfl q (hQ rfl rfl sv (w (w rfl))) (.inl rfl) rfl fun b => ?_
  refine lstep b rfl q (hQ rfl rfl sv (w (w (w rfl)))) (.inl rfl) rfl fun b => ?_
  refine lstep b rfl q (hQ rfl rfl sv (w (w (w (w rfl))))) (.inl rfl) rfl fun _ => ?_
  have hstate : ∀ {D : Nat → Prop} {Q : St → Prop} {s' s'' : St}, s' = s'' → Safe c lo Q D s' → Safe c lo Q D s'' := fun h hs => h ▸ hs
  refine hstate (s' := ⟨.at_ (eo c.cet + 26), upd (upd (upd r 10 (leNat (m.rd (r 4) 8))) 0 (r 7 + r 6)) 5 (r 7 + r 6), x, fp, zf, cf,
    framed ⟨pc0, r, x, fp, zf, cf, m, ss⟩, ss⟩) ?_ ?_
  · rw [← hfe, show eo c.cet + 26 = eo c.cet + 4 + 4 + 3 + 4 + 4 + 4 + 3 by omega]
    conv => lhs; rw [show r 7 + r 6 = r 7 + r 6 * 1 by omega]
    rfl
  generalize hs0 : (⟨pc0, r, x, fp, zf, cf, m, ss⟩ : St) = s0 at hpost hfw hout hfr hfe ⊢
  have hL : loaded s0 = upd (upd (upd (upd (upd (upd (upd (upd (upd (upd r 5 (r 7 + r 6)) 10 (r 7)) 11 (r 8))
      7 (leNat ((framed s0).rd (r 7) 8))) 6 (leNat ((framed s0).rd (r 7 + 8) 8)))
    2 (leNat ((framed s0).rd (r 7 + 16) 8))) 1 (leNat ((framed s0).rd (r 7 + 24) 8))) 8 (leNat ((framed s0).rd (r 7 + 32) 8)))
    9 (leNat ((framed s0).rd (r 7 + 40) 8))) 0 (leNat ((framed s0).rd (r 7 + 176) 4)) := by
    subst hs0; rfl
  have hc : callState c s0 = called c ⟨pc0, loaded s0, if leNat (m.rd (r 7 + 176) 4) = 0 then x else loadX x m (r 7), fp,
      decide (leNat (m.rd (r 7 + 176) 4) = 0), false, framed s0, ss⟩ := by
    subst hs0; rfl
  generalize framed s0 = F at *
  clear hfe hQ w sv hpc'
  obtain ⟨-, -, hf1, hf2⟩ := hfw
  have e1 : leNat (F.rd (r 7 + r 6 + 24) 8) = leNat (m.rd (r 4) 8) := by rw [hf2]
  have e2 : leNat (F.rd (r 7 + r 6 + 16) 8) = r 5 := by rw [hf1, leNat_leBytes, Nat.mod_eq_of_lt (by omega)]
  generalize leNat (m.rd (r 4) 8) = ra at *
  have hQ : ∀ {o : Nat} {r' : Nat → Nat} {zf cf : Bool} {pc' : Pc}, pc' = .at_ o → r' 5 = r 7 + r 6 → Saved (upd r' 5 (r 5)) r →
      rowAt c.cet o = some row2 → ∀ t, Agree (level lo (r 4)) ⟨pc', r', x, fp, zf, cf, F, ss⟩ t →
        Holds c ra r (fun p => p = r 4 + 8 ∨ p = r 7 + r 6 + 32) post t := by
    intro o r' zf cf pc' hpc h4 hs hr t ht
    refine holds_rbp ht hr hpc (by dsimp only; omega) ?_ ?_ (.inr ?_) hs
    · dsimp only
      rw [h4, e1]
    · dsimp only
      rw [h4, e2]
    · dsimp only
      rw [h4]
  have hl : ∀ k, r 4 ≤ r 7 + k := fun k => by omega
  have sv : Saved (upd r 5 (r 5)) r := ⟨rfl, rfl, rfl, rfl, rfl, rfl⟩
  refine lstep (callBlock2 _) rfl q (hQ rfl rfl sv) (.inl rfl) rfl fun b => ?_
  refine lstep b rfl q (hQ rfl rfl sv) (.inl rfl) rfl fun b => ?_
  refine lstep b rfl q (hQ rfl rfl sv) (.inr (.inl (hl _))) rfl fun b => ?_
  refine lstep b rfl q (hQ rfl rfl sv) (.inr (.inl (hl _))) rfl fun b => ?_
  refine lstep b rfl q (hQ rfl rfl sv) (.inr (.inl (hl _))) rfl fun b => ?_
  refine lstep b rfl q (hQ rfl rfl sv) (.inr (.inl (hl _))) rfl fun b => ?_
  refine lstep b rfl q (hQ rfl rfl sv) (.inr (.inl (hl _))) rfl fun b => ?_
  refine lstep b rfl q (hQ rfl rfl sv) (.inr (.inl (hl _))) rfl fun b => ?_
  refine lstep b rfl q (hQ rfl rfl sv) (.inr (.inl (hl _))) rfl fun b => ?_
  refine lstep b rfl q (hQ rfl rfl sv) (.inl rfl) rfl fun b => ?_
  refine lstep b rfl q (hQ rfl rfl sv) (.inl rfl) rfl fun _ => ?_
  have hz : leNat (F.rd (r 7 + 176) 4) = leNat (m.rd (r 7 + 176) 4) := by subst hs0; rw [hfr (by show _ ≤ r 7 + r 6; omega)]
  have hlt : leNat (F.rd (r 7 + 176) 4) < 2 ^ 32 := by
    have := leNat_lt (F.rd (r 7 + 176) 4)
    rwa [Mem.rd_length] at this
  have hst : (⟨if leNat (m.rd (r 7 + 176) 4) = 0 then .at_ (eo c.cet + 70) else .at_ (off c.cet .loadSse), loaded s0, x, fp,
      decide (leNat (m.rd (r 7 + 176) 4) = 0), false, F, ss⟩ : St) =
      ⟨if decide (leNat (F.rd (r 7 + 176) 4) % 2 ^ 32 = 0) then Pc.at_ (eo c.cet + 26 + 3 + 3 + 3 + 4 + 4 + 4 + 4 + 4 + 7 + 2 + 6)
        else .at_ (off c.cet .loadSse), upd (upd (upd (upd (upd (upd (upd (upd (upd (upd (upd (upd r 10 ra) 0 (r 7 + r 6)) 5 (r 7 + r 6))
          10 (r 7)) 11 (r 8)) 7 (leNat (F.rd (r 7) 8))) 6 (leNat (F.rd (r 7 + 8) 8)))
        2 (leNat (F.rd (r 7 + 16) 8))) 1 (leNat (F.rd (r 7 + 24) 8))) 8 (leNat (F.rd (r 7 + 32) 8)))
        9 (leNat (F.rd (r 7 + 40) 8))) 0 (leNat (F.rd (r 7 + 176) 4)), x, fp,
        decide (leNat (F.rd (r 7 + 176) 4) % 2 ^ 32 = 0), false, F, ss⟩ := by
    rw [hL, ← hz, ← upd_twice, Nat.mod_eq_of_lt hlt]
    by_cases h0 : leNat (F.rd (r 7 + 176) 4) = 0
    · rw [if_pos h0, if_pos (decide_eq_true h0)]
    · rw [if_neg h0, if_neg (by simpa using h0)]
  refine hstate hst ?_
  have l5 : loaded s0 5 = r 7 + r 6 := by rw [hL]; rfl
  have l10 : loaded s0 10 = r 7 := by rw [hL]; rfl
  have l4 : loaded s0 4 = r 4 := by rw [hL]; rfl
  have l11 : loaded s0 11 = r 8 := by rw [hL]; rfl
  have lsv : Saved (upd (loaded s0) 5 (r 5)) r := by rw [hL]; exact sv
  have tail : ∀ (x' : Nat → List Byte), x' = (if leNat (m.rd (r 7 + 176) 4) = 0 then x else loadX x m (r 7)) →
      Safe c lo (Holds c ra r (fun p => p = r 4 + 8 ∨ p = r 7 + r 6 + 32) post) (level lo (r 4))
        ⟨.at_ (eo c.cet + 70), loaded s0, x', fp, decide (leNat (m.rd (r 7 + 176) 4) = 0), false, F, ss⟩ := by
    intro x' hx
    refine call_tail rfl ?_ ?_ ?_ ?_ ?_ ?_ lsv ?_
    · dsimp only; omega
    · dsimp only; omega
    · dsimp only; omega
    · dsimp only; rw [l5, e1]
    · dsimp only; rw [l5, e2]
    · dsimp only; rw [l5]; exact .inr rfl
    · dsimp only
      rw [l10, l11, hx]
      rw [hc] at hpost
      exact hpost
  by_cases h : leNat (m.rd (r 7 + 176) 4) = 0
  · rw [if_pos h]
    exact tail x (if_pos h).symm
  · rw [if_neg h]
    have hx : loadX x F (r 7) = loadX x m (r 7) := by
      subst hs0
      unfold loadX
      rw [hfr (by show _ ≤ r 7 + r 6; omega), hfr (by show _ ≤ r 7 + r 6; omega), hfr (by show _ ≤ r 7 + r 6; omega), hfr (by show _ ≤ r 7 + r 6; omega),
        hfr (by show _ ≤ r 7 + r 6; omega), hfr (by show _ ≤ r 7 + r 6; omega), hfr (by show _ ≤ r 7 + r 6; omega), hfr (by show _ ≤ r 7 + r 6; omega)]
    refine call_sse rfl ?_ ?_ ?_ ?_ ?_ ?_ ?_ lsv ?_
    · dsimp only; omega
    · dsimp only; omega
    · dsimp only; omega
    · dsimp only; omega
    · dsimp only; rw [l5, e1]
    · dsimp only; rw [l5, e2]
    · dsimp only; rw [l5]; exact .inr rfl
    · dsimp only
      rw [l10, hx]
      exact tail _ (if_neg h).symm

end Verif.X64.Asm
