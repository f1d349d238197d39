import Verif.X64.AsmClosure

/-! The way out of closures of unix64.S. -/
namespace Verif.X64.Asm
open Verif

variable {c : Ctx} {lo : Nat}

theorem clexBlock1 (cet : Bool) : Block cet row3 (off cet .doClosure + 24) [(7, .addi 216)] := by
  cases cet <;> decide +kernel

theorem clexBlock2 (cet : Bool) : Block cet row1 (off cet .doClosure + 31)
    [(2, .cmpb 0 15), (4, .ext 1 false 10 0), (7, .leap 11 .loadTable), (6, .ja .la)] := by
  cases cet <;> decide +kernel

theorem clexBlock3 : Block true row1 (off true .doClosure + 50) [(3, .addl 10 10), (4, .leax 10 11 10 8), (5, .leam 6 4 40), (3, .jmpr 10)] ∧
    Block false row1 (off false .doClosure + 50) [(4, .leax 10 11 10 8), (5, .leam 6 4 40), (3, .jmpr 10)] := by
  decide +kernel

theorem loadBlock (cet : Bool) :
    Block cet row1 (slot cet .loadTable 0 + eo cet) [(1, .ret)] ∧
    Block cet row1 (slot cet .loadTable 1 + eo cet) [(3, .ld 1 0 6 0), (1, .ret)] ∧
    Block cet row1 (slot cet .loadTable 2 + eo cet) [(3, .ld 2 0 6 0), (1, .ret)] ∧
    Block cet row1 (slot cet .loadTable 3 + eo cet) [(2, .ld 4 0 6 0), (1, .ret)] ∧
    Block cet row1 (slot cet .loadTable 4 + eo cet) [(3, .lds 1 0 6 0), (1, .ret)] ∧
    Block cet row1 (slot cet .loadTable 5 + eo cet) [(3, .lds 2 0 6 0), (1, .ret)] ∧
    Block cet row1 (slot cet .loadTable 6 + eo cet) [(2, .ld 4 0 6 0), (1, .ret)] ∧
    Block cet row1 (slot cet .loadTable 7 + eo cet) [(3, .ld 8 0 6 0), (1, .ret)] ∧
    Block cet row1 (slot cet .loadTable 8 + eo cet) [(4, .ldxl 4 0 6 0), (1, .ret)] ∧
    Block cet row1 (slot cet .loadTable 9 + eo cet) [(4, .ldxl 8 0 6 0), (1, .ret)] ∧
    Block cet row1 (slot cet .loadTable 10 + eo cet) [(2, .fld 6 0), (1, .ret)] ∧
    Block cet row1 (slot cet .loadTable 11 + eo cet) [(3, .fld 6 16), (2, .fld 6 0), (1, .ret)] ∧
    Block cet row1 (slot cet .loadTable 12 + eo cet) [(4, .ld 8 0 6 8), (2, .jmp .l3)] ∧
    Block cet row1 (slot cet .loadTable 13 + eo cet) [(5, .ldxl 8 0 6 8), (2, .jmp .l2)] ∧
    Block cet row1 (slot cet .loadTable 14 + eo cet) [(5, .ldxl 8 1 6 8), (2, .jmp .l3)] ∧
    Block cet row1 (slot cet .loadTable 15 + eo cet) [(4, .ld 8 2 6 8)] ∧
    slot cet .loadTable 15 + eo cet + 4 = off cet .l2 ∧
    Block cet row1 (off cet .l2) [(3, .ld 8 0 6 0), (1, .ret)] ∧
    Block cet row1 (off cet .l3) [(4, .ldxl 8 0 6 0), (1, .ret)] := by
  cases cet <;> decide +kernel

theorem loadEndbr (k : Nat) (hk : k ≤ 15) : Block true row1 (slot true .loadTable k) [(4, .endbr)] := by
  have : ∀ k : Fin 16, Block true row1 (slot true .loadTable k) [(4, .endbr)] := by decide +kernel
  exact this ⟨k, by omega⟩

attribute [local irreducible] fetch rowAt off Block eo slot

/-- A vector register loaded with `bs`. -/
def xreg (bs : List Byte) : List Byte := bs ++ List.replicate (16 - bs.length) 0

/-- The result registers after loading from the area `A`: rax, rdx, xmm0, xmm1, x87 stack. -/
structure Regs where
  rax : Nat
  rdx : Nat
  x0 : List Byte
  x1 : List Byte
  fp : List (List Byte)

def resultRegs (ret : Ret) (m : Mem) (A : Nat) (R : Regs) : Regs :=
  match ret with
  | .void => R
  | .uint8 => { R with rax := leNat (m.rd A 1) }
  | .uint16 => { R with rax := leNat (m.rd A 2) }
  | .uint32 => { R with rax := leNat (m.rd A 4) }
  | .sint8 => { R with rax := sext 1 4 (leNat (m.rd A 1)) }
  | .sint16 => { R with rax := sext 2 4 (leNat (m.rd A 2)) }
  | .sint32 => { R with rax := leNat (m.rd A 4) }
  | .int64 => { R with rax := leNat (m.rd A 8) }
  | .xmm32 => { R with x0 := m.rd A 4 ++ List.replicate 12 0 }
  | .xmm64 => { R with x0 := m.rd A 8 ++ List.replicate 8 0 }
  | .x87 => { R with fp := m.rd A 10 :: R.fp }
  | .x87_2 => { R with fp := m.rd A 10 :: m.rd (A + 16) 10 :: R.fp }
  | .stXmm0Rax => { R with rax := leNat (m.rd (A + 8) 8), x0 := m.rd A 8 ++ List.replicate 8 0 }
  | .stRaxXmm0 => { R with x0 := m.rd (A + 8) 8 ++ List.replicate 8 0, rax := leNat (m.rd A 8) }
  | .stXmm0Xmm1 => { R with x1 := m.rd (A + 8) 8 ++ List.replicate 8 0, x0 := m.rd A 8 ++ List.replicate 8 0 }
  | .stRaxRdx => { R with rdx := leNat (m.rd (A + 8) 8), rax := leNat (m.rd A 8) }

def St.regs (s : St) : Regs := ⟨s.r 0, s.r 2, s.x 0, s.x 1, s.fp⟩

/-- The load table. -/
theorem clos_table {A ra : Nat} {g : Nat → Nat} {sp : Nat → Prop} {post : Nat → St → Prop} {R : Nat → Nat} {x : Nat → List Byte}
    {fp : List (List Byte)} {zf cf : Bool} {m : Mem} {ss : List Nat} {ret : Ret}
    (hra : leNat (m.rd (A + 40) 8) = ra) (hs : sp (A + 48)) (h4 : R 4 = A + 40) (h6 : R 6 = A)
    (hg : Saved R g) (hfp : fp.length + pops ret ≤ 8)
    (hpost : ∀ f t, f.pc = .out ra → f.r 4 = A + 48 → Saved f.r g → f.ss = ss → f.mem = m →
      f.regs = resultRegs ret m A ⟨R 0, R 2, x 0, x 1, fp⟩ → Agree (level lo A) f t → post ra t) :
    Safe c lo (Holds c ra g sp post) (level lo A)
      ⟨.at_ (slot c.cet .loadTable ret.code + eo c.cet), R, x, fp, zf, cf, m, ra :: ss⟩ := by
  obtain ⟨b0, b1, b2, b3, b4, b5, b6, b7, b8, b9, b10, b11, b12, b13, b14, b15, hs2, bs2, bs3⟩ := loadBlock c.cet
  have hQ : ∀ {o : Nat} {r' : Nat → Nat} {x' : Nat → List Byte} {fp' : List (List Byte)} {pc' : Pc}, pc' = .at_ o → r' 4 = R 4 → Saved r' g →
      rowAt c.cet o = some row1 → ∀ t, Agree (level lo A) ⟨pc', r', x', fp', zf, cf, m, ra :: ss⟩ t → Holds c ra g sp post t := by
    intro o r' x' fp' pc' hpc h4' hs' hr t ht
    rw [h4] at h4'
    refine holds_rsp ht hr hpc (by dsimp only; omega) ?_ ?_ hs'
    · dsimp only
      rw [h4', Nat.add_sub_cancel, hra]
    · dsimp only
      rw [h4']
      exact hs
  have q : R 4 ≤ A + 128 := by omega
  have fin : ∀ {o : Nat} {r' : Nat → Nat} {x' : Nat → List Byte} {fp' : List (List Byte)}, Block c.cet row1 o [(1, .ret)] →
      r' 4 = R 4 → Saved r' g → (⟨r' 0, r' 2, x' 0, x' 1, fp'⟩ : Regs) = resultRegs ret m A ⟨R 0, R 2, x 0, x 1, fp⟩ →
      Safe c lo (Holds c ra g sp post) (level lo A) ⟨.at_ o, r', x', fp', zf, cf, m, ra :: ss⟩ := by
    intro o r' x' fp' b e4 es e1
    rw [h4] at e4
    refine ret_safe b rfl ?_ ?_ ?_ rfl ?_ es fun t ht => hpost ⟨.out ra, upd r' 4 (r' 4 + 8), x', fp', zf, cf, m, ss⟩ t rfl ?_ ?_ rfl rfl e1 ht
    · dsimp only; omega
    · dsimp only; omega
    · dsimp only
      rw [e4, hra]
    · dsimp only
      rw [e4]; exact hs
    · show r' 4 + 8 = A + 48
      omega
    · exact es
  have hl : ∀ k, A ≤ R 6 + k := fun k => by omega
  cases ret
  · exact fin b0 rfl hg rfl
  · refine lstep b1 rfl q (hQ rfl rfl hg) (.inr (.inl (hl _))) rfl fun b => fin b rfl hg ?_
    subst h6; rfl
  · refine lstep b2 rfl q (hQ rfl rfl hg) (.inr (.inl (hl _))) rfl fun b => fin b rfl hg ?_
    subst h6; rfl
  · refine lstep b3 rfl q (hQ rfl rfl hg) (.inr (.inl (hl _))) rfl fun b => fin b rfl hg ?_
    subst h6; rfl
  · refine lstep b4 rfl q (hQ rfl rfl hg) (.inr (.inl (hl _))) rfl fun b => fin b rfl hg ?_
    subst h6; rfl
  · refine lstep b5 rfl q (hQ rfl rfl hg) (.inr (.inl (hl _))) rfl fun b => fin b rfl hg ?_
    subst h6; rfl
  · refine lstep b6 rfl q (hQ rfl rfl hg) (.inr (.inl (hl _))) rfl fun b => fin b rfl hg ?_
    subst h6; rfl
  · refine lstep b7 rfl q (hQ rfl rfl hg) (.inr (.inl (hl _))) rfl fun b => fin b rfl hg ?_
    subst h6; rfl
  · refine lstep b8 rfl q (hQ rfl rfl hg) (.inr (.inl (hl _))) rfl fun b => fin b rfl hg ?_
    subst h6; rfl
  · refine lstep b9 rfl q (hQ rfl rfl hg) (.inr (.inl (hl _))) rfl fun b => fin b rfl hg ?_
    subst h6; rfl
  · have e : pops .x87 = 1 := rfl
    refine lstep b10 rfl q (hQ rfl rfl hg) (.inr (.inl (hl _))) (s' := ⟨.at_ (slot c.cet .loadTable 10 + eo c.cet + 2), R, x, m.rd (R 6 + 0) 10 :: fp, zf, cf, m, ra :: ss⟩) ?_ fun b => fin b rfl hg ?_
    · show (if fp.length < 8 then some _ else none) = _
      rw [if_pos (by omega)]
    subst h6; rfl
  · have e : pops .x87_2 = 2 := rfl
    refine lstep b11 rfl q (hQ rfl rfl hg) (.inr (.inl (hl _))) (s' := ⟨.at_ (slot c.cet .loadTable 11 + eo c.cet + 3), R, x, m.rd (R 6 + 16) 10 :: fp, zf, cf, m, ra :: ss⟩) ?_ fun b => ?_
    · show (if fp.length < 8 then some _ else none) = _
      rw [if_pos (by omega)]
    refine lstep b rfl q (hQ rfl rfl hg) (.inr (.inl (hl _))) (s' := ⟨.at_ (slot c.cet .loadTable 11 + eo c.cet + 3 + 2), R, x, m.rd (R 6 + 0) 10 :: m.rd (R 6 + 16) 10 :: fp, zf, cf, m, ra :: ss⟩) ?_ fun b => fin b rfl hg ?_
    · show (if (_ :: fp).length < 8 then some _ else none) = _
      rw [if_pos (by rw [List.length_cons]; omega)]
    subst h6; rfl
  · refine lstep b12 rfl q (hQ rfl rfl hg) (.inr (.inl (hl _))) rfl fun b => ?_
    refine lstep b rfl q (hQ rfl rfl hg) (.inl rfl) rfl fun _ => ?_
    refine lstep bs3 rfl q (hQ rfl rfl hg) (.inr (.inl (hl _))) rfl fun b => fin b rfl hg ?_
    subst h6; rfl
  · refine lstep b13 rfl q (hQ rfl rfl hg) (.inr (.inl (hl _))) rfl fun b => ?_
    refine lstep b rfl q (hQ rfl rfl hg) (.inl rfl) rfl fun _ => ?_
    refine lstep bs2 rfl q (hQ rfl rfl hg) (.inr (.inl (hl _))) rfl fun b => fin b rfl hg ?_
    subst h6; rfl
  · refine lstep b14 rfl q (hQ rfl rfl hg) (.inr (.inl (hl _))) rfl fun b => ?_
    refine lstep b rfl q (hQ rfl rfl hg) (.inl rfl) rfl fun _ => ?_
    refine lstep bs3 rfl q (hQ rfl rfl hg) (.inr (.inl (hl _))) rfl fun b => fin b rfl hg ?_
    subst h6; rfl
  · rw [← hs2] at bs2
    refine lstep b15 rfl q (hQ rfl rfl hg) (.inr (.inl (hl _))) rfl fun _ => ?_
    refine lstep bs2 rfl q (hQ rfl rfl hg) (.inr (.inl (hl _))) rfl fun b => fin b rfl hg ?_
    subst h6; rfl

/-- From the return of the inner function to the slot of the load table. -/
theorem clos_jump {A ra : Nat} {g : Nat → Nat} {sp : Nat → Prop} {post : Nat → St → Prop} {R1 : Nat → Nat} {x : Nat → List Byte}
    {fp : List (List Byte)} {zf cf : Bool} {m : Mem} {ss : List Nat}
    (hra : leNat (m.rd (A + 40) 8) = ra) (hs : sp (A + 48)) (hk : R1 0 % 256 ≤ 15) (e4 : R1 4 = A + 40) (hg1 : Saved R1 g)
    (h : ∀ R zf cf, (∀ d, d < 6 ∨ d = 7 → R d = R1 d) → R 6 = A → Saved R g →
      Safe c lo (Holds c ra g sp post) (level lo A)
        ⟨.at_ (slot c.cet .loadTable (R1 0 % 256) + eo c.cet), R, x, fp, zf, cf, m, ss⟩) :
    Safe c lo (Holds c ra g sp post) (level lo A) ⟨.at_ (off c.cet .doClosure + 31), R1, x, fp, zf, cf, m, ss⟩ := by
  have hQ : ∀ {o : Nat} {r' : Nat → Nat} {zf cf : Bool} {pc' : Pc}, pc' = .at_ o → r' 4 = A + 40 → Saved r' g →
      rowAt c.cet o = some row1 → ∀ t, Agree (level lo A) ⟨pc', r', x, fp, zf, cf, m, ss⟩ t → Holds c ra g sp post t := by
    intro o r' zf cf pc' hpc h4 hs' hr t ht
    refine holds_rsp ht hr hpc (by dsimp only; omega) ?_ ?_ hs'
    · dsimp only
      rw [h4, Nat.add_sub_cancel, hra]
    · dsimp only
      rw [h4]
      exact hs
  have q : R1 4 ≤ A + 128 := by omega
  obtain ⟨w, e0⟩ : ∃ w, R1 0 = w := ⟨_, rfl⟩
  rw [e0] at hk h
  refine lstep (clexBlock2 _) rfl q (hQ rfl e4 hg1) (.inl rfl) rfl fun b => ?_
  refine lstep b rfl q (hQ rfl e4 hg1) (.inl rfl) rfl fun b => ?_
  refine lstep b rfl q (hQ rfl e4 hg1) (.inl rfl) rfl fun b => ?_
  refine lstep b rfl q (hQ rfl e4 hg1) (.inl rfl) (s' := ⟨.at_ (off c.cet .doClosure + 50),
      upd (upd R1 10 (w % 256)) 11 (c.base + off c.cet .loadTable), x, fp, decide (w % 256 = 15), decide (w % 256 < 15), m, ss⟩) ?_ fun _ => ?_
  · subst e0
    show some (St.mk (if (decide (R1 0 % 256 = 15) || decide (R1 0 % 256 < 15)) = true then _ else _) _ _ _ _ _ _ _) = _
    rw [if_pos (by simp; omega)]
    rfl
  have hsl : ∀ k, slot c.cet .loadTable k = off c.cet .loadTable + k * (if c.cet then 16 else 8) := fun k => by unfold slot; rfl
  have fin : ∀ o v, Block c.cet row1 o [(4, .leax 10 11 10 8), (5, .leam 6 4 40), (3, .jmpr 10)] →
      v * 8 = w % 256 * (if c.cet then 16 else 8) →
      Safe c lo (Holds c ra g sp post) (level lo A) ⟨.at_ o, upd (upd R1 10 v) 11 (c.base + off c.cet .loadTable), x, fp,
        decide (w % 256 = 15), decide (w % 256 < 15), m, ss⟩ := by
    intro o v b hv
    refine lstep b rfl q (hQ rfl e4 hg1) (.inl rfl) rfl fun b => ?_
    refine lstep b rfl q (hQ rfl e4 hg1) (.inl rfl) (s' := ⟨.at_ (o + 4 + 5),
      upd (upd (upd (upd R1 10 v) 11 (c.base + off c.cet .loadTable)) 10 (c.base + off c.cet .loadTable + v * 8)) 6 A,
      x, fp, decide (w % 256 = 15), decide (w % 256 < 15), m, ss⟩) ?_ fun b => ?_
    · show (if 40 ≤ R1 4 then some (St.mk _ (upd _ 6 (R1 4 - 40)) _ _ _ _ _ _) else none) = _
      rw [if_pos (by omega), e4]
      rfl
    · refine jmp_slot (k := w % 256) (l := .loadTable) b rfl ?_ (fun _ => loadEndbr _ hk) q ?_ ?_ ?_ hg1 (h _ _ _ ?_ rfl hg1)
      · show c.base + off c.cet .loadTable + v * 8 = _
        rw [hsl, hv, Nat.add_assoc]
      · show A ≤ R1 4; omega
      · show leNat (m.rd (R1 4) 8) = ra
        rw [e4, hra]
      · show sp (R1 4 + 8)
        rw [e4]; exact hs
      · intro d hd
        simp only [upd]
        rw [if_neg (by omega), if_neg (by omega), if_neg (by omega), if_neg (by omega)]
  clear h
  obtain ⟨cet, base, ext⟩ := c
  cases cet
  · exact fin _ _ clexBlock3.2 rfl
  · refine lstep clexBlock3.1 rfl q (hQ rfl e4 hg1) (.inl rfl) (s' := ⟨.at_ (off true .doClosure + 50 + 3), upd (upd R1 10 (w % 256 * 2)) 11 (base + off true .loadTable), x, fp,
        decide (w % 256 = 15), decide (w % 256 < 15), m, ss⟩) ?_ fun b => fin _ _ b ?_
    · show some (St.mk _ (upd _ 10 ((w % 256 + w % 256) % 2 ^ 32)) _ _ _ _ _ _) = _
      have hv : (w % 256 + w % 256) % 2 ^ 32 = w % 256 * 2 := by omega
      rw [hv]
      have : ∀ (p q q' : Nat), upd (upd (upd R1 10 p) 11 q) 10 q' = upd (upd R1 10 q') 11 q := by
        intro p q q'
        funext d
        simp only [upd]
        by_cases h : d = 10
        · subst h; rfl
        · rw [if_neg h, if_neg h, if_neg h]
      exact congrArg (fun R => some (St.mk _ R x fp _ _ m ss)) (this _ _ _)
    · rw [if_pos rfl]; omega

/-- The whole way out of a closure. -/
theorem clos_exit {u : St} {b ra : Nat} {g : Nat → Nat} {sp : Nat → Prop} {post : Nat → St → Prop} {ss : List Nat} {ret : Ret}
    (hpc : u.pc = .at_ (off c.cet .doClosure + 24)) (h4 : u.r 4 = b) (hra : leNat (u.mem.rd (b + 216) 8) = ra) (hs : sp (b + 224))
    (hg : Saved u.r g) (hss : u.ss = ra :: ss) (hk : u.r 0 % 256 = ret.code) (hfp : u.fp.length + pops ret ≤ 8)
    (hpost : ∀ f t, f.pc = .out ra → f.r 4 = b + 224 → Saved f.r g → f.ss = ss → f.mem = u.mem →
      f.regs = resultRegs ret u.mem (b + 176) u.regs → Agree (level lo (b + 176)) f t → post ra t) :
    Safe c lo (Holds c ra g sp post) (level lo (b + 176)) u := by
  obtain ⟨pc, r, x, fp, zf, cf, m, ss'⟩ := u
  dsimp only [St.regs] at hpc h4 hra hg hss hk hfp hpost ⊢
  subst hpc
  subst hss
  refine lstep (clexBlock1 _) rfl (by show r 4 ≤ _; omega) ?_ (.inl rfl) (s' := ⟨.at_ (off c.cet .doClosure + 31), upd r 4 (b + 216), x, fp,
    zf, cf, m, ra :: ss⟩) ?_ fun _ => ?_
  · intro hr t ht
    refine holds_rsp' ht hr rfl ?_ ?_ ?_ hg
    · show ∀ a, r 4 + 224 - 8 ≤ a → _ → level lo (b + 176) a
      intro a h _
      exact .inr (by omega)
    · show leNat (m.rd (r 4 + 224 - 8) 8) = ra
      rw [h4]
      exact hra
    · show sp (r 4 + 224)
      rw [h4]
      exact hs
  · show some (St.mk _ (upd r 4 (r 4 + 216)) _ _ _ _ _ _) = _
    rw [h4]
  refine clos_jump hra hs (by show r 0 % 256 ≤ 15; rw [hk]; cases ret <;> decide) rfl ⟨hg.1, hg.2.1, hg.2.2.1, hg.2.2.2.1, hg.2.2.2.2.1, hg.2.2.2.2.2⟩ fun R zf cf e e6 eg => ?_
  show Safe _ _ _ _ ⟨.at_ (slot c.cet .loadTable (r 0 % 256) + eo c.cet), R, x, fp, zf, cf, m, ra :: ss⟩
  rw [hk]
  refine clos_table hra hs (e 4 (by omega)) e6 eg hfp ?_
  intro f t f1 f2 f3 f4 f5 f6 f7
  refine hpost f t f1 f2 f3 f4 f5 (f6.trans ?_) f7
  rw [e 0 (by omega), e 2 (by omega)]
  rfl

end Verif.X64.Asm
