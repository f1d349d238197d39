import Verif.X64.AsmLemmas
import Verif.X64.Ret

/-! The way out of `ffi_call_unix64`. -/
namespace Verif.X64.Asm
open Verif

variable {c : Ctx} {lo : Nat}

/-- A slot of a jump table. -/
def slot (cet : Bool) (l : Lbl) (k : Nat) : Nat := off cet l + k * (if cet then 16 else 8)

theorem exitBlock1 (cet : Bool) : Block cet row2 (eo cet + 82) [(4, .lea 4 5 24), (4, .ld 8 1 5 0), (4, .ld 8 7 5 8), (4, .ld 8 5 5 16)] := by
  cases cet <;> decide +kernel

theorem exitBlock2 (cet : Bool) : Block cet row1 (eo cet + 98)
    [(3, .cmpb 1 15), (4, .ext 1 false 10 1), (7, .leap 11 .storeTable), (6, .ja .sa)] := by
  cases cet <;> decide +kernel

theorem exitBlock3 : Block true row1 (eo true + 118) [(3, .addl 10 10), (4, .leax 10 11 10 8), (5, .leam 6 4 20), (3, .jmpr 10)] ∧
    Block false row1 (eo false + 118) [(4, .leax 10 11 10 8), (5, .leam 6 4 20), (3, .jmpr 10)] := by
  decide +kernel

/-- The jump tables consist of `endbr64` and the following. -/
theorem storeBlock (cet : Bool) :
    Block cet row1 (slot cet .storeTable 0 + eo cet) [(1, .ret)] ∧
    Block cet row1 (slot cet .storeTable 1 + eo cet) [(3, .ext 1 false 0 0), (3, .st 0 7 0), (1, .ret)] ∧
    Block cet row1 (slot cet .storeTable 2 + eo cet) [(3, .ext 2 false 0 0), (3, .st 0 7 0), (1, .ret)] ∧
    Block cet row1 (slot cet .storeTable 3 + eo cet) [(2, .ext 4 false 0 0), (3, .st 0 7 0), (1, .ret)] ∧
    Block cet row1 (slot cet .storeTable 4 + eo cet) [(4, .ext 1 true 0 0), (3, .st 0 7 0), (1, .ret)] ∧
    Block cet row1 (slot cet .storeTable 5 + eo cet) [(4, .ext 2 true 0 0), (3, .st 0 7 0), (1, .ret)] ∧
    Block cet row1 (slot cet .storeTable 6 + eo cet) [(2, .ext 4 true 0 0), (3, .st 0 7 0), (1, .ret)] ∧
    Block cet row1 (slot cet .storeTable 7 + eo cet) [(3, .st 0 7 0), (1, .ret)] ∧
    Block cet row1 (slot cet .storeTable 8 + eo cet) [(4, .stxl 4 0 7 0), (1, .ret)] ∧
    Block cet row1 (slot cet .storeTable 9 + eo cet) [(4, .stxl 8 0 7 0), (1, .ret)] ∧
    Block cet row1 (slot cet .storeTable 10 + eo cet) [(2, .fstp 7 0), (1, .ret)] ∧
    Block cet row1 (slot cet .storeTable 11 + eo cet) [(2, .fstp 7 0), (3, .fstp 7 16), (1, .ret)] ∧
    Block cet row1 (slot cet .storeTable 12 + eo cet) [(4, .st 0 6 8), (2, .jmp .s3)] ∧
    Block cet row1 (slot cet .storeTable 13 + eo cet) [(5, .stxl 8 0 6 8), (2, .jmp .s2)] ∧
    Block cet row1 (slot cet .storeTable 14 + eo cet) [(5, .stxl 8 1 6 8), (2, .jmp .s3)] ∧
    Block cet row1 (slot cet .storeTable 15 + eo cet) [(4, .st 2 6 8)] ∧
    slot cet .storeTable 15 + eo cet + 4 = off cet .s2 ∧
    Block cet row1 (off cet .s2) [(3, .st 0 6 0), (3, .shr 1 12), (2, .movsb), (1, .ret)] ∧
    Block cet row1 (off cet .s3) [(4, .stxl 8 0 6 0), (3, .shr 1 12), (2, .movsb), (1, .ret)] := by
  cases cet <;> decide +kernel

theorem storeEndbr (k : Nat) (hk : k ≤ 15) : Block true row1 (slot true .storeTable k) [(4, .endbr)] := by
  have : ∀ k : Fin 16, Block true row1 (slot true .storeTable k) [(4, .endbr)] := by decide +kernel
  exact this ⟨k, by omega⟩

theorem slot_false (l : Lbl) (k : Nat) : slot false l k = off false l + k * 8 := rfl
theorem slot_true (l : Lbl) (k : Nat) : slot true l k = off true l + k * 16 := rfl
theorem eo_true : eo true = 4 := rfl
theorem eo_false : eo false = 0 := rfl

attribute [local irreducible] fetch rowAt off Block eo slot

/-- `ret` -/
theorem ret_safe {s : St} {o L ra : Nat} {g : Nat → Nat} {sp : Nat → Prop} {post : Nat → St → Prop} {ss : List Nat}
    (hb : Block c.cet row1 o [(1, .ret)]) (hpc : s.pc = .at_ o) (hq : s.r 4 + 8 ≤ L + 128) (hL : L ≤ s.r 4)
    (hm : leNat (s.mem.rd (s.r 4) 8) = ra) (hss : s.ss = ra :: ss) (hs : sp (s.r 4 + 8)) (hg : Saved s.r g)
    (hpost : ∀ t, Agree (level lo L) { s with pc := .out ra, r := upd s.r 4 (s.r 4 + 8), ss := ss } t → post ra t) :
    Safe c lo (Holds c ra g sp post) (level lo L) s := by
  refine lstep hb hpc (by omega) (fun hr t ht => holds_rsp ht hr hpc (by omega) (by rw [Nat.add_sub_cancel, hm]) hs hg)
    (.inr (.inl hL)) (s' := { s with pc := .out ra, r := upd s.r 4 (s.r 4 + 8), ss := ss }) ?_ fun _ => .stop ?_ ?_ rfl
  · simp only [exec]
    rw [hss]
    simp only [hm]
    rw [if_pos (fun _ => trivial)]
  · intro a ha
    exact ha.imp_right fun h => by show s.r 4 + 8 ≤ _; omega
  · intro t ht
    unfold Holds
    rw [ht.pc]
    exact hpost t ht

theorem wr_append (m : Mem) (a : Nat) (xs ys : List Byte) : (m.wr a xs).wr (a + xs.length) ys = m.wr a (xs ++ ys) := by
  funext y
  unfold Mem.wr
  rw [List.length_append]
  by_cases h : a + xs.length ≤ y ∧ y < a + xs.length + ys.length
  · rw [if_pos h, if_pos (by omega), List.getD_eq_getElem?_getD, List.getD_eq_getElem?_getD, List.getElem?_append_right (by omega),
      Nat.sub_sub]
  · rw [if_neg h]
    by_cases h' : a ≤ y ∧ y < a + xs.length
    · rw [if_pos h', if_pos (by omega), List.getD_eq_getElem?_getD, List.getD_eq_getElem?_getD, List.getElem?_append_left (by omega)]
    · rw [if_neg h', if_neg (by omega)]

/-- `rep movsb` from the scratch area, and `ret`. -/
theorem movs_safe {o L ra : Nat} {g : Nat → Nat} {sp : Nat → Prop} {post : Nat → St → Prop} {ss : List Nat}
    (hb : Block c.cet row1 o [(2, .movsb), (1, .ret)]) :
    ∀ (n : Nat) {s : St}, s.r 1 = n → s.pc = .at_ o → s.r 4 + 8 ≤ L + 128 → L ≤ s.r 4 → L ≤ s.r 6 →
    (s.r 7 + n ≤ s.r 6 ∨ s.r 6 + n ≤ s.r 7) → (s.r 7 + n ≤ s.r 4 ∨ s.r 4 + 8 ≤ s.r 7) →
    leNat (s.mem.rd (s.r 4) 8) = ra → s.ss = ra :: ss → sp (s.r 4 + 8) → Saved s.r g →
    (∀ f t, f.pc = .out ra → f.r 4 = s.r 4 + 8 → Saved f.r g → f.ss = ss → f.fp = s.fp →
      f.mem = s.mem.wr (s.r 7) (s.mem.rd (s.r 6) n) → Agree (level lo L) f t → post ra t) →
    Safe c lo (Holds c ra g sp post) (level lo L) s := by
  intro n
  induction n with
  | zero =>
    intro s h1 hpc hq hL h6 hd hd' hm hss hs hg hpost
    refine lstep hb hpc (by omega) (fun hr t ht => holds_rsp ht hr hpc (by omega) (by rw [Nat.add_sub_cancel, hm]) hs hg)
      (.inl (by simp only [ld, h1, if_pos])) (s' := { s with pc := .at_ (o + 2) }) (by simp only [exec, h1, if_pos]) fun b => ?_
    refine ret_safe b rfl hq hL hm hss hs hg fun t ht =>
      hpost { s with pc := .out ra, r := upd s.r 4 (s.r 4 + 8), ss := ss } t rfl rfl hg rfl rfl ?_ ht
    show s.mem = _
    funext x
    rw [Mem.wr_out _ _ _ _ (by simp; omega)]
  | succ n ih =>
    intro s h1 hpc hq hL h6 hd hd' hm hss hs hg hpost
    refine lstep hb hpc (by omega) (fun hr t ht => holds_rsp ht hr hpc (by omega) (by rw [Nat.add_sub_cancel, hm]) hs hg)
      (.inr (.inl h6)) (s' := { s with
        pc := .at_ o, r := upd (upd (upd s.r 1 n) 6 (s.r 6 + 1)) 7 (s.r 7 + 1), mem := s.mem.wr (s.r 7) (s.mem.rd (s.r 6) 1) })
      ?_ fun _ => ?_
    · simp only [exec]
      rw [h1, if_neg (by omega), Nat.add_sub_cancel]
    · have hrd : ∀ (p k : Nat), (p + k ≤ s.r 7 ∨ s.r 7 + 1 ≤ p) → (s.mem.wr (s.r 7) (s.mem.rd (s.r 6) 1)).rd p k = s.mem.rd p k :=
        fun p k h => Mem.rd_wr_disj _ _ _ _ _ (by rw [Mem.rd_length]; omega)
      refine ih rfl rfl hq hL (Nat.le_trans h6 (Nat.le_add_right _ _)) ?_ ?_ ?_ hss hs hg ?_
      · show s.r 7 + 1 + n ≤ s.r 6 + 1 ∨ s.r 6 + 1 + n ≤ s.r 7 + 1
        omega
      · show s.r 7 + 1 + n ≤ s.r 4 ∨ s.r 4 + 8 ≤ s.r 7 + 1
        omega
      · show leNat (Mem.rd _ (s.r 4) 8) = ra
        rw [hrd _ _ (by omega), hm]
      · intro f t e1 e2 e3 e4 e5 e6 ht
        refine hpost f t e1 e2 e3 e4 e5 (e6.trans ?_) ht
        show Mem.wr _ (s.r 7 + 1) (Mem.rd _ (s.r 6 + 1) n) = _
        rw [hrd _ _ (by omega), Nat.add_comm n 1, Mem.rd_append]
        have := wr_append s.mem (s.r 7) (s.mem.rd (s.r 6) 1) (s.mem.rd (s.r 6 + 1) n)
        rw [Mem.rd_length] at this
        exact this

/-- The indirect jump to a slot, and `endbr64` there. -/
theorem jmp_slot {s : St} {o L k ra : Nat} {l : Lbl} {g : Nat → Nat} {sp : Nat → Prop} {post : Nat → St → Prop}
    (hb : Block c.cet row1 o [(3, .jmpr 10)]) (hpc : s.pc = .at_ o) (h10 : s.r 10 = c.base + slot c.cet l k)
    (he : c.cet = true → Block true row1 (slot true l k) [(4, .endbr)]) (hq : s.r 4 ≤ L + 128) (hL : L ≤ s.r 4)
    (hm : leNat (s.mem.rd (s.r 4) 8) = ra) (hs : sp (s.r 4 + 8)) (hg : Saved s.r g)
    (h : Safe c lo (Holds c ra g sp post) (level lo L) { s with pc := .at_ (slot c.cet l k + eo c.cet) }) :
    Safe c lo (Holds c ra g sp post) (level lo L) s := by
  refine lstep hb hpc hq (fun hr t ht => holds_rsp ht hr hpc (by omega) (by rw [Nat.add_sub_cancel, hm]) hs hg)
    (.inl rfl) (s' := { s with pc := .at_ (slot c.cet l k) }) ?_ fun _ => ?_
  · simp only [exec]
    rw [h10, Nat.add_sub_cancel_left, if_pos]
    refine ⟨by omega, fun hc => ?_⟩
    have := (he hc).cons.1
    rw [hc, this]
    rfl
  · obtain ⟨cet, base, ext⟩ := c
    cases cet
    · rw [eo_false, Nat.add_zero] at h
      exact h
    · refine lstep (he rfl) rfl hq (fun hr t ht => holds_rsp ht hr rfl ?_ ?_ hs hg) (.inl rfl) rfl fun _ => ?_
      · show L ≤ s.r 4 + 8 - 8
        omega
      · show leNat (s.mem.rd (s.r 4 + 8 - 8) 8) = ra
        rw [Nat.add_sub_cancel, hm]
      · rw [eo_true] at h
        exact h

theorem safe_of_eq {Q : St → Prop} {D : Nat → Prop} {s s' : St} (h : s = s') (hs : Safe c lo Q D s) : Safe c lo Q D s' := h ▸ hs

/-- From the test of the flags to the slot of the table. -/
theorem call_jump {F w ra : Nat} {g : Nat → Nat} {sp : Nat → Prop} {post : Nat → St → Prop} {R1 : Nat → Nat} {x : Nat → List Byte}
    {fp : List (List Byte)} {zf cf : Bool} {m : Mem} {ss : List Nat}
    (hra : leNat (m.rd (F + 24) 8) = ra) (hs : sp (F + 32)) (hk : w % 256 ≤ 15) (e1 : R1 1 = w) (e4 : R1 4 = F + 24) (hg1 : Saved R1 g)
    (h : ∀ R zf cf, (∀ d, d < 6 ∨ d = 7 → R d = R1 d) → R 6 = F + 4 → Saved R g →
      Safe c lo (Holds c ra g sp post) (level lo F)
        ⟨.at_ (slot c.cet .storeTable (w % 256) + eo c.cet), R, x, fp, zf, cf, m, ss⟩) :
    Safe c lo (Holds c ra g sp post) (level lo F) ⟨.at_ (eo c.cet + 98), R1, x, fp, zf, cf, m, ss⟩ := by
  have hQ : ∀ {o : Nat} {r' : Nat → Nat} {zf cf : Bool} {pc' : Pc}, pc' = .at_ o → r' 4 = F + 24 → Saved r' g →
      rowAt c.cet o = some row1 → ∀ t, Agree (level lo (F)) ⟨pc', r', x, fp, zf, cf, m, ss⟩ t → Holds c ra g sp post t := by
    intro o r' zf cf pc' hpc h4 hs' hr t ht
    refine holds_rsp ht hr hpc (by dsimp only; omega) ?_ ?_ hs'
    · dsimp only
      rw [h4, Nat.add_sub_cancel, hra]
    · dsimp only
      rw [h4]
      exact hs
  have q : R1 4 ≤ F + 128 := by omega
  refine lstep (exitBlock2 _) rfl q (hQ rfl e4 hg1) (.inl rfl) rfl fun b => ?_
  refine lstep b rfl q (hQ rfl e4 hg1) (.inl rfl) rfl fun b => ?_
  refine lstep b rfl q (hQ rfl e4 hg1) (.inl rfl) rfl fun b => ?_
  refine lstep b rfl q (hQ rfl e4 hg1) (.inl rfl) (s' := ⟨.at_ (eo c.cet + 118),
      upd (upd R1 10 (w % 256)) 11 (c.base + off c.cet .storeTable), x, fp, decide (w % 256 = 15), decide (w % 256 < 15), m, ss⟩) ?_ fun _ => ?_
  · subst e1
    show some (St.mk (if (decide (R1 1 % 256 = 15) || decide (R1 1 % 256 < 15)) = true then _ else _) _ _ _ _ _ _ _) = _
    rw [if_pos (by simp; omega)]
    rfl
  have hsl : ∀ k, slot c.cet .storeTable k = off c.cet .storeTable + k * (if c.cet then 16 else 8) := fun k => by unfold slot; rfl
  have fin : ∀ o v, Block c.cet row1 o [(4, .leax 10 11 10 8), (5, .leam 6 4 20), (3, .jmpr 10)] →
      v * 8 = w % 256 * (if c.cet then 16 else 8) →
      Safe c lo (Holds c ra g sp post) (level lo F) ⟨.at_ o, upd (upd R1 10 v) 11 (c.base + off c.cet .storeTable), x, fp,
        decide (w % 256 = 15), decide (w % 256 < 15), m, ss⟩ := by
    intro o v b hv
    refine lstep b rfl q (hQ rfl e4 hg1) (.inl rfl) rfl fun b => ?_
    refine lstep b rfl q (hQ rfl e4 hg1) (.inl rfl) (s' := ⟨.at_ (o + 4 + 5),
      upd (upd (upd (upd R1 10 v) 11 (c.base + off c.cet .storeTable)) 10 (c.base + off c.cet .storeTable + v * 8)) 6 (F + 4),
      x, fp, decide (w % 256 = 15), decide (w % 256 < 15), m, ss⟩) ?_ fun b => ?_
    · show (if 20 ≤ R1 4 then some (St.mk _ (upd _ 6 (R1 4 - 20)) _ _ _ _ _ _) else none) = _
      rw [if_pos (by omega), e4]
      rfl
    · refine jmp_slot (k := w % 256) (l := .storeTable) b rfl ?_ (fun _ => storeEndbr _ hk) q ?_ ?_ ?_ hg1 (h _ _ _ ?_ rfl hg1)
      · show c.base + off c.cet .storeTable + v * 8 = _
        rw [hsl, hv, Nat.add_assoc]
      · show F ≤ R1 4; omega
      · show leNat (m.rd (R1 4) 8) = ra
        rw [e4, hra]
      · show sp (R1 4 + 8)
        rw [e4]; exact hs
      · intro d hd
        simp only [upd]
        rw [if_neg (by omega), if_neg (by omega), if_neg (by omega), if_neg (by omega)]
  clear h
  obtain ⟨cet, base, ext⟩ := c
  cases cet
  · exact fin _ _ exitBlock3.2 rfl
  · refine lstep exitBlock3.1 rfl q (hQ rfl e4 hg1) (.inl rfl) (s' := ⟨.at_ (eo true + 118 + 3), upd (upd R1 10 (w % 256 * 2)) 11 (base + off true .storeTable), x, fp,
        decide (w % 256 = 15), decide (w % 256 < 15), m, ss⟩) ?_ fun b => fin _ _ b ?_
    · show some (St.mk _ (upd _ 10 ((w % 256 + w % 256) % 2 ^ 32)) _ _ _ _ _ _) = _
      have hv : (w % 256 + w % 256) % 2 ^ 32 = w % 256 * 2 := by omega
      rw [hv]
      have : ∀ (p q q' : Nat), upd (upd (upd R1 10 p) 11 q) 10 q' = upd (upd R1 10 q') 11 q := by
        intro p q q'
        funext d
        simp only [upd]
        by_cases h : d = 10
        · subst h; rfl
        · rw [if_neg h, if_neg h, if_neg h]
      exact congrArg (fun R => some (St.mk _ R x fp _ _ m ss)) (this _ _ _)
    · rw [if_pos rfl]; omega

/-- From the return of the function to the slot of the table. -/
theorem call_dispatch {u : St} {w a ra : Nat} {g : Nat → Nat} {sp : Nat → Prop} {post : Nat → St → Prop} (hpc : u.pc = .at_ (eo c.cet + 82))
    (h4 : u.r 4 ≤ u.r 5 + 128) (hra : leNat (u.mem.rd (u.r 5 + 24) 8) = ra) (hb : leNat (u.mem.rd (u.r 5 + 16) 8) = g 5)
    (hw : leNat (u.mem.rd (u.r 5) 8) = w) (ha : leNat (u.mem.rd (u.r 5 + 8) 8) = a) (hs : sp (u.r 5 + 32))
    (hg : Saved (upd u.r 5 (g 5)) g) (hk : w % 256 ≤ 15)
    (h : ∀ R zf cf, R 0 = u.r 0 → R 1 = w → R 2 = u.r 2 → R 4 = u.r 5 + 24 → R 6 = u.r 5 + 4 → R 7 = a → Saved R g →
      Safe c lo (Holds c ra g sp post) (level lo (u.r 5))
        ⟨.at_ (slot c.cet .storeTable (w % 256) + eo c.cet), R, u.x, u.fp, zf, cf, u.mem, u.ss⟩) :
    Safe c lo (Holds c ra g sp post) (level lo (u.r 5)) u := by
  obtain ⟨pc, r, x, fp, zf, cf, m, ss⟩ := u
  dsimp only at hpc h4 hra hb hw ha hs hg h
  have hQ : ∀ {o : Nat} {r' : Nat → Nat} {pc' : Pc}, pc' = .at_ o → r' 5 = r 5 → Saved (upd r' 5 (g 5)) g →
      rowAt c.cet o = some row2 → ∀ t, Agree (level lo (r 5)) ⟨pc', r', x, fp, zf, cf, m, ss⟩ t → Holds c ra g sp post t := by
    intro o r' pc' hpc h4 hs' hr t ht
    refine holds_rbp ht hr hpc (by dsimp only; omega) ?_ ?_ ?_ hs'
    · dsimp only
      rw [h4, hra]
    · dsimp only
      rw [h4, hb]
    · dsimp only
      rw [h4]
      exact hs
  obtain ⟨R1, hR1, e0, e1, e2, e4, e7, hg1⟩ : ∃ R1, upd (upd (upd (upd r 4 (r 5 + 24)) 1 (leNat (m.rd (r 5 + 0) 8)))
      7 (leNat (m.rd (r 5 + 8) 8))) 5 (leNat (m.rd (r 5 + 16) 8)) = R1 ∧ R1 0 = r 0 ∧ R1 1 = w ∧ R1 2 = r 2 ∧ R1 4 = r 5 + 24 ∧ R1 7 = a ∧
      Saved R1 g := by
    rw [Nat.add_zero (r 5), hw, ha, hb]
    exact ⟨_, rfl, rfl, rfl, rfl, rfl, rfl, hg⟩
  have hst : (⟨.at_ (eo c.cet + 98), R1, x, fp, zf, cf, m, ss⟩ : St) = ⟨.at_ (eo c.cet + 82 + 4 + 4 + 4 + 4),
      upd (upd (upd (upd r 4 (r 5 + 24)) 1 (leNat (m.rd (r 5 + 0) 8)))
      7 (leNat (m.rd (r 5 + 8) 8))) 5 (leNat (m.rd (r 5 + 16) 8)), x, fp, zf, cf, m, ss⟩ := by
    rw [hR1]
  have q : r 5 + 24 ≤ r 5 + 128 := by omega
  refine lstep (exitBlock1 _) hpc h4 (hQ hpc rfl hg) (.inl rfl) rfl fun b => ?_
  refine lstep b rfl q (hQ rfl rfl hg) (.inr (.inl (Nat.le_add_right _ _))) rfl fun b => ?_
  refine lstep b rfl q (hQ rfl rfl hg) (.inr (.inl (Nat.le_add_right _ _))) rfl fun b => ?_
  refine lstep b rfl q (hQ rfl rfl hg) (.inr (.inl (Nat.le_add_right _ _))) rfl fun _ => ?_
  refine safe_of_eq hst (call_jump hra hs hk e1 e4 hg1 fun R zf cf a1 a2 a3 => h R zf cf ?_ ?_ ?_ ?_ a2 ?_ a3)
  · rw [a1 0 (by omega), e0]
  · rw [a1 1 (by omega), e1]
  · rw [a1 2 (by omega), e2]
  · rw [a1 4 (by omega), e4]
  · rw [a1 7 (by omega), e7]

/-- Number of bytes written for a result. -/
def need (ret : Ret) (n : Nat) : Nat :=
  match ret with
  | .void => 0
  | .uint8 | .uint16 | .uint32 | .sint8 | .sint16 | .sint32 | .int64 | .xmm64 => 8
  | .xmm32 => 4
  | .x87 => 10
  | .x87_2 => 26
  | .stXmm0Rax | .stRaxXmm0 | .stXmm0Xmm1 | .stRaxRdx => n

/-- Number of x87 registers of a result. -/
def pops : Ret → Nat
  | .x87 => 1
  | .x87_2 => 2
  | _ => 0

/-- A result in two registers: by way of the scratch area. -/
def pair (m : Mem) (F a n : Nat) (l h : List Byte) : Mem :=
  let m := (m.wr (F + 12) h).wr (F + 4) l
  m.wr a (m.rd (F + 4) n)

/-- The memory after the result has been stored. -/
def stored (ret : Ret) (n : Nat) (rax rdx : Nat) (x : Nat → List Byte) (fp : List (List Byte)) (m : Mem) (F a : Nat) : Mem :=
  match ret with
  | .void => m
  | .uint8 => m.wr a (leBytes 8 (rax % 2 ^ 8))
  | .uint16 => m.wr a (leBytes 8 (rax % 2 ^ 16))
  | .uint32 => m.wr a (leBytes 8 (rax % 2 ^ 32))
  | .sint8 => m.wr a (leBytes 8 (sext 1 8 rax))
  | .sint16 => m.wr a (leBytes 8 (sext 2 8 rax))
  | .sint32 => m.wr a (leBytes 8 (sext 4 8 rax))
  | .int64 => m.wr a (leBytes 8 rax)
  | .xmm32 => m.wr a ((x 0).take 4)
  | .xmm64 => m.wr a ((x 0).take 8)
  | .x87 => m.wr a (fp.getD 0 [])
  | .x87_2 => (m.wr a (fp.getD 0 [])).wr (a + 16) (fp.getD 1 [])
  | .stXmm0Rax => pair m F a n ((x 0).take 8) (leBytes 8 rax)
  | .stRaxXmm0 => pair m F a n (leBytes 8 rax) ((x 0).take 8)
  | .stXmm0Xmm1 => pair m F a n ((x 0).take 8) ((x 1).take 8)
  | .stRaxRdx => pair m F a n (leBytes 8 rax) (leBytes 8 rdx)

/-- The store table. -/
theorem call_table {F w a ra : Nat} {g : Nat → Nat} {sp : Nat → Prop} {post : Nat → St → Prop} {R : Nat → Nat} {x : Nat → List Byte}
    {fp : List (List Byte)} {zf cf : Bool} {m : Mem} {ss : List Nat} {ret : Ret}
    (hra : leNat (m.rd (F + 24) 8) = ra) (hs : sp (F + 32)) (h1 : R 1 = w) (h4 : R 4 = F + 24) (h6 : R 6 = F + 4) (h7 : R 7 = a)
    (hg : Saved R g) (hx0 : (x 0).length = 16) (hx1 : (x 1).length = 16) (hfl : ∀ v ∈ fp, v.length = 10) (hfp : pops ret ≤ fp.length)
    (hn : w % 2 ^ 32 / 2 ^ 12 ≤ 20) (hd : a + need ret (w % 2 ^ 32 / 2 ^ 12) ≤ F ∨ F + 32 ≤ a)
    (hpost : ∀ f t, f.pc = .out ra → f.r 4 = F + 32 → Saved f.r g → f.ss = ss → f.fp = fp.drop (pops ret) →
      f.mem = stored ret (w % 2 ^ 32 / 2 ^ 12) (R 0) (R 2) x fp m F a → Agree (level lo F) f t → post ra t) :
    Safe c lo (Holds c ra g sp post) (level lo F)
      ⟨.at_ (slot c.cet .storeTable ret.code + eo c.cet), R, x, fp, zf, cf, m, ra :: ss⟩ := by
  obtain ⟨b0, b1, b2, b3, b4, b5, b6, b7, b8, b9, b10, b11, b12, b13, b14, b15, hs2, bs2, bs3⟩ := storeBlock c.cet
  have hQ : ∀ {o : Nat} {r' : Nat → Nat} {m' : Mem} {fp' : List (List Byte)} {pc' : Pc}, pc' = .at_ o → r' 4 = R 4 → Saved r' g →
      m'.rd (F + 24) 8 = m.rd (F + 24) 8 →
      rowAt c.cet o = some row1 → ∀ t, Agree (level lo F) ⟨pc', r', x, fp', zf, cf, m', ra :: ss⟩ t → Holds c ra g sp post t := by
    intro o r' m' fp' pc' hpc h4' hs' hm hr t ht
    rw [h4] at h4'
    refine holds_rsp ht hr hpc (by dsimp only; omega) ?_ ?_ hs'
    · dsimp only
      rw [h4', Nat.add_sub_cancel, hm, hra]
    · dsimp only
      rw [h4']
      exact hs
  have q : R 4 ≤ F + 128 := by omega
  have fin : ∀ {o : Nat} {r' : Nat → Nat} {m' : Mem} {fp' : List (List Byte)}, Block c.cet row1 o [(1, .ret)] →
      r' 4 = R 4 → Saved r' g → m'.rd (F + 24) 8 = m.rd (F + 24) 8 →
      m' = stored ret (w % 2 ^ 32 / 2 ^ 12) (R 0) (R 2) x fp m F a → fp' = fp.drop (pops ret) →
      Safe c lo (Holds c ra g sp post) (level lo F) ⟨.at_ o, r', x, fp', zf, cf, m', ra :: ss⟩ := by
    intro o r' m' fp' b e4 es em e1 e2
    rw [h4] at e4
    refine ret_safe b rfl ?_ ?_ ?_ rfl ?_ es fun t ht => hpost _ t rfl ?_ es rfl e2 e1 ht
    · dsimp only; omega
    · dsimp only; omega
    · dsimp only
      rw [e4, em, hra]
    · dsimp only
      rw [e4]; exact hs
    · show r' 4 + 8 = F + 32
      omega
  have keep : ∀ {bs : List Byte}, bs.length ≤ need ret (w % 2 ^ 32 / 2 ^ 12) → (m.wr (R 7 + 0) bs).rd (F + 24) 8 = m.rd (F + 24) 8 := by
    intro bs h
    rw [h7]
    exact Mem.rd_wr_disj _ _ _ _ _ (by omega)
  have int : ∀ {o n z : Nat} {sg : Bool}, Block c.cet row1 o [(n, .ext z sg 0 0), (3, .st 0 7 0), (1, .ret)] →
      need ret (w % 2 ^ 32 / 2 ^ 12) = 8 → m.wr a (leBytes 8 (if sg then sext z 8 (R 0) else R 0 % 2 ^ (8 * z))) =
        stored ret (w % 2 ^ 32 / 2 ^ 12) (R 0) (R 2) x fp m F a → pops ret = 0 →
      Safe c lo (Holds c ra g sp post) (level lo F) ⟨.at_ o, R, x, fp, zf, cf, m, ra :: ss⟩ := by
    intro o n z sg b e1 e2 e3
    refine lstep b rfl q (hQ rfl rfl hg rfl) (.inl rfl) rfl fun b => ?_
    refine lstep b rfl q (hQ rfl rfl hg rfl) (.inl rfl) rfl fun b => ?_
    refine fin b rfl hg (keep ?_) ?_ ?_
    · rw [leBytes_length, e1]
    · rw [← e2]
      show Mem.wr _ (R 7 + 0) _ = _
      rw [h7]
      rfl
    · rw [e3]; rfl
  have sse : ∀ {o z : Nat}, Block c.cet row1 o [(4, .stxl z 0 7 0), (1, .ret)] → need ret (w % 2 ^ 32 / 2 ^ 12) = z →
      m.wr a ((x 0).take z) = stored ret (w % 2 ^ 32 / 2 ^ 12) (R 0) (R 2) x fp m F a → pops ret = 0 →
      Safe c lo (Holds c ra g sp post) (level lo F) ⟨.at_ o, R, x, fp, zf, cf, m, ra :: ss⟩ := by
    intro o z b e1 e2 e3
    refine lstep b rfl q (hQ rfl rfl hg rfl) (.inl rfl) rfl fun b => ?_
    refine fin b rfl hg (keep ?_) ?_ ?_
    · rw [e1, List.length_take]; exact Nat.min_le_left _ _
    · rw [← e2]
      show Mem.wr _ (R 7 + 0) _ = _
      rw [h7]
      rfl
    · rw [e3]; rfl
  have copy : ∀ {o : Nat} {m' : Mem}, Block c.cet row1 o [(3, .shr 1 12), (2, .movsb), (1, .ret)] →
      need ret (w % 2 ^ 32 / 2 ^ 12) = w % 2 ^ 32 / 2 ^ 12 → pops ret = 0 → m'.rd (F + 24) 8 = m.rd (F + 24) 8 →
      m'.wr a (m'.rd (F + 4) (w % 2 ^ 32 / 2 ^ 12)) = stored ret (w % 2 ^ 32 / 2 ^ 12) (R 0) (R 2) x fp m F a →
      Safe c lo (Holds c ra g sp post) (level lo F) ⟨.at_ o, R, x, fp, zf, cf, m', ra :: ss⟩ := by
    intro o m' b e1 e2 e3 e4
    refine lstep b rfl q (hQ rfl rfl hg e3) (.inl rfl) rfl fun b => ?_
    refine movs_safe b (w % 2 ^ 32 / 2 ^ 12) ?_ rfl ?_ ?_ ?_ ?_ ?_ ?_ rfl ?_ hg fun f t a1 a2 a3 a4 a5 a6 ht =>
      hpost f t a1 (a2.trans ?_) a3 a4 (a5.trans ?_) (a6.trans ?_) ht
    · show R 1 % 2 ^ 32 / 2 ^ 12 = _
      rw [h1]
    · show R 4 + 8 ≤ _; omega
    · show F ≤ R 4; omega
    · show F ≤ R 6; omega
    · show R 7 + _ ≤ R 6 ∨ R 6 + _ ≤ R 7; omega
    · show R 7 + _ ≤ R 4 ∨ R 4 + 8 ≤ R 7; omega
    · show leNat (m'.rd (R 4) 8) = ra
      rw [h4, e3, hra]
    · show sp (R 4 + 8)
      rw [h4]; exact hs
    · show R 4 + 8 = F + 32; omega
    · rw [e2]; rfl
    · rw [← e4]
      show m'.wr (R 7) (m'.rd (R 6) _) = _
      rw [h6, h7]
  have keep2 : ∀ {m' : Mem} {k : Nat} {bs : List Byte}, k ≤ 8 → bs.length = 8 → m'.rd (F + 24) 8 = m.rd (F + 24) 8 →
      (m'.wr (R 6 + k) bs).rd (F + 24) 8 = m.rd (F + 24) 8 := by
    intro m' k bs h1 h2 h3
    rw [h6, Mem.rd_wr_disj _ _ _ _ _ (by omega), h3]
  have s2 : ∀ {hi : List Byte}, hi.length = 8 →
      need ret (w % 2 ^ 32 / 2 ^ 12) = w % 2 ^ 32 / 2 ^ 12 → pops ret = 0 →
      pair m F a (w % 2 ^ 32 / 2 ^ 12) (leBytes 8 (R 0)) hi = stored ret (w % 2 ^ 32 / 2 ^ 12) (R 0) (R 2) x fp m F a →
      Safe c lo (Holds c ra g sp post) (level lo F) ⟨.at_ (off c.cet .s2), R, x, fp, zf, cf, m.wr (R 6 + 8) hi, ra :: ss⟩ := by
    intro hi hl e1 e2 e3
    refine lstep bs2 rfl q (hQ rfl rfl hg (keep2 (by omega) hl rfl)) (.inl rfl) rfl fun b => ?_
    refine copy b e1 e2 (keep2 (by omega) (leBytes_length _ _) (keep2 (by omega) hl rfl)) ?_
    rw [← e3]
    show ((m.wr (R 6 + 8) hi).wr (R 6 + 0) (leBytes 8 (R 0))).wr a (((m.wr (R 6 + 8) hi).wr (R 6 + 0) (leBytes 8 (R 0))).rd (F + 4) _) = _
    rw [h6]
    rfl
  have s3 : ∀ {hi : List Byte}, hi.length = 8 →
      need ret (w % 2 ^ 32 / 2 ^ 12) = w % 2 ^ 32 / 2 ^ 12 → pops ret = 0 →
      pair m F a (w % 2 ^ 32 / 2 ^ 12) ((x 0).take 8) hi = stored ret (w % 2 ^ 32 / 2 ^ 12) (R 0) (R 2) x fp m F a →
      Safe c lo (Holds c ra g sp post) (level lo F) ⟨.at_ (off c.cet .s3), R, x, fp, zf, cf, m.wr (R 6 + 8) hi, ra :: ss⟩ := by
    intro hi hl e1 e2 e3
    refine lstep bs3 rfl q (hQ rfl rfl hg (keep2 (by omega) hl rfl)) (.inl rfl) rfl fun b => ?_
    refine copy b e1 e2 (keep2 (by omega) (by rw [List.length_take, hx0]; rfl) (keep2 (by omega) hl rfl)) ?_
    rw [← e3]
    show ((m.wr (R 6 + 8) hi).wr (R 6 + 0) ((x 0).take 8)).wr a (((m.wr (R 6 + 8) hi).wr (R 6 + 0) ((x 0).take 8)).rd (F + 4) _) = _
    rw [h6]
    rfl
  cases ret
  · exact fin b0 rfl hg rfl rfl rfl
  · exact int b1 rfl rfl rfl
  · exact int b2 rfl rfl rfl
  · exact int b3 rfl rfl rfl
  · exact int b4 rfl rfl rfl
  · exact int b5 rfl rfl rfl
  · exact int b6 rfl rfl rfl
  · refine lstep b7 rfl q (hQ rfl rfl hg rfl) (.inl rfl) rfl fun b => ?_
    refine fin b rfl hg (keep (Nat.le_of_eq (leBytes_length _ _))) ?_ rfl
    show Mem.wr _ (R 7 + 0) _ = _
    rw [h7]
    rfl
  · exact sse b8 rfl rfl rfl
  · exact sse b9 rfl rfl rfl
  · obtain _ | ⟨v, vs⟩ := fp
    · cases hfp
    · have hv := hfl v (List.mem_cons_self ..)
      refine lstep b10 rfl q (hQ rfl rfl hg rfl) (.inl rfl) rfl fun b => ?_
      refine fin b rfl hg (keep (Nat.le_of_eq hv)) ?_ rfl
      show Mem.wr _ (R 7 + 0) _ = _
      rw [h7]
      rfl
  · obtain _ | ⟨v, _ | ⟨v', vs⟩⟩ := fp
    · cases hfp
    · simp [pops] at hfp
    · have hv := hfl v (List.mem_cons_self ..)
      have hv' := hfl v' (by simp)
      have k1 := keep (bs := v) (by rw [hv]; show 10 ≤ 26; omega)
      refine lstep b11 rfl q (hQ rfl rfl hg rfl) (.inl rfl) rfl fun b => ?_
      refine lstep b rfl q (hQ rfl rfl hg k1) (.inl rfl) rfl fun b => ?_
      refine fin b rfl hg ?_ ?_ rfl
      · show Mem.rd (Mem.wr _ (R 7 + 16) v') _ _ = _
        rw [Mem.rd_wr_disj _ _ _ _ _ (by have : need .x87_2 (w % 2 ^ 32 / 2 ^ 12) = 26 := rfl; omega)]
        exact k1
      · show Mem.wr (Mem.wr _ (R 7 + 0) _) (R 7 + 16) _ = _
        rw [h7]
        rfl
  · refine lstep b12 rfl q (hQ rfl rfl hg rfl) (.inl rfl) rfl fun b => ?_
    refine lstep b rfl q (hQ rfl rfl hg (keep2 (by omega) (leBytes_length _ _) rfl)) (.inl rfl) rfl fun _ => ?_
    exact s3 (leBytes_length _ _) rfl rfl rfl
  · have hl : ((x 0).take 8).length = 8 := by rw [List.length_take, hx0]; rfl
    refine lstep b13 rfl q (hQ rfl rfl hg rfl) (.inl rfl) rfl fun b => ?_
    refine lstep b rfl q (hQ rfl rfl hg (keep2 (by omega) hl rfl)) (.inl rfl) rfl fun _ => ?_
    exact s2 hl rfl rfl rfl
  · have hl : ((x 1).take 8).length = 8 := by rw [List.length_take, hx1]; rfl
    refine lstep b14 rfl q (hQ rfl rfl hg rfl) (.inl rfl) rfl fun b => ?_
    refine lstep b rfl q (hQ rfl rfl hg (keep2 (by omega) hl rfl)) (.inl rfl) rfl fun _ => ?_
    exact s3 hl rfl rfl rfl
  · refine lstep b15 rfl q (hQ rfl rfl hg rfl) (.inl rfl) rfl fun _ => ?_
    refine safe_of_eq ?_ (s2 (leBytes_length _ _) rfl rfl rfl)
    rw [← hs2]

/-- `ffi_call_unix64` from the return of the function to its own. -/
theorem call_exit {u : St} {w a ra : Nat} {g : Nat → Nat} {sp : Nat → Prop} {post : Nat → St → Prop} {ss : List Nat} {ret : Ret}
    (hpc : u.pc = .at_ (eo c.cet + 82))
    (h4 : u.r 4 ≤ u.r 5 + 128) (hra : leNat (u.mem.rd (u.r 5 + 24) 8) = ra) (hb : leNat (u.mem.rd (u.r 5 + 16) 8) = g 5)
    (hw : leNat (u.mem.rd (u.r 5) 8) = w) (ha : leNat (u.mem.rd (u.r 5 + 8) 8) = a) (hs : sp (u.r 5 + 32))
    (hg : Saved (upd u.r 5 (g 5)) g) (hss : u.ss = ra :: ss) (hk : w % 256 = ret.code)
    (hx0 : (u.x 0).length = 16) (hx1 : (u.x 1).length = 16) (hfl : ∀ v ∈ u.fp, v.length = 10) (hfp : pops ret ≤ u.fp.length)
    (hn : w % 2 ^ 32 / 2 ^ 12 ≤ 20) (hd : a + need ret (w % 2 ^ 32 / 2 ^ 12) ≤ u.r 5 ∨ u.r 5 + 32 ≤ a)
    (hpost : ∀ f t, f.pc = .out ra → f.r 4 = u.r 5 + 32 → Saved f.r g → f.ss = ss → f.fp = u.fp.drop (pops ret) →
      f.mem = stored ret (w % 2 ^ 32 / 2 ^ 12) (u.r 0) (u.r 2) u.x u.fp u.mem (u.r 5) a → Agree (level lo (u.r 5)) f t → post ra t) :
    Safe c lo (Holds c ra g sp post) (level lo (u.r 5)) u := by
  refine call_dispatch hpc h4 hra hb hw ha hs hg (by rw [hk]; cases ret <;> decide) fun R zf cf e0 e1 e2 e4 e6 e7 eg => ?_
  rw [hk, hss]
  refine call_table hra hs e1 e4 e6 e7 eg hx0 hx1 hfl hfp hn hd ?_
  rw [e0, e2]
  exact hpost

end Verif.X64.Asm
