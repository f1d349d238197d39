import Verif.Win64.AsmLemmas

/-! `ffi_closure_win64`, `ffi_go_closure_win64` and `ffi_closure_win64_alt`. -/
namespace Verif.Win64.Asm
open Verif

variable {c : Ctx} {lo : Nat}

theorem exec_ret {o n ra : Nat} {s : St} {ss : List Nat} (h : leNat (s.mem.rd (s.r 4) 8) = ra) (hss : s.ss = ra :: ss) :
    exec c o n .ret s = some { s with pc := .out ra, r := upd s.r 4 (s.r 4 + 8), ss := ss } := by
  simp only [exec]
  rw [hss]
  dsimp only
  rw [h, if_pos fun _ => rfl]

/-- The label of a closure or a Go closure. -/
def closLbl (go : Bool) : Lbl := if go then .go else .clos

def gprSt : List (Nat × Ins) := [(5, .st 8 1 4 8), (5, .st 8 2 4 16), (5, .st 8 8 4 24), (5, .st 8 9 4 32)]

theorem endbrBlock (go win org : Bool) : Block ⟨win, true, org⟩ rowA (off ⟨win, true, org⟩ (closLbl go)) [(4, .endbr)] := by
  cases win <;> cases org <;> cases go <;> decide +kernel

theorem goBlock (cfg : Cfg) : Block cfg rowA (off cfg .go + eo cfg)
    [(5, .st 8 1 4 8), (5, .st 8 2 4 16), (5, .st 8 8 4 24), (5, .st 8 9 4 32), (4, .ld 8 1 10 8), (4, .ld 8 2 10 16), (3, .mov 8 10),
     (2, .jmp .doClos)] := by
  obtain ⟨_ | _, _ | _, _ | _⟩ := cfg <;> decide +kernel

theorem closBlock (cfg : Cfg) : Block cfg rowA (off cfg .clos + eo cfg)
    [(5, .st 8 1 4 8), (5, .st 8 2 4 16), (5, .st 8 8 4 24), (5, .st 8 9 4 32), (4, .ld 8 1 10 32), (4, .ld 8 2 10 40), (4, .ld 8 8 10 48)] := by
  obtain ⟨_ | _, _ | _, _ | _⟩ := cfg <;> decide +kernel

theorem off_doClos (cfg : Cfg) : off cfg .clos + eo cfg + 5 + 5 + 5 + 5 + 4 + 4 + 4 = off cfg .doClos := by
  obtain ⟨_ | _, _ | _, _ | _⟩ := cfg <;> decide +kernel

theorem doBlock1 (cfg : Cfg) : Block cfg rowA (off cfg .doClos) [(4, .subi 88)] := by
  obtain ⟨_ | _, _ | _, _ | _⟩ := cfg <;> decide +kernel

theorem doBlock2 (cfg : Cfg) : Block cfg rowC (off cfg .doClos + 4)
    [(6, .stx 8 0 4 56), (6, .stx 8 1 4 64), (6, .stx 8 2 4 72), (6, .stx 8 3 4 80), (5, .lea 9 4 40), (5, .callx 1)] := by
  obtain ⟨_ | _, _ | _, _ | _⟩ := cfg <;> decide +kernel

theorem doBlock3 (cfg : Cfg) : Block cfg rowC (off cfg .doClos + 38) [(5, .ld 8 0 4 40), (6, .ldx 0 4 40), (4, .addi 88)] := by
  obtain ⟨_ | _, _ | _, _ | _⟩ := cfg <;> decide +kernel

theorem doBlock4 (cfg : Cfg) : Block cfg rowA (off cfg .doClos + 53) [(1, .ret)] := by
  obtain ⟨_ | _, _ | _, _ | _⟩ := cfg <;> decide +kernel

/-- `ffi_closure_win64_alt` has no call frame information. -/
theorem altCode (cfg : Cfg) : fetch cfg (off cfg .alt + eo cfg) = some (5, .ld 8 10 4 8) ∧
    fetch cfg (off cfg .alt + eo cfg + 5) = some (4, .addi 16) ∧ fetch cfg (off cfg .alt + eo cfg + 9) = some (5, .jmp .clos) ∧
    (cfg.cet = true → fetch cfg (off cfg .alt) = some (4, .endbr)) := by
  obtain ⟨_ | _, _ | _, _ | _⟩ := cfg <;> decide +kernel

attribute [local irreducible] fetch dwarf sehRow off Block eo rows

/-- cif, function and user data of a closure (include/ffi.h.in:324-345, 32 bytes of
trampoline) or of a Go closure (include/ffi.h.in:460-464; the data is the object). -/
def fields (go : Bool) (m : Mem) (k : Nat) : Nat × Nat × Nat :=
  if go then (leNat (m.rd (k + 8) 8), leNat (m.rd (k + 16) 8), k)
  else (leNat (m.rd (k + 32) 8), leNat (m.rd (k + 40) 8), leNat (m.rd (k + 48) 8))

/-- The four general argument registers in the caller's slots from `A`. -/
def spillG (m : Mem) (A : Nat) (r : Nat → Nat) : Mem :=
  (((m.wr A (leBytes 8 (r 1))).wr (A + 8) (leBytes 8 (r 2))).wr (A + 16) (leBytes 8 (r 8))).wr (A + 24) (leBytes 8 (r 9))

theorem spillG_out {m : Mem} {A a : Nat} {r : Nat → Nat} (h : a < A ∨ A + 32 ≤ a) : spillG m A r a = m a := by
  unfold spillG
  rw [Mem.wr_out _ _ _ _ (by rw [leBytes_length]; omega), Mem.wr_out _ _ _ _ (by rw [leBytes_length]; omega),
    Mem.wr_out _ _ _ _ (by rw [leBytes_length]; omega), Mem.wr_out _ _ _ _ (by rw [leBytes_length]; omega)]

theorem spillG_rd {m : Mem} {A a n : Nat} {r : Nat → Nat} (h : a + n ≤ A ∨ A + 32 ≤ a) : (spillG m A r).rd a n = m.rd a n :=
  Mem.rd_congr fun i hi => spillG_out (by omega)

/-- The low halves of the four vector argument registers from `A`. -/
def spillX (m : Mem) (A : Nat) (x : Nat → List Byte) : Mem :=
  (((m.wr A ((x 0).take 8)).wr (A + 8) ((x 1).take 8)).wr (A + 16) ((x 2).take 8)).wr (A + 24) ((x 3).take 8)

theorem spillX_out {m : Mem} {A a : Nat} {x : Nat → List Byte} (h : a < A ∨ A + 32 ≤ a) : spillX m A x a = m a := by
  unfold spillX
  rw [Mem.wr_out _ _ _ _ (by rw [List.length_take]; omega), Mem.wr_out _ _ _ _ (by rw [List.length_take]; omega),
    Mem.wr_out _ _ _ _ (by rw [List.length_take]; omega), Mem.wr_out _ _ _ _ (by rw [List.length_take]; omega)]

/-- Known memory while the vector registers are stored. -/
def dom (lo b n a : Nat) : Prop := a < lo ∨ b + 88 ≤ a ∨ b + 56 ≤ a ∧ a < b + 56 + n

/-- The common part, up to the call of `ffi_closure_win64_inner`. -/
theorem do_safe {s : St} {b ra : Nat} {g : Nat → Nat} {post : Nat → St → Prop} (hpc : s.pc = .at_ (off c.cfg .doClos)) (h4 : s.r 4 = b + 88)
    (h8 : 8 ≤ b) (hx : ∀ i, i < 4 → (s.x i).length = 16) (hra : leNat (s.mem.rd (b + 88) 8) = ra) (hg : Saved s.r g)
    (hpost : ∀ t, Agree (fun a => dom lo b 32 a ∨ b - 8 ≤ a ∧ a < b - 8 + 8)
      ⟨.out (c.ext 1), upd (upd (upd s.r 4 b) 9 (b + 40)) 4 (b - 8), s.x, s.zf, s.cf,
        (spillX s.mem (b + 56) s.x).wr (b - 8) (leBytes 8 (c.base + (off c.cfg .doClos + 38))), (c.base + (off c.cfg .doClos + 38)) :: s.ss⟩ t → post (c.ext 1) t) :
    Safe c lo (Holds c ra g (fun p => p = b + 96) post) (level lo (s.r 4)) s := by
  obtain ⟨pc, r, x, zf, cf, m, ss⟩ := s
  dsimp only at hpc h4 hx hra hg hpost ⊢
  have hstate : ∀ {D : Nat → Prop} {Q : St → Prop} {s' s'' : St}, s' = s'' → Safe c lo Q D s' → Safe c lo Q D s'' := fun h hs => h ▸ hs
  have sv : ∀ {p q : Nat}, Saved (upd (upd r 4 p) 9 q) g := fun {p q} => hg
  have sv' : ∀ {p : Nat}, Saved (upd r 4 p) g := fun {p} => hg
  have hl : ∀ i, i < 4 → ((x i).take 8).length = 8 := fun i hi => by rw [List.length_take, hx i hi]; rfl
  refine bstep (D' := dom lo b 0) (s' := ⟨.at_ (off c.cfg .doClos + 4), upd r 4 b, x, zf, cf, m, ss⟩) (doBlock1 _) hpc
    (fun a ha => ha.imp_right fun h => h)
    (fun hr t ht => holds_rsp (k := 8) ht hr hpc (fun a h1 h2 => .inr ?_) ?_ ?_ hg) (fun a h1 h2 => absurd h2 (by simp [ld])) ?_
    (fun a ha => .inl ?_) fun _ => ?_
  · dsimp only at h1; omega
  · dsimp only; rw [Nat.add_sub_cancel, h4, hra]
  · dsimp only; rw [h4]
  · simp only [exec]
    rw [if_pos (by omega), h4, Nat.add_sub_cancel]
    rfl
  · unfold dom at ha; unfold level; omega
  have hQ : ∀ {o n : Nat} {r' : Nat → Nat} {m' : Mem}, r' 4 = b → Saved r' g → m'.rd (b + 88) 8 = m.rd (b + 88) 8 →
      rows c.cfg o rowC = true → ∀ t, Agree (dom lo b n) ⟨.at_ o, r', x, zf, cf, m', ss⟩ t → Holds c ra g (fun p => p = b + 96) post t := by
    intro o n r' m' e hs hm hr t ht
    refine holds_rsp (k := 96) ht hr rfl (fun a h1 h2 => ?_) ?_ ?_ hs
    · dsimp only at h1; rw [e] at h1; unfold dom; omega
    · dsimp only; rw [e, show b + 96 - 8 = b + 88 by omega, hm, hra]
    · dsimp only; rw [e]
  have quiet : ∀ {n : Nat} {m' : Mem} {pc : Pc} {r' : Nat → Nat}, r' 4 = b → Quiet lo (dom lo b n) ⟨pc, r', x, zf, cf, m', ss⟩ := by
    intro n m' pc r' e a ha
    dsimp only
    rw [e]
    unfold dom at ha
    omega
  have w : ∀ {m' : Mem} {bs : List Byte} {k : Nat}, bs.length = 8 → k ≤ 80 → m'.rd (b + 88) 8 = m.rd (b + 88) 8 →
      (m'.wr (b + k) bs).rd (b + 88) 8 = m.rd (b + 88) 8 := by
    intro m' bs k hb hk hm
    rw [Mem.rd_wr_disj _ _ _ _ _ (by omega), hm]
  have sub : ∀ {n i k : Nat} {m' : Mem} {pc : Pc}, i < 4 → k = 56 + n → ∀ a, dom lo b (n + 8) a →
      dom lo b n a ∨ (Asm.st (.stx 8 i 4 k) ⟨pc, upd r 4 b, x, zf, cf, m', ss⟩).1 ≤ a ∧
        a < (Asm.st (.stx 8 i 4 k) ⟨pc, upd r 4 b, x, zf, cf, m', ss⟩).1 + (Asm.st (.stx 8 i 4 k) ⟨pc, upd r 4 b, x, zf, cf, m', ss⟩).2 := by
    intro n i k m' pc hi hk a ha
    have e : Asm.st (.stx 8 i 4 k) ⟨pc, upd r 4 b, x, zf, cf, m', ss⟩ = (b + k, ((x i).take 8).length) := rfl
    rw [e, hl i hi]
    unfold dom at *
    dsimp only
    omega
  have nl : ∀ {i k : Nat} {s : St} {D : Nat → Prop}, ∀ a, (ld (.stx 8 i 4 k) s).1 ≤ a → a < (ld (.stx 8 i 4 k) s).1 + (ld (.stx 8 i 4 k) s).2 → D a :=
    fun a h1 h2 => absurd h2 (by simp [ld])
  refine bstep (D' := dom lo b (0 + 8)) (doBlock2 _) rfl (quiet rfl) (hQ rfl sv' rfl) nl rfl (sub (by decide) rfl) fun b1 => ?_
  refine bstep (D' := dom lo b (0 + 8 + 8)) b1 rfl (quiet rfl) (hQ rfl sv' (w (hl 0 (by decide)) (by decide) rfl)) nl rfl (sub (by decide) rfl) fun b2 => ?_
  refine bstep (D' := dom lo b (0 + 8 + 8 + 8)) b2 rfl (quiet rfl)
    (hQ rfl sv' (w (hl 1 (by decide)) (by decide) (w (hl 0 (by decide)) (by decide) rfl))) nl rfl (sub (by decide) rfl) fun b3 => ?_
  refine bstep (D' := dom lo b (0 + 8 + 8 + 8 + 8)) b3 rfl (quiet rfl)
    (hQ rfl sv' (w (hl 2 (by decide)) (by decide) (w (hl 1 (by decide)) (by decide) (w (hl 0 (by decide)) (by decide) rfl)))) nl rfl
    (sub (by decide) rfl) fun b4 => ?_
  have w4 : (spillX m (b + 56) x).rd (b + 88) 8 = m.rd (b + 88) 8 := Mem.rd_congr fun i hi => spillX_out (by omega)
  refine hstate (s' := ⟨.at_ (off c.cfg .doClos + 4 + 6 + 6 + 6 + 6), upd r 4 b, x, zf, cf, spillX m (b + 56) x, ss⟩) rfl ?_
  generalize hMM : spillX m (b + 56) x = MM at *
  refine bstep (D' := dom lo b 32) b4 rfl (quiet rfl) (hQ rfl sv' w4) (fun a h1 h2 => absurd h2 (by simp [ld])) rfl
    (fun a ha => .inl ha) fun b5 => ?_
  refine bstep (D' := fun a => dom lo b 32 a ∨ b - 8 ≤ a ∧ a < b - 8 + 8) b5 rfl (quiet rfl) (hQ rfl sv w4)
    (fun a h1 h2 => absurd h2 (by simp [ld])) (if_pos h8) (fun a ha => ha) fun _ => ?_
  refine .stop (fun a ha => ?_) (fun t ht => ?_) rfl
  · show a < lo ∨ b - 8 ≤ a
    unfold dom at ha
    omega
  · unfold Holds
    rw [ht.pc]
    apply hpost
    have e : off c.cfg .doClos + 4 + 6 + 6 + 6 + 6 + 5 + 5 = off c.cfg .doClos + 38 := by omega
    rw [e] at ht
    exact ht

/-- A closure from its entry to the call of `ffi_closure_win64_inner`. -/
theorem clos_enter {s : St} {go : Bool} {b ra : Nat} {post : Nat → St → Prop} (hpc : s.pc = .at_ (off c.cfg (closLbl go))) (h4 : s.r 4 = b + 88)
    (h8 : 8 ≤ b) (hx : ∀ i, i < 4 → (s.x i).length = 16) (hra : leNat (s.mem.rd (b + 88) 8) = ra)
    (hobj : s.r 10 + 56 ≤ lo ∨ b + 128 ≤ s.r 10) (hlo : lo ≤ b + 88)
    (hpost : ∀ f t, f.r = upd (upd (upd (upd (upd s.r 1 (fields go s.mem (s.r 10)).1) 2 (fields go s.mem (s.r 10)).2.1) 8 (fields go s.mem (s.r 10)).2.2)
        9 (b + 40)) 4 (b - 8) → f.x = s.x →
      f.mem = (spillX (spillG s.mem (b + 96) s.r) (b + 56) s.x).wr (b - 8) (leBytes 8 (c.base + (off c.cfg .doClos + 38))) →
      f.ss = (c.base + (off c.cfg .doClos + 38)) :: s.ss → Agree (fun a => dom lo b 32 a ∨ b - 8 ≤ a ∧ a < b - 8 + 8) f t → post (c.ext 1) t) :
    Safe c lo (Holds c ra s.r (fun p => p = b + 96) post) (level lo (s.r 4)) s := by
  suffices H : ∀ pc, pc = .at_ (off c.cfg (closLbl go) + eo c.cfg) → Safe c lo (Holds c ra s.r (fun p => p = b + 96) post) (level lo (s.r 4)) { s with pc := pc } by
    obtain ⟨⟨win, cet, org⟩, base, ext⟩ := c
    cases cet
    · exact H s.pc (by rw [hpc]; unfold eo; rfl)
    · refine lstep (endbrBlock go win org) hpc (by omega) (fun hr t ht => holds_rsp ht hr hpc (fun a h1 h2 => .inr (by omega)) (by rw [Nat.add_sub_cancel, h4, hra])
        (by rw [h4]) ⟨rfl, rfl, rfl, rfl, rfl, rfl, rfl, rfl⟩) (.inl rfl) rfl (Nat.le_refl _) fun _ => H _ ?_
      unfold eo; rfl
  intro pc hpc'
  obtain ⟨pc0, r, x, zf, cf, m, ss⟩ := s
  dsimp only at hpc h4 hx hra hobj hpost ⊢
  have hstate : ∀ {D : Nat → Prop} {Q : St → Prop} {s' s'' : St}, s' = s'' → Safe c lo Q D s' → Safe c lo Q D s'' := fun h hs => h ▸ hs
  have sv : Saved r r := ⟨rfl, rfl, rfl, rfl, rfl, rfl, rfl, rfl⟩
  have hQ : ∀ {o : Nat} {r' : Nat → Nat} {m' : Mem} {pc' : Pc}, pc' = .at_ o → r' 4 = r 4 → Saved r' r → m'.rd (b + 88) 8 = m.rd (b + 88) 8 →
      rows c.cfg o rowA = true → ∀ t, Agree (level lo (r 4)) ⟨pc', r', x, zf, cf, m', ss⟩ t → Holds c ra r (fun p => p = b + 96) post t := by
    intro o r' m' pc' hpc e hs hm hr t ht
    refine holds_rsp (k := 8) ht hr hpc (fun a h1 h2 => .inr ?_) ?_ ?_ hs
    · dsimp only at h1; omega
    · dsimp only; rw [e, h4, Nat.add_sub_cancel, hm, hra]
    · dsimp only; rw [e, h4]
  have w : ∀ {m' : Mem} {v k : Nat}, 8 ≤ k → m'.rd (b + 88) 8 = m.rd (b + 88) 8 → (m'.wr (r 4 + k) (leBytes 8 v)).rd (b + 88) 8 = m.rd (b + 88) 8 := by
    intro m' v k hk hm
    rw [Mem.rd_wr_disj _ _ _ _ _ (.inl (by omega)), hm]
  have q : r 4 ≤ r 4 := Nat.le_refl _
  have hM : (((m.wr (r 4 + 8) (leBytes 8 (r 1))).wr (r 4 + 16) (leBytes 8 (r 2))).wr (r 4 + 24) (leBytes 8 (r 8))).wr (r 4 + 32) (leBytes 8 (r 9)) =
      spillG m (b + 96) r := by
    rw [h4]; rfl
  have hsG : (spillG m (b + 96) r).rd (b + 88) 8 = m.rd (b + 88) 8 := spillG_rd (by omega)
  have hO : ∀ {k : Nat}, k + 8 ≤ 56 → (spillG m (b + 96) r).rd (r 10 + k) 8 = m.rd (r 10 + k) 8 := fun {k} hk => spillG_rd (by omega)
  have hf : ∀ {k : Nat}, k + 8 ≤ 56 → r 4 ≤ r 10 + k ∨ r 10 + k + 8 ≤ lo := by intro k hk; omega
  have upd5 : ∀ (v1 v2 v8 v4 v9 p : Nat), upd (upd (upd (upd (upd (upd r 1 v1) 2 v2) 8 v8) 4 v4) 9 v9) 4 p =
      upd (upd (upd (upd (upd r 1 v1) 2 v2) 8 v8) 9 v9) 4 p := by
    intro v1 v2 v8 v4 v9 p
    funext d
    simp only [upd]
    by_cases h : d = 4
    · rw [if_pos h, if_pos h]
    · rw [if_neg h, if_neg h, if_neg h]
  cases go
  · have hpc1 : pc = .at_ (off c.cfg .clos + eo c.cfg) := hpc'
    refine lstep (closBlock _) hpc1 q (hQ hpc1 rfl sv rfl) (.inl rfl) rfl q fun b1 => ?_
    refine lstep b1 rfl q (hQ rfl rfl sv (w (by decide) rfl)) (.inl rfl) rfl q fun b1 => ?_
    refine lstep b1 rfl q (hQ rfl rfl sv (w (by decide) (w (by decide) rfl))) (.inl rfl) rfl q fun b1 => ?_
    refine lstep b1 rfl q (hQ rfl rfl sv (w (by decide) (w (by decide) (w (by decide) rfl)))) (.inl rfl) rfl q fun b1 => ?_
    refine hstate (s' := ⟨.at_ (off c.cfg .clos + eo c.cfg + 5 + 5 + 5 + 5), r, x, zf, cf, spillG m (b + 96) r, ss⟩)
      (congrArg (fun N => St.mk _ r x zf cf N ss) hM.symm) ?_
    generalize spillG m (b + 96) r = G at *
    refine lstep b1 rfl q (hQ rfl rfl sv hsG) (.inr (hf (by decide))) rfl q fun b1 => ?_
    refine lstep b1 rfl q (hQ rfl rfl sv hsG) (.inr (hf (by decide))) rfl q fun b1 => ?_
    refine lstep b1 rfl q (hQ rfl rfl sv hsG) (.inr (hf (by decide))) rfl q fun _ => ?_
    refine hstate (s' := ⟨.at_ (off c.cfg .doClos), upd (upd (upd r 1 (leNat (m.rd (r 10 + 32) 8))) 2 (leNat (m.rd (r 10 + 40) 8))) 8 (leNat (m.rd (r 10 + 48) 8)),
      x, zf, cf, G, ss⟩) ?_ ?_
    · rw [← off_doClos, ← hO (k := 32) (by decide), ← hO (k := 40) (by decide), ← hO (k := 48) (by decide)]
      rfl
    · have hG : leNat (G.rd (b + 88) 8) = ra := by rw [hsG, hra]
      have H := do_safe (c := c) (lo := lo) (s := ⟨.at_ (off c.cfg .doClos), upd (upd (upd r 1 (leNat (m.rd (r 10 + 32) 8))) 2 (leNat (m.rd (r 10 + 40) 8))) 8 (leNat (m.rd (r 10 + 48) 8)),
        x, zf, cf, G, ss⟩) (g := r) (post := post) rfl h4 h8 hx hG sv
      refine H ?_
      clear H
      intro t ht
      refine hpost _ t ?_ rfl rfl rfl ht
      exact upd5 _ _ _ _ _ _
  · have hpc1 : pc = .at_ (off c.cfg .go + eo c.cfg) := hpc'
    refine lstep (goBlock _) hpc1 q (hQ hpc1 rfl sv rfl) (.inl rfl) rfl q fun b1 => ?_
    refine lstep b1 rfl q (hQ rfl rfl sv (w (by decide) rfl)) (.inl rfl) rfl q fun b1 => ?_
    refine lstep b1 rfl q (hQ rfl rfl sv (w (by decide) (w (by decide) rfl))) (.inl rfl) rfl q fun b1 => ?_
    refine lstep b1 rfl q (hQ rfl rfl sv (w (by decide) (w (by decide) (w (by decide) rfl)))) (.inl rfl) rfl q fun b1 => ?_
    refine hstate (s' := ⟨.at_ (off c.cfg .go + eo c.cfg + 5 + 5 + 5 + 5), r, x, zf, cf, spillG m (b + 96) r, ss⟩)
      (congrArg (fun N => St.mk _ r x zf cf N ss) hM.symm) ?_
    generalize spillG m (b + 96) r = G at *
    refine lstep b1 rfl q (hQ rfl rfl sv hsG) (.inr (hf (by decide))) rfl q fun b1 => ?_
    refine lstep b1 rfl q (hQ rfl rfl sv hsG) (.inr (hf (by decide))) rfl q fun b1 => ?_
    refine lstep b1 rfl q (hQ rfl rfl sv hsG) (.inl rfl) rfl q fun b1 => ?_
    refine lstep b1 rfl q (hQ rfl rfl sv hsG) (.inl rfl) rfl q fun _ => ?_
    refine hstate (s' := ⟨.at_ (off c.cfg .doClos), upd (upd (upd r 1 (leNat (m.rd (r 10 + 8) 8))) 2 (leNat (m.rd (r 10 + 16) 8))) 8 (r 10),
      x, zf, cf, G, ss⟩) ?_ ?_
    · rw [← hO (k := 8) (by decide), ← hO (k := 16) (by decide)]
      rfl
    · have hG : leNat (G.rd (b + 88) 8) = ra := by rw [hsG, hra]
      have H := do_safe (c := c) (lo := lo) (s := ⟨.at_ (off c.cfg .doClos), upd (upd (upd r 1 (leNat (m.rd (r 10 + 8) 8))) 2 (leNat (m.rd (r 10 + 16) 8))) 8 (r 10),
        x, zf, cf, G, ss⟩) (g := r) (post := post) rfl h4 h8 hx hG sv
      refine H ?_
      clear H
      intro t ht
      refine hpost _ t ?_ rfl rfl rfl ht
      exact upd5 _ _ _ _ _ _

/-- A closure from the return of `ffi_closure_win64_inner`. -/
theorem clos_exit {u : St} {b ra : Nat} {ss : List Nat} {g : Nat → Nat} {post : Nat → St → Prop} (hpc : u.pc = .at_ (off c.cfg .doClos + 38))
    (h4 : u.r 4 = b) (hra : leNat (u.mem.rd (b + 88) 8) = ra) (hg : Saved u.r g) (hss : u.ss = ra :: ss)
    (hpost : ∀ v t, v.r 4 = b + 96 → Saved v.r g → v.r 0 = leNat (u.mem.rd (b + 40) 8) → v.x = upd u.x 0 (u.mem.rd (b + 40) 8 ++ List.replicate 8 0) →
      v.ss = ss → v.mem = u.mem → Agree (level lo (b + 96)) v t → post ra t) :
    Safe c lo (Holds c ra g (fun p => p = b + 96) post) (level lo b) u := by
  obtain ⟨pc, r, x, zf, cf, m, ss'⟩ := u
  dsimp only at hpc h4 hra hg hss hpost ⊢
  subst h4
  have hQ : ∀ {o L : Nat} {r' : Nat → Nat} {x' : Nat → List Byte} {pc' : Pc}, L ≤ r 4 + 88 → pc' = .at_ o → r' 4 = r 4 → Saved r' g →
      rows c.cfg o rowC = true → ∀ t, Agree (level lo L) ⟨pc', r', x', zf, cf, m, ss'⟩ t → Holds c ra g (fun p => p = r 4 + 96) post t := by
    intro o L r' x' pc' hL hpc e hs hr t ht
    refine holds_rsp (k := 96) ht hr hpc (fun a h1 h2 => .inr ?_) ?_ ?_ hs
    · dsimp only at h1; omega
    · dsimp only; rw [e, show r 4 + 96 - 8 = r 4 + 88 by omega, hra]
    · dsimp only; rw [e]
  have q : r 4 ≤ r 4 := Nat.le_refl _
  refine lstep (doBlock3 _) hpc q (hQ (by omega) hpc rfl hg) (.inr (.inl (Nat.le_add_right _ _))) rfl q fun b1 => ?_
  refine lstep b1 rfl q (hQ (by omega) rfl rfl hg) (.inr (.inl (Nat.le_add_right _ _))) rfl q fun b1 => ?_
  refine lstep (L' := r 4 + 88) b1 rfl q (hQ (by omega) rfl rfl hg) (.inl rfl) rfl (by omega) fun _ => ?_
  have e : off c.cfg .doClos + 38 + 5 + 6 + 4 = off c.cfg .doClos + 53 := by omega
  refine lstep (L' := r 4 + 96) (doBlock4 _) (congrArg Pc.at_ e) (Nat.le_refl _) (fun hr t ht => holds_rsp (k := 8) ht hr (congrArg Pc.at_ e) (fun a h1 h2 => .inr ?_) ?_ ?_ ?_)
    (.inr (.inl (Nat.le_refl _))) (s' := ⟨.out ra, upd (upd (upd r 0 (leNat (m.rd (r 4 + 40) 8))) 4 (r 4 + 88)) 4 (r 4 + 88 + 8),
      upd x 0 (m.rd (r 4 + 40) 8 ++ List.replicate 8 0), zf, cf, m, ss⟩) ?_ (by omega) fun _ => ?_
  · have : r 4 + 88 + 8 - 8 ≤ a := h1
    omega
  · show leNat (m.rd (r 4 + 88 + 8 - 8) 8) = ra
    rw [Nat.add_sub_cancel, hra]
  · rfl
  · exact hg
  · exact exec_ret hra hss
  · refine .stop (fun a ha => ha.imp_right fun h => ?_) (fun t ht => ?_) rfl
    · show r 4 + 88 + 8 ≤ a
      omega
    · unfold Holds
      rw [ht.pc]
      exact hpost _ t rfl hg rfl rfl rfl rfl ht

/-! ## `ffi_closure_win64_alt` -/

/-- The state in which `ffi_closure_win64_alt` jumps to `ffi_closure_win64`. -/
def AltTo (c : Ctx) (lo : Nat) (s : St) (p k : Nat) (w : St) : Prop :=
  w.pc = .at_ (off c.cfg .clos) ∧ w.r = upd (upd s.r 10 k) 4 (p + 16) ∧ w.x = s.x ∧ w.ss = s.ss ∧
    ∀ a, a < lo ∨ p + 16 ≤ a → w.mem a = s.mem a

/-- An execution that starts at `ffi_closure_win64_alt` is at one of its instructions and can go on to
`ffi_closure_win64`, or is one of `ffi_closure_win64`. -/
theorem alt_reach {s t : St} {p k : Nat} (hr : Reach c lo s t) (hpc : s.pc = .at_ (off c.cfg .alt)) (h4 : s.r 4 = p) (hk : leNat (s.mem.rd (p + 8) 8) = k) :
    (∃ o v w, t.pc = .at_ o ∧ step c t = some v ∧ Reach c lo t w ∧ AltTo c lo s p k w) ∨ ∃ w, Reach c lo w t ∧ AltTo c lo s p k w := by
  obtain ⟨f1, f2, f3, f4⟩ := altCode c.cfg
  -- the states on the way
  let P : St → Prop := fun u => u.x = s.x ∧ u.ss = s.ss ∧
    ((u.pc = .at_ (off c.cfg .alt) ∧ c.cfg.cet = true ∧ u.r = s.r ∧ ∀ a, a < lo ∨ p ≤ a → u.mem a = s.mem a) ∨
     (u.pc = .at_ (off c.cfg .alt + eo c.cfg) ∧ u.r = s.r ∧ ∀ a, a < lo ∨ p ≤ a → u.mem a = s.mem a) ∨
     (u.pc = .at_ (off c.cfg .alt + eo c.cfg + 5) ∧ u.r = upd s.r 10 k ∧ ∀ a, a < lo ∨ p ≤ a → u.mem a = s.mem a) ∨
     (u.pc = .at_ (off c.cfg .alt + eo c.cfg + 9) ∧ u.r = upd (upd s.r 10 k) 4 (p + 16) ∧ ∀ a, a < lo ∨ p + 16 ≤ a → u.mem a = s.mem a))
  have hrd : ∀ {u : St}, (∀ a, a < lo ∨ p ≤ a → u.mem a = s.mem a) → leNat (u.mem.rd (p + 8) 8) = k := by
    intro u hm
    rw [← hk]
    exact congrArg leNat (Mem.rd_congr fun i hi => hm _ (.inr (by omega)))
  have st1 : ∀ {u : St}, u.pc = .at_ (off c.cfg .alt + eo c.cfg) → u.r = s.r → (∀ a, a < lo ∨ p ≤ a → u.mem a = s.mem a) →
      step c u = some (u.set (.at_ (off c.cfg .alt + eo c.cfg + 5)) 10 k) := by
    intro u h1 h2 h3
    unfold step
    rw [h1]
    simp only [f1, exec]
    rw [h2, h4, hrd h3]
  have st2 : ∀ {u : St}, u.pc = .at_ (off c.cfg .alt + eo c.cfg + 5) → u.r = upd s.r 10 k →
      step c u = some (u.set (.at_ (off c.cfg .alt + eo c.cfg + 9)) 4 (p + 16)) := by
    intro u h1 h2
    unfold step
    rw [h1]
    simp only [f2, exec]
    rw [h2, show upd s.r 10 k 4 = p from h4]
  have st3 : ∀ {u : St}, u.pc = .at_ (off c.cfg .alt + eo c.cfg + 9) → step c u = some { u with pc := .at_ (off c.cfg .clos) } := by
    intro u h1
    unfold step
    rw [h1]
    simp only [f3, exec]
  have st0 : ∀ {u : St}, u.pc = .at_ (off c.cfg .alt) → c.cfg.cet = true → step c u = some { u with pc := .at_ (off c.cfg .alt + 4) } := by
    intro u h1 h2
    unfold step
    rw [h1]
    simp only [f4 h2, exec]
  have e4 : c.cfg.cet = true → eo c.cfg = 4 := fun h => by unfold eo; rw [if_pos h]
  have fin3 : ∀ {u : St}, u.pc = .at_ (off c.cfg .alt + eo c.cfg + 9) → u.r = upd (upd s.r 10 k) 4 (p + 16) → u.x = s.x → u.ss = s.ss →
      (∀ a, a < lo ∨ p + 16 ≤ a → u.mem a = s.mem a) → ∃ w, Reach c lo u w ∧ AltTo c lo s p k w :=
    fun h1 h2 h3 h4 h5 => ⟨_, .step (st3 h1) .refl, rfl, h2, h3, h4, h5⟩
  have fin2 : ∀ {u : St}, u.pc = .at_ (off c.cfg .alt + eo c.cfg + 5) → u.r = upd s.r 10 k → u.x = s.x → u.ss = s.ss →
      (∀ a, a < lo ∨ p ≤ a → u.mem a = s.mem a) → ∃ w, Reach c lo u w ∧ AltTo c lo s p k w := by
    intro u h1 h2 h3 h4 h5
    obtain ⟨w, hw, h⟩ := fin3 (u := u.set (.at_ (off c.cfg .alt + eo c.cfg + 9)) 4 (p + 16)) rfl
      (by show upd u.r 4 _ = _; rw [h2]) h3 h4 fun a ha => h5 a (by omega)
    exact ⟨w, .step (st2 h1 h2) hw, h⟩
  have fin1 : ∀ {u : St}, u.pc = .at_ (off c.cfg .alt + eo c.cfg) → u.r = s.r → u.x = s.x → u.ss = s.ss →
      (∀ a, a < lo ∨ p ≤ a → u.mem a = s.mem a) → ∃ w, Reach c lo u w ∧ AltTo c lo s p k w := by
    intro u h1 h2 h3 h4 h5
    obtain ⟨w, hw, h⟩ := fin2 (u := u.set (.at_ (off c.cfg .alt + eo c.cfg + 5)) 10 k) rfl
      (by show upd u.r 10 _ = _; rw [h2]) h3 h4 h5
    exact ⟨w, .step (st1 h1 h2 h5) hw, h⟩
  have fin0 : ∀ {u : St}, u.pc = .at_ (off c.cfg .alt) → c.cfg.cet = true → u.r = s.r → u.x = s.x → u.ss = s.ss →
      (∀ a, a < lo ∨ p ≤ a → u.mem a = s.mem a) → ∃ w, Reach c lo u w ∧ AltTo c lo s p k w := by
    intro u h1 hc h2 h3 h4 h5
    obtain ⟨w, hw, h⟩ := fin1 (u := { u with pc := .at_ (off c.cfg .alt + 4) }) (by rw [e4 hc]) h2 h3 h4 h5
    exact ⟨w, .step (st0 h1 hc) hw, h⟩
  have key : ∀ {u : St}, Reach c lo u t → P u → (∃ o v w, t.pc = .at_ o ∧ step c t = some v ∧ Reach c lo t w ∧ AltTo c lo s p k w) ∨
      ∃ w, Reach c lo w t ∧ AltTo c lo s p k w := by
    intro u hu
    induction hu with
    | refl =>
      rintro ⟨hx, hs, h | h | h | h⟩
      · obtain ⟨w, hw, hq⟩ := fin0 h.1 h.2.1 h.2.2.1 hx hs h.2.2.2
        exact .inl ⟨_, _, w, h.1, st0 h.1 h.2.1, hw, hq⟩
      · obtain ⟨w, hw, hq⟩ := fin1 h.1 h.2.1 hx hs h.2.2
        exact .inl ⟨_, _, w, h.1, st1 h.1 h.2.1 h.2.2, hw, hq⟩
      · obtain ⟨w, hw, hq⟩ := fin2 h.1 h.2.1 hx hs h.2.2
        exact .inl ⟨_, _, w, h.1, st2 h.1 h.2.1, hw, hq⟩
      · obtain ⟨w, hw, hq⟩ := fin3 h.1 h.2.1 hx hs h.2.2
        exact .inl ⟨_, _, w, h.1, st3 h.1, hw, hq⟩
    | irq hm _ ih =>
      rintro ⟨hx, hs, h⟩
      refine ih hr ⟨hx, hs, ?_⟩
      rcases h with h | h | h | h
      · refine .inl ⟨h.1, h.2.1, h.2.2.1, fun a ha => (hm a ?_).trans (h.2.2.2 a ha)⟩
        rw [h.2.2.1, h4]; exact ha
      · refine .inr (.inl ⟨h.1, h.2.1, fun a ha => (hm a ?_).trans (h.2.2 a ha)⟩)
        rw [h.2.1, h4]; exact ha
      · refine .inr (.inr (.inl ⟨h.1, h.2.1, fun a ha => (hm a ?_).trans (h.2.2 a ha)⟩))
        rw [h.2.1, show upd s.r 10 k 4 = p from h4]; exact ha
      · refine .inr (.inr (.inr ⟨h.1, h.2.1, fun a ha => (hm a ?_).trans (h.2.2 a ha)⟩))
        rw [h.2.1]; exact ha
    | step he hrest ih =>
      rintro ⟨hx, hs, h⟩
      rcases h with h | h | h | h
      · rw [st0 h.1 h.2.1] at he
        cases he
        refine ih hr ⟨hx, hs, .inr (.inl ⟨?_, h.2.2.1, h.2.2.2⟩)⟩
        rw [e4 h.2.1]
      · rw [st1 h.1 h.2.1 h.2.2] at he
        cases he
        refine ih hr ⟨hx, hs, .inr (.inr (.inl ⟨rfl, ?_, h.2.2⟩))⟩
        show upd _ 10 k = _
        rw [h.2.1]
      · rw [st2 h.1 h.2.1] at he
        cases he
        refine ih hr ⟨hx, hs, .inr (.inr (.inr ⟨rfl, ?_, fun a ha => h.2.2 a (by omega)⟩))⟩
        show upd _ 4 (p + 16) = _
        rw [h.2.1]
      · rw [st3 h.1] at he
        cases he
        exact .inr ⟨_, hrest, rfl, h.2.1, hx, hs, h.2.2⟩
  refine key hr ⟨rfl, rfl, ?_⟩
  by_cases hc : c.cfg.cet = true
  · exact .inl ⟨hpc, hc, rfl, fun _ _ => rfl⟩
  · refine .inr (.inl ⟨?_, rfl, fun _ _ => rfl⟩)
    rw [hpc, show eo c.cfg = 0 by unfold eo; rw [if_neg hc], Nat.add_zero]

end Verif.Win64.Asm
