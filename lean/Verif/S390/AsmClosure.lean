import Verif.S390.AsmCall

/-! `ffi_closure_SYSV` and `ffi_go_closure_SYSV`. -/
namespace Verif.S390.Asm
open Verif Verif.S390 Verif.Spec.S390

/-- First register that `.Ldoclosure` saves, and the number of them. -/
def firstSaved (w : Nat) : Nat := if w = 8 then 13 else 12

/-- The stack pointer of `ffi_closure_helper_SYSV`'s caller. -/
def closSp (w : Nat) (s : M) : Nat := s.r 15 - (saveArea w + 2 * w)

/-- Memory after the arguments have been saved. -/
def argMem (w : Nat) (s : M) : Mem := stores w s.r 2 5 (s.r 15 + 2 * w) s.mem

/-- Memory when the helper is called. -/
def closMem (w : Nat) (s : M) : Mem :=
  let m := stores w s.r (firstSaved w) (16 - firstSaved w) (s.r 15 + firstSaved w * w) (argMem w s)
  let m := m.wr (closSp w s) (beBytes w (s.r 15))
  let m := (m.wr (s.r 15 + 16 * w) (s.f 0)).wr (s.r 15 + 16 * w + 8) (s.f 2)
  let m := if w = 8 then (m.wr (s.r 15 + 16 * w + 16) (s.f 4)).wr (s.r 15 + 16 * w + 24) (s.f 6) else m
  m.wr (closSp w s + saveArea w) (beBytes w (s.r 15 + saveArea w))

/-- The address to which the helper returns. -/
def afterHelper (w : Nat) : Nat := if w = 8 then 264 else 190

/-- The helper is called; the first three arguments are words of `m` at these addresses (or, for
`user_data` of Go closures, the address of the closure). -/
structure Helped (w L H : Nat) (s t : M) (cif fun_ user : Nat) : Prop where
  pc : t.pc = H
  cif : t.r 2 = cif
  fn : t.r 3 = fun_
  user : t.r 4 = user
  gpr : t.r 5 = s.r 15 + 2 * w
  fpr : t.r 6 = s.r 15 + 16 * w
  sp : t.r 15 = closSp w s
  ra : t.r 14 = L + afterHelper w
  base : t.r (firstSaved w) = s.r 15
  rest : ∀ k, 7 ≤ k → k ≤ 13 → k ≠ firstSaved w → t.r k = s.r k
  f : t.f = s.f
  mem : t.mem = closMem w s

theorem doclosure {w : Nat} (hw : w = 4 ∨ w = 8) {L H : Nat} {s x : M} (hpc : x.pc = L + off w .doclosure)
    (hr : ∀ k, 6 ≤ k → x.r k = s.r k) (hf : x.f = s.f) (hm : x.mem = argMem w s) :
    ∃ t, Runs w L H x t ∧ Helped w L H s t (x.r 2) (x.r 3) (x.r 4) := by
  have h12 := hr 12 (by decide)
  have h13 := hr 13 (by decide)
  have h14 := hr 14 (by decide)
  have h15 := hr 15 (by decide)
  rcases hw with rfl | rfl
  · have h1 := runs_block (w := 4) (L := L) (H := H) (o := 146) (s := x)
      (is := [.stm 12 4 15 48, .lr 12 15, .sub 15 104, .st 12 15 0, .std 0 12 64, .std 2 12 72, .la 5 12 96, .st 5 15 96, .la 6 12 64, .la 5 12 8])
      (by decide +kernel) (by rw [hpc, show off 4 .doclosure = 146 by decide +kernel])
    refine ⟨_, h1.trans (runs_brasl (o := 184) (a := 14) (by decide +kernel) rfl), ?_⟩
    constructor
    · rfl
    · simp [exec, upd]
    · simp [exec, upd]
    · simp [exec, upd]
    · simp [exec, upd, h15]
    · simp [exec, upd, h15]
    · simp [exec, upd, h15, closSp, saveArea]
    · simp [exec, upd, lens, len, afterHelper, Nat.add_assoc]
    · simp [exec, upd, h15, firstSaved]
    · intro k a b c
      have c : k ≠ 12 := c
      rw [← hr k (by omega)]
      have h0 : ∀ j, j < 7 ∨ 13 < j ∨ j = 12 → k ≠ j := by omega
      simp [exec, upd, h0 14, h0 5, h0 6, h0 15, c]
    · simp [exec, upd, hf]
    · simp [exec, upd, hm, hf, closMem, stores, firstSaved, closSp, saveArea, h12, h13, h14, h15, Nat.add_assoc]
  · have h1 := runs_block (w := 8) (L := L) (H := H) (o := 204) (s := x)
      (is := [.stm 13 3 15 104, .lr 13 15, .sub 15 176, .st 13 15 0, .std 0 13 128, .std 2 13 136, .std 4 13 144, .std 6 13 152, .la 5 13 160,
        .st 5 15 160, .la 6 13 128, .la 5 13 16])
      (by decide +kernel) (by rw [hpc, show off 8 .doclosure = 204 by decide +kernel])
    refine ⟨_, h1.trans (runs_brasl (o := 258) (a := 14) (by decide +kernel) rfl), ?_⟩
    constructor
    · rfl
    · simp [exec, upd]
    · simp [exec, upd]
    · simp [exec, upd]
    · simp [exec, upd, h15]
    · simp [exec, upd, h15]
    · simp [exec, upd, h15, closSp, saveArea]
    · simp [exec, upd, lens, len, afterHelper, Nat.add_assoc]
    · simp [exec, upd, h15, firstSaved]
    · intro k a b c
      have c : k ≠ 13 := c
      rw [← hr k (by omega)]
      have h0 : ∀ j, j < 7 ∨ 13 < j ∨ j = 13 → k ≠ j := by omega
      simp [exec, upd, h0 14, h0 5, h0 6, h0 15, c]
    · simp [exec, upd, hf]
    · simp [exec, upd, hm, hf, closMem, stores, firstSaved, closSp, saveArea, h13, h14, h15, Nat.add_assoc]

/-- The fields of a closure, src/s390/ffitarget.h and include/ffi.h.in: `tramp`, `cif`, `fun`, `user_data`. -/
def closureField (w k : Nat) : Nat := 4 * w + w * k

theorem closure_head {w : Nat} (hw : w = 4 ∨ w = 8) {L H : Nat} {s : M} (hpc : s.pc = L + off w .closure) :
    ∃ t, Runs w L H s t ∧ Helped w L H s t (beNat ((argMem w s).rd (s.r 0 + closureField w 0) w)) (beNat ((argMem w s).rd (s.r 0 + closureField w 1) w))
      (beNat ((argMem w s).rd (s.r 0 + closureField w 2) w)) := by
  rcases hw with rfl | rfl
  · have h1 := runs_block (w := 4) (L := L) (H := H) (o := 128) (s := s) (is := [.stm 2 5 15 8, .lr 4 0, .l 2 4 16, .l 3 4 20, .l 4 4 24])
      (by decide +kernel) (by rw [hpc, show off 4 .closure = 128 by decide +kernel])
    obtain ⟨t, h2, h3⟩ := doclosure (w := 4) (.inl rfl) (L := L) (H := H) (s := s)
      (x := { [Ins.stm 2 5 15 8, .lr 4 0, .l 2 4 16, .l 3 4 20, .l 4 4 24].foldl (exec 4 L) s with pc := L + 128 + lens 4 [.stm 2 5 15 8, .lr 4 0, .l 2 4 16, .l 3 4 20, .l 4 4 24] })
      (by rw [show off 4 .doclosure = 146 by decide +kernel]; rfl)
      (by intro k hk; have h0 : ∀ j, j < 6 → k ≠ j := by omega
          simp [exec, upd, h0 2, h0 3, h0 4])
      (by simp [exec]) (by simp [exec, argMem])
    refine ⟨t, h1.trans h2, ?_⟩
    simpa [exec, upd, argMem, closureField, Nat.add_assoc] using h3
  · have h1 := runs_block (w := 8) (L := L) (H := H) (o := 176) (s := s) (is := [.stm 2 5 15 16, .lr 4 0, .l 2 4 32, .l 3 4 40, .l 4 4 48])
      (by decide +kernel) (by rw [hpc, show off 8 .closure = 176 by decide +kernel])
    obtain ⟨t, h2, h3⟩ := doclosure (w := 8) (.inr rfl) (L := L) (H := H) (s := s)
      (x := { [Ins.stm 2 5 15 16, .lr 4 0, .l 2 4 32, .l 3 4 40, .l 4 4 48].foldl (exec 8 L) s with pc := L + 176 + lens 8 [.stm 2 5 15 16, .lr 4 0, .l 2 4 32, .l 3 4 40, .l 4 4 48] })
      (by rw [show off 8 .doclosure = 204 by decide +kernel]; rfl)
      (by intro k hk; have h0 : ∀ j, j < 6 → k ≠ j := by omega
          simp [exec, upd, h0 2, h0 3, h0 4])
      (by simp [exec]) (by simp [exec, argMem])
    refine ⟨t, h1.trans h2, ?_⟩
    simpa [exec, upd, argMem, closureField, Nat.add_assoc] using h3

theorem go_head {w : Nat} (hw : w = 4 ∨ w = 8) {L H : Nat} {s : M} (hpc : s.pc = L + off w .goClosure) :
    ∃ t, Runs w L H s t ∧ Helped w L H s t (beNat ((argMem w s).rd (s.r 0 + w) w)) (beNat ((argMem w s).rd (s.r 0 + 2 * w) w)) (s.r 0) := by
  rcases hw with rfl | rfl
  · have h1 := runs_block (w := 4) (L := L) (H := H) (o := 104) (s := s) (is := [.stm 2 5 15 8, .lr 4 0, .l 2 4 4, .l 3 4 8])
      (by decide +kernel) (by rw [hpc, show off 4 .goClosure = 104 by decide +kernel])
    have h1 := h1.trans (runs_j (o := 118) (l := .doclosure) (by decide +kernel) rfl)
    obtain ⟨t, h2, h3⟩ := doclosure (w := 4) (.inl rfl) (L := L) (H := H) (s := s)
      (x := { [Ins.stm 2 5 15 8, .lr 4 0, .l 2 4 4, .l 3 4 8].foldl (exec 4 L) s with pc := L + off 4 .doclosure }) rfl
      (by intro k hk; have h0 : ∀ j, j < 6 → k ≠ j := by omega
          simp [exec, upd, h0 2, h0 3, h0 4])
      (by simp [exec]) (by simp [exec, argMem])
    refine ⟨t, h1.trans h2, ?_⟩
    simpa [exec, upd, argMem, Nat.add_assoc] using h3
  · have h1 := runs_block (w := 8) (L := L) (H := H) (o := 144) (s := s) (is := [.stm 2 5 15 16, .lr 4 0, .l 2 4 8, .l 3 4 16])
      (by decide +kernel) (by rw [hpc, show off 8 .goClosure = 144 by decide +kernel])
    have h1 := h1.trans (runs_j (o := 166) (l := .doclosure) (by decide +kernel) rfl)
    obtain ⟨t, h2, h3⟩ := doclosure (w := 8) (.inr rfl) (L := L) (H := H) (s := s)
      (x := { [Ins.stm 2 5 15 16, .lr 4 0, .l 2 4 8, .l 3 4 16].foldl (exec 8 L) s with pc := L + off 8 .doclosure }) rfl
      (by intro k hk; have h0 : ∀ j, j < 6 → k ≠ j := by omega
          simp [exec, upd, h0 2, h0 3, h0 4])
      (by simp [exec]) (by simp [exec, argMem])
    refine ⟨t, h1.trans h2, ?_⟩
    simpa [exec, upd, argMem, Nat.add_assoc] using h3

/-- Back in the caller of the closure: `sp` is its stack pointer. -/
structure Left (w sp : Nat) (u v : M) : Prop where
  pc : v.pc = beNat (u.mem.rd (sp + 14 * w) w)
  r15 : v.r 15 = sp
  r2 : v.r 2 = beNat (u.mem.rd (sp + 2 * w) w)
  r3 : w = 4 → v.r 3 = beNat (u.mem.rd (sp + 3 * w) w)
  r6 : v.r 6 = beNat (u.mem.rd (sp + 6 * w) w)
  saved : ∀ k, firstSaved w ≤ k → k ≤ 13 → v.r k = beNat (u.mem.rd (sp + k * w) w)
  rest : ∀ k, 7 ≤ k → k < firstSaved w → v.r k = u.r k
  f0 : v.f 0 = u.mem.rd (sp + 16 * w) 8
  f : ∀ k, k ≠ 0 → v.f k = u.f k
  mem : v.mem = u.mem

theorem closure_tail {w : Nat} (hw : w = 4 ∨ w = 8) {L H sp : Nat} {u : M} (hpc : u.pc = L + afterHelper w) (hb : u.r (firstSaved w) = sp) :
    ∃ v, Runs w L H u v ∧ Left w sp u v := by
  rcases hw with rfl | rfl
  · have hb : u.r 12 = sp := hb
    have h1 := runs_block (w := 4) (L := L) (H := H) (o := 190) (s := u)
      (is := [.lr 15 12, .lm 12 3 12 48, .l 6 15 24, .ld 0 15 64, .lm 2 2 15 8]) (by decide +kernel) hpc
    refine ⟨_, h1.trans (runs_br (o := 208) (a := 14) (by decide +kernel) rfl), ?_⟩
    constructor
    · simp [exec, upd, hb, Nat.add_assoc]
    · simp [exec, upd, hb]
    · simp [exec, upd, hb]
    · intro _; simp [exec, upd, hb]
    · simp [exec, upd, hb]
    · intro k a b
      have a : 12 ≤ k := a
      rcases (show k = 12 ∨ k = 13 by omega) with rfl | rfl <;> simp [exec, upd, hb, Nat.add_assoc]
    · intro k a b
      have b : k < 12 := b
      have h0 : ∀ j, j < 7 ∨ 12 ≤ j → k ≠ j := by omega
      simp [exec, upd, h0 15, h0 6, show ¬ (2 ≤ k ∧ k < 4) by omega, show ¬ (12 ≤ k ∧ k < 15) by omega]
    · simp [exec, upd, hb]
    · intro k hk; simp [exec, upd, hk]
    · simp [exec]
  · have hb : u.r 13 = sp := hb
    have h1 := runs_block (w := 8) (L := L) (H := H) (o := 264) (s := u)
      (is := [.lr 15 13, .lm 13 2 13 104, .l 6 15 48, .ld 0 15 128, .l 2 15 16]) (by decide +kernel) hpc
    refine ⟨_, h1.trans (runs_br (o := 290) (a := 14) (by decide +kernel) rfl), ?_⟩
    constructor
    · simp [exec, upd, hb, Nat.add_assoc]
    · simp [exec, upd, hb]
    · simp [exec, upd, hb]
    · intro h; cases h
    · simp [exec, upd, hb]
    · intro k a b
      have a : 13 ≤ k := a
      rcases (show k = 13 by omega) with rfl; simp [exec, upd, hb, Nat.add_assoc]
    · intro k a b
      have b : k < 13 := b
      have h0 : ∀ j, j < 7 ∨ 13 ≤ j → k ≠ j := by omega
      simp [exec, upd, h0 15, h0 6, h0 2, show ¬ (13 ≤ k ∧ k < 15) by omega]
    · simp [exec, upd, hb]
    · intro k hk; simp [exec, upd, hk]
    · simp [exec]

end Verif.S390.Asm
