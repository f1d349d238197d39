import Verif.S390.AsmClosure

/-! Trampolines: the code of closures, byte by byte. -/
namespace Verif.S390.Asm
open Verif Verif.S390 Verif.Spec.S390

/-- Execution of instructions that are read from memory, as far as trampolines contain them;
encodings from the Principles of Operation.  Formats RR, RS and RSY. -/
def tstep (w : Nat) (s : M) : Option M :=
  match (s.mem.rd s.pc 6).map (·.toNat) with
  | [b0, b1, b2, b3, b4, b5] =>
    let base := fun b d => (if b = 0 then 0 else s.r b) + d
    let lm := fun a e ad (r : Nat → Nat) => fun k => if a ≤ k ∧ k ≤ e then beNat (s.mem.rd (ad + w * (k - a)) w) else r k
    if b0 = 0x0d ∧ b1 % 16 = 0 then                                   -- basr %r1,0
      some { s with r := upd s.r (b1 / 16) (s.pc + 2), pc := s.pc + 2 }
    else if b0 = 0x98 ∧ w = 4 ∧ b1 / 16 ≤ b1 % 16 then                -- lm %r1,%r3,d(b)
      some { s with r := lm (b1 / 16) (b1 % 16) (base (b2 / 16) (b2 % 16 * 256 + b3)) s.r, pc := s.pc + 4 }
    else if b0 = 0xeb ∧ b5 = 0x04 ∧ w = 8 ∧ b1 / 16 ≤ b1 % 16 ∧ b4 < 128 then   -- lmg %r1,%r3,d(b)
      some { s with r := lm (b1 / 16) (b1 % 16) (base (b2 / 16) (b4 * 4096 + b2 % 16 * 256 + b3)) s.r, pc := s.pc + 6 }
    else if b0 = 0x07 ∧ b1 / 16 = 15 ∧ b1 % 16 ≠ 0 then               -- br
      some { s with pc := s.r (b1 % 16) }
    else none
  | _ => none

def tsteps (w : Nat) : Nat → M → Option M
  | 0, s => some s
  | n + 1, s => (tstep w s).bind (tsteps w n)

/-- `template`, src/s390/ffi.c:715-723. -/
def template (w : Nat) : List Byte :=
  if w = 8 then [0x0d, 0x10, 0xeb, 0x01, 0x10, 0x0e, 0x00, 0x04, 0x07, 0xf1] else [0x0d, 0x10, 0x98, 0x01, 0x10, 0x06, 0x07, 0xf1]

/-- `ffi_prep_closure_loc` without a static trampoline, src/s390/ffi.c:741-750; `entry` is the address of
`ffi_closure_SYSV`. -/
def prepClosure (w : Nat) (m : Mem) (closure codeloc entry cif fn user : Nat) : Mem :=
  let m := m.wr closure (template w)
  let m := m.wr (closure + 2 * w) (beBytes w codeloc)
  let m := m.wr (closure + 3 * w) (beBytes w entry)
  let m := m.wr (closure + closureField w 0) (beBytes w cif)
  let m := m.wr (closure + closureField w 1) (beBytes w fn)
  m.wr (closure + closureField w 2) (beBytes w user)

/-- A slot of `trampoline_code_table`, src/s390/sysv.S:342-347 (64 bits only). -/
def slot : List Byte := [0x0d, 0x10, 0xeb, 0x01, 0x1f, 0xfe, 0x00, 0x04, 0x07, 0xf1, 0x07, 0x07, 0x07, 0x07, 0x07, 0x07]

/-- The code page, src/s390/sysv.S:340-348. -/
def codeTable : List Byte := (List.replicate (4096 / 16) slot).flatten

theorem prepClosure_rd {w : Nat} (hw : w = 4 ∨ w = 8) (m : Mem) (c x e cif fn user : Nat) :
    let p := prepClosure w m c x e cif fn user
    p.rd c (template w).length = template w ∧ p.rd (c + 2 * w) w = beBytes w x ∧ p.rd (c + 3 * w) w = beBytes w e ∧
    p.rd (c + closureField w 0) w = beBytes w cif ∧ p.rd (c + closureField w 1) w = beBytes w fn ∧ p.rd (c + closureField w 2) w = beBytes w user := by
  dsimp only
  unfold prepClosure closureField
  have hl : (template w).length ≤ 2 * w := by rcases hw with rfl | rfl <;> decide
  refine ⟨?_, ?_, ?_, ?_, ?_, ?_⟩
  · repeat rw [Mem.rd_wr_disj _ _ _ _ _ (by rw [beBytes_length]; omega)]
    rw [wr_rd _ _ rfl]
  all_goals
    repeat rw [Mem.rd_wr_disj _ _ _ _ _ (by rw [beBytes_length]; omega)]
    rw [wr_rd _ _ (beBytes_length _ _)]

theorem rd_alias {m p : Mem} {a b N : Nat} (h : ∀ i, i < N → m (a + i) = p (b + i)) {o n : Nat} (hn : o + n ≤ N) : m.rd (a + o) n = p.rd (b + o) n := by
  apply List.ext_getElem
  · rw [Mem.rd_length, Mem.rd_length]
  · intro i h1 h2
    rw [Mem.rd_length] at h1
    have e1 := Mem.rd_getD m (a + o) n i h1
    have e2 := Mem.rd_getD p (b + o) n i h1
    rw [List.getD_eq_getElem?_getD, List.getElem?_eq_getElem (by rw [Mem.rd_length]; omega), Option.getD_some] at e1 e2
    rw [e1, e2, Nat.add_assoc, Nat.add_assoc, h _ (by omega)]

/-- What a trampoline changes: registers 0 and 1. -/
structure Jumped (s t : M) (r0 dest : Nat) : Prop where
  pc : t.pc = dest
  r0 : t.r 0 = r0
  rest : ∀ k, 2 ≤ k → t.r k = s.r k
  f : t.f = s.f
  mem : t.mem = s.mem

theorem rd6 (m : Mem) (a : Nat) : (m.rd a 6).map (·.toNat) =
    [(m a).toNat, (m (a + 1)).toNat, (m (a + 2)).toNat, (m (a + 3)).toNat, (m (a + 4)).toNat, (m (a + 5)).toNat] := by
  simp [Mem.rd, List.range_succ]

/-- `basr`, `lm` at displacement `d`, `br`. -/
theorem tramp31 {s : M} {d x e : Nat} (hd : d < 4096)
    (b0 : (s.mem s.pc).toNat = 0x0d) (b1 : (s.mem (s.pc + 1)).toNat = 0x10) (b2 : (s.mem (s.pc + 2)).toNat = 0x98) (b3 : (s.mem (s.pc + 3)).toNat = 0x01)
    (b4 : (s.mem (s.pc + 4)).toNat = 16 + d / 256) (b5 : (s.mem (s.pc + 5)).toNat = d % 256) (b6 : (s.mem (s.pc + 6)).toNat = 0x07)
    (b7 : (s.mem (s.pc + 7)).toNat = 0xf1)
    (h0 : beNat (s.mem.rd (s.pc + 2 + d) 4) = x) (h1 : beNat (s.mem.rd (s.pc + 2 + d + 4) 4) = e) :
    ∃ t, tsteps 4 3 s = some t ∧ Jumped s t x e := by
  have s1 : tstep 4 s = some { s with r := upd s.r 1 (s.pc + 2), pc := s.pc + 2 } := by
    unfold tstep
    rw [rd6]
    simp [b0, b1]
  generalize hs1 : ({ s with r := upd s.r 1 (s.pc + 2), pc := s.pc + 2 } : M) = t1 at s1
  have m1 : t1.mem = s.mem := by rw [← hs1]
  have p1 : t1.pc = s.pc + 2 := by rw [← hs1]
  have r1 : t1.r 1 = s.pc + 2 := by rw [← hs1]; rfl
  have s2 : tstep 4 t1 = some { t1 with
      r := fun k => if k ≤ 1 then beNat (s.mem.rd (s.pc + 2 + d + 4 * k) 4) else t1.r k, pc := s.pc + 6 } := by
    unfold tstep
    rw [rd6, m1, p1]
    simp only [Nat.add_assoc, Nat.reduceAdd, b2, b3, b4, b5]
    have e1 : (16 + d / 256) / 16 = 1 := by omega
    have e2 : (16 + d / 256) % 16 = d / 256 := by omega
    simp [e1, e2, r1, Nat.add_assoc]
    funext k
    rw [show d / 256 * 256 + (d % 256 + 4 * k) = d + 4 * k by omega]
  generalize hs2 : ({ t1 with
      r := fun k => if k ≤ 1 then beNat (s.mem.rd (s.pc + 2 + d + 4 * k) 4) else t1.r k, pc := s.pc + 6 } : M) = t2 at s2
  have m2 : t2.mem = s.mem := by rw [← hs2]; exact m1
  have p2 : t2.pc = s.pc + 6 := by rw [← hs2]
  have r2 : t2.r 1 = e := by rw [← hs2, ← h1]; simp
  have s3 : tstep 4 t2 = some { t2 with pc := e } := by
    unfold tstep
    rw [rd6, m2, p2]
    simp only [Nat.add_assoc, Nat.reduceAdd, b6, b7]
    simp [r2]
  refine ⟨{ t2 with pc := e }, by simp only [tsteps, s1, s2, s3, Option.bind_some], rfl, ?_, ?_, ?_, m2⟩
  · rw [← hs2, ← h0]; simp
  · intro k hk
    have : ¬ k ≤ 1 := by omega
    rw [← hs2, ← hs1]
    simp [this, upd]
    omega
  · rw [← hs2, ← hs1]

/-- `basr`, `lmg` at displacement `d`, `br`. -/
theorem tramp64 {s : M} {d x e : Nat} (hd : d < 4096)
    (b0 : (s.mem s.pc).toNat = 0x0d) (b1 : (s.mem (s.pc + 1)).toNat = 0x10) (b2 : (s.mem (s.pc + 2)).toNat = 0xeb) (b3 : (s.mem (s.pc + 3)).toNat = 0x01)
    (b4 : (s.mem (s.pc + 4)).toNat = 16 + d / 256) (b5 : (s.mem (s.pc + 5)).toNat = d % 256) (b6 : (s.mem (s.pc + 6)).toNat = 0x00)
    (b7 : (s.mem (s.pc + 7)).toNat = 0x04) (b8 : (s.mem (s.pc + 8)).toNat = 0x07) (b9 : (s.mem (s.pc + 9)).toNat = 0xf1)
    (h0 : beNat (s.mem.rd (s.pc + 2 + d) 8) = x) (h1 : beNat (s.mem.rd (s.pc + 2 + d + 8) 8) = e) :
    ∃ t, tsteps 8 3 s = some t ∧ Jumped s t x e := by
  have s1 : tstep 8 s = some { s with r := upd s.r 1 (s.pc + 2), pc := s.pc + 2 } := by
    unfold tstep
    rw [rd6]
    simp [b0, b1]
  generalize hs1 : ({ s with r := upd s.r 1 (s.pc + 2), pc := s.pc + 2 } : M) = t1 at s1
  have m1 : t1.mem = s.mem := by rw [← hs1]
  have p1 : t1.pc = s.pc + 2 := by rw [← hs1]
  have r1 : t1.r 1 = s.pc + 2 := by rw [← hs1]; rfl
  have s2 : tstep 8 t1 = some { t1 with
      r := fun k => if k ≤ 1 then beNat (s.mem.rd (s.pc + 2 + d + 8 * k) 8) else t1.r k, pc := s.pc + 8 } := by
    unfold tstep
    rw [rd6, m1, p1]
    simp only [Nat.add_assoc, Nat.reduceAdd, b2, b3, b4, b5, b6, b7]
    have e1 : (16 + d / 256) / 16 = 1 := by omega
    have e2 : (16 + d / 256) % 16 = d / 256 := by omega
    simp [e1, e2, r1, Nat.add_assoc]
    funext k
    rw [show d / 256 * 256 + (d % 256 + 8 * k) = d + 8 * k by omega]
  generalize hs2 : ({ t1 with
      r := fun k => if k ≤ 1 then beNat (s.mem.rd (s.pc + 2 + d + 8 * k) 8) else t1.r k, pc := s.pc + 8 } : M) = t2 at s2
  have m2 : t2.mem = s.mem := by rw [← hs2]; exact m1
  have p2 : t2.pc = s.pc + 8 := by rw [← hs2]
  have r2 : t2.r 1 = e := by rw [← hs2, ← h1]; simp
  have s3 : tstep 8 t2 = some { t2 with pc := e } := by
    unfold tstep
    rw [rd6, m2, p2]
    simp only [Nat.add_assoc, Nat.reduceAdd, b8, b9]
    simp [r2]
  refine ⟨{ t2 with pc := e }, by simp only [tsteps, s1, s2, s3, Option.bind_some], rfl, ?_, ?_, ?_, m2⟩
  · rw [← hs2, ← h0]; simp
  · intro k hk
    have : ¬ k ≤ 1 := by omega
    rw [← hs2, ← hs1]
    simp [this, upd]
    omega
  · rw [← hs2, ← hs1]

theorem rd_at {m : Mem} {a n : Nat} {l : List Byte} (h : m.rd a n = l) (i : Nat) (hi : i < n) : m (a + i) = l.getD i 0 := by
  rw [← h, Mem.rd_getD _ _ _ _ hi]

/-- A closure's own trampoline: `s.mem` shows, at `x`, the closure that `ffi_prep_closure_loc` wrote at `c`. -/
theorem dyn_ok {w : Nat} (hw : w = 4 ∨ w = 8) {s : M} {m : Mem} {c x e cif fn user : Nat} (hpc : s.pc = x) (hx : x < 256 ^ w) (he : e < 256 ^ w)
    (hm : ∀ i, i < 7 * w → s.mem (x + i) = prepClosure w m c x e cif fn user (c + i)) : ∃ t, tsteps w 3 s = some t ∧ Jumped s t x e := by
  obtain ⟨p1, p2, p3, _⟩ := prepClosure_rd hw m c x e cif fn user
  have q2 : s.mem.rd (x + 2 * w) w = beBytes w x := by rw [rd_alias hm (by omega), p2]
  have q3 : s.mem.rd (x + 3 * w) w = beBytes w e := by rw [rd_alias hm (by omega), p3]
  have q1 : s.mem.rd x (template w).length = template w := by
    have := rd_alias (o := 0) (n := (template w).length) hm (by rcases hw with rfl | rfl <;> decide)
    exact this.trans p1
  subst hpc
  rcases hw with rfl | rfl
  · have hb : ∀ i, i < 8 → s.mem (s.pc + i) = (template 4).getD i 0 := fun i hi => rd_at q1 i hi
    refine tramp31 (d := 6) (by decide) (by have := hb 0; simp_all [template]) (by rw [hb 1 (by decide)]; rfl) (by rw [hb 2 (by decide)]; rfl)
      (by rw [hb 3 (by decide)]; rfl) (by rw [hb 4 (by decide)]; rfl) (by rw [hb 5 (by decide)]; rfl) (by rw [hb 6 (by decide)]; rfl) (by rw [hb 7 (by decide)]; rfl) ?_ ?_
    · rw [show s.pc + 2 + 6 = s.pc + 2 * 4 by omega, q2, beNat_beBytes, Nat.mod_eq_of_lt hx]
    · rw [show s.pc + 2 + 6 + 4 = s.pc + 3 * 4 by omega, q3, beNat_beBytes, Nat.mod_eq_of_lt he]
  · have hb : ∀ i, i < 10 → s.mem (s.pc + i) = (template 8).getD i 0 := fun i hi => rd_at q1 i hi
    refine tramp64 (d := 14) (by decide) (by have := hb 0; simp_all [template]) (by rw [hb 1 (by decide)]; rfl) (by rw [hb 2 (by decide)]; rfl)
      (by rw [hb 3 (by decide)]; rfl) (by rw [hb 4 (by decide)]; rfl) (by rw [hb 5 (by decide)]; rfl) (by rw [hb 6 (by decide)]; rfl) (by rw [hb 7 (by decide)]; rfl)
      (by rw [hb 8 (by decide)]; rfl) (by rw [hb 9 (by decide)]; rfl) ?_ ?_
    · rw [show s.pc + 2 + 14 = s.pc + 2 * 8 by omega, q2, beNat_beBytes, Nat.mod_eq_of_lt hx]
    · rw [show s.pc + 2 + 14 + 8 = s.pc + 3 * 8 by omega, q3, beNat_beBytes, Nat.mod_eq_of_lt he]

theorem flat_getD (l : List Byte) (i : Nat) (hi : i < l.length) : ∀ n k, k < n → ((List.replicate n l).flatten).getD (l.length * k + i) 0 = l.getD i 0
  | 0, k, h => by omega
  | n + 1, 0, _ => by
    rw [List.replicate_succ, List.flatten_cons, Nat.mul_zero, Nat.zero_add, List.getD_eq_getElem?_getD, List.getElem?_append_left hi, ← List.getD_eq_getElem?_getD]
  | n + 1, k + 1, h => by
    rw [List.replicate_succ, List.flatten_cons, List.getD_eq_getElem?_getD, List.getElem?_append_right (by rw [Nat.mul_add]; omega),
      ← List.getD_eq_getElem?_getD, show l.length * (k + 1) + i - l.length = l.length * k + i by rw [Nat.mul_add]; omega]
    exact flat_getD l i hi n k (by omega)

theorem codeTable_getD (k i : Nat) (hk : k < 256) (hi : i < 16) : codeTable.getD (16 * k + i) 0 = slot.getD i 0 :=
  flat_getD slot i hi _ k hk

/-- Slot `k` of a static trampoline table mapped at `T`, parameters on the next page. -/
theorem static_ok {s : M} {T k data target : Nat} (hk : k < 256) (hpc : s.pc = T + 16 * k) (hT : s.mem.rd T 4096 = codeTable)
    (hd : beNat (s.mem.rd (T + 4096 + 16 * k) 8) = data) (ht : beNat (s.mem.rd (T + 4096 + 16 * k + 8) 8) = target) :
    ∃ t, tsteps 8 3 s = some t ∧ Jumped s t data target := by
  have hb : ∀ i, i < 16 → s.mem (s.pc + i) = slot.getD i 0 := by
    intro i hi
    rw [hpc, Nat.add_assoc, rd_at hT _ (by omega), codeTable_getD k i hk hi]
  refine tramp64 (d := 4094) (by decide) (by have := hb 0; simp_all [slot]) (by rw [hb 1 (by decide)]; rfl) (by rw [hb 2 (by decide)]; rfl)
      (by rw [hb 3 (by decide)]; rfl) (by rw [hb 4 (by decide)]; rfl) (by rw [hb 5 (by decide)]; rfl) (by rw [hb 6 (by decide)]; rfl) (by rw [hb 7 (by decide)]; rfl)
      (by rw [hb 8 (by decide)]; rfl) (by rw [hb 9 (by decide)]; rfl) ?_ ?_
  · rw [hpc, show T + 16 * k + 2 + 4094 = T + 4096 + 16 * k by omega, hd]
  · rw [hpc, show T + 16 * k + 2 + 4094 + 8 = T + 4096 + 16 * k + 8 by omega, ht]

end Verif.S390.Asm
