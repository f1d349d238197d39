import Verif.Ppc.AsmClosure

/-! Trampolines: the code of closures, as instructions read from memory. -/
namespace Verif.Ppc.Asm
open Verif Verif.Ppc

/-- Address with a signed displacement of 16 bits. -/
def disp16 (a d : Nat) : Nat := (a + d + (if d < 2 ^ 15 then 0 else 2 ^ 64 - 2 ^ 16)) % 2 ^ 64

/-- Execution of instructions that are read from memory, as far as trampolines contain them; encodings from
the Power ISA.  Formats DS, D, XFX, B and XL. -/
def tstep (s : M) : Option M :=
  let w := leNat (s.mem.rd s.pc 4)
  let op := w / 2 ^ 26
  let a := w / 2 ^ 21 % 32
  let b := w / 2 ^ 16 % 32
  let d := w % 2 ^ 16
  let spr := b + 32 * (w / 2 ^ 11 % 32)
  if op = 58 ∧ w % 4 = 0 ∧ b ≠ 0 then                              -- ld %ra,d(%rb)
    some { s with r := upd s.r a (leNat (s.mem.rd (disp16 (s.r b) d) 8)), pc := s.pc + 4 }
  else if op = 15 ∧ b ≠ 0 ∧ d < 2 ^ 15 then                        -- addis %ra,%rb,d
    some { s with r := upd s.r a ((s.r b + d * 2 ^ 16) % 2 ^ 64), pc := s.pc + 4 }
  else if op = 31 ∧ w % 2 ^ 11 = 2 * 339 ∧ spr = 8 then            -- mflr
    some { s with r := upd s.r a s.lr, pc := s.pc + 4 }
  else if op = 31 ∧ w % 2 ^ 11 = 2 * 467 ∧ spr = 8 then            -- mtlr
    some { s with lr := s.r a, pc := s.pc + 4 }
  else if op = 31 ∧ w % 2 ^ 11 = 2 * 467 ∧ spr = 9 then            -- mtctr
    some { s with ctr := s.r a, pc := s.pc + 4 }
  else if op = 16 ∧ a = 20 ∧ d < 2 ^ 15 ∧ d % 4 = 1 then           -- bcl 20,b,$+d
    some { s with lr := s.pc + 4, pc := s.pc + d / 4 * 4 }
  else if op = 19 ∧ a = 20 ∧ w % 2 ^ 11 = 2 * 528 then             -- bctr
    some { s with pc := s.ctr / 4 * 4 }
  else none

def tsteps : Nat → M → Option M
  | 0, s => some s
  | n + 1, s => (tstep s).bind (tsteps n)

/-- The closure's code, src/powerpc/ffi_linux64.c:839-842. -/
def template : List Nat := [0xe96c0018, 0xe98c0010, 0x7d8903a6, 0x4e800420]

def words (l : List Nat) : List Byte := l.flatMap (leBytes 4)

/-- `ffi_prep_closure_loc_linux64` without a static trampoline, src/powerpc/ffi_linux64.c:838-860; `entry` is the
address of `ffi_closure_LINUX64`.  `ffi_closure` has 32 bytes for the trampoline, src/powerpc/ffitarget.h:181,
include/ffi.h.in:329-340. -/
def prepClosure (m : Mem) (closure codeloc entry cif fn user : Nat) : Mem :=
  let m := m.wr closure (words template)
  let m := m.wr (closure + 16) (leBytes 8 entry)
  let m := m.wr (closure + 24) (leBytes 8 codeloc)
  let m := m.wr (closure + 32) (leBytes 8 cif)
  let m := m.wr (closure + 40) (leBytes 8 fn)
  m.wr (closure + 48) (leBytes 8 user)

/-- A slot of `trampoline_code_table`, src/powerpc/linux64_closure.S:590-600. -/
def slot : List Nat := [0x7c0802a6, 0x429f0005, 0x7d6802a6, 0x3d6b0001, 0x7c0803a6, 0xe98b0000, 0x7d8903a6, 0xe96bfff8, 0x4e800420, 0x60000000]

/-- The code pages, src/powerpc/linux64_closure.S:582-602, src/powerpc/internal.h:3-8, without the padding. -/
def codeTable : List Byte := (List.replicate (65536 / 40) (words slot)).flatten

/-- What a trampoline changes: r0, r11, r12 and ctr. -/
structure Jumped (s t : M) (r11 dest : Nat) : Prop where
  pc : t.pc = dest / 4 * 4
  r11 : t.r 11 = r11
  r12 : t.r 12 = dest
  rest : ∀ k, k ≠ 0 → k ≠ 11 → k ≠ 12 → t.r k = s.r k
  f : t.f = s.f
  vr : t.v = s.v
  cr : t.cr = s.cr
  lr : t.lr = s.lr
  mem : t.mem = s.mem

theorem rd_word {m : Mem} {a : Nat} {l : List Nat} (h : m.rd a (4 * l.length) = words l) (hl : ∀ x ∈ l, x < 2 ^ 32) : ∀ i x, l[i]? = some x → leNat (m.rd (a + 4 * i) 4) = x := by
  induction l generalizing a with
  | nil => intro i x hx; cases hx
  | cons y l ih =>
    have h2 : m.rd a 4 ++ m.rd (a + 4) (4 * l.length) = leBytes 4 y ++ words l := by
      rw [← Mem.rd_append]
      rw [List.length_cons, Nat.mul_succ, Nat.add_comm] at h
      exact h
    obtain ⟨e1, e2⟩ := List.append_inj h2 (by rw [Mem.rd_length, leBytes_length])
    intro i x hx
    cases i with
    | zero =>
      obtain rfl : y = x := by simpa using hx
      rw [Nat.mul_zero, Nat.add_zero, e1, leNat_leBytes, Nat.mod_eq_of_lt (by simpa using hl y (by simp))]
    | succ i =>
      rw [show a + 4 * (i + 1) = a + 4 + 4 * i by omega]
      exact ih e2 (fun z hz => hl z (by simp [hz])) i x hx

theorem disp_pos {a d : Nat} (hd : d < 2 ^ 15) (ha : a + d < 2 ^ 64) : disp16 a d = a + d := by
  unfold disp16
  rw [if_pos hd, Nat.add_zero, Nat.mod_eq_of_lt ha]

/-- The closure's own code. -/
theorem dyn_run {s : M} {x e : Nat} (h12 : s.r 12 = s.pc) (hs : s.pc + 32 ≤ 2 ^ 64)
    (hw : ∀ i y, template[i]? = some y → leNat (s.mem.rd (s.pc + 4 * i) 4) = y) (he : leNat (s.mem.rd (s.pc + 16) 8) = e) (hx : leNat (s.mem.rd (s.pc + 24) 8) = x) :
    ∃ t, tsteps 4 s = some t ∧ Jumped s t x e := by
  have w0 := hw 0 _ rfl
  have w1 := hw 1 _ rfl
  have w2 := hw 2 _ rfl
  have w3 := hw 3 _ rfl
  have s1 : tstep s = some { s with r := upd s.r 11 x, pc := s.pc + 4 } := by
    unfold tstep
    rw [Nat.mul_zero, Nat.add_zero] at w0
    simp [w0, h12, disp_pos (show (24 : Nat) < 2 ^ 15 by decide) (show s.pc + 24 < 2 ^ 64 by omega), hx]
  generalize hs1 : ({ s with r := upd s.r 11 x, pc := s.pc + 4 } : M) = t1 at s1
  have m1 : t1.mem = s.mem := by rw [← hs1]
  have p1 : t1.pc = s.pc + 4 := by rw [← hs1]
  have r1 : t1.r 12 = s.pc := by rw [← hs1]; simp [upd, h12]
  have s2 : tstep t1 = some { t1 with r := upd t1.r 12 e, pc := s.pc + 8 } := by
    unfold tstep
    rw [m1, p1, show leNat (s.mem.rd (s.pc + 4) 4) = 0xe98c0010 from w1]
    simp [r1, disp_pos (show (16 : Nat) < 2 ^ 15 by decide) (show s.pc + 16 < 2 ^ 64 by omega), he]
  generalize hs2 : ({ t1 with r := upd t1.r 12 e, pc := s.pc + 8 } : M) = t2 at s2
  have m2 : t2.mem = s.mem := by rw [← hs2]; exact m1
  have p2 : t2.pc = s.pc + 8 := by rw [← hs2]
  have r2 : t2.r 12 = e := by rw [← hs2]; simp [upd]
  have s3 : tstep t2 = some { t2 with ctr := e, pc := s.pc + 12 } := by
    unfold tstep
    rw [m2, p2, show leNat (s.mem.rd (s.pc + 8) 4) = 0x7d8903a6 from w2]
    simp [r2]
  generalize hs3 : ({ t2 with ctr := e, pc := s.pc + 12 } : M) = t3 at s3
  have m3 : t3.mem = s.mem := by rw [← hs3]; exact m2
  have p3 : t3.pc = s.pc + 12 := by rw [← hs3]
  have r3 : t3.ctr = e := by rw [← hs3]
  have s4 : tstep t3 = some { t3 with pc := e / 4 * 4 } := by
    unfold tstep
    rw [m3, p3, show leNat (s.mem.rd (s.pc + 12) 4) = 0x4e800420 from w3]
    simp [r3]
  refine ⟨{ t3 with pc := e / 4 * 4 }, by simp only [tsteps, s1, s2, s3, s4, Option.bind_some], rfl, ?_, ?_, ?_, ?_, ?_, ?_, ?_, m3⟩
  · simp [← hs3, ← hs2, ← hs1, upd]
  · simp [← hs3, ← hs2, ← hs1, upd]
  · intro k h0 h1 h2
    simp [← hs3, ← hs2, ← hs1, upd, h1, h2]
  · simp [← hs3, ← hs2, ← hs1]
  · simp [← hs3, ← hs2, ← hs1]
  · simp [← hs3, ← hs2, ← hs1]
  · simp [← hs3, ← hs2, ← hs1]

theorem rd_alias {m p : Mem} {a b N : Nat} (h : ∀ i, i < N → m (a + i) = p (b + i)) {o n : Nat} (hn : o + n ≤ N) : m.rd (a + o) n = p.rd (b + o) n := by
  apply bytes_ext
  · rw [Mem.rd_length, Mem.rd_length]
  · intro i h1
    rw [Mem.rd_length] at h1
    rw [Mem.rd_getD _ _ _ _ h1, Mem.rd_getD _ _ _ _ h1, Nat.add_assoc, Nat.add_assoc, h _ (by omega)]

theorem prepClosure_rd (m : Mem) (c x e cif fn user : Nat) :
    let p := prepClosure m c x e cif fn user
    p.rd c 16 = words template ∧ p.rd (c + 16) 8 = leBytes 8 e ∧ p.rd (c + 24) 8 = leBytes 8 x ∧
    p.rd (c + 32) 8 = leBytes 8 cif ∧ p.rd (c + 40) 8 = leBytes 8 fn ∧ p.rd (c + 48) 8 = leBytes 8 user := by
  dsimp only
  unfold prepClosure
  refine ⟨?_, ?_, ?_, ?_, ?_, ?_⟩
  · repeat rw [Mem.rd_wr_disj _ _ _ _ _ (by rw [leBytes_length]; omega)]
    exact Mem.rd_wr_same _ _ (words template)
  all_goals
    repeat rw [Mem.rd_wr_disj _ _ _ _ _ (by rw [leBytes_length]; omega)]
    exact Mem.rd_wr_same _ _ (leBytes 8 _)

/-- `s.mem` shows, at `x`, the closure that was written at `c`; functions are called with their address in r12. -/
theorem dyn_ok {s : M} {m : Mem} {c x e cif fn user : Nat} (hpc : s.pc = x) (h12 : s.r 12 = x) (hx : x + 32 ≤ 2 ^ 64) (he : e < 2 ^ 64)
    (hm : ∀ i, i < 56 → s.mem (x + i) = prepClosure m c x e cif fn user (c + i)) : ∃ t, tsteps 4 s = some t ∧ Jumped s t x e := by
  obtain ⟨p1, p2, p3, _⟩ := prepClosure_rd m c x e cif fn user
  have q1 : s.mem.rd x 16 = words template := (rd_alias (o := 0) (n := 16) hm (by decide)).trans p1
  subst hpc
  refine dyn_run h12 hx (rd_word q1 (by decide)) ?_ ?_
  · rw [rd_alias hm (by decide), p2, leNat_leBytes, Nat.mod_eq_of_lt (by simpa using he)]
  · rw [rd_alias hm (by decide), p3, leNat_leBytes, Nat.mod_eq_of_lt (by simp; omega)]

set_option maxHeartbeats 1000000 in
/-- A slot of the table. -/
theorem slot_run {s : M} {x e : Nat} (hs : s.pc + 2 ^ 17 ≤ 2 ^ 64) (hw : ∀ i y, slot[i]? = some y → leNat (s.mem.rd (s.pc + 4 * i) 4) = y)
    (hx : leNat (s.mem.rd (s.pc + 65536) 8) = x) (he : leNat (s.mem.rd (s.pc + 65536 + 8) 8) = e) :
    ∃ t, tsteps 9 s = some t ∧ Jumped s t x e := by
  have w0 := hw 0 _ rfl
  rw [Nat.mul_zero, Nat.add_zero] at w0
  have s1 : tstep s = some { s with r := upd s.r 0 s.lr, pc := s.pc + 4 } := by
    unfold tstep
    simp [w0]
  generalize hs1 : ({ s with r := upd s.r 0 s.lr, pc := s.pc + 4 } : M) = t1 at s1
  have m1 : t1.mem = s.mem := by rw [← hs1]
  have p1 : t1.pc = s.pc + 4 := by rw [← hs1]
  have s2 : tstep t1 = some { t1 with lr := s.pc + 8, pc := s.pc + 8 } := by
    unfold tstep
    rw [m1, p1, show leNat (s.mem.rd (s.pc + 4) 4) = 0x429f0005 from hw 1 _ rfl]
    simp
  generalize hs2 : ({ t1 with lr := s.pc + 8, pc := s.pc + 8 } : M) = t2 at s2
  have m2 : t2.mem = s.mem := by rw [← hs2]; exact m1
  have p2 : t2.pc = s.pc + 8 := by rw [← hs2]
  have l2 : t2.lr = s.pc + 8 := by rw [← hs2]
  have s3 : tstep t2 = some { t2 with r := upd t2.r 11 (s.pc + 8), pc := s.pc + 12 } := by
    unfold tstep
    rw [m2, p2, show leNat (s.mem.rd (s.pc + 8) 4) = 0x7d6802a6 from hw 2 _ rfl]
    simp [l2]
  generalize hs3 : ({ t2 with r := upd t2.r 11 (s.pc + 8), pc := s.pc + 12 } : M) = t3 at s3
  have m3 : t3.mem = s.mem := by rw [← hs3]; exact m2
  have p3 : t3.pc = s.pc + 12 := by rw [← hs3]
  have r3 : t3.r 11 = s.pc + 8 := by rw [← hs3]; simp [upd]
  have s4 : tstep t3 = some { t3 with r := upd t3.r 11 (s.pc + 65544), pc := s.pc + 16 } := by
    unfold tstep
    rw [m3, p3, show leNat (s.mem.rd (s.pc + 12) 4) = 0x3d6b0001 from hw 3 _ rfl]
    have : (s.pc + 8 + 65536) % 18446744073709551616 = s.pc + 65544 := by omega
    simp [r3, this]
  generalize hs4 : ({ t3 with r := upd t3.r 11 (s.pc + 65544), pc := s.pc + 16 } : M) = t4 at s4
  have m4 : t4.mem = s.mem := by rw [← hs4]; exact m3
  have p4 : t4.pc = s.pc + 16 := by rw [← hs4]
  have r4 : t4.r 11 = s.pc + 65544 := by rw [← hs4]; simp [upd]
  have r40 : t4.r 0 = s.lr := by simp [← hs4, ← hs3, ← hs2, ← hs1, upd]
  have s5 : tstep t4 = some { t4 with lr := s.lr, pc := s.pc + 20 } := by
    unfold tstep
    rw [m4, p4, show leNat (s.mem.rd (s.pc + 16) 4) = 0x7c0803a6 from hw 4 _ rfl]
    simp [r40]
  generalize hs5 : ({ t4 with lr := s.lr, pc := s.pc + 20 } : M) = t5 at s5
  have m5 : t5.mem = s.mem := by rw [← hs5]; exact m4
  have p5 : t5.pc = s.pc + 20 := by rw [← hs5]
  have r5 : t5.r 11 = s.pc + 65544 := by rw [← hs5]; exact r4
  have s6 : tstep t5 = some { t5 with r := upd t5.r 12 e, pc := s.pc + 24 } := by
    unfold tstep
    rw [m5, p5, show leNat (s.mem.rd (s.pc + 20) 4) = 0xe98b0000 from hw 5 _ rfl]
    simp [r5, disp_pos (show (0 : Nat) < 2 ^ 15 by decide) (show s.pc + 65544 + 0 < 2 ^ 64 by omega)]
    rw [← he]
  generalize hs6 : ({ t5 with r := upd t5.r 12 e, pc := s.pc + 24 } : M) = t6 at s6
  have m6 : t6.mem = s.mem := by rw [← hs6]; exact m5
  have p6 : t6.pc = s.pc + 24 := by rw [← hs6]
  have r6 : t6.r 11 = s.pc + 65544 := by rw [← hs6]; simp [upd, r5]
  have r62 : t6.r 12 = e := by rw [← hs6]; simp [upd]
  have s7 : tstep t6 = some { t6 with ctr := e, pc := s.pc + 28 } := by
    unfold tstep
    rw [m6, p6, show leNat (s.mem.rd (s.pc + 24) 4) = 0x7d8903a6 from hw 6 _ rfl]
    simp [r62]
  generalize hs7 : ({ t6 with ctr := e, pc := s.pc + 28 } : M) = t7 at s7
  have m7 : t7.mem = s.mem := by rw [← hs7]; exact m6
  have p7 : t7.pc = s.pc + 28 := by rw [← hs7]
  have r7 : t7.r 11 = s.pc + 65544 := by rw [← hs7]; exact r6
  have s8 : tstep t7 = some { t7 with r := upd t7.r 11 x, pc := s.pc + 32 } := by
    unfold tstep
    rw [m7, p7, show leNat (s.mem.rd (s.pc + 28) 4) = 0xe96bfff8 from hw 7 _ rfl]
    have : disp16 (s.pc + 65544) 65528 = s.pc + 65536 := by unfold disp16; rw [if_neg (by decide)]; omega
    simp [r7, this, hx]
  generalize hs8 : ({ t7 with r := upd t7.r 11 x, pc := s.pc + 32 } : M) = t8 at s8
  have m8 : t8.mem = s.mem := by rw [← hs8]; exact m7
  have p8 : t8.pc = s.pc + 32 := by rw [← hs8]
  have c8 : t8.ctr = e := by simp [← hs8, ← hs7]
  have s9 : tstep t8 = some { t8 with pc := e / 4 * 4 } := by
    unfold tstep
    rw [m8, p8, show leNat (s.mem.rd (s.pc + 32) 4) = 0x4e800420 from hw 8 _ rfl]
    simp [c8]
  refine ⟨{ t8 with pc := e / 4 * 4 }, by simp only [tsteps, s1, s2, s3, s4, s5, s6, s7, s8, s9, Option.bind_some], rfl, ?_, ?_, ?_, ?_, ?_, ?_, ?_, m8⟩
  · simp [← hs8, upd]
  · simp [← hs8, ← hs7, ← hs6, upd]
  · intro k h0 h1 h2
    simp [← hs8, ← hs7, ← hs6, ← hs5, ← hs4, ← hs3, ← hs2, ← hs1, upd, h0, h1, h2]
  · simp [← hs8, ← hs7, ← hs6, ← hs5, ← hs4, ← hs3, ← hs2, ← hs1]
  · simp [← hs8, ← hs7, ← hs6, ← hs5, ← hs4, ← hs3, ← hs2, ← hs1]
  · simp [← hs8, ← hs7, ← hs6, ← hs5, ← hs4, ← hs3, ← hs2, ← hs1]
  · simp [← hs8, ← hs7, ← hs6, ← hs5, ← hs4, ← hs3, ← hs2, ← hs1]

theorem flat_getD (l : List Byte) (i : Nat) (hi : i < l.length) : ∀ n k, k < n → ((List.replicate n l).flatten).getD (l.length * k + i) 0 = l.getD i 0
  | 0, k, h => by omega
  | n + 1, 0, _ => by
    rw [List.replicate_succ, List.flatten_cons, Nat.mul_zero, Nat.zero_add, List.getD_eq_getElem?_getD, List.getElem?_append_left hi, ← List.getD_eq_getElem?_getD]
  | n + 1, k + 1, h => by
    rw [List.replicate_succ, List.flatten_cons, List.getD_eq_getElem?_getD, List.getElem?_append_right (by rw [Nat.mul_add]; omega),
      ← List.getD_eq_getElem?_getD, show l.length * (k + 1) + i - l.length = l.length * k + i by rw [Nat.mul_add]; omega]
    exact flat_getD l i hi n k (by omega)

theorem codeTable_getD (k i : Nat) (hk : k < 1638) (hi : i < 40) : codeTable.getD (40 * k + i) 0 = (words slot).getD i 0 :=
  flat_getD (words slot) i hi _ k hk

/-- Slot `k` of a table mapped at `T`; parameters are 64 KiB further. -/
theorem static_ok {s : M} {T k data target : Nat} (hk : k < 1638) (hpc : s.pc = T + 40 * k) (hT : s.mem.rd T 65520 = codeTable) (hs : T + 2 ^ 18 ≤ 2 ^ 64)
    (hd : leNat (s.mem.rd (T + 65536 + 40 * k) 8) = data) (ht : leNat (s.mem.rd (T + 65536 + 40 * k + 8) 8) = target) :
    ∃ t, tsteps 9 s = some t ∧ Jumped s t data target := by
  have hw : s.mem.rd s.pc (4 * slot.length) = words slot := by
    apply bytes_ext
    · rw [Mem.rd_length]; rfl
    · intro i hi
      rw [Mem.rd_length] at hi
      have hi : i < 40 := hi
      rw [show 4 * slot.length = 40 from rfl, Mem.rd_getD _ _ _ _ hi, hpc, ← codeTable_getD k i hk hi, ← hT, Mem.rd_getD _ _ _ _ (by omega), Nat.add_assoc]
  refine slot_run (by omega) (rd_word hw (by decide)) ?_ ?_
  · rw [hpc, show T + 40 * k + 65536 = T + 65536 + 40 * k by omega, hd]
  · rw [hpc, show T + 40 * k + 65536 = T + 65536 + 40 * k by omega, ht]

end Verif.Ppc.Asm
