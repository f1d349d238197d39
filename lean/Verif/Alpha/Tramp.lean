import Verif.Alpha.AsmClosure

/-! Trampolines: the code of closures, word by word. -/
namespace Verif.Alpha.Asm
open Verif Verif.Alpha

/-- Execution of instructions that are read from memory, as far as the trampoline contains them; encodings from the
Alpha Architecture Handbook (memory, jump and operate formats; displacements that are not negative). -/
def tstep (s : M) : Option M :=
  let w := leNat (s.mem.rd s.pc 4)
  let ra := w / 2 ^ 21 % 32
  let rb := w / 2 ^ 16 % 32
  if w / 2 ^ 26 = 0x29 ∧ w % 2 ^ 16 < 2 ^ 15 then                                   -- ldq ra,disp(rb)
    some { s with r := upd s.r ra (leNat (s.mem.rd (s.r rb + w % 2 ^ 16) 8)), pc := s.pc + 4 }
  else if w / 2 ^ 26 = 0x11 ∧ w / 2 ^ 5 % 2 ^ 11 = 0x20 ∧ ra = 31 then             -- bis $31,rb,rc: mov
    some { s with r := upd s.r (w % 32) (s.r rb), pc := s.pc + 4 }
  else if w / 2 ^ 26 = 0x1a ∧ ra = 31 ∧ w / 2 ^ 14 % 4 = 0 then                      -- jmp $31,(rb)
    some { s with pc := s.r rb }
  else none

def tsteps : Nat → M → Option M
  | 0, s => some s
  | n + 1, s => (tstep s).bind (tsteps n)

/-- `ffi_prep_closure_loc` with FFI_OSF, src/alpha/ffi.c:325-357; `entry` is the address of `ffi_closure_osf`. The fields are behind
the FFI_TRAMPOLINE_SIZE bytes of `tramp`.  Simplified: `imb`. -/
def prepClosure (m : Mem) (closure entry cif fn user : Nat) : Mem :=
  let m := m.wr closure (leBytes 4 0x47fb0401)
  let m := m.wr (closure + 4) (leBytes 4 0xa77b0010)
  let m := m.wr (closure + 8) (leBytes 4 0x6bfb0000)
  let m := m.wr (closure + 12) (leBytes 4 0x47ff041f)
  let m := m.wr (closure + 16) (leBytes 8 entry)
  let m := m.wr (closure + 24) (leBytes 8 cif)
  let m := m.wr (closure + 32) (leBytes 8 fn)
  m.wr (closure + 40) (leBytes 8 user)

/-- `ffi_prep_go_closure`, src/alpha/ffi.c:359-372. -/
def prepGo (m : Mem) (closure entry cif fn : Nat) : Mem :=
  ((m.wr closure (leBytes 8 entry)).wr (closure + 8) (leBytes 8 cif)).wr (closure + 16) (leBytes 8 fn)

theorem prepClosure_rd (m : Mem) (c e cif fn user : Nat) :
    let p := prepClosure m c e cif fn user
    p.rd c 4 = leBytes 4 0x47fb0401 ∧ p.rd (c + 4) 4 = leBytes 4 0xa77b0010 ∧ p.rd (c + 8) 4 = leBytes 4 0x6bfb0000 ∧
    p.rd (c + 16) 8 = leBytes 8 e ∧ p.rd (c + 24) 8 = leBytes 8 cif ∧ p.rd (c + 32) 8 = leBytes 8 fn ∧ p.rd (c + 40) 8 = leBytes 8 user := by
  dsimp only
  unfold prepClosure
  refine ⟨?_, ?_, ?_, ?_, ?_, ?_, ?_⟩
  all_goals
    repeat rw [Mem.rd_wr_disj _ _ _ _ _ (by rw [leBytes_length]; omega)]
    rw [wr_rd _ _ (leBytes_length _ _)]

theorem prepGo_rd (m : Mem) (c e cif fn : Nat) :
    let p := prepGo m c e cif fn
    p.rd c 8 = leBytes 8 e ∧ p.rd (c + 8) 8 = leBytes 8 cif ∧ p.rd (c + 16) 8 = leBytes 8 fn := by
  dsimp only
  unfold prepGo
  refine ⟨?_, ?_, ?_⟩
  all_goals
    repeat rw [Mem.rd_wr_disj _ _ _ _ _ (by rw [leBytes_length]; omega)]
    rw [wr_rd _ _ (leBytes_length _ _)]

theorem rd_alias {m p : Mem} {a b N : Nat} (h : ∀ i, i < N → m (a + i) = p (b + i)) {o n : Nat} (hn : o + n ≤ N) : m.rd (a + o) n = p.rd (b + o) n := by
  apply List.ext_getElem
  · rw [Mem.rd_length, Mem.rd_length]
  · intro i h1 h2
    rw [Mem.rd_length] at h1
    have e1 := Mem.rd_getD m (a + o) n i h1
    have e2 := Mem.rd_getD p (b + o) n i h1
    rw [List.getD_eq_getElem?_getD, List.getElem?_eq_getElem (by rw [Mem.rd_length]; omega), Option.getD_some] at e1 e2
    rw [e1, e2, Nat.add_assoc, Nat.add_assoc, h _ (by omega)]

/-- What a trampoline changes: $1 and $27. -/
structure Jumped (s t : M) (x e : Nat) : Prop where
  pc : t.pc = e
  pv : t.r 27 = e
  chain : t.r 1 = x
  rest : ∀ k, k ≠ 1 → k ≠ 27 → t.r k = s.r k
  f : t.f = s.f
  mem : t.mem = s.mem

/-- The closure's trampoline: `s.mem` shows, at `x`, the closure that `ffi_prep_closure_loc` wrote at `c`; $27 is the address
that was called. -/
theorem tramp_ok {s : M} {m : Mem} {c x e cif fn user : Nat} (hpc : s.pc = x) (hpv : s.r 27 = x) (he : e < 2 ^ 64)
    (hm : ∀ i, i < 48 → s.mem (x + i) = prepClosure m c e cif fn user (c + i)) : ∃ t, tsteps 3 s = some t ∧ Jumped s t x e := by
  obtain ⟨p0, p1, p2, p3, -⟩ := prepClosure_rd m c e cif fn user
  have q0 : s.mem.rd x 4 = _ := (rd_alias (o := 0) hm (by omega)).trans p0
  have q1 := (rd_alias (o := 4) hm (by omega)).trans p1
  have q2 := (rd_alias (o := 8) hm (by omega)).trans p2
  have q3 := (rd_alias (o := 16) hm (by omega)).trans p3
  have l4 : ∀ v, v < 2 ^ 32 → leNat (leBytes 4 v) = v := fun v hv => by rw [leNat_leBytes]; exact Nat.mod_eq_of_lt hv
  have s1 : tstep s = some { s with r := upd s.r 1 x, pc := x + 4 } := by
    unfold tstep
    rw [hpc, q0, l4 _ (by decide)]
    simp [hpv]
  have s2 : tstep { s with r := upd s.r 1 x, pc := x + 4 } = some { s with r := upd (upd s.r 1 x) 27 e, pc := x + 8 } := by
    unfold tstep
    dsimp only
    rw [q1, l4 _ (by decide)]
    have : leNat (s.mem.rd (x + 16) 8) = e := by rw [q3, leNat8 he]
    simp [upd, hpv, this]
  have s3 : tstep { s with r := upd (upd s.r 1 x) 27 e, pc := x + 8 } = some { s with r := upd (upd s.r 1 x) 27 e, pc := e } := by
    unfold tstep
    dsimp only
    rw [q2, l4 _ (by decide)]
    simp [upd]
  refine ⟨{ s with r := upd (upd s.r 1 x) 27 e, pc := e }, by simp only [tsteps, s1, s2, s3, Option.bind_some], rfl, rfl, rfl, ?_, rfl, rfl⟩
  intro k h1 h2
  simp [upd, h1, h2]

end Verif.Alpha.Asm
