import Verif.M68k.Ffi

/- `ffi_closure_SYSV` and `ffi_closure_struct_SYSV`. -/
namespace Verif.M68k
open Verif Verif.Spec.M68k
open Verif.Or1k (wr_rd be4 beNat_rd_lt)

/-- `ffi_closure_SYSV_inner` is called; `resp` and `args` are its parameters; `k` is where it returns to. -/
structure AtInner (E : Env) (s t : M) (S N k resp : Nat) : Prop where
  pc : t.pc = E.L.fn .inner
  sp : t.a 7 = S - 4 - N - 16
  fp : t.a 6 = S - 4
  ret : t.mem.rd (S - 4 - N - 16) 4 = beBytes 4 (E.L.at_ k)
  closure : t.mem.rd (S - 4 - N - 12) 4 = beBytes 4 (s.a 0)
  resp : t.mem.rd (S - 4 - N - 8) 4 = beBytes 4 resp
  args : t.mem.rd (S - 4 - N - 4) 4 = beBytes 4 (S + 4)
  sfp : t.mem.rd (S - 4) 4 = beBytes 4 (s.a 6)
  frame : ∀ x, x < S - 4 - N - 16 ∨ S ≤ x → t.mem x = s.mem x
  d : t.d = s.d
  a : ∀ r, r ≠ 6 → r ≠ 7 → t.a r = s.a r

theorem run_inner {E : Env} {s : M} {S : Nat} (hp : s.pc = E.lbl .closure) (hS : s.a 7 = S) (h32 : 32 ≤ S) :
    ∃ t, Runs E s t ∧ AtInner E s t S 12 (target E.fpu E.old .closure + 6) (S - 16) := by
  have hc : ∀ x y : Bool, block x y (target x y .closure) [.link 12, .stsp 12, .peaf 8, .peafm 12, .pusha 0] = true ∧ (code x y)[target x y .closure + 5]? = some (.jsr .inner) := by decide +kernel
  obtain ⟨c1, c2⟩ := hc E.fpu E.old
  have r1 := runs_block c1 hp
  generalize e1 : M.mk _ _ _ _ _ _ _ = s1 at r1
  have a1 : s1.a 7 = S - 28 ∧ s1.a 6 = S - 4 ∧ s1.mem = w4 (w4 (w4 (w4 (w4 s.mem (S - 4) (s.a 6)) (S - 16) (S - 16)) (S - 20) (S + 4)) (S - 24) (S - 16)) (S - 28) (s.a 0) ∧
      s1.pc = E.L.at_ (target E.fpu E.old .closure + 5) ∧ s1.d = s.d ∧ ∀ r, r ≠ 6 → r ≠ 7 → s1.a r = s.a r := by
    subst e1
    have e : S - 4 + 8 = S + 4 := by omega
    refine ⟨?_, ?_, ?_, rfl, rfl, fun r h6 h7 => ?_⟩
    · simp [exec, upd, hS, Nat.sub_sub]
    · simp [exec, upd, hS]
    · simp [exec, upd, hS, Nat.sub_sub, e]
    · simp [exec, upd, h6, h7]
  clear e1
  obtain ⟨p1, p2, p3, p4, p5, p6⟩ := a1
  have m1 : (stepIns E (target E.fpu E.old .closure + 5) s1 (.jsr .inner)).mem = w4 s1.mem (S - 32) (E.L.at_ (target E.fpu E.old .closure + 6)) := by
    simp only [stepIns, p1, Nat.sub_sub, Nat.add_assoc]
  refine ⟨_, r1.trans (step_at p4 c2), rfl, ?_, ?_, ?_, ?_, ?_, ?_, ?_, ?_, p5, fun r h6 h7 => ?_⟩
  · simp [stepIns, upd, p1]; omega
  · simp [stepIns, upd, p2]
  · rw [m1, show S - 4 - 12 - 16 = S - 32 by omega]; exact rd_w4_same _ _ _
  · rw [m1, show S - 4 - 12 - 12 = S - 28 by omega, rd_w4 (by omega), p3]; exact rd_w4_same _ _ _
  · rw [m1, show S - 4 - 12 - 8 = S - 24 by omega, rd_w4 (by omega), p3, rd_w4 (by omega)]; exact rd_w4_same _ _ _
  · rw [m1, show S - 4 - 12 - 4 = S - 20 by omega, rd_w4 (by omega), p3, rd_w4 (by omega), rd_w4 (by omega)]; exact rd_w4_same _ _ _
  · rw [m1, rd_w4 (by omega), p3, rd_w4 (by omega), rd_w4 (by omega), rd_w4 (by omega), rd_w4 (by omega)]; exact rd_w4_same _ _ _
  · intro x hx
    rw [m1, w4_out (by omega), p3, w4_out (by omega), w4_out (by omega), w4_out (by omega), w4_out (by omega), w4_out (by omega)]
  · simp [stepIns, upd, h7, p6 r h6 h7]

/-- `ffi_closure_struct_SYSV`: the address of the result comes from a1.  `move.l %sp,-12(%fp)` is overwritten. -/
theorem run_inner_struct {E : Env} {s : M} {S : Nat} (hp : s.pc = E.lbl .cstruct) (hS : s.a 7 = S) (h32 : 32 ≤ S) :
    ∃ t, Runs E s t ∧ AtInner E s t S 0 (target E.fpu E.old .cstruct + 6) (s.a 1) := by
  have hc : ∀ x y : Bool, block x y (target x y .cstruct) [.link 0, .stsp 12, .peaf 8, .pusha 1, .pusha 0] = true ∧ (code x y)[target x y .cstruct + 5]? = some (.jsr .inner) := by decide +kernel
  obtain ⟨c1, c2⟩ := hc E.fpu E.old
  have r1 := runs_block c1 hp
  generalize e1 : M.mk _ _ _ _ _ _ _ = s1 at r1
  have a1 : s1.a 7 = S - 16 ∧ s1.a 6 = S - 4 ∧ s1.mem = w4 (w4 (w4 (w4 (w4 s.mem (S - 4) (s.a 6)) (S - 16) (S - 4)) (S - 8) (S + 4)) (S - 12) (s.a 1)) (S - 16) (s.a 0) ∧
      s1.pc = E.L.at_ (target E.fpu E.old .cstruct + 5) ∧ s1.d = s.d ∧ ∀ r, r ≠ 6 → r ≠ 7 → s1.a r = s.a r := by
    subst e1
    have e : S - 4 + 8 = S + 4 := by omega
    refine ⟨?_, ?_, ?_, rfl, rfl, fun r h6 h7 => ?_⟩
    · simp [exec, upd, hS, Nat.sub_sub]
    · simp [exec, upd, hS]
    · simp [exec, upd, hS, Nat.sub_sub, e]
    · simp [exec, upd, h6, h7]
  clear e1
  obtain ⟨p1, p2, p3, p4, p5, p6⟩ := a1
  have m1 : (stepIns E (target E.fpu E.old .cstruct + 5) s1 (.jsr .inner)).mem = w4 s1.mem (S - 20) (E.L.at_ (target E.fpu E.old .cstruct + 6)) := by
    simp only [stepIns, p1, Nat.sub_sub, Nat.add_assoc]
  refine ⟨_, r1.trans (step_at p4 c2), rfl, ?_, ?_, ?_, ?_, ?_, ?_, ?_, ?_, p5, fun r h6 h7 => ?_⟩
  · simp [stepIns, upd, p1]; omega
  · simp [stepIns, upd, p2]
  · rw [m1, show S - 4 - 0 - 16 = S - 20 by omega]; exact rd_w4_same _ _ _
  · rw [m1, show S - 4 - 0 - 12 = S - 16 by omega, rd_w4 (by omega), p3]; exact rd_w4_same _ _ _
  · rw [m1, show S - 4 - 0 - 8 = S - 12 by omega, rd_w4 (by omega), p3, rd_w4 (by omega)]; exact rd_w4_same _ _ _
  · rw [m1, show S - 4 - 0 - 4 = S - 8 by omega, rd_w4 (by omega), p3, rd_w4 (by omega), rd_w4 (by omega)]; exact rd_w4_same _ _ _
  · rw [m1, rd_w4 (by omega), p3, rd_w4 (by omega), rd_w4 (by omega), rd_w4 (by omega), rd_w4 (by omega)]; exact rd_w4_same _ _ _
  · intro x hx
    rw [m1, w4_out (by omega), p3, w4_out (by omega), w4_out (by omega), w4_out (by omega), w4_out (by omega), w4_out (by omega)]
  · simp [stepIns, upd, h7, p6 r h6 h7]

/-- `lsr`, `jne`: more bits are left. -/
theorem lsr_ne {E : Env} {s : M} {k n : Nat} {l : Lbl} (hp : s.pc = E.L.at_ k) (hb : block E.fpu E.old k [.lsr n] = true) (hc : (code E.fpu E.old)[k + 1]? = some (.bne l))
    (h : s.d 0 / 2 ^ n ≠ 0) : ∃ c, Runs E s { s with d := upd s.d 0 (s.d 0 / 2 ^ n), z := false, c := c, pc := E.lbl l } := by
  have r1 := runs_block hb hp
  have r2 := step_at (E := E) (s := { [Ins.lsr n].foldl (exec E.F) s with pc := E.L.at_ (k + 1) }) rfl hc
  refine ⟨s.d 0 / 2 ^ (n - 1) % 2 == 1, r1.trans ?_⟩
  have : (s.d 0 / 2 ^ n == 0) = false := by simpa using h
  simp only [List.foldl_cons, List.foldl_nil, exec, stepIns, this] at r2 ⊢
  exact r2

/-- `lsr`, `jne`: the last bit was found; what is tested next is C. -/
theorem lsr_eq {E : Env} {s : M} {k n : Nat} {l : Lbl} (hp : s.pc = E.L.at_ k) (hb : block E.fpu E.old k [.lsr n] = true) (hc : (code E.fpu E.old)[k + 1]? = some (.bne l))
    (h : s.d 0 / 2 ^ n = 0) : Runs E s { s with d := upd s.d 0 0, z := true, c := s.d 0 / 2 ^ (n - 1) % 2 == 1, pc := E.L.at_ (k + 2) } := by
  have r1 := runs_block hb hp
  have r2 := step_at (E := E) (s := { [Ins.lsr n].foldl (exec E.F) s with pc := E.L.at_ (k + 1) }) rfl hc
  refine r1.trans ?_
  simp only [List.foldl_cons, List.foldl_nil, exec, stepIns, h] at r2 ⊢
  exact r2

/-- Where the flags are shifted for the `j`-th time after the first. -/
def stage (x y : Bool) : Nat → Nat
  | 0 => target x y (.next 0) + 1
  | j => target x y (.next j)

/-- Where C leads to. -/
def onCarry : Nat → Lbl
  | 0 => .cfloat
  | 1 => .cldouble
  | 2 => .cstruct1
  | _ => .csint8

/-- What is done for bit `n` of the flags, src/m68k/sysv.S:247-324. -/
def cbody (fpu old : Bool) : Nat → List Ins
  | 0 => [.ldfmd 12 0]
  | 1 => [.ldi 0, .ld 1]
  | 2 => if fpu then [.flds] else [.ld 0]
  | 3 => if fpu then [.fldd] else [.ldi 0, .ld 1]
  | 4 => if fpu then [.fldx] else [.ldi 0, .ldi 1, .ld 2]
  | 5 => [.lda, .movd]
  | 6 => [.ldb]
  | 7 => [.ldw]
  | 8 => .ld 0 :: (if old then [.extw, .extl] else [.extbl])
  | _ => [.ld 0, .extl]

/-- Where it is done. -/
def cidx (x y : Bool) (n : Nat) : Nat :=
  if n = 0 then target x y .closure + 9
  else if n = 9 then target x y (.next 4)
  else if n % 2 = 1 then stage x y (n / 2) + 3
  else target x y (onCarry (n / 2 - 1))

/-- The code of the cases, for all processors. -/
theorem closure_code : ∀ x y : Bool,
    (block x y (target x y .closure + 6) [.lsr 1] = true ∧ (code x y)[target x y .closure + 7]? = some (.bne (.next 0)) ∧ (code x y)[target x y .closure + 8]? = some (.bcc .cepi)) ∧
    block x y (target x y (.next 0)) [.lea 12] = true ∧
    (∀ j < 4, block x y (stage x y j) [.lsr 2] = true ∧ (code x y)[stage x y j + 1]? = some (.bne (.next (j + 1))) ∧ (code x y)[stage x y j + 2]? = some (.bcs (onCarry j))) ∧
    (∀ n < 10, block x y (cidx x y n) (cbody x y n) = true ∧
      (if n = 0 then target x y .cepi = cidx x y n + (cbody x y n).length else (code x y)[cidx x y n + (cbody x y n).length]? = some (.bra .cepi))) ∧
    block x y (target x y .cepi) [.unlk] = true ∧ (code x y)[target x y .cepi + 1]? = some .rts := by
  decide +kernel

/-- On the way to the case of bit `n`. -/
structure Way (p s : M) (S i d0 : Nat) (E : Env) : Prop where
  pc : s.pc = E.L.at_ i
  d0 : s.d 0 = d0
  d : ∀ r, r ≠ 0 → s.d r = p.d r
  a0 : s.a 0 = S - 16
  a : ∀ r, r ≠ 0 → s.a r = p.a r
  mem : s.mem = p.mem
  fp0 : s.fp0 = p.fp0

theorem run_stage {E : Env} {p : M} {S n : Nat} (hp : p.pc = E.L.at_ (target E.fpu E.old .closure + 6)) (h6 : p.a 6 = S - 4) (hd : p.d 0 = 2 ^ n) (hn : n < 10) :
    ∀ j, j ≤ 4 → 2 * j + 1 ≤ n → ∃ s, Runs E p s ∧ Way p s S (stage E.fpu E.old j) (2 ^ (n - 1 - 2 * j)) E
  | 0, _, h1 => by
    obtain ⟨⟨c1, c2, _⟩, c3, _⟩ := closure_code E.fpu E.old
    have e : p.d 0 / 2 ^ 1 = 2 ^ (n - 1) := by
      rw [hd]
      exact Nat.pow_div (by omega) (by omega)
    obtain ⟨c, r⟩ := lsr_ne hp c1 c2 (by rw [e]; exact Nat.pos_iff_ne_zero.1 (Nat.two_pow_pos _))
    rw [e] at r
    have r2 := runs_block (E := E) (s := { p with d := upd p.d 0 (2 ^ (n - 1)), z := false, c := c, pc := E.lbl (.next 0) }) c3 rfl
    refine ⟨_, r.trans r2, rfl, ?_, fun r hr => ?_, ?_, fun r hr => ?_, rfl, rfl⟩
    · simp [exec, upd]
    · simp [exec, upd, hr]
    · simp [exec, upd, h6, Nat.sub_sub]
    · simp [exec, upd, hr]
  | j + 1, hj, h1 => by
    obtain ⟨s, r, w⟩ := run_stage hp h6 hd hn j (by omega) (by omega)
    obtain ⟨_, _, c3, _⟩ := closure_code E.fpu E.old
    obtain ⟨c1, c2, _⟩ := c3 j (by omega)
    have e : s.d 0 / 2 ^ 2 = 2 ^ (n - 1 - 2 * (j + 1)) := by
      rw [w.d0, Nat.pow_div (by omega) (by omega)]
      congr 1
    obtain ⟨c, r2⟩ := lsr_ne w.pc c1 c2 (by rw [e]; exact Nat.pos_iff_ne_zero.1 (Nat.two_pow_pos _))
    rw [e] at r2
    refine ⟨_, r.trans r2, rfl, ?_, fun r hr => ?_, w.a0, w.a, w.mem, w.fp0⟩
    · simp [upd]
    · simp [upd, hr, w.d r hr]

/-- The case of bit `n` is reached. -/
theorem run_case {E : Env} {p : M} {S n : Nat} (hp : p.pc = E.L.at_ (target E.fpu E.old .closure + 6)) (h6 : p.a 6 = S - 4) (hd : p.d 0 = 2 ^ n) (hn : n < 10) (h0 : n ≠ 0) :
    ∃ s d0, Runs E p s ∧ Way p s S (cidx E.fpu E.old n) d0 E ∧ (n ≠ 9 → d0 = 0) := by
  by_cases h9 : n = 9
  · subst h9
    obtain ⟨s, r, w⟩ := run_stage hp h6 hd hn 4 (by omega) (by omega)
    exact ⟨s, _, r, w, fun h => absurd rfl h⟩
  · obtain ⟨_, _, c3, _⟩ := closure_code E.fpu E.old
    have hj : (n - 1) / 2 < 4 := by omega
    obtain ⟨s, r, w⟩ := run_stage hp h6 hd hn ((n - 1) / 2) (by omega) (by omega)
    obtain ⟨c1, c2, c4⟩ := c3 _ hj
    by_cases ho : n % 2 = 1
    · have e1 : n - 1 - 2 * ((n - 1) / 2) = 0 := by omega
      rw [e1] at w
      have hz : s.d 0 / 2 ^ 2 = 0 := by rw [w.d0]; rfl
      have hcar : (s.d 0 / 2 ^ (2 - 1) % 2 == 1) = false := by rw [w.d0]; rfl
      have r2 := lsr_eq w.pc c1 c2 hz
      rw [hcar] at r2
      have r3 := step_at (E := E) (s := { s with d := upd s.d 0 0, z := true, c := false, pc := E.L.at_ (stage E.fpu E.old ((n - 1) / 2) + 2) }) rfl c4
      refine ⟨_, 0, r.trans (r2.trans r3), ⟨?_, ?_, fun r hr => ?_, w.a0, w.a, w.mem, w.fp0⟩, fun _ => rfl⟩
      · show E.L.at_ _ = _
        rw [cidx, if_neg h0, if_neg h9, if_pos ho, show n / 2 = (n - 1) / 2 by omega]
      · simp [stepIns, upd]
      · simp [stepIns, upd, hr, w.d r hr]
    · have e1 : n - 1 - 2 * ((n - 1) / 2) = 1 := by omega
      rw [e1] at w
      have hz : s.d 0 / 2 ^ 2 = 0 := by rw [w.d0]; rfl
      have hcar : (s.d 0 / 2 ^ (2 - 1) % 2 == 1) = true := by rw [w.d0]; rfl
      have r2 := lsr_eq w.pc c1 c2 hz
      rw [hcar] at r2
      have r3 := step_at (E := E) (s := { s with d := upd s.d 0 0, z := true, c := true, pc := E.L.at_ (stage E.fpu E.old ((n - 1) / 2) + 2) }) rfl c4
      refine ⟨_, 0, r.trans (r2.trans r3), ⟨?_, ?_, fun r hr => ?_, w.a0, w.a, w.mem, w.fp0⟩, fun _ => rfl⟩
      · show E.L.at_ _ = _
        rw [cidx, if_neg h0, if_neg h9, if_neg ho, show n / 2 - 1 = (n - 1) / 2 by omega]
      · simp [stepIns, upd]
      · simp [stepIns, upd, hr, w.d r hr]

/-- What is in the registers; the result of the handler is at `a`. -/
def Loaded (E : Env) (n : Nat) (m : Mem) (a : Nat) (r : Res) : Prop :=
  match n with
  | 0 => r.d0 = r4 m a
  | 1 => r.d0 = r4 m a ∧ r.d1 = r4 m (a + 4)
  | 2 => if E.fpu then r.fp0 = E.F.lds (m.rd a 4) else r.d0 = r4 m a
  | 3 => if E.fpu then r.fp0 = E.F.ldd (m.rd a 8) else r.d0 = r4 m a ∧ r.d1 = r4 m (a + 4)
  | 4 => if E.fpu then r.fp0 = E.F.ldx (m.rd a 12) else r.d0 = r4 m a ∧ r.d1 = r4 m (a + 4) ∧ r.d2 = r4 m (a + 8)
  | 5 => r.a0 = r4 m a ∧ r.d0 = r4 m a
  | 6 => r.d0 = beNat (m.rd a 1)
  | 7 => r.d0 = beNat (m.rd a 2)
  | 8 => r.d0 = ext8to32 (r4 m a)
  | _ => r.d0 = ext16to32 (r4 m a)

/-- What the cases change. -/
structure CKept (E : Env) (n : Nat) (s t : M) : Prop where
  a : ∀ r, r ≠ 0 → t.a r = s.a r
  d : ∀ r, 2 ≤ r → (r = 2 → n ≠ 4 ∨ E.fpu = true) → t.d r = s.d r
  mem : t.mem = s.mem

theorem cbody_ok (E : Env) (n : Nat) (s : M) {a : Nat} (h6 : s.a 6 = a + 12) (h0 : n ≠ 0 → s.a 0 = a) (hz : n = 6 ∨ n = 7 → s.d 0 = 0) :
    CKept E n s ((cbody E.fpu E.old n).foldl (exec E.F) s) ∧
      Loaded E n s.mem a ⟨((cbody E.fpu E.old n).foldl (exec E.F) s).d 0, ((cbody E.fpu E.old n).foldl (exec E.F) s).d 1, ((cbody E.fpu E.old n).foldl (exec E.F) s).d 2,
        ((cbody E.fpu E.old n).foldl (exec E.F) s).a 0, ((cbody E.fpu E.old n).foldl (exec E.F) s).fp0⟩ := by
  obtain ⟨fpu, old, F, L⟩ := E
  dsimp only
  by_cases hn : n = 0
  · subst hn
    refine ⟨⟨fun r hr => rfl, fun r h2 _ => ?_, rfl⟩, ?_⟩
    · simp [cbody, exec, upd]; omega
    · simp [Loaded, cbody, exec, upd, h6]
  · have h0 := h0 hn
    unfold cbody Loaded
    split <;> (try cases fpu) <;> (try cases old) <;> refine ⟨⟨fun r hr => ?_, fun r h2 h4 => ?_, ?_⟩, ?_⟩ <;>
      first
      | (simp_all [exec, upd, ext_twice]; done)
      | (simp_all [exec, upd, ext_twice]; omega)
      | (simp_all [exec, upd, ext_twice]; rw [if_neg (by omega), if_neg (by omega)])

/-- `ffi_closure_SYSV` has returned. -/
structure CDone (E : Env) (p z : M) (S n oldfp ret : Nat) : Prop where
  pc : z.pc = ret
  sp : z.a 7 = S + 4
  fp : z.a 6 = oldfp
  a : ∀ r, r ≠ 0 → r ≠ 6 → r ≠ 7 → z.a r = p.a r
  d : ∀ r, 2 ≤ r → (r = 2 → n ≠ 4 ∨ E.fpu = true) → z.d r = p.d r
  mem : z.mem = p.mem

theorem run_cepi {E : Env} {p t : M} {S n oldfp ret : Nat} (hS : 4 ≤ S) (hp : t.pc = E.lbl .cepi) (h6 : t.a 6 = S - 4) (hm : t.mem = p.mem)
    (ha : ∀ r, r ≠ 0 → r ≠ 6 → r ≠ 7 → t.a r = p.a r) (hd : ∀ r, 2 ≤ r → (r = 2 → n ≠ 4 ∨ E.fpu = true) → t.d r = p.d r)
    (hf : p.mem.rd (S - 4) 4 = beBytes 4 oldfp) (hr : p.mem.rd S 4 = beBytes 4 ret) (ofp : oldfp < 2 ^ 32) (ora : ret < 2 ^ 32) :
    ∃ z, Runs E t z ∧ CDone E p z S n oldfp ret ∧ z.d = t.d ∧ z.a 0 = t.a 0 ∧ z.fp0 = t.fp0 := by
  obtain ⟨_, _, _, _, c1, c2⟩ := closure_code E.fpu E.old
  have r1 := runs_block c1 hp
  have r2 := step_at (E := E) (s := { [Ins.unlk].foldl (exec E.F) t with pc := E.L.at_ (target E.fpu E.old .cepi + 1) }) rfl c2
  have e1 : S - 4 + 4 = S := by omega
  refine ⟨_, r1.trans r2, ⟨?_, ?_, ?_, fun r h1 h6' h7' => ?_, fun r h0 h2' => ?_, hm⟩, rfl, ?_, rfl⟩
  · simp [stepIns, exec, upd, h6, hm, e1, r4_of hr ora]
  · simp [stepIns, exec, upd, h6, e1]
  · simp [stepIns, exec, upd, h6, hm, r4_of hf ofp]
  · simp [stepIns, exec, upd, h6', h7', ha r h1 h6' h7']
  · simp [stepIns, exec, hd r h0 h2']
  · simp [stepIns, exec, upd]

/-- From the return of `ffi_closure_SYSV_inner` to the return of `ffi_closure_SYSV`. -/
theorem run_cret {E : Env} {p : M} {S oldfp ret f : Nat} (hS : 32 ≤ S) (hp : p.pc = E.L.at_ (target E.fpu E.old .closure + 6)) (h6 : p.a 6 = S - 4) (hd : p.d 0 = f)
    (hf : p.mem.rd (S - 4) 4 = beBytes 4 oldfp) (hr : p.mem.rd S 4 = beBytes 4 ret) (ofp : oldfp < 2 ^ 32) (ora : ret < 2 ^ 32) :
    (f = 0 → ∃ z, Runs E p z ∧ CDone E p z S 0 oldfp ret) ∧
      ∀ n, n < 10 → f = 2 ^ n → ∃ z, Runs E p z ∧ CDone E p z S n oldfp ret ∧ Loaded E n p.mem (S - 16) ⟨z.d 0, z.d 1, z.d 2, z.a 0, z.fp0⟩ := by
  obtain ⟨⟨c1, c2, c3⟩, _, _, c4, _⟩ := closure_code E.fpu E.old
  refine ⟨fun h0 => ?_, fun n hn hfn => ?_⟩
  · have hz : p.d 0 / 2 ^ 1 = 0 := by rw [hd, h0]; rfl
    have hcar : (p.d 0 / 2 ^ (1 - 1) % 2 == 1) = false := by rw [hd, h0]; rfl
    have r2 := lsr_eq hp c1 c2 hz
    rw [hcar] at r2
    have r3 := step_at (E := E) (s := { p with d := upd p.d 0 0, z := true, c := false, pc := E.L.at_ (target E.fpu E.old .closure + 6 + 2) }) rfl c3
    have r := r2.trans r3
    generalize e : stepIns E _ _ _ = t at r
    have ht : t.pc = E.lbl .cepi ∧ t.a = p.a ∧ t.mem = p.mem ∧ ∀ r, 2 ≤ r → t.d r = p.d r := by
      subst e
      exact ⟨rfl, rfl, rfl, fun r h => by simp [stepIns, upd]; omega⟩
    obtain ⟨z, rz, dz, _⟩ := run_cepi (E := E) (p := p) (n := 0) (by omega) ht.1 (by rw [ht.2.1]; exact h6) ht.2.2.1 (fun r _ _ _ => by rw [ht.2.1]) (fun r h _ => ht.2.2.2 r h) hf hr ofp ora
    exact ⟨z, r.trans rz, dz⟩
  · obtain ⟨s, r, hpc, hmem, ha, ha0, hd0, hdd⟩ : ∃ s, Runs E p s ∧ s.pc = E.L.at_ (cidx E.fpu E.old n) ∧ s.mem = p.mem ∧ (∀ r, r ≠ 0 → s.a r = p.a r) ∧ (n ≠ 0 → s.a 0 = S - 16) ∧
        (n = 6 ∨ n = 7 → s.d 0 = 0) ∧ ∀ r, 2 ≤ r → s.d r = p.d r := by
      by_cases h0 : n = 0
      · subst h0
        have hz : p.d 0 / 2 ^ 1 = 0 := by rw [hd, hfn]; rfl
        have hcar : (p.d 0 / 2 ^ (1 - 1) % 2 == 1) = true := by rw [hd, hfn]; rfl
        have r2 := lsr_eq hp c1 c2 hz
        rw [hcar] at r2
        have r3 := step_at (E := E) (s := { p with d := upd p.d 0 0, z := true, c := true, pc := E.L.at_ (target E.fpu E.old .closure + 6 + 2) }) rfl c3
        exact ⟨_, r2.trans r3, rfl, rfl, fun _ _ => rfl, fun h => absurd rfl h, fun h => by omega, fun r h => by simp [stepIns, upd]; omega⟩
      · obtain ⟨s, d0, r, w, hz⟩ := run_case hp h6 (hd.trans hfn) hn h0
        exact ⟨s, r, w.pc, w.mem, w.a, fun _ => w.a0, fun h => by rw [w.d0, hz (by omega)], fun r h => w.d r (by omega)⟩
    obtain ⟨k1, k2⟩ := c4 n hn
    have r2 := runs_block k1 hpc
    obtain ⟨kk, kl⟩ := cbody_ok E n s (a := S - 16) (by rw [ha 6 (by omega), h6]; omega) ha0 hd0
    obtain ⟨t, r3, t1, t2, t3, t4, t5⟩ : ∃ t, Runs E s t ∧ t.pc = E.lbl .cepi ∧ t.mem = s.mem ∧ (∀ r, r ≠ 0 → t.a r = s.a r) ∧ (∀ r, 2 ≤ r → (r = 2 → n ≠ 4 ∨ E.fpu = true) → t.d r = s.d r) ∧
        Loaded E n s.mem (S - 16) ⟨t.d 0, t.d 1, t.d 2, t.a 0, t.fp0⟩ := by
      by_cases h0 : n = 0
      · rw [if_pos h0] at k2
        exact ⟨_, r2, by show E.L.at_ _ = E.L.at_ _; rw [k2], kk.mem, kk.a, kk.d, kl⟩
      · rw [if_neg h0] at k2
        exact ⟨_, r2.trans (step_at rfl k2), rfl, kk.mem, kk.a, kk.d, kl⟩
    obtain ⟨z, rz, dz, z1, z2, z3⟩ := run_cepi (E := E) (p := p) (n := n) (by omega) t1 (by rw [t3 6 (by omega), ha 6 (by omega), h6]) (t2.trans hmem)
      (fun r h _ _ => (t3 r h).trans (ha r h)) (fun r h h4 => (t4 r h h4).trans (hdd r h)) hf hr ofp ora
    refine ⟨z, r.trans (r3.trans rz), dz, ?_⟩
    rw [z1, z2, z3, ← hmem]
    exact t5

/-- From the return of `ffi_closure_SYSV_inner` to the return of `ffi_closure_struct_SYSV`. -/
theorem run_cret_struct {E : Env} {p : M} {S oldfp ret : Nat} (hS : 4 ≤ S) (hp : p.pc = E.L.at_ (target E.fpu E.old .cstruct + 6)) (h6 : p.a 6 = S - 4)
    (hf : p.mem.rd (S - 4) 4 = beBytes 4 oldfp) (hr : p.mem.rd S 4 = beBytes 4 ret) (ofp : oldfp < 2 ^ 32) (ora : ret < 2 ^ 32) :
    ∃ z, Runs E p z ∧ CDone E p z S 0 oldfp ret := by
  have hc : ∀ x y : Bool, block x y (target x y .cstruct + 6) [.unlk] = true ∧ (code x y)[target x y .cstruct + 7]? = some .rts := by decide +kernel
  obtain ⟨c1, c2⟩ := hc E.fpu E.old
  have r1 := runs_block c1 hp
  have r2 := step_at (E := E) (s := { [Ins.unlk].foldl (exec E.F) p with pc := E.L.at_ (target E.fpu E.old .cstruct + 6 + 1) }) rfl c2
  have e1 : S - 4 + 4 = S := by omega
  refine ⟨_, r1.trans r2, ?_, ?_, ?_, fun r h1 h6' h7' => ?_, fun r h0 h2' => rfl, rfl⟩
  · simp [stepIns, exec, upd, h6, e1, r4_of hr ora]
  · simp [stepIns, exec, upd, h6, e1]
  · simp [stepIns, exec, upd, h6, r4_of hf ofp]
  · simp [stepIns, exec, upd, h6', h7']

end Verif.M68k
