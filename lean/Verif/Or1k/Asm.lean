import Verif.Or1k.Call

/-
`ffi_call_SYSV`, src/or1k/sysv.S:44-107, instruction by instruction.  Instructions have four bytes.  The delay slot of every jump and branch
holds `l.nop`: jumps act at once, and calls return behind the delay slot.

Simplified: code is not read from memory; addresses do not wrap around.
-/
namespace Verif.Or1k
open Verif Verif.Spec.Or1k

inductive Lbl
  | four | ret
  deriving DecidableEq, Repr

inductive Ins
  | sw (k b a : Nat)      -- l.sw k(rb),ra
  | swm (k b a : Nat)     -- l.sw -k(rb),ra
  | lwz (d k b : Nat)     -- l.lwz rd,k(rb)
  | lwzm (d k b : Nat)    -- l.lwz rd,-k(rb)
  | mov (d a : Nat)       -- l.ori rd,ra,0
  | subi (d a k : Nat)    -- l.addi rd,ra,-k
  | sub (d a b : Nat)
  | sfeqi (a k : Nat)
  | nop
  | bf (l : Lbl)
  | bnf (l : Lbl)
  | jalr (a : Nat)
  | jr (a : Nat)
  deriving DecidableEq, Repr

inductive Item
  | i (i : Ins)
  | l (l : Lbl)
  deriving DecidableEq, Repr

/-- src/or1k/sysv.S:44-105. -/
def items : List Item :=
  [.i (.swm 4 1 9), .i (.swm 8 1 1), .i (.swm 12 1 14), .i (.swm 16 1 16), .i (.swm 20 1 18), .i (.swm 24 1 20),
   .i (.mov 14 1), .i (.subi 1 1 24), .i (.mov 16 7), .i (.mov 18 6), .i (.mov 20 8), .i (.sub 1 1 3),
   .i (.mov 3 1), .i (.jalr 5), .i .nop,
   .i (.lwz 3 0 1), .i (.lwz 4 4 1), .i (.lwz 5 8 1), .i (.lwz 6 12 1), .i (.lwz 7 16 1), .i (.lwz 8 20 1),
   .i (.mov 1 11), .i (.jalr 16), .i .nop,
   .i (.sfeqi 20 13), .i (.bf .ret), .i .nop,
   .i (.sfeqi 20 11), .i (.bnf .four), .i .nop,
   .i (.sw 4 18 12),
   .l .four, .i (.sw 0 18 11),
   .l .ret, .i (.mov 1 14), .i (.lwzm 9 4 1), .i (.lwzm 1 8 1), .i (.lwzm 14 12 1), .i (.lwzm 16 16 1), .i (.lwzm 18 20 1), .i (.lwzm 20 24 1),
   .i (.jr 9), .i .nop]

def code : List Ins := items.filterMap fun | .i i => some i | .l _ => none

/-- The index of the instruction behind the label. -/
def target (l : Lbl) : Nat := ((items.takeWhile (· ≠ .l l)).filter fun | .i _ => true | .l _ => false).length

structure M where
  r : Nat → Nat
  flag : Bool
  mem : Mem
  pc : Nat

def upd (f : Nat → Nat) (k v : Nat) : Nat → Nat := fun x => if x = k then v else f x

/-- Instructions that do not branch. -/
def exec (s : M) : Ins → M
  | .sw k b a => { s with mem := s.mem.wr (s.r b + k) (beBytes 4 (s.r a)) }
  | .swm k b a => { s with mem := s.mem.wr (s.r b - k) (beBytes 4 (s.r a)) }
  | .lwz d k b => { s with r := upd s.r d (beNat (s.mem.rd (s.r b + k) 4)) }
  | .lwzm d k b => { s with r := upd s.r d (beNat (s.mem.rd (s.r b - k) 4)) }
  | .mov d a => { s with r := upd s.r d (s.r a) }
  | .subi d a k => { s with r := upd s.r d (s.r a - k) }
  | .sub d a b => { s with r := upd s.r d (s.r a - s.r b) }
  | .sfeqi a k => { s with flag := s.r a == k }
  | _ => s

/-- What an instruction does. -/
def stepIns (L : Nat) (s : M) : Ins → M
  | .bf l => { s with pc := if s.flag then L + 4 * target l else s.pc + 4 }
  | .bnf l => { s with pc := if s.flag then s.pc + 4 else L + 4 * target l }
  | .jalr a => { s with r := upd s.r 9 (s.pc + 8), pc := s.r a }
  | .jr a => { s with pc := s.r a }
  | i => { exec s i with pc := s.pc + 4 }

/-- One step; the code starts at `L`. -/
def step (L : Nat) (s : M) : Option M :=
  if s.pc < L ∨ (s.pc - L) % 4 ≠ 0 then none
  else (code[(s.pc - L) / 4]?).map (stepIns L s)

inductive Runs (L : Nat) : M → M → Prop
  | refl (s : M) : Runs L s s
  | cons {s t u : M} : step L s = some t → Runs L t u → Runs L s u

theorem Runs.trans {L : Nat} {s t u : M} (h : Runs L s t) (k : Runs L t u) : Runs L s u := by
  induction h with
  | refl => exact k
  | cons h _ ih => exact .cons h (ih k)

def plain : Ins → Bool
  | .bf _ | .bnf _ | .jalr _ | .jr _ => false
  | _ => true

/-- The instructions are in the code from index `k` on. -/
def block : Nat → List Ins → Bool
  | _, [] => true
  | k, i :: is => code[k]? == some i && plain i && block (k + 1) is

theorem foldl_pc : ∀ (is : List Ins) (s : M) (p : Nat), is.foldl exec { s with pc := p } = { is.foldl exec s with pc := p }
  | [], _, _ => rfl
  | i :: is, s, p => by
    rw [List.foldl_cons, List.foldl_cons, ← foldl_pc is]
    cases i <;> rfl

theorem runs_block {L : Nat} {is : List Ins} : ∀ {k : Nat} {s : M}, block k is = true → s.pc = L + 4 * k →
    Runs L s { is.foldl exec s with pc := L + 4 * (k + is.length) } := by
  induction is with
  | nil =>
    intro k s _ hp
    have : ({ s with pc := L + 4 * (k + ([] : List Ins).length) } : M) = s := by cases s; simp_all
    rw [List.foldl_nil, this]
    exact .refl s
  | cons i is ih =>
    intro k s hb hp
    simp only [block, Bool.and_eq_true, beq_iff_eq] at hb
    obtain ⟨⟨h1, h2⟩, h3⟩ := hb
    have hs : step L s = some { exec s i with pc := s.pc + 4 } := by
      unfold step
      rw [if_neg (by omega), show (s.pc - L) / 4 = k by omega, h1]
      cases i <;> first | rfl | cases h2
    refine .cons hs ?_
    have ih := ih (s := { exec s i with pc := s.pc + 4 }) h3 (by show s.pc + _ = _; omega)
    rw [foldl_pc] at ih
    rw [List.foldl_cons, show L + 4 * (k + (i :: is).length) = L + 4 * (k + 1 + is.length) by simp only [List.length_cons]; omega]
    exact ih

theorem step_at {L k : Nat} {s : M} (hp : s.pc = L + 4 * k) {i : Ins} (hi : code[k]? = some i) : step L s = some (stepIns L s i) := by
  unfold step
  rw [if_neg (by omega), show (s.pc - L) / 4 = k by omega, hi]
  rfl

/-- Memory when `ffi_prep_args` is called. -/
def savedMem (s : M) : Mem :=
  (((((s.mem.wr (s.r 1 - 4) (beBytes 4 (s.r 9))).wr (s.r 1 - 8) (beBytes 4 (s.r 1))).wr (s.r 1 - 12) (beBytes 4 (s.r 14))).wr (s.r 1 - 16) (beBytes 4 (s.r 16))).wr
    (s.r 1 - 20) (beBytes 4 (s.r 18))).wr (s.r 1 - 24) (beBytes 4 (s.r 20))

/-- `ffi_prep_args` is called. -/
structure AtPrep (L : Nat) (s t : M) : Prop where
  pc : t.pc = s.r 5
  ra : t.r 9 = L + 60
  base : t.r 3 = s.r 1 - 24 - s.r 3
  ecif : t.r 4 = s.r 4
  sp : t.r 1 = s.r 1 - 24 - s.r 3
  r14 : t.r 14 = s.r 1
  r16 : t.r 16 = s.r 7
  r18 : t.r 18 = s.r 6
  r20 : t.r 20 = s.r 8
  rest : ∀ k, k = 2 ∨ k = 10 ∨ k = 22 ∨ k = 24 ∨ k = 26 ∨ k = 28 ∨ k = 30 → t.r k = s.r k
  mem : t.mem = savedMem s

def seg1 : List Ins := [.swm 4 1 9, .swm 8 1 1, .swm 12 1 14, .swm 16 1 16, .swm 20 1 18, .swm 24 1 20, .mov 14 1, .subi 1 1 24, .mov 16 7, .mov 18 6, .mov 20 8, .sub 1 1 3, .mov 3 1]

theorem call_prep {L : Nat} {s : M} (hp : s.pc = L) : ∃ t, Runs L s t ∧ AtPrep L s t := by
  have h1 := runs_block (L := L) (k := 0) (is := seg1) (s := s) (by decide +kernel) (by omega)
  refine ⟨_, h1.trans (.cons (step_at (k := 13) rfl (i := .jalr 5) (by decide +kernel)) (.refl _)), ?_⟩
  constructor
  · simp [seg1, stepIns, exec, upd]
  · simp [seg1, upd, stepIns]
  · simp [seg1, stepIns, exec, upd]
  · simp [seg1, stepIns, exec, upd]
  · simp [seg1, stepIns, exec, upd]
  · simp [seg1, stepIns, exec, upd]
  · simp [seg1, stepIns, exec, upd]
  · simp [seg1, stepIns, exec, upd]
  · simp [seg1, stepIns, exec, upd]
  · intro k hk
    rcases hk with rfl | rfl | rfl | rfl | rfl | rfl | rfl <;> simp [seg1, stepIns, exec, upd]
  · simp [seg1, stepIns, exec, upd, savedMem]

/-- The function is called; `u` is the state in which `ffi_prep_args` returns. -/
structure AtFn (L : Nat) (u t : M) : Prop where
  pc : t.pc = u.r 16
  ra : t.r 9 = L + 96
  args : ∀ k, k < 6 → t.r (3 + k) = beNat (u.mem.rd (u.r 1 + 4 * k) 4)
  sp : t.r 1 = u.r 11
  rest : ∀ k, k = 2 ∨ k = 10 ∨ k = 14 ∨ k = 16 ∨ k = 18 ∨ k = 20 ∨ k = 22 ∨ k = 24 ∨ k = 26 ∨ k = 28 ∨ k = 30 → t.r k = u.r k
  mem : t.mem = u.mem

def seg2 : List Ins := [.nop, .lwz 3 0 1, .lwz 4 4 1, .lwz 5 8 1, .lwz 6 12 1, .lwz 7 16 1, .lwz 8 20 1, .mov 1 11]

theorem call_fn {L : Nat} {u : M} (hp : u.pc = L + 60) : ∃ t, Runs L u t ∧ AtFn L u t := by
  have h1 := runs_block (L := L) (k := 15) (is := seg2.tail) (s := u) (by decide +kernel) (by omega)
  refine ⟨_, h1.trans (.cons (step_at (k := 22) rfl (i := .jalr 16) (by decide +kernel)) (.refl _)), ?_⟩
  constructor
  · simp [seg2, stepIns, exec, upd]
  · simp [seg2, upd, stepIns]
  · intro k hk
    rcases (show k = 0 ∨ k = 1 ∨ k = 2 ∨ k = 3 ∨ k = 4 ∨ k = 5 by omega) with rfl | rfl | rfl | rfl | rfl | rfl <;> simp [seg2, stepIns, exec, upd]
  · simp [seg2, stepIns, exec, upd]
  · intro k hk
    rcases hk with rfl | rfl | rfl | rfl | rfl | rfl | rfl | rfl | rfl | rfl | rfl <;> simp [seg2, stepIns, exec, upd]
  · simp [seg2, stepIns, exec]

/-- Memory when `ffi_call_SYSV` returns. -/
def storedMem (u : M) : Mem :=
  if u.r 20 = 13 then u.mem
  else if u.r 20 = 11 then (u.mem.wr (u.r 18 + 4) (beBytes 4 (u.r 12))).wr (u.r 18) (beBytes 4 (u.r 11))
  else u.mem.wr (u.r 18) (beBytes 4 (u.r 11))

/-- `ffi_call_SYSV` returns; `u` is the state in which the function returns.  Everything is found in the memory into which the result has been stored. -/
structure Back (u t : M) : Prop where
  pc : t.pc = t.r 9
  ra : t.r 9 = beNat ((storedMem u).rd (u.r 14 - 4) 4)
  sp : t.r 1 = beNat ((storedMem u).rd (u.r 14 - 8) 4)
  r14 : t.r 14 = beNat ((storedMem u).rd (t.r 1 - 12) 4)
  r16 : t.r 16 = beNat ((storedMem u).rd (t.r 1 - 16) 4)
  r18 : t.r 18 = beNat ((storedMem u).rd (t.r 1 - 20) 4)
  r20 : t.r 20 = beNat ((storedMem u).rd (t.r 1 - 24) 4)
  rest : ∀ k, k = 2 ∨ k = 10 ∨ k = 22 ∨ k = 24 ∨ k = 26 ∨ k = 28 ∨ k = 30 → t.r k = u.r k
  mem : t.mem = storedMem u

def seg3 : List Ins := [.mov 1 14, .lwzm 9 4 1, .lwzm 1 8 1, .lwzm 14 12 1, .lwzm 16 16 1, .lwzm 18 20 1, .lwzm 20 24 1]

theorem targets : target .four = 31 ∧ target .ret = 32 := by decide +kernel

theorem call_exit {L : Nat} {u v : M} (hp : v.pc = L + 4 * 32) (hr : v.r = u.r) (hm : v.mem = storedMem u) : ∃ t, Runs L v t ∧ Back u t := by
  have h1 := runs_block (L := L) (k := 32) (is := seg3) (s := v) (by decide +kernel) hp
  refine ⟨_, h1.trans (.cons (step_at (k := 39) rfl (i := .jr 9) (by decide +kernel)) (.refl _)), ?_⟩
  constructor <;> try simp [seg3, stepIns, exec, upd, hr, hm]

theorem call_tail {L : Nat} {u : M} (hp : u.pc = L + 96) : ∃ t, Runs L u t ∧ Back u t := by
  obtain ⟨t4, tr⟩ := targets
  have h0 : Runs L u { u with flag := u.r 20 == 13, pc := L + 100 } :=
    .cons (by rw [step_at (k := 24) (by omega) (i := .sfeqi 20 13) (by decide +kernel)]; simp [stepIns, exec, hp]) (.refl _)
  by_cases c1 : u.r 20 = 13
  · have h1 : Runs L { u with flag := u.r 20 == 13, pc := L + 100 } { u with flag := u.r 20 == 13, pc := L + 4 * 32 } :=
      .cons (by rw [step_at (k := 25) rfl (i := .bf .ret) (by decide +kernel)]; simp [stepIns, c1, tr]) (.refl _)
    obtain ⟨t, r, b⟩ := call_exit (L := L) (u := u) (v := { u with flag := u.r 20 == 13, pc := L + 4 * 32 }) rfl rfl (by simp [storedMem, c1])
    exact ⟨t, (h0.trans h1).trans r, b⟩
  · have h1 : Runs L { u with flag := u.r 20 == 13, pc := L + 100 } { u with flag := u.r 20 == 11, pc := L + 112 } :=
      .cons (t := { u with flag := u.r 20 == 13, pc := L + 104 }) (by rw [step_at (k := 25) rfl (i := .bf .ret) (by decide +kernel)]; simp [stepIns, c1]) <| .cons (t := { u with flag := u.r 20 == 13, pc := L + 108 })
        (by rw [step_at (k := 26) rfl (i := .nop) (by decide +kernel)]; simp [stepIns, exec, c1]) <| .cons
        (by rw [step_at (k := 27) rfl (i := .sfeqi 20 11) (by decide +kernel)]; simp [stepIns, exec]) (.refl _)
    have four : ∀ m b, m.wr (u.r 18) (beBytes 4 (u.r 11)) = storedMem u → ∃ t, Runs L { u with flag := b, mem := m, pc := L + 4 * 31 } t ∧ Back u t := by
      intro m b hm
      obtain ⟨t, r, bk⟩ := call_exit (L := L) (u := u) (v := { u with flag := b, mem := storedMem u, pc := L + 4 * 32 }) rfl rfl rfl
      refine ⟨t, .cons ?_ r, bk⟩
      rw [step_at (k := 31) rfl (i := .sw 0 18 11) (by decide +kernel)]
      simp [stepIns, exec, hm]
    by_cases c2 : u.r 20 = 11
    · obtain ⟨t, r, bk⟩ := four (u.mem.wr (u.r 18 + 4) (beBytes 4 (u.r 12))) (u.r 20 == 11) (by rw [storedMem, if_neg c1, if_pos c2])
      refine ⟨t, (h0.trans h1).trans (.cons (t := { u with flag := u.r 20 == 11, pc := L + 116 }) ?_ (.cons (t := { u with flag := u.r 20 == 11, pc := L + 120 }) ?_ (.cons ?_ r))), bk⟩
      · rw [step_at (k := 28) rfl (i := .bnf .four) (by decide +kernel)]; simp [stepIns, c2]
      · rw [step_at (k := 29) rfl (i := .nop) (by decide +kernel)]; simp [stepIns, exec]
      · rw [step_at (k := 30) rfl (i := .sw 4 18 12) (by decide +kernel)]; simp [stepIns, exec]
    · obtain ⟨t, r, bk⟩ := four u.mem (u.r 20 == 11) (by rw [storedMem, if_neg c1, if_neg c2])
      refine ⟨t, (h0.trans h1).trans (.cons ?_ r), bk⟩
      rw [step_at (k := 28) rfl (i := .bnf .four) (by decide +kernel)]; simp [stepIns, c2, t4]

end Verif.Or1k
