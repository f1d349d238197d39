import Verif.Win64.Asm

/-! Executions of win64.S with interruptions: which memory an instruction reads and
writes, and a condition under which interruptions have no effect. -/
namespace Verif.Win64.Asm
open Verif

variable {c : Ctx} {lo : Nat}

/-- The bytes that an instruction reads: address and number. -/
def ld (i : Ins) (s : St) : Nat × Nat :=
  match i with
  | .ld z _ b k => (s.r b + k, z)
  | .callm b k => (s.r b + k, 8)
  | .leave => (s.r 5, 8)
  | .ret => (s.r 4, 8)
  | .ldx _ b k => (s.r b + k, 8)
  | _ => (0, 0)

/-- The bytes that an instruction writes. -/
def st (i : Ins) (s : St) : Nat × Nat :=
  match i with
  | .st z _ b k => (s.r b + k, z)
  | .callm _ _ => (s.r 4 - 8, 8)
  | .callx _ => (s.r 4 - 8, 8)
  | .stx z n b k => (s.r b + k, ((s.x n).take z).length)
  | _ => (0, 0)

/-- The same registers, and the same memory on `D`. -/
structure Agree (D : Nat → Prop) (s t : St) : Prop where
  pc : t.pc = s.pc
  r : t.r = s.r
  x : t.x = s.x
  zf : t.zf = s.zf
  cf : t.cf = s.cf
  ss : t.ss = s.ss
  mem : ∀ a, D a → t.mem a = s.mem a

theorem Agree.self (D : Nat → Prop) (s : St) : Agree D s s := ⟨rfl, rfl, rfl, rfl, rfl, rfl, fun _ _ => rfl⟩

theorem Agree.mono {D E : Nat → Prop} {s t : St} (h : Agree D s t) (hs : ∀ a, E a → D a) : Agree E s t :=
  ⟨h.pc, h.r, h.x, h.zf, h.cf, h.ss, fun a ha => h.mem a (hs a ha)⟩

theorem Agree.rd {D : Nat → Prop} {s t : St} (h : Agree D s t) {a n : Nat} (hd : ∀ b, a ≤ b → b < a + n → D b) :
    t.mem.rd a n = s.mem.rd a n :=
  Mem.rd_congr fun i hi => h.mem _ (hd _ (by omega) (by omega))

theorem wr_agree {D : Nat → Prop} {m m' : Mem} (h : ∀ a, D a → m' a = m a) {p n : Nat} {bs : List Byte} (hb : bs.length = n) {a : Nat}
    (ha : D a ∨ p ≤ a ∧ a < p + n) : m'.wr p bs a = m.wr p bs a := by
  unfold Mem.wr
  rw [hb]
  split
  · rfl
  · rcases ha with ha | ha
    · exact h a ha
    · contradiction

theorem rd_agree {D : Nat → Prop} {m m' : Mem} (h : ∀ a, D a → m' a = m a) {p n : Nat}
    (hl : ∀ a, p ≤ a → a < p + n → D a) : m'.rd p n = m.rd p n :=
  Mem.rd_congr fun i hi => h _ (hl _ (by omega) (by omega))

/-- An instruction has the same effect on states that agree on what it reads. -/
theorem exec_agree {o n : Nat} {i : Ins} {D : Nat → Prop} {s s' t : St} (h : Agree D s t)
    (hl : ∀ a, (ld i s).1 ≤ a → a < (ld i s).1 + (ld i s).2 → D a) (he : exec c o n i s = some s') :
    ∃ t', exec c o n i t = some t' ∧ Agree (fun a => D a ∨ (st i s).1 ≤ a ∧ a < (st i s).1 + (st i s).2) s' t' := by
  obtain ⟨pc, r, x, zf, cf, m, ss⟩ := s
  obtain ⟨pc', r', x', zf', cf', m', ss'⟩ := t
  obtain ⟨h1, h2, h3, h5, h6, h7, h8⟩ := h
  dsimp only at h1 h2 h3 h5 h6 h7 h8
  subst h1 h2 h3 h5 h6 h7
  have keep : ∀ {p n : Nat}, n = 0 → ∀ a, (D a ∨ p ≤ a ∧ a < p + n) → m' a = m a := by
    intro p n hn a ha
    rcases ha with ha | ha
    · exact h8 a ha
    · omega
  cases i
  case st z a b k =>
    cases he
    exact ⟨_, rfl, rfl, rfl, rfl, rfl, rfl, rfl, fun a ha => wr_agree h8 (n := z) (by simp) ha⟩
  case stx z n b k =>
    cases he
    exact ⟨_, rfl, rfl, rfl, rfl, rfl, rfl, rfl, fun a ha => wr_agree h8 rfl ha⟩
  case ld z d b k =>
    cases he
    have e : m'.rd (r' b + k) z = m.rd (r' b + k) z := rd_agree h8 hl
    exact ⟨_, rfl, rfl, congrArg (fun l => upd r' d (leNat l)) e, rfl, rfl, rfl, rfl, keep rfl⟩
  case leave =>
    cases he
    have e : m'.rd (r' 5) 8 = m.rd (r' 5) 8 := rd_agree h8 hl
    exact ⟨_, rfl, rfl, congrArg (fun l => upd (upd r' 4 (r' 5 + 8)) 5 (leNat l)) e, rfl, rfl, rfl, rfl, keep rfl⟩
  case ldx n b k =>
    cases he
    have e : m'.rd (r' b + k) 8 = m.rd (r' b + k) 8 := rd_agree h8 hl
    exact ⟨_, rfl, rfl, rfl, congrArg (fun l => upd x' n (l ++ List.replicate 8 0)) e, rfl, rfl, rfl, keep rfl⟩
  case callm b k =>
    simp only [exec] at he ⊢
    split at he
    · cases he
      have e : m'.rd (r' b + k) 8 = m.rd (r' b + k) 8 := rd_agree h8 hl
      exact ⟨_, if_pos ‹_›, congrArg (fun l => Pc.out (leNat l)) e, rfl, rfl, rfl, rfl, rfl, fun a ha => wr_agree h8 (n := 8) (by simp) ha⟩
    · cases he
  case callx f =>
    simp only [exec] at he ⊢
    split at he
    · cases he
      exact ⟨_, if_pos ‹_›, rfl, rfl, rfl, rfl, rfl, rfl, fun a ha => wr_agree h8 (n := 8) (by simp) ha⟩
    · cases he
  case ret =>
    simp only [exec] at he ⊢
    have e : m'.rd (r' 4) 8 = m.rd (r' 4) 8 := rd_agree h8 hl
    rw [e]
    split at he
    · cases he
    · split at he
      · cases he
        exact ⟨_, if_pos ‹_›, rfl, rfl, rfl, rfl, rfl, rfl, keep rfl⟩
      · cases he
  case subi k =>
    simp only [exec] at he ⊢
    split at he
    · cases he
      exact ⟨_, if_pos ‹_›, rfl, rfl, rfl, rfl, rfl, rfl, keep rfl⟩
    · cases he
  case jmpr a =>
    simp only [exec] at he ⊢
    split at he
    · cases he
      exact ⟨_, if_pos ‹_›, rfl, rfl, rfl, rfl, rfl, rfl, keep rfl⟩
    · cases he
  all_goals
    cases he
    exact ⟨_, rfl, rfl, rfl, rfl, rfl, rfl, rfl, keep rfl⟩

theorem Reach.trans {s t u : St} (h : Reach c lo s t) (h' : Reach c lo t u) : Reach c lo s u := by
  induction h with
  | refl => exact h'
  | step h1 _ ih => exact .step h1 (ih h')
  | irq h1 _ ih => exact .irq h1 (ih h')

/-- No interruption changes `D`. -/
def Quiet (lo : Nat) (D : Nat → Prop) (s : St) : Prop := ∀ a, D a → a < lo ∨ s.r 4 ≤ a

/-- The (uninterrupted) execution from `s` reads only memory that interruptions do not
affect and leaves the code; whatever is known of a state, `D`, is enough for `Q`. -/
inductive Safe (c : Ctx) (lo : Nat) (Q : St → Prop) : (Nat → Prop) → St → Prop
  | stop {D s a} : Quiet lo D s → (∀ t, Agree D s t → Q t) → s.pc = .out a → Safe c lo Q D s
  | step {D D' s s' o n i} : Quiet lo D s → (∀ t, Agree D s t → Q t) → s.pc = .at_ o → fetch c.cfg o = some (n, i) →
      (∀ a, (ld i s).1 ≤ a → a < (ld i s).1 + (ld i s).2 → D a) → exec c o n i s = some s' →
      (∀ a, D' a → D a ∨ (st i s).1 ≤ a ∧ a < (st i s).1 + (st i s).2) → Safe c lo Q D' s' → Safe c lo Q D s

theorem Safe.here {Q : St → Prop} {D : Nat → Prop} {s : St} (h : Safe c lo Q D s) : Quiet lo D s ∧ ∀ t, Agree D s t → Q t := by
  cases h with
  | stop h1 h2 => exact ⟨h1, h2⟩
  | step h1 h2 => exact ⟨h1, h2⟩

/-- `Q` holds in every state of every execution. -/
theorem Safe.reach {Q : St → Prop} {t u : St} (hr : Reach c lo t u) :
    ∀ {D : Nat → Prop} {s : St}, Safe c lo Q D s → Agree D s t → Q u := by
  induction hr with
  | refl => exact fun h ha => h.here.2 _ ha
  | irq hm _ ih =>
    intro D s h ha
    refine ih h ⟨ha.pc, ha.r, ha.x, ha.zf, ha.cf, ha.ss, fun a hd => (hm a ?_).trans (ha.mem a hd)⟩
    rw [ha.r]
    exact h.here.1 a hd
  | step he _ ih =>
    intro D s h ha
    cases h with
    | stop h1 h2 h3 => rw [Asm.step, ha.pc, h3] at he; cases he
    | step h1 h2 h3 h4 h5 h6 h7 h8 =>
      obtain ⟨t', ht, hag⟩ := exec_agree ha h5 h6
      rw [Asm.step, ha.pc, h3] at he
      simp only [h4] at he
      rw [ht] at he
      cases he
      exact ih h8 (hag.mono h7)

/-- From every state of every execution, the execution without further interruptions
leaves the code. -/
theorem Safe.finish {Q : St → Prop} {D : Nat → Prop} {s : St} (h : Safe c lo Q D s) :
    ∀ {t : St}, Agree D s t → ∃ a u, Reach c lo t u ∧ u.pc = .out a := by
  induction h with
  | stop h1 h2 h3 => exact fun ha => ⟨_, _, .refl, ha.pc.trans h3⟩
  | step h1 h2 h3 h4 h5 h6 h7 h8 ih =>
    intro t ha
    obtain ⟨t', ht, hag⟩ := exec_agree ha h5 h6
    obtain ⟨a, u, hu, he⟩ := ih (hag.mono h7)
    refine ⟨a, u, .step ?_ hu, he⟩
    rw [Asm.step, ha.pc, h3]
    simp only [h4]
    exact ht

theorem Safe.leaves {Q : St → Prop} {t u : St} (hr : Reach c lo t u) :
    ∀ {D : Nat → Prop} {s : St}, Safe c lo Q D s → Agree D s t → ∃ a v, Reach c lo u v ∧ v.pc = .out a := by
  induction hr with
  | refl => exact fun h ha => h.finish ha
  | irq hm _ ih =>
    intro D s h ha
    refine ih h ⟨ha.pc, ha.r, ha.x, ha.zf, ha.cf, ha.ss, fun a hd => (hm a ?_).trans (ha.mem a hd)⟩
    rw [ha.r]
    exact h.here.1 a hd
  | step he _ ih =>
    intro D s h ha
    cases h with
    | stop h1 h2 h3 => rw [Asm.step, ha.pc, h3] at he; cases he
    | step h1 h2 h3 h4 h5 h6 h7 h8 =>
      obtain ⟨t', ht, hag⟩ := exec_agree ha h5 h6
      rw [Asm.step, ha.pc, h3] at he
      simp only [h4] at he
      rw [ht] at he
      cases he
      exact ih h8 (hag.mono h7)

/-- No instruction faults. -/
theorem Safe.progress {Q : St → Prop} {t u : St} (hr : Reach c lo t u) :
    ∀ {D : Nat → Prop} {s : St}, Safe c lo Q D s → Agree D s t → ∀ {o : Nat}, u.pc = .at_ o → ∃ v, Asm.step c u = some v := by
  induction hr with
  | refl =>
    intro D s h ha o ho
    cases h with
    | stop h1 h2 h3 => rw [ha.pc, h3] at ho; cases ho
    | step h1 h2 h3 h4 h5 h6 h7 h8 =>
      obtain ⟨t', ht, -⟩ := exec_agree ha h5 h6
      refine ⟨t', ?_⟩
      rw [Asm.step, ha.pc, h3]
      simp only [h4]
      exact ht
  | irq hm _ ih =>
    intro D s h ha
    refine ih h ⟨ha.pc, ha.r, ha.x, ha.zf, ha.cf, ha.ss, fun a hd => (hm a ?_).trans (ha.mem a hd)⟩
    rw [ha.r]
    exact h.here.1 a hd
  | step he _ ih =>
    intro D s h ha
    cases h with
    | stop h1 h2 h3 => rw [Asm.step, ha.pc, h3] at he; cases he
    | step h1 h2 h3 h4 h5 h6 h7 h8 =>
      obtain ⟨t', ht, hag⟩ := exec_agree ha h5 h6
      rw [Asm.step, ha.pc, h3] at he
      simp only [h4] at he
      rw [ht] at he
      cases he
      exact ih h8 (hag.mono h7)

end Verif.Win64.Asm
