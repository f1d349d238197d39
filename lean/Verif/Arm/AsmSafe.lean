import Verif.Arm.Asm
import Verif.Spec.Arm

/-! Executions of src/arm/sysv.S with interruptions: which memory an instruction reads and
writes, and a condition under which interruptions have no effect. -/
namespace Verif.Arm.Asm
open Verif

variable {c : Ctx} {lo : Nat}

/-- The bytes that an instruction reads: address and number. -/
def ld (i : Ins) (s : St) : Nat × Nat :=
  match i with
  | .vldrLe => (s.r 0, if s.le then 8 else 0)
  | .vldmGt => (s.r 0, if s.le then 0 else 64)
  | .ldr _ b k => (s.r b + k, 4)
  | .ldmia rs => (s.r 13, 4 * rs.length)
  | .popPc _ => (s.r 13, 8)
  | .ldmPc => (s.r 13, 8)
  | .vld n b => (s.r b, 4 * n)
  | _ => (0, 0)

/-- The bytes that an instruction writes. -/
def st (i : Ins) (s : St) : Nat × Nat :=
  match i with
  | .str _ b k => (s.r b + k, 4)
  | .stm b rs => (s.r b, 4 * rs.length)
  | .stmdb rs => (s.r 13 - 4 * rs.length, 4 * rs.length)
  | .vst n b => (s.r b, (singles s.s n).length)
  | _ => (0, 0)

/-- The same registers, and the same memory on `D`. -/
structure Agree (D : Nat → Prop) (s t : St) : Prop where
  pc : t.pc = s.pc
  r : t.r = s.r
  v : t.s = s.s
  le : t.le = s.le
  mem : ∀ a, D a → t.mem a = s.mem a

theorem Agree.self (D : Nat → Prop) (s : St) : Agree D s s := ⟨rfl, rfl, rfl, rfl, fun _ _ => rfl⟩

theorem Agree.mono {D E : Nat → Prop} {s t : St} (h : Agree D s t) (hs : ∀ a, E a → D a) : Agree E s t :=
  ⟨h.pc, h.r, h.v, h.le, fun a ha => h.mem a (hs a ha)⟩

theorem Agree.rd {D : Nat → Prop} {s t : St} (h : Agree D s t) {a n : Nat} (hd : ∀ b, a ≤ b → b < a + n → D b) :
    t.mem.rd a n = s.mem.rd a n :=
  Mem.rd_congr fun i hi => h.mem _ (hd _ (by omega) (by omega))

theorem wr_agree {D : Nat → Prop} {m m' : Mem} (h : ∀ a, D a → m' a = m a) {p n : Nat} {bs : List Byte} (hb : bs.length = n) {a : Nat}
    (ha : D a ∨ p ≤ a ∧ a < p + n) : m'.wr p bs a = m.wr p bs a := by
  unfold Mem.wr
  rw [hb]
  split
  · rfl
  · rcases ha with ha | ha
    · exact h a ha
    · contradiction

theorem rd_agree {D : Nat → Prop} {m m' : Mem} (h : ∀ a, D a → m' a = m a) {p n : Nat}
    (hl : ∀ a, p ≤ a → a < p + n → D a) : m'.rd p n = m.rd p n :=
  Mem.rd_congr fun i hi => h _ (hl _ (by omega) (by omega))

@[simp] theorem words_length (r : Nat → Nat) (rs : List Nat) : (words r rs).length = 4 * rs.length := by
  induction rs with
  | nil => rfl
  | cons i is ih => simp only [words, List.length_append, leBytes_length, ih, List.length_cons]; omega

theorem loads_agree {m m' : Mem} : ∀ (rs : List Nat) (a : Nat) (r : Nat → Nat), (∀ b, a ≤ b → b < a + 4 * rs.length → m' b = m b) →
    loads m' rs a r = loads m rs a r
  | [], _, _, _ => rfl
  | i :: is, a, r, h => by
    simp only [List.length_cons] at h
    simp only [loads]
    rw [Mem.rd_congr (m' := m') (m := m) (fun j hj => h _ (by omega) (by omega))]
    exact loads_agree is _ _ fun b h1 h2 => h b (by omega) (by omega)

theorem loadS_agree {m m' : Mem} {n a : Nat} (s : Nat → List Byte) (h : ∀ b, a ≤ b → b < a + 4 * n → m' b = m b) :
    loadS m' n a s = loadS m n a s := by
  funext i
  simp only [loadS]
  split
  · exact Mem.rd_congr fun j hj => h _ (by omega) (by omega)
  · rfl

/-- An instruction has the same effect on states that agree on what it reads. -/
theorem exec_agree {o : Nat} {i : Ins} {D : Nat → Prop} {s s' t : St} (h : Agree D s t)
    (hl : ∀ a, (ld i s).1 ≤ a → a < (ld i s).1 + (ld i s).2 → D a) (he : exec c o i s = some s') :
    ∃ t', exec c o i t = some t' ∧ Agree (fun a => D a ∨ (st i s).1 ≤ a ∧ a < (st i s).1 + (st i s).2) s' t' := by
  obtain ⟨pc, r, s, le, m⟩ := s
  obtain ⟨pc', r', sv, le', m'⟩ := t
  obtain ⟨h1, h2, h3, h4, h8⟩ := h
  dsimp only at h1 h2 h3 h4 h8
  subst h1 h2 h3 h4
  have keep : ∀ {p n : Nat}, n = 0 → ∀ a, (D a ∨ p ≤ a ∧ a < p + n) → m' a = m a := by
    intro p n hn a ha
    rcases ha with ha | ha
    · exact h8 a ha
    · omega
  cases i
  case vldrLe =>
    cases he
    refine ⟨_, rfl, rfl, rfl, ?_, rfl, keep rfl⟩
    dsimp only
    split
    · simp only [ld, if_pos ‹_›] at hl
      exact loadS_agree _ fun b h1 h2 => h8 b (hl b h1 (by omega))
    · rfl
  case vldmGt =>
    cases he
    refine ⟨_, rfl, rfl, rfl, ?_, rfl, keep rfl⟩
    dsimp only
    split
    · rfl
    · simp only [ld, if_neg ‹_›] at hl
      exact loadS_agree _ fun b h1 h2 => h8 b (hl b h1 (by omega))
  case ldr d b k =>
    cases he
    refine ⟨_, rfl, rfl, ?_, rfl, rfl, keep rfl⟩
    dsimp only [St.set]
    rw [show m'.rd (r' b + k) 4 = m.rd (r' b + k) 4 from rd_agree h8 hl]
  case ldmia rs =>
    cases he
    refine ⟨_, rfl, rfl, ?_, rfl, rfl, keep rfl⟩
    dsimp only
    rw [loads_agree (m := m) rs (r' 13) r' fun b h1 h2 => h8 b (hl b h1 h2)]
  case popPc d =>
    cases he
    have e1 : m'.rd (r' 13) 4 = m.rd (r' 13) 4 := rd_agree h8 fun a h1 h2 => hl a h1 (by show a < r' 13 + 8; omega)
    have e2 : m'.rd (r' 13 + 4) 4 = m.rd (r' 13 + 4) 4 := rd_agree h8 fun a h1 h2 => hl a (by show r' 13 ≤ a; omega) (by show a < r' 13 + 8; omega)
    refine ⟨_, rfl, ?_, ?_, rfl, rfl, keep rfl⟩
    · dsimp only; rw [e2]
    · dsimp only; rw [e1]
  case ldmPc =>
    cases he
    have e1 : m'.rd (r' 13) 4 = m.rd (r' 13) 4 := rd_agree h8 fun a h1 h2 => hl a h1 (by show a < r' 13 + 8; omega)
    have e2 : m'.rd (r' 13 + 4) 4 = m.rd (r' 13 + 4) 4 := rd_agree h8 fun a h1 h2 => hl a (by show r' 13 ≤ a; omega) (by show a < r' 13 + 8; omega)
    refine ⟨_, rfl, ?_, ?_, rfl, rfl, keep rfl⟩
    · dsimp only; rw [e2]
    · dsimp only; rw [e1]
  case vld n b =>
    cases he
    refine ⟨_, rfl, rfl, rfl, ?_, rfl, keep rfl⟩
    exact loadS_agree _ fun b h1 h2 => h8 b (hl b h1 h2)
  case str a b k =>
    cases he
    exact ⟨_, rfl, rfl, rfl, rfl, rfl, fun a ha => wr_agree h8 (n := 4) (leBytes_length _ _) ha⟩
  case stm b rs =>
    cases he
    exact ⟨_, rfl, rfl, rfl, rfl, rfl, fun a ha => wr_agree h8 (words_length _ _) ha⟩
  case vst n b =>
    cases he
    exact ⟨_, rfl, rfl, rfl, rfl, rfl, fun a ha => wr_agree h8 rfl ha⟩
  case stmdb rs =>
    simp only [exec] at he ⊢
    split at he
    · cases he
      exact ⟨_, if_pos ‹_›, rfl, rfl, rfl, rfl, fun a ha => wr_agree h8 (words_length _ _) ha⟩
    · cases he
  case subi d a k =>
    simp only [exec] at he ⊢
    split at he
    · cases he
      exact ⟨_, if_pos ‹_›, rfl, rfl, rfl, rfl, keep rfl⟩
    · cases he
  case addpc a i =>
    simp only [exec, St.goto] at he ⊢
    generalize (if a = 15 then c.base + (o + 8) else r' a) + r' i * 8 = x at he ⊢
    split at he
    · cases he
      exact ⟨_, if_pos ‹_›, rfl, rfl, rfl, rfl, keep rfl⟩
    · cases he
  all_goals
    cases he
    exact ⟨_, rfl, rfl, rfl, rfl, rfl, keep rfl⟩

/-- No interruption changes `D`. -/
def Quiet (lo : Nat) (D : Nat → Prop) (s : St) : Prop := ∀ a, D a → a < lo ∨ s.r 13 ≤ a

/-- The (uninterrupted) execution from `s` reads only memory that interruptions do not
affect and leaves the code; whatever is known of a state, `D`, is enough for `Q`. -/
inductive Safe (c : Ctx) (lo : Nat) (Q : St → Prop) : (Nat → Prop) → St → Prop
  | stop {D s a} : Quiet lo D s → (∀ t, Agree D s t → Q t) → s.pc = .out a → Safe c lo Q D s
  | step {D D' s s' o i} : Quiet lo D s → (∀ t, Agree D s t → Q t) → s.pc = .at_ o → fetch o = some i →
      (∀ a, (ld i s).1 ≤ a → a < (ld i s).1 + (ld i s).2 → D a) → exec c o i s = some s' →
      (∀ a, D' a → D a ∨ (st i s).1 ≤ a ∧ a < (st i s).1 + (st i s).2) → Safe c lo Q D' s' → Safe c lo Q D s

theorem Safe.here {Q : St → Prop} {D : Nat → Prop} {s : St} (h : Safe c lo Q D s) : Quiet lo D s ∧ ∀ t, Agree D s t → Q t := by
  cases h with
  | stop h1 h2 => exact ⟨h1, h2⟩
  | step h1 h2 => exact ⟨h1, h2⟩

/-- `Q` holds in every state of every execution. -/
theorem Safe.reach {Q : St → Prop} {t u : St} (hr : Reach c lo t u) :
    ∀ {D : Nat → Prop} {s : St}, Safe c lo Q D s → Agree D s t → Q u := by
  induction hr with
  | refl => exact fun h ha => h.here.2 _ ha
  | irq hm _ ih =>
    intro D s h ha
    refine ih h ⟨ha.pc, ha.r, ha.v, ha.le, fun a hd => (hm a ?_).trans (ha.mem a hd)⟩
    rw [ha.r]
    exact h.here.1 a hd
  | step he _ ih =>
    intro D s h ha
    cases h with
    | stop h1 h2 h3 => rw [Asm.step, ha.pc, h3] at he; cases he
    | step h1 h2 h3 h4 h5 h6 h7 h8 =>
      obtain ⟨t', ht, hag⟩ := exec_agree ha h5 h6
      rw [Asm.step, ha.pc, h3] at he
      simp only [h4] at he
      rw [ht] at he
      cases he
      exact ih h8 (hag.mono h7)

/-- From every state of every execution, the execution without further interruptions
leaves the code. -/
theorem Safe.finish {Q : St → Prop} {D : Nat → Prop} {s : St} (h : Safe c lo Q D s) :
    ∀ {t : St}, Agree D s t → ∃ a u, Reach c lo t u ∧ u.pc = .out a := by
  induction h with
  | stop h1 h2 h3 => exact fun ha => ⟨_, _, .refl, ha.pc.trans h3⟩
  | step h1 h2 h3 h4 h5 h6 h7 h8 ih =>
    intro t ha
    obtain ⟨t', ht, hag⟩ := exec_agree ha h5 h6
    obtain ⟨a, u, hu, he⟩ := ih (hag.mono h7)
    refine ⟨a, u, .step ?_ hu, he⟩
    rw [Asm.step, ha.pc, h3]
    simp only [h4]
    exact ht

theorem Safe.leaves {Q : St → Prop} {t u : St} (hr : Reach c lo t u) :
    ∀ {D : Nat → Prop} {s : St}, Safe c lo Q D s → Agree D s t → ∃ a v, Reach c lo u v ∧ v.pc = .out a := by
  induction hr with
  | refl => exact fun h ha => h.finish ha
  | irq hm _ ih =>
    intro D s h ha
    refine ih h ⟨ha.pc, ha.r, ha.v, ha.le, fun a hd => (hm a ?_).trans (ha.mem a hd)⟩
    rw [ha.r]
    exact h.here.1 a hd
  | step he _ ih =>
    intro D s h ha
    cases h with
    | stop h1 h2 h3 => rw [Asm.step, ha.pc, h3] at he; cases he
    | step h1 h2 h3 h4 h5 h6 h7 h8 =>
      obtain ⟨t', ht, hag⟩ := exec_agree ha h5 h6
      rw [Asm.step, ha.pc, h3] at he
      simp only [h4] at he
      rw [ht] at he
      cases he
      exact ih h8 (hag.mono h7)

/-- No instruction faults. -/
theorem Safe.progress {Q : St → Prop} {t u : St} (hr : Reach c lo t u) :
    ∀ {D : Nat → Prop} {s : St}, Safe c lo Q D s → Agree D s t → ∀ {o : Nat}, u.pc = .at_ o → ∃ v, Asm.step c u = some v := by
  induction hr with
  | refl =>
    intro D s h ha o ho
    cases h with
    | stop h1 h2 h3 => rw [ha.pc, h3] at ho; cases ho
    | step h1 h2 h3 h4 h5 h6 h7 h8 =>
      obtain ⟨t', ht, -⟩ := exec_agree ha h5 h6
      refine ⟨t', ?_⟩
      rw [Asm.step, ha.pc, h3]
      simp only [h4]
      exact ht
  | irq hm _ ih =>
    intro D s h ha
    refine ih h ⟨ha.pc, ha.r, ha.v, ha.le, fun a hd => (hm a ?_).trans (ha.mem a hd)⟩
    rw [ha.r]
    exact h.here.1 a hd
  | step he _ ih =>
    intro D s h ha
    cases h with
    | stop h1 h2 h3 => rw [Asm.step, ha.pc, h3] at he; cases he
    | step h1 h2 h3 h4 h5 h6 h7 h8 =>
      obtain ⟨t', ht, hag⟩ := exec_agree ha h5 h6
      rw [Asm.step, ha.pc, h3] at he
      simp only [h4] at he
      rw [ht] at he
      cases he
      exact ih h8 (hag.mono h7)

end Verif.Arm.Asm
