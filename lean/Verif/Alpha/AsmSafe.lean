import Verif.Alpha.Asm
import Verif.Alpha.Call

/-! Executions of src/alpha/osf.S with interruptions, and unwinding by the call frame directives. -/
namespace Verif.Alpha.Asm
open Verif Verif.Alpha Verif.Spec.Alpha

/-- The bytes that an instruction reads: address and number. -/
def rdOf (E : Env) (s : M) : Ins → Nat × Nat
  | .ldq _ k b => (s.r b + k, 8)
  | .ldt _ k b => (s.r b + k, 8)
  | .lds _ k b => (s.r b + k, 4)
  | .ldInner => ((s.r 29 + E.got) % 2 ^ 64, 8)
  | _ => (0, 0)

/-- The same registers; the same memory except between `lo` and `b`. -/
structure Agree (lo b : Nat) (s t : M) : Prop where
  pc : t.pc = s.pc
  r : t.r = s.r
  f : t.f = s.f
  mem : ∀ a, a < lo ∨ b ≤ a → t.mem a = s.mem a

theorem Agree.self (lo b : Nat) (s : M) : Agree lo b s s := ⟨rfl, rfl, rfl, fun _ _ => rfl⟩

theorem Agree.mono {lo b c : Nat} {s t : M} (h : Agree lo b s t) (hc : b ≤ c) : Agree lo c s t :=
  ⟨h.pc, h.r, h.f, fun a ha => h.mem a (by omega)⟩

theorem Agree.rd {lo b : Nat} {s t : M} (h : Agree lo b s t) {a n : Nat} (hd : a + n ≤ lo ∨ b ≤ a) : t.mem.rd a n = s.mem.rd a n :=
  Mem.rd_congr fun i hi => h.mem _ (by omega)

theorem wr_agree {lo b : Nat} {m m' : Mem} (h : ∀ a, a < lo ∨ b ≤ a → m' a = m a) (p : Nat) (bs : List Byte) {a : Nat}
    (ha : a < lo ∨ b ≤ a) : m'.wr p bs a = m.wr p bs a := by
  unfold Mem.wr
  split
  · rfl
  · exact h a ha

/-- An instruction has the same effect on states that agree on what it reads. -/
theorem exec_agree {E : Env} {i : Ins} {lo b : Nat} {s t : M} (h : Agree lo b s t) (hl : (rdOf E s i).1 + (rdOf E s i).2 ≤ lo ∨ b ≤ (rdOf E s i).1) :
    Agree lo b (exec E s i) (exec E t i) := by
  obtain ⟨r, f, m, pc⟩ := s
  obtain ⟨r', f', m', pc'⟩ := t
  obtain ⟨h1, h2, h3, h4⟩ := h
  dsimp only at h1 h2 h3 h4
  subst h1 h2 h3
  have rd : ∀ {a n : Nat}, (a + n ≤ lo ∨ b ≤ a) → m'.rd a n = m.rd a n := fun hd => Mem.rd_congr fun i hi => h4 _ (by omega)
  cases i
  case stq a k b => exact ⟨rfl, rfl, rfl, fun _ ha => wr_agree h4 _ _ ha⟩
  case stt a k b => exact ⟨rfl, rfl, rfl, fun _ ha => wr_agree h4 _ _ ha⟩
  case sts a k b => exact ⟨rfl, rfl, rfl, fun _ ha => wr_agree h4 _ _ ha⟩
  case ldq a k b => exact ⟨rfl, congrArg (fun x => upd r' a (leNat x)) (rd hl), rfl, h4⟩
  case ldt a k b => exact ⟨rfl, rfl, congrArg (fun x => upd f' a (leNat x)) (rd hl), h4⟩
  case lds a k b => exact ⟨rfl, rfl, congrArg (fun x => upd f' a (Spec.Alpha.lds (leNat x))) (rd hl), h4⟩
  case ldInner => exact ⟨rfl, congrArg (fun x => upd r' 27 (leNat x)) (rd hl), rfl, h4⟩
  all_goals exact ⟨rfl, rfl, rfl, h4⟩

/-- So has a step. -/
theorem step_agree {E : Env} {i : Ins} {lo b : Nat} {s s' t : M} (h : Agree lo b s t) (hf : fetch E.bwx (s.pc - E.L) = some i)
    (hl : (rdOf E s i).1 + (rdOf E s i).2 ≤ lo ∨ b ≤ (rdOf E s i).1) (he : step E s = some s') : ∃ t', step E t = some t' ∧ Agree lo b s' t' := by
  have e := exec_agree h hl
  unfold step at he ⊢
  rw [h.pc]
  split at he
  · cases he
  rw [if_neg ‹_›]
  rw [hf] at he ⊢
  have hr := h.r
  have hp := h.pc
  cases i
  case br l => cases he; exact ⟨_, rfl, rfl, hr, h.f, h.mem⟩
  case jsr => cases he; exact ⟨_, rfl, by simp only [hr], by simp only [hr], h.f, h.mem⟩
  case jmp a => cases he; exact ⟨_, rfl, by simp only [hr], hr, h.f, h.mem⟩
  case ret => cases he; exact ⟨_, rfl, by simp only [hr], hr, h.f, h.mem⟩
  all_goals cases he; exact ⟨_, rfl, rfl, e.r, e.f, e.mem⟩

/-- Executions until the address `out`, with interruptions: they change memory between `lo` and the stack pointer ($30). -/
inductive Reach (E : Env) (lo out : Nat) : M → M → Prop
  | refl (s : M) : Reach E lo out s s
  | irq {s u : M} {m : Mem} : (∀ a, a < lo ∨ s.r 30 ≤ a → m a = s.mem a) → Reach E lo out { s with mem := m } u → Reach E lo out s u
  | step {s t u : M} : s.pc ≠ out → step E s = some t → Reach E lo out t u → Reach E lo out s u

/-- The execution from `s` comes to `out`; it reads no memory that interruptions change, and `Q` holds in all states.  `b` is the bound of what
interruptions may have changed. -/
inductive Safe (E : Env) (lo out : Nat) (Q : M → Prop) : Nat → M → Prop
  | stop {b s} : s.r 30 ≤ b → (∀ t, Agree lo b s t → Q t) → s.pc = out → Safe E lo out Q b s
  | step {b b' s s' i} : s.r 30 ≤ b → (∀ t, Agree lo b s t → Q t) → s.pc ≠ out → fetch E.bwx (s.pc - E.L) = some i →
      ((rdOf E s i).1 + (rdOf E s i).2 ≤ lo ∨ b ≤ (rdOf E s i).1) → Asm.step E s = some s' → b ≤ b' → Safe E lo out Q b' s' → Safe E lo out Q b s
  | anchor {b s} : s.r 30 ≤ b → (∀ t, Agree lo b s t → Safe E lo out Q (t.r 30) t) → Safe E lo out Q b s

/-- What `Safe` says of a state: it is at `out`, or there is a next state, which is as good. -/
theorem Safe.now {E : Env} {lo out : Nat} {Q : M → Prop} {b : Nat} {s : M} (h : Safe E lo out Q b s) :
    ∀ {t : M}, Agree lo b s t → Q t ∧ (t.pc = out ∨ t.pc ≠ out ∧ ∃ t', Asm.step E t = some t' ∧ ∃ b' s', Agree lo b' s' t' ∧ Safe E lo out Q b' s') := by
  induction h with
  | stop h1 h2 h3 => exact fun ha => ⟨h2 _ ha, .inl (ha.pc.trans h3)⟩
  | step h1 h2 h3 h4 h5 h6 h7 h8 _ =>
    intro t ha
    obtain ⟨t', ht, hag⟩ := step_agree ha h4 h5 h6
    exact ⟨h2 _ ha, .inr ⟨by rw [ha.pc]; exact h3, t', ht, _, _, hag.mono h7, h8⟩⟩
  | anchor h1 h2 ih => exact fun {t} ha => ih t ha (.self _ _ _)

theorem Safe.bound {E : Env} {lo out : Nat} {Q : M → Prop} {b : Nat} {s : M} (h : Safe E lo out Q b s) : s.r 30 ≤ b := by
  cases h <;> assumption

/-- `Q` holds in every state of every execution. -/
theorem Safe.reach {E : Env} {lo out : Nat} {Q : M → Prop} {t u : M} (hr : Reach E lo out t u) :
    ∀ {b : Nat} {s : M}, Safe E lo out Q b s → Agree lo b s t → Q u ∧ ∃ b' s', Agree lo b' s' u ∧ Safe E lo out Q b' s' := by
  induction hr with
  | refl => exact fun h ha => ⟨(h.now ha).1, _, _, ha, h⟩
  | irq hm _ ih =>
    intro b s h ha
    have hb := h.bound
    refine ih h ⟨ha.pc, ha.r, ha.f, fun a hd => (hm a ?_).trans (ha.mem a hd)⟩
    rw [ha.r]; omega
  | step hn he _ ih =>
    intro b s h ha
    obtain ⟨-, h1 | ⟨-, t', h2, b', s', h3, h4⟩⟩ := h.now ha
    · contradiction
    · rw [he] at h2; cases h2
      exact ih h4 h3

/-- Without further interruptions the execution comes to `out`. -/
theorem Safe.finish {E : Env} {lo out : Nat} {Q : M → Prop} {b : Nat} {s : M} (h : Safe E lo out Q b s) :
    ∀ {t : M}, Agree lo b s t → ∃ u, Reach E lo out t u ∧ u.pc = out := by
  induction h with
  | stop h1 h2 h3 => exact fun ha => ⟨_, .refl _, ha.pc.trans h3⟩
  | step h1 h2 h3 h4 h5 h6 h7 h8 ih =>
    intro t ha
    obtain ⟨t', ht, hag⟩ := step_agree ha h4 h5 h6
    obtain ⟨u, hu, he⟩ := ih (hag.mono h7)
    exact ⟨u, .step (by rw [ha.pc]; exact h3) ht hu, he⟩
  | anchor h1 h2 ih => exact fun {t} ha => ih t ha (.self _ _ _)

/-- From every state of every execution. -/
theorem Safe.leaves {E : Env} {lo out : Nat} {Q : M → Prop} {b : Nat} {s u : M} (h : Safe E lo out Q b s) (hr : Reach E lo out s u) :
    ∃ v, Reach E lo out u v ∧ v.pc = out := by
  obtain ⟨-, b', s', h1, h2⟩ := h.reach hr (.self _ _ _)
  exact h2.finish h1

/-- One instruction after the other. -/
def Chain (E : Env) (lo b : Nat) (Q : M → Prop) (K : M → Prop) : List Ins → M → Prop
  | [], s => K s
  | i :: is, s => s.r 30 ≤ b ∧ (∀ t, Agree lo b s t → Q t) ∧ ((rdOf E s i).1 + (rdOf E s i).2 ≤ lo ∨ b ≤ (rdOf E s i).1) ∧
      Chain E lo b Q K is { exec E s i with pc := s.pc + 4 }

theorem safe_chain {E : Env} {lo out b b' : Nat} {Q : M → Prop} (hb : b ≤ b') {is : List Ins} : ∀ {o : Nat} {s : M}, block E.bwx o is = true → s.pc = E.L + o →
    (out < E.L + o ∨ E.L + o + 4 * is.length ≤ out) → is ≠ [] → Chain E lo b Q (Safe E lo out Q b') is s → Safe E lo out Q b s := by
  induction is with
  | nil => intro o s _ _ _ h; exact absurd rfl h
  | cons i is ih =>
    intro o s hb hp ho _ h
    simp only [block, Bool.and_eq_true, beq_iff_eq] at hb
    obtain ⟨⟨f1, f2⟩, f3⟩ := hb
    obtain ⟨h1, h2, h3, h4⟩ := h
    have hf : fetch E.bwx (s.pc - E.L) = some i := by rw [show s.pc - E.L = o by omega]; exact f1
    have hs : step E s = some { exec E s i with pc := s.pc + 4 } := by
      unfold step
      rw [if_neg (by omega), hf]
      cases i <;> first | rfl | cases f2
    simp only [List.length_cons] at ho
    by_cases hn : is = []
    · subst hn
      exact .step h1 h2 (by omega) hf h3 hs ‹b ≤ b'› h4
    · exact .step h1 h2 (by omega) hf h3 hs (Nat.le_refl b) (ih f3 (by show s.pc + 4 = _; omega) (by omega) hn h4)

/-- A condition that every instruction of a list preserves. -/
theorem chain_inv {E : Env} {lo b : Nat} {Q K J : M → Prop} : ∀ {is : List Ins} {o : Nat} {s : M}, s.pc = E.L + o → J s →
    (∀ k i t, is[k]? = some i → t.pc = E.L + o + 4 * k → J t →
      t.r 30 ≤ b ∧ (∀ t', Agree lo b t t' → Q t') ∧ ((rdOf E t i).1 + (rdOf E t i).2 ≤ lo ∨ b ≤ (rdOf E t i).1) ∧ J { exec E t i with pc := t.pc + 4 }) →
    (J { is.foldl (exec E) s with pc := E.L + o + 4 * is.length } → K { is.foldl (exec E) s with pc := E.L + o + 4 * is.length }) → Chain E lo b Q K is s
  | [], o, s, hp, hj, _, hk => by
    have e : ({ s with pc := E.L + o + 4 * ([] : List Ins).length } : M) = s := by cases s; simp_all
    rw [List.foldl_nil, e] at hk
    exact hk hj
  | i :: is, o, s, hp, hj, hi, hk => by
    obtain ⟨h1, h2, h3, h4⟩ := hi 0 i s rfl (by simpa using hp) hj
    refine ⟨h1, h2, h3, chain_inv (o := o + 4) (by show s.pc + 4 = _; omega) h4 (fun k j t hj ht => hi (k + 1) j t hj (by omega)) ?_⟩
    rw [foldl_pc]
    rw [List.foldl_cons, show E.L + o + 4 * (i :: is).length = E.L + (o + 4) + 4 * is.length by simp only [List.length_cons]; omega] at hk
    exact hk

/-! ## Unwinding -/

/-- The value of a register in the caller, by a row of the table. -/
def Row.recov (w : Row) (t : M) (k : Nat) : Nat :=
  match w.saved.lookup k with
  | some d => leNat (t.mem.rd ((t.r w.reg : Int) + w.off + d).toNat 8)
  | none => t.r k

/-- The row gives `cfa` and the caller's registers: return address, $15, $9-$14. -/
structure Unw (w : Row) (t : M) (cfa ra fp : Nat) (r : Nat → Nat) : Prop where
  cfa : (t.r w.reg : Int) + w.off = cfa
  ra : w.recov t 26 = ra
  fp : w.recov t 15 = fp
  rest : ∀ k, 9 ≤ k → k ≤ 14 → w.recov t k = r k

/-- The row of the instruction at which `t` is. -/
def UnwAt (E : Env) (t : M) (cfa ra fp : Nat) (r : Nat → Nat) : Prop :=
  ∃ w, rowAt E.bwx (t.pc - E.L) = some w ∧ Unw w t cfa ra fp r

/-- Nothing is saved. -/
theorem unw0 {lo b reg k cfa ra fp : Nat} {r : Nat → Nat} {s : M} (h1 : s.r reg + k = cfa) (h2 : s.r 26 = ra) (h3 : s.r 15 = fp)
    (h4 : ∀ k, 9 ≤ k → k ≤ 14 → s.r k = r k) (t : M) (h : Agree lo b s t) : Unw ⟨reg, k, []⟩ t cfa ra fp r := by
  refine ⟨?_, ?_, ?_, fun j j1 j2 => ?_⟩
  · show (t.r reg : Int) + k = cfa; rw [h.r]; omega
  · show t.r 26 = ra; rw [h.r, h2]
  · show t.r 15 = fp; rw [h.r, h3]
  · show t.r j = r j; rw [h.r, h4 j j1 j2]

/-- $26 and $15 are in the frame of `ffi_call_osf`. -/
theorem unw2 {lo b F ra fp : Nat} {r : Nat → Nat} {s : M} (h1 : s.r 15 = F) (hb : b ≤ F) (h2 : s.mem.rd F 8 = leBytes 8 ra) (h3 : s.mem.rd (F + 8) 8 = leBytes 8 fp)
    (hr : ra < 2 ^ 64) (hf : fp < 2 ^ 64)
    (h4 : ∀ k, 9 ≤ k → k ≤ 14 → s.r k = r k) (t : M) (h : Agree lo b s t) : Unw ⟨15, 32, [(15, -24), (26, -32)]⟩ t (F + 32) ra fp r := by
  have e1 : ((F : Int) + 32 + (-32)).toNat = F := by omega
  have e2 : ((F : Int) + 32 + (-24)).toNat = F + 8 := by omega
  refine ⟨?_, ?_, ?_, fun j j1 j2 => ?_⟩
  · show (t.r 15 : Int) + 32 = _; rw [h.r, h1]; omega
  · show leNat (t.mem.rd ((t.r 15 : Int) + 32 + (-32)).toNat 8) = ra
    rw [h.r, h1, e1, h.rd (.inr hb), h2, leNat8 hr]
  · show leNat (t.mem.rd ((t.r 15 : Int) + 32 + (-24)).toNat 8) = fp
    rw [h.r, h1, e2, h.rd (.inr (by omega)), h3, leNat8 hf]
  · have : ([(15, -24), (26, -32)] : List (Nat × Int)).lookup j = none := by
      rcases (show j = 9 ∨ j = 10 ∨ j = 11 ∨ j = 12 ∨ j = 13 ∨ j = 14 by omega) with rfl | rfl | rfl | rfl | rfl | rfl <;> rfl
    show (match ([(15, -24), (26, -32)] : List (Nat × Int)).lookup j with | some d => _ | none => t.r j) = r j
    rw [this, h.r]; exact h4 j j1 j2

/-- $26 is in the frame of `ffi_closure_osf`. -/
theorem unw1 {lo B ra fp : Nat} {r : Nat → Nat} {s : M} (h1 : s.r 30 = B) (h2 : s.mem.rd B 8 = leBytes 8 ra) (hr : ra < 2 ^ 64) (h3 : s.r 15 = fp)
    (h4 : ∀ k, 9 ≤ k → k ≤ 14 → s.r k = r k) (t : M) (h : Agree lo B s t) : Unw ⟨30, 128, [(26, -128)]⟩ t (B + 128) ra fp r := by
  have e1 : ((B : Int) + 128 + (-128)).toNat = B := by omega
  refine ⟨?_, ?_, ?_, fun j j1 j2 => ?_⟩
  · show (t.r 30 : Int) + 128 = _; rw [h.r, h1]; omega
  · show leNat (t.mem.rd ((t.r 30 : Int) + 128 + (-128)).toNat 8) = ra
    rw [h.r, h1, e1, h.rd (.inr (Nat.le_refl _)), h2, leNat8 hr]
  · show t.r 15 = fp; rw [h.r, h3]
  · have : ([(26, -128)] : List (Nat × Int)).lookup j = none := by
      rcases (show j = 9 ∨ j = 10 ∨ j = 11 ∨ j = 12 ∨ j = 13 ∨ j = 14 by omega) with rfl | rfl | rfl | rfl | rfl | rfl <;> rfl
    show (match ([(26, -128)] : List (Nat × Int)).lookup j with | some d => _ | none => t.r j) = r j
    rw [this, h.r]; exact h4 j j1 j2

end Verif.Alpha.Asm
