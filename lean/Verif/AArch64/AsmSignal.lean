import Verif.AArch64.Asm

/-! Execution with interruptions: which memory an instruction reads and writes, and a
condition under which interruptions have no effect. -/
namespace Verif.A64.Asm
open Verif Verif.A64

variable {P : Pac} {T lo : Nat}

/-- The bytes that an instruction reads: address and number. -/
def ld (i : Ins) (s : AState) : Nat × Nat :=
  match i with
  | .ldp _ _ n k => (s.x n + k, 16)
  | .ldr z _ _ n k => (s.x n + k, z)
  | .ldpPost _ _ _ => (s.x 31, 16)
  | .ldpv z _ _ n k => (s.x n + k, z + z)
  | .ldrv z _ n k => (s.x n + k, z)
  | _ => (0, 0)

/-- The bytes that an instruction writes. -/
def st (i : Ins) (s : AState) : Nat × Nat :=
  match i with
  | .stp _ _ n k => (s.x n + k, 16)
  | .str _ n k => (s.x n + k, 8)
  | .stpPre _ _ k => (s.x 31 - k, 16)
  | .stpv z a b n k => (s.x n + k, ((s.v a).take z ++ (s.v b).take z).length)
  | .strv z a n k => (s.x n + k, ((s.v a).take z).length)
  | .stn z c n => (s.x n, (lanes s.v z c).length)
  | _ => (0, 0)

/-- The same registers, and the same memory on `D`. -/
def Agree (D : Nat → Prop) (s t : AState) : Prop := t.x = s.x ∧ t.v = s.v ∧ ∀ a, D a → t.mem a = s.mem a

theorem rd_agree {D : Nat → Prop} {m m' : Mem} (h : ∀ a, D a → m' a = m a) {p n q z : Nat}
    (hl : ∀ a, p ≤ a → a < p + n → D a) (h1 : p ≤ q) (h2 : q + z ≤ p + n) : m'.rd q z = m.rd q z :=
  Mem.rd_congr fun i hi => h _ (hl _ (by omega) (by omega))

theorem wr_agree {D : Nat → Prop} {m m' : Mem} (h : ∀ a, D a → m' a = m a) {p n : Nat} {bs : List Byte} (hb : bs.length = n) {a : Nat}
    (ha : D a ∨ p ≤ a ∧ a < p + n) : m'.wr p bs a = m.wr p bs a := by
  unfold Mem.wr
  rw [hb]
  split
  · rfl
  · rcases ha with ha | ha
    · exact h a ha
    · contradiction

theorem exec_agree {i : Ins} {D : Nat → Prop} {s t : AState} (h : Agree D s t) (hl : ∀ a, (ld i s).1 ≤ a → a < (ld i s).1 + (ld i s).2 → D a) :
    (exec P T i s = none → exec P T i t = none) ∧
      ∀ r s', exec P T i s = some (r, s') → ∃ t', exec P T i t = some (r, t') ∧
        Agree (fun a => D a ∨ (st i s).1 ≤ a ∧ a < (st i s).1 + (st i s).2) s' t' := by
  obtain ⟨x, v, m⟩ := s
  obtain ⟨x', v', m'⟩ := t
  obtain ⟨h1, h2, h3⟩ := h
  dsimp only at h1 h2 h3
  subst h1
  subst h2
  have keep : ∀ {p n : Nat}, n = 0 → ∀ a, (D a ∨ p ≤ a ∧ a < p + n) → m' a = m a := by
    intro p n hn a ha
    rcases ha with ha | ha
    · exact h3 a ha
    · omega
  cases i
  case br a =>
    simp only [exec]
    split
    · refine ⟨nofun, fun r s' e => ?_⟩
      cases e
      exact ⟨_, rfl, rfl, rfl, keep rfl⟩
    · exact ⟨fun _ => rfl, nofun⟩
  case brk => exact ⟨fun _ => rfl, nofun⟩
  case aut n =>
    simp only [exec]
    cases P.auth (x' 30) (x' n)
    · exact ⟨fun _ => rfl, nofun⟩
    · refine ⟨nofun, fun r s' e => ?_⟩
      cases e
      exact ⟨_, rfl, rfl, rfl, keep rfl⟩
  case stpPre a b k =>
    simp only [exec]
    split
    · refine ⟨nofun, fun r s' e => ?_⟩
      cases e
      exact ⟨_, rfl, rfl, rfl, fun a ha => wr_agree h3 (n := 16) (by simp) ha⟩
    · exact ⟨fun _ => rfl, nofun⟩
  case stp a b n k =>
    refine ⟨nofun, fun r s' e => ?_⟩
    cases e
    exact ⟨_, rfl, rfl, rfl, fun a ha => wr_agree h3 (n := 16) (by simp) ha⟩
  case str a n k =>
    refine ⟨nofun, fun r s' e => ?_⟩
    cases e
    exact ⟨_, rfl, rfl, rfl, fun a ha => wr_agree h3 (n := 8) (by simp) ha⟩
  case stpv z a b n k =>
    refine ⟨nofun, fun r s' e => ?_⟩
    cases e
    exact ⟨_, rfl, rfl, rfl, fun a ha => wr_agree h3 rfl ha⟩
  case strv z a n k =>
    refine ⟨nofun, fun r s' e => ?_⟩
    cases e
    exact ⟨_, rfl, rfl, rfl, fun a ha => wr_agree h3 rfl ha⟩
  case stn z c n =>
    refine ⟨nofun, fun r s' e => ?_⟩
    cases e
    exact ⟨_, rfl, rfl, rfl, fun a ha => wr_agree h3 rfl ha⟩
  case ldp a b n k =>
    refine ⟨nofun, fun r s' e => ?_⟩
    cases e
    refine ⟨_, rfl, ?_, rfl, keep rfl⟩
    dsimp only
    rw [rd_agree h3 hl (by exact Nat.le_refl _) (by dsimp [ld]; omega), rd_agree h3 hl (by dsimp [ld]; omega) (by dsimp [ld]; omega)]
  case ldr z sg a n k =>
    refine ⟨nofun, fun r s' e => ?_⟩
    cases e
    refine ⟨_, rfl, ?_, rfl, keep rfl⟩
    dsimp only [AState.set]
    rw [rd_agree h3 hl (by exact Nat.le_refl _) (by dsimp [ld]; omega)]
  case ldpPost a b k =>
    refine ⟨nofun, fun r s' e => ?_⟩
    cases e
    refine ⟨_, rfl, ?_, rfl, keep rfl⟩
    dsimp only
    rw [rd_agree h3 hl (by exact Nat.le_refl _) (by dsimp [ld]; omega), rd_agree h3 hl (by dsimp [ld]; omega) (by dsimp [ld]; omega)]
  case ldpv z a b n k =>
    refine ⟨nofun, fun r s' e => ?_⟩
    cases e
    refine ⟨_, rfl, rfl, ?_, keep rfl⟩
    dsimp only [ldv]
    rw [rd_agree h3 hl (by exact Nat.le_refl _) (by dsimp [ld]; omega), rd_agree h3 hl (by dsimp [ld]; omega) (by dsimp [ld]; omega)]
  case ldrv z a n k =>
    refine ⟨nofun, fun r s' e => ?_⟩
    cases e
    refine ⟨_, rfl, rfl, ?_, keep rfl⟩
    dsimp only [ldv]
    rw [rd_agree h3 hl (by exact Nat.le_refl _) (by dsimp [ld]; omega)]
  all_goals
    refine ⟨nofun, fun r s' e => ?_⟩
    cases e
    exact ⟨_, rfl, rfl, rfl, keep rfl⟩

/-- No interruption changes `D`. -/
def Quiet (lo : Nat) (D : Nat → Prop) (s : AState) : Prop := ∀ a, D a → a < lo ∨ s.x 31 ≤ a

/-- The memory known to be unaffected after an instruction. -/
def next (lo : Nat) (D : Nat → Prop) (i : Ins) (s s' : AState) (a : Nat) : Prop :=
  (D a ∨ (st i s).1 ≤ a ∧ a < (st i s).1 + (st i s).2) ∧ (a < lo ∨ s'.x 31 ≤ a)

/-- Every instruction of the (uninterrupted) execution reads only memory that is
unaffected; in the end so is `F`. -/
def Safe (P : Pac) (T lo : Nat) (F : Nat → Prop) : (Nat → Prop) → List Ins → Nat → AState → Prop
  | D, [], _, _ => ∀ a, F a → D a
  | D, _ :: is, k + 1, s => Safe P T lo F D is k s
  | D, i :: is, 0, s => (∀ a, (ld i s).1 ≤ a → a < (ld i s).1 + (ld i s).2 → D a) ∧
    ∀ r s', exec P T i s = some (r, s') →
      match r with
      | none => ∀ a, F a → next lo D i s s' a
      | some k => Safe P T lo F (next lo D i s s') is k s'

theorem next_agree {D : Nat → Prop} {i : Ins} {s s' s'' t' : AState}
    (h : Agree (fun a => D a ∨ (st i s).1 ≤ a ∧ a < (st i s).1 + (st i s).2) s' t') : Agree (next lo D i s s'') s' t' :=
  ⟨h.1, h.2.1, fun a ha => h.2.2 a ha.1⟩

theorem Agree.mono {D E : Nat → Prop} {s t : AState} (h : Agree D s t) (hs : ∀ a, E a → D a) : Agree E s t :=
  ⟨h.1, h.2.1, fun a ha => h.2.2 a (hs a ha)⟩

/-- Interruptions have no effect on a safe execution. -/
theorem safe_runs {F : Nat → Prop} {is : List Ins} {k : Nat} {t u : AState} (h : Runs P T lo is k t u) :
    ∀ {D : Nat → Prop} {s : AState}, Agree D s t → Quiet lo D s → Safe P T lo F D is k s →
      ∃ w, run P T is k s = some w ∧ Agree F w u ∧ Quiet lo F w := by
  induction h with
  | done =>
    intro D s ha hq hs
    exact ⟨s, rfl, ha.mono hs, fun a h => hq a (hs a h)⟩
  | skip _ ih =>
    intro D s ha hq hs
    exact ih ha hq hs
  | stop he =>
    rename_i i is t u
    intro D s ha hq hs
    cases hr : exec P T i s with
    | none =>
      rw [(exec_agree ha hs.1).1 hr] at he
      exact absurd he (by simp)
    | some p =>
      obtain ⟨r, s'⟩ := p
      obtain ⟨t', ht', hag⟩ := (exec_agree ha hs.1).2 r s' hr
      rw [he] at ht'
      cases ht'
      have := hs.2 _ _ hr
      refine ⟨s', ?_, (next_agree hag).mono this, fun a h => (this a h).2⟩
      simp only [run, hr]
  | step he _ ih =>
    rename_i i is k t t2 u _
    intro D s ha hq hs
    cases hr : exec P T i s with
    | none =>
      rw [(exec_agree ha hs.1).1 hr] at he
      exact absurd he (by simp)
    | some p =>
      obtain ⟨r, s'⟩ := p
      obtain ⟨t', ht', hag⟩ := (exec_agree ha hs.1).2 r s' hr
      rw [he] at ht'
      cases ht'
      obtain ⟨w, hw, h2⟩ := ih (next_agree (s'' := s') hag) (fun a h => h.2) (hs.2 _ _ hr)
      refine ⟨w, ?_, h2⟩
      simp only [run, hr]
      exact hw
  | irq hm _ ih =>
    intro D s ha hq hs
    refine ih ⟨ha.1, ha.2.1, fun a h => ?_⟩ hq hs
    refine (hm a ?_).trans (ha.2.2 a h)
    rw [ha.1]
    exact hq a h

theorem next_mono {D E : Nat → Prop} {i : Ins} {s s' : AState} (h : ∀ a, D a → E a) : ∀ a, next lo D i s s' a → next lo E i s s' a :=
  fun a ha => ⟨ha.1.imp_left (h a), ha.2⟩

theorem safe_mono {F : Nat → Prop} : ∀ {is : List Ins} {k : Nat} {s : AState} {D E : Nat → Prop}, (∀ a, D a → E a) →
    Safe P T lo F D is k s → Safe P T lo F E is k s
  | [], _, _, _, _, h, hs => fun a ha => h a (hs a ha)
  | _ :: _, k + 1, _, _, _, h, hs => safe_mono (k := k) h hs
  | _ :: _, 0, _, _, _, h, hs => ⟨fun a h1 h2 => h a (hs.1 a h1 h2), fun r s' he => by
      have := hs.2 r s' he
      cases r with
      | none => exact fun a ha => next_mono h a (this a ha)
      | some k => exact safe_mono (next_mono h) this⟩

/-- One instruction. -/
theorem safe_step {F D D' : Nat → Prop} {i : Ins} {is : List Ins} {k : Nat} {s s' : AState} (he : exec P T i s = some (some k, s'))
    (hl : ∀ a, (ld i s).1 ≤ a → a < (ld i s).1 + (ld i s).2 → D a) (hsub : ∀ a, D' a → next lo D i s s' a)
    (h : Safe P T lo F D' is k s') : Safe P T lo F D (i :: is) 0 s := by
  refine ⟨hl, fun r q hq => ?_⟩
  rw [he] at hq
  cases hq
  exact safe_mono hsub h

/-- Everything but the stack below `L`. -/
def level (lo L a : Nat) : Prop := a < lo ∨ L ≤ a

/-- An instruction with the stack pointer not above `L`. -/
theorem level_step {F : Nat → Prop} {L : Nat} {i : Ins} {is : List Ins} {k : Nat} {s s' : AState} (he : exec P T i s = some (some k, s'))
    (hl : (ld i s).2 = 0 ∨ L ≤ (ld i s).1) (h31 : s'.x 31 ≤ L) (h : Safe P T lo F (level lo L) is k s') :
    Safe P T lo F (level lo L) (i :: is) 0 s := by
  refine safe_step he (fun a h1 h2 => ?_) (fun a ha => ⟨.inl ha, ?_⟩) h
  · rcases hl with hl | hl
    · omega
    · exact .inr (by omega)
  · rcases ha with ha | ha
    · exact .inl ha
    · exact .inr (by omega)

theorem safe_aut {F : Nat → Prop} {L : Nat} {n : Nat} {is : List Ins} {s : AState} (h31 : s.x 31 ≤ L)
    (h : ∀ p, Safe P T lo F (level lo L) is 0 (s.set 30 p)) : Safe P T lo F (level lo L) (.aut n :: is) 0 s := by
  refine ⟨fun a h1 h2 => absurd h2 (by simp [ld]), fun r q hq => ?_⟩
  simp only [exec] at hq
  cases hp : P.auth (s.x 30) (s.x n) with
  | none => rw [hp] at hq; exact absurd hq (by simp)
  | some p =>
    rw [hp] at hq
    cases hq
    refine safe_mono (fun a ha => ⟨.inl ha, ?_⟩) (h p)
    rcases ha with ha | ha
    · exact .inl ha
    · exact .inr (Nat.le_trans h31 ha)

/-- Instructions that change no register but x0, x1 and vector registers and read, if anything, the `lim` bytes at x3. -/
def calm (lim : Nat) : Ins → Bool
  | .nop | .brk | .b99 | .stp .. | .str .. | .stpv .. | .strv .. | .stn .. => true
  | .ext _ _ d _ => d < 2
  | .ldr z _ a n k => n == 3 && a < 2 && k + z ≤ lim
  | .ldp a b n k => n == 3 && a < 2 && b < 2 && k + 16 ≤ lim
  | .ldpv z _ _ n k => n == 3 && k + (z + z) ≤ lim
  | .ldrv z _ n k => n == 3 && k + z ≤ lim
  | _ => false

theorem calm_exec {lim : Nat} {i : Ins} (h : calm lim i = true) (s : AState) :
    (∀ a, (ld i s).1 ≤ a → a < (ld i s).1 + (ld i s).2 → s.x 3 ≤ a ∧ a < s.x 3 + lim) ∧
      ∀ r s', exec P T i s = some (r, s') → (r = none ∨ r = some 0) ∧ ∀ q, 2 ≤ q → s'.x q = s.x q := by
  cases i <;> simp only [calm, Bool.and_eq_true, beq_iff_eq, decide_eq_true_eq, Bool.false_eq_true] at h
  case brk => exact ⟨fun a _ h2 => absurd h2 (by simp [ld]), nofun⟩
  case ldr z sg a n k =>
    refine ⟨fun q h1 h2 => ?_, fun r s' e => ?_⟩
    · simp only [ld] at h1 h2; rw [h.1.1] at h1 h2; omega
    · cases e
      exact ⟨.inr rfl, fun q hq => if_neg (by omega)⟩
  case ldp a b n k =>
    refine ⟨fun q h1 h2 => ?_, fun r s' e => ?_⟩
    · simp only [ld] at h1 h2; rw [h.1.1.1] at h1 h2; omega
    · cases e
      exact ⟨.inr rfl, fun q hq => (if_neg (by omega)).trans (if_neg (by omega))⟩
  case ldpv z a b n k =>
    refine ⟨fun q h1 h2 => ?_, fun r s' e => ?_⟩
    · simp only [ld] at h1 h2; rw [h.1] at h1 h2; omega
    · cases e; exact ⟨.inr rfl, fun _ _ => rfl⟩
  case ldrv z a n k =>
    refine ⟨fun q h1 h2 => ?_, fun r s' e => ?_⟩
    · simp only [ld] at h1 h2; rw [h.1] at h1 h2; omega
    · cases e; exact ⟨.inr rfl, fun _ _ => rfl⟩
  case ext z sg d a =>
    refine ⟨fun a _ h2 => absurd h2 (by simp [ld]), fun r s' e => ?_⟩
    cases e
    exact ⟨.inr rfl, fun q hq => if_neg (by omega)⟩
  case b99 =>
    refine ⟨fun a _ h2 => absurd h2 (by simp [ld]), fun r s' e => ?_⟩
    cases e
    exact ⟨.inl rfl, fun _ _ => rfl⟩
  all_goals
    refine ⟨fun a _ h2 => absurd h2 (by simp [ld]), fun r s' e => ?_⟩
    cases e
    exact ⟨.inr rfl, fun _ _ => rfl⟩

theorem calm_run {lim : Nat} : ∀ {is : List Ins} {k : Nat} {s t : AState}, is.all (calm lim) = true → run P T is k s = some t →
    ∀ q, 2 ≤ q → t.x q = s.x q
  | [], _, _, _, _, h, _, _ => by cases h; rfl
  | i :: is, k + 1, s, t, hc, h, q, hq => calm_run (is := is) (k := k) (by simp at hc; simpa using hc.2) h q hq
  | i :: is, 0, s, t, hc, h, q, hq => by
    have hc' : calm lim i = true ∧ is.all (calm lim) = true := by simpa using hc
    cases he : exec P T i s with
    | none => simp only [run, he] at h; exact absurd h (by simp)
    | some p =>
      obtain ⟨r, s'⟩ := p
      obtain ⟨hr, h2⟩ := (calm_exec (P := P) (T := T) hc'.1 s).2 r s' he
      simp only [run, he] at h
      rcases hr with rfl | rfl
      · cases h; exact h2 q hq
      · exact (calm_run hc'.2 h q hq).trans (h2 q hq)

/-- A table of such instructions is safe from any entry point. -/
theorem safe_calm {lim : Nat} {F D : Nat → Prop} : ∀ {is : List Ins} {k : Nat} {s : AState}, is.all (calm lim) = true →
    Quiet lo D s → (∀ a, s.x 3 ≤ a → a < s.x 3 + lim → D a) → (∀ a, F a → D a) → Safe P T lo F D is k s
  | [], _, _, _, _, _, hF => hF
  | i :: is, k + 1, s, hc, hq, hl, hF => safe_calm (is := is) (k := k) (by simp at hc; simpa using hc.2) hq hl hF
  | i :: is, 0, s, hc, hq, hl, hF => by
    have hc' : calm lim i = true ∧ is.all (calm lim) = true := by simpa using hc
    obtain ⟨h1, h2⟩ := calm_exec (P := P) (T := T) hc'.1 s
    refine ⟨fun a b1 b2 => hl a (h1 a b1 b2).1 (h1 a b1 b2).2, fun r s' he => ?_⟩
    obtain ⟨hr, h3⟩ := h2 r s' he
    have hsub : ∀ a, D a → next lo D i s s' a := fun a ha => ⟨.inl ha, by rw [h3 31 (by decide)]; exact hq a ha⟩
    rcases hr with rfl | rfl
    · exact fun a ha => hsub a (hF a ha)
    · exact safe_calm hc'.2 (fun a ha => ha.2) (by rw [h3 3 (by decide)]; exact fun a b1 b2 => hsub a (hl a b1 b2)) fun a ha => hsub a (hF a ha)

theorem safe_br {F : Nat → Prop} {L n : Nat} {is : List Ins} {s : AState} (h31 : s.x 31 ≤ L)
    (h : ∀ k, Safe P T lo F (level lo L) is k s) : Safe P T lo F (level lo L) (.br n :: is) 0 s := by
  refine ⟨fun a h1 h2 => absurd h2 (by simp [ld]), fun r q hq => ?_⟩
  simp only [exec] at hq
  split at hq
  · cases hq
    refine safe_mono (fun a ha => ⟨.inl ha, ?_⟩) (h _)
    rcases ha with ha | ha
    · exact .inl ha
    · exact .inr (Nat.le_trans h31 ha)
  · exact absurd hq (by simp)

/-- Everything but the stack below `S`, and of that the first `b` bytes at `Q` and what is
between 144 and `c` bytes above `Q`. -/
def fr (lo S Q b c a : Nat) : Prop := a < lo ∨ S ≤ a ∨ (Q ≤ a ∧ a < Q + b) ∨ (Q + 144 ≤ a ∧ a < Q + c)

theorem fr_step {F : Nat → Prop} {S Q b c b' c' : Nat} {i : Ins} {is : List Ins} {k : Nat} {s s' : AState} (hQ : Q ≤ S)
    (he : exec P T i s = some (some k, s')) (hl : (ld i s).2 = 0) {p n : Nat} (hst : st i s = (p, n)) (h31 : s'.x 31 = Q)
    (hsub : ∀ a, fr lo S Q b' c' a → fr lo S Q b c a ∨ p ≤ a ∧ a < p + n) (h : Safe P T lo F (fr lo S Q b' c') is k s') :
    Safe P T lo F (fr lo S Q b c) (i :: is) 0 s := by
  refine safe_step he (fun a h1 h2 => by omega) (fun a ha => ⟨?_, ?_⟩) h
  · rw [hst]; exact hsub a ha
  · rw [h31]
    unfold fr at ha
    omega

theorem safe_saveV {F : Nat → Prop} {S : Nat} {is : List Ins} {s : AState} (hQ : s.x 31 ≤ S) (hv : ∀ k, (s.v k).length = 16)
    (h : ∀ m, Safe P T lo F (fr lo S (s.x 31) 144 144) is 0 { s with mem := m }) :
    Safe P T lo F (fr lo S (s.x 31) 16 144) (saveV ++ is) 0 s := by
  have hz : ∀ a b k, (s.x 31 + k, ((s.v a).take 16 ++ (s.v b).take 16).length) = (s.x 31 + k, 32) := by
    intro a b k; simp [hv]
  refine fr_step (b' := 48) (c' := 144) hQ rfl rfl (hz 0 1 16) rfl (fun a ha => by unfold fr at *; omega) (fr_step (b' := 80) (c' := 144)
    hQ rfl rfl (hz 2 3 48) rfl (fun a ha => by unfold fr at *; omega) (fr_step (b' := 112) (c' := 144) hQ rfl rfl (hz 4 5 80) rfl
      (fun a ha => by unfold fr at *; omega) (fr_step (b' := 144) (c' := 144) hQ rfl rfl (hz 6 7 112) rfl
        (fun a ha => by unfold fr at *; omega) (h _))))

theorem safe_saveX {F : Nat → Prop} {S b : Nat} {is : List Ins} {s : AState} (hQ : s.x 31 ≤ S)
    (h : ∀ m, Safe P T lo F (fr lo S (s.x 31) b 208) is 0 { s with mem := m, x := upd s.x 29 (s.x 31) }) :
    Safe P T lo F (fr lo S (s.x 31) b 144) (saveX ++ is) 0 s := by
  refine fr_step (b' := b) (c' := 144) hQ rfl rfl (p := 0) (n := 0) rfl rfl (fun a ha => .inl ha) (fr_step (b' := b) (c' := 160)
    (p := s.x 31 + 144) (n := 16) hQ rfl rfl rfl rfl (fun a ha => by unfold fr at *; omega) (fr_step (b' := b) (c' := 176)
    (p := s.x 31 + 160) (n := 16) hQ rfl rfl rfl rfl (fun a ha => by unfold fr at *; omega) (fr_step (b' := b) (c' := 192)
    (p := s.x 31 + 176) (n := 16) hQ rfl rfl rfl rfl (fun a ha => by unfold fr at *; omega) (fr_step (b' := b) (c' := 208)
    (p := s.x 31 + 192) (n := 16) hQ rfl rfl rfl rfl (fun a ha => by unfold fr at *; omega) (h _)))))

/-- An instruction that reads from outside the frame. -/
theorem fr_load {F : Nat → Prop} {S Q b c : Nat} {i : Ins} {is : List Ins} {k : Nat} {s s' : AState} (hQ : Q ≤ S)
    (he : exec P T i s = some (some k, s')) (hl : (ld i s).1 + (ld i s).2 ≤ lo ∨ S ≤ (ld i s).1) (h31 : s'.x 31 = Q)
    (h : Safe P T lo F (fr lo S Q b c) is k s') : Safe P T lo F (fr lo S Q b c) (i :: is) 0 s := by
  refine safe_step he (fun a h1 h2 => ?_) (fun a ha => ⟨.inl ha, ?_⟩) h
  · rcases hl with hl | hl
    · exact .inl (by omega)
    · exact .inr (.inl (by omega))
  · rw [h31]
    unfold fr at ha
    omega

theorem safe_doClosure {S b : Nat} {s : AState} (hQ : s.x 31 ≤ S) :
    Safe P T lo (fr lo S (s.x 31) b 208) (fr lo S (s.x 31) b 208) doClosure 0 s := by
  exact fr_step hQ rfl rfl (p := 0) (n := 0) rfl rfl (fun a ha => .inl ha) (fr_step hQ rfl rfl (p := 0) (n := 0) rfl rfl (fun a ha => .inl ha)
    (fr_step hQ rfl rfl (p := 0) (n := 0) rfl rfl (fun a ha => .inl ha) (fr_step hQ rfl rfl (p := 0) (n := 0) rfl rfl (fun a ha => .inl ha)
      fun a ha => ha)))

/-- The frame of a closure. -/
theorem safe_frame {F : Nat → Prop} {vec : Bool} {is : List Ins} {s : AState} (hv : ∀ k, (s.v k).length = 16)
    (h : ∀ m x, x 17 = s.x 17 → x 18 = s.x 18 → x 31 = s.x 31 - 272 →
      Safe P T lo F (fr lo (s.x 31) (s.x 31 - 272) (if vec then 144 else 16) 208) is 0 ⟨x, s.v, m⟩) :
    Safe P T lo F (level lo (s.x 31)) (.stpPre 29 30 272 :: ((if vec then saveV else []) ++ (saveX ++ is))) 0 s := by
  by_cases hk : 272 ≤ s.x 31
  · refine safe_step (D' := fr lo (s.x 31) (s.x 31 - 272) 16 144) (k := 0) (s' := { s with
        mem := s.mem.wr (s.x 31 - 272) (leBytes 8 (s.x 29) ++ leBytes 8 (s.x 30)), x := upd s.x 31 (s.x 31 - 272) })
      (by simp only [exec]; rw [if_pos hk]) (fun a h1 h2 => absurd h2 (by simp [ld])) (fun a ha => ?_) ?_
    · unfold fr at ha
      refine ⟨?_, ?_⟩
      · show (a < lo ∨ s.x 31 ≤ a) ∨ s.x 31 - 272 ≤ a ∧ a < s.x 31 - 272 + 16
        omega
      · show a < lo ∨ s.x 31 - 272 ≤ a
        omega
    · generalize s.mem.wr _ _ = m0
      generalize hQ : s.x 31 - 272 = Q at h ⊢
      have hle : Q ≤ s.x 31 := by omega
      have hx : ∀ b m, (vec = true → b = 144) → (vec = false → b = 16) →
          Safe P T lo F (fr lo (s.x 31) Q b 144) (saveX ++ is) 0 ⟨upd s.x 31 Q, s.v, m⟩ := by
        intro b m h1 h2
        have : b = if vec then 144 else 16 := by
          cases vec
          · exact h2 rfl
          · exact h1 rfl
        subst this
        exact safe_saveX (s := ⟨upd s.x 31 Q, s.v, m⟩) hle fun m => h m _ rfl rfl rfl
      cases vec
      · exact hx 16 m0 nofun fun _ => rfl
      · exact safe_saveV (s := ⟨upd s.x 31 Q, s.v, m0⟩) hle hv fun m => hx 144 m (fun _ => rfl) nofun
  · refine ⟨fun a h1 h2 => absurd h2 (by simp [ld]), fun r q hq => ?_⟩
    simp only [exec] at hq
    rw [if_neg hk] at hq
    exact absurd hq (by simp)

end Verif.A64.Asm
