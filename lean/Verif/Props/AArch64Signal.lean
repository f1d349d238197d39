import Verif.AArch64.AsmSignal
import Verif.Props.AArch64Asm

/-! Interruptions of the assembly of AArch64 (C62): a signal handler may run between any
two instructions, on the same stack. -/
namespace Verif.Props
open Verif Verif.A64 Verif.A64.Asm

/-- The interrupted execution ends as the uninterrupted one: the same registers and the
same memory on `D`. -/
def A64Unaffected (D : Nat → Prop) (o : Option AState) (u : AState) : Prop :=
  ∃ t, o = some t ∧ u.x = t.x ∧ u.v = t.v ∧ ∀ a, D a → u.mem a = t.mem a

theorem a64_safe_loads {P : Pac} {T lo : Nat} {s : AState} :
    Safe P T lo (level lo (s.x 31 + 192)) (level lo (s.x 31)) callLoads 0 s := by
  have hx : ∀ (s' : AState), s'.x 31 = s.x 31 →
      Safe P T lo (level lo (s.x 31 + 192)) (level lo (s.x 31)) (callLoads.drop 5) 0 s' := by
    intro s' h
    have hle : s'.x 31 ≤ s.x 31 := Nat.le_of_eq h
    have hge : ∀ k, s.x 31 ≤ s'.x 31 + k := fun k => by omega
    refine level_step rfl (.inr (hge 128)) hle (level_step rfl (.inr (hge 144)) hle (level_step rfl (.inr (hge 160)) hle
      (level_step rfl (.inr (hge 176)) hle (safe_step (D' := level lo (s.x 31 + 192)) rfl (fun a _ h2 => absurd h2 (by simp [ld]))
        (fun a ha => ⟨.inl ?_, ?_⟩) fun a ha => ha))))
    · rcases ha with ha | ha
      · exact .inl ha
      · exact .inr (by omega)
    · rcases ha with ha | ha
      · exact .inl ha
      · refine .inr ?_
        show s'.x 31 + 192 ≤ a
        omega
  have hle : s.x 31 ≤ s.x 31 := Nat.le_refl _
  refine level_step (s' := s) rfl (.inl rfl) hle ?_
  by_cases hb : (s.x 4).testBit 7
  · rw [if_pos hb]
    exact level_step rfl (.inr (Nat.le_add_right _ 0)) hle (level_step rfl (.inr (Nat.le_add_right _ 32)) hle
      (level_step rfl (.inr (Nat.le_add_right _ 64)) hle (level_step rfl (.inr (Nat.le_add_right _ 96)) hle (hx _ rfl))))
  · rw [if_neg hb]
    exact hx s rfl

/-- Sequential composition for programs that do not jump out of the first part. -/
theorem a64_safe_frame {P : Pac} {T lo : Nat} {go : Bool} {s : AState} (h : s.x 31 ≤ s.x 0) :
    Safe P T lo (level lo (s.x 0 + 192)) (level lo (s.x 0)) (callFrame go ++ callLoads) 0 s := by
  have hr : s.x 0 ≤ s.x 0 := Nat.le_refl _
  cases go
  · refine level_step rfl (.inl rfl) h (level_step rfl (.inl rfl) h (level_step rfl (.inl rfl) h (level_step rfl (.inl rfl) h
      (level_step rfl (.inl rfl) hr (level_step rfl (.inl rfl) hr (level_step rfl (.inl rfl) hr (level_step rfl (.inl rfl) hr ?_)))))))
    exact a64_safe_loads
  · refine level_step rfl (.inl rfl) h (level_step rfl (.inl rfl) h (level_step rfl (.inl rfl) h (level_step rfl (.inl rfl) h
      (level_step rfl (.inl rfl) hr (level_step rfl (.inl rfl) hr (level_step rfl (.inl rfl) hr (level_step rfl (.inl rfl) hr
        (level_step rfl (.inl rfl) hr ?_))))))))
    exact a64_safe_loads

theorem a64_unaffected {P : Pac} {T lo : Nat} {F D : Nat → Prop} {is : List Ins} {s u : AState} (h : Runs P T lo is 0 s u)
    (hq : Quiet lo D s) (hs : Safe P T lo F D is 0 s) : A64Unaffected F (run P T is 0 s) u := by
  obtain ⟨w, hw, ⟨h1, h2, h3⟩, -⟩ := safe_runs h (s := s) ⟨rfl, rfl, fun _ _ => rfl⟩ hq hs
  exact ⟨w, hw, h1, h2, h3⟩

/-- C62 for `ffi_call_SYSV` up to the call, without `__ARM_FEATURE_PAC_DEFAULT`: whatever
signals arrive, the function is entered with the same registers and the same stack.
Missing: the mode with it, see `C62_call_clobbered`. -/
theorem C62_call_enter_partial {P : Pac} {T lo : Nat} {mode : Mode} (hmode : mode ≠ .linux) {go : Bool} {s u : AState}
    {ctx frame fn rvalue flags clo : Nat} (h : A64CallAsm s ctx frame fn rvalue flags clo) (hsp : s.x 31 ≤ ctx)
    (hu : Runs P T lo (callIn mode go) 0 s u) :
    A64Unaffected (fun a => a < lo ∨ ctx + 192 ≤ a) (run P T (callIn mode go) 0 s) u := by
  rw [← h.x0] at hsp ⊢
  refine a64_unaffected (F := level lo (s.x 0 + 192)) (D := level lo (s.x 0)) hu (fun a ha => ha.imp_right fun h => Nat.le_trans hsp h) ?_
  cases mode
  · exact a64_safe_frame hsp
  · exact absurd rfl hmode
  · exact level_step rfl (.inl rfl) hsp (a64_safe_frame (s := s.set 30 _) hsp)

theorem runs_of_run {P : Pac} {T lo : Nat} : ∀ {is : List Ins} {k : Nat} {s t : AState}, run P T is k s = some t → Runs P T lo is k s t
  | [], _, _, _, h => by cases h; exact .done
  | _ :: is, k + 1, _, _, h => .skip (runs_of_run (is := is) (k := k) h)
  | i :: is, 0, s, t, h => by
    cases he : exec P T i s with
    | none => simp only [run, he] at h; exact absurd h (by simp)
    | some p =>
      obtain ⟨r, s'⟩ := p
      simp only [run, he] at h
      cases r with
      | none => cases h; exact .stop he
      | some k => exact .step he (runs_of_run h)

/-- C62 violated: with `__ARM_FEATURE_PAC_DEFAULT`, `ffi_call_SYSV` first sets the stack
pointer above the context, to sign the return address (src/aarch64/internal.h:121-126).  A
signal handler that runs then overwrites the arguments: whatever it leaves there, `m`, is
what the function gets. -/
theorem C62_call_clobbered {P : Pac} {T lo : Nat} {go : Bool} {s : AState} {ctx frame fn rvalue flags clo : Nat}
    (h : A64CallAsm s ctx frame fn rvalue flags clo) {m : Mem} (hm : ∀ a, a < lo ∨ frame ≤ a → m a = s.mem a) :
    ∃ u, Runs P T lo (callIn .linux go) 0 s u ∧ u.x 9 = fn ∧ ∀ k, k < 8 → leBytes 8 (u.x k) = m.rd (ctx + 128 + 8 * k) 8 := by
  have h' : A64CallAsm { s with mem := m } ctx frame fn rvalue flags clo := ⟨⟨h.x, h.v, h.lr⟩, h.x0, h.x1, h.x2, h.x3, h.x4, h.x5, h.order, h.top⟩
  obtain ⟨u, hu, h1, -, -, -, h2, -⟩ := C61_call_enter (P := P) (T := T) (mode := .linux) (go := go) h'
  refine ⟨u, .step (s' := s.set 9 (s.x 31)) rfl (.step (s' := (s.set 9 (s.x 31)).set 31 (s.x 1)) rfl (.irq (m := m) ?_ ?_)), h1, h2⟩
  · intro a ha
    have : s.x 1 = frame := h.x1
    rw [← this] at hm
    exact hm a ha
  · exact runs_of_run hu

/-- So no call is safe: some interruption changes the first argument. -/
theorem C62_call_unsafe {P : Pac} {T lo : Nat} {go : Bool} {s : AState} {ctx frame fn rvalue flags clo : Nat}
    (h : A64CallAsm s ctx frame fn rvalue flags clo) (hlo : lo ≤ ctx) :
    ∃ t u, run P T (callIn .linux go) 0 s = some t ∧ Runs P T lo (callIn .linux go) 0 s u ∧ u.x 0 ≠ t.x 0 := by
  obtain ⟨t, ht, -, -, -, -, h1, -⟩ := C61_call_enter (P := P) (T := T) (mode := .linux) (go := go) h
  have ho := h.order
  obtain ⟨u, hu, -, h2⟩ := C62_call_clobbered (P := P) (T := T) (lo := lo) (go := go) h
    (m := s.mem.wr (ctx + 128) [s.mem (ctx + 128) + 1]) (by
      intro a ha
      exact Mem.wr_out _ _ _ _ (by simp; omega))
  refine ⟨t, u, ht, hu, fun e => ?_⟩
  have e1 := h1 0 (by decide)
  have e2 := h2 0 (by decide)
  rw [e, e1] at e2
  have e3 := congrArg (fun l => l.getD 0 0) e2
  beta_reduce at e3
  rw [Mem.rd_getD _ _ _ _ (by decide), Mem.rd_getD _ _ _ _ (by decide)] at e3
  have e4 := Mem.wr_in s.mem (ctx + 128) [s.mem (ctx + 128) + 1] 0 (by simp)
  simp only [Nat.mul_zero, Nat.add_zero] at e3 e4
  rw [e4] at e3
  simp at e3

/-- `ffi_call_SYSV` after the call, with interruptions. -/
def A64CallOuts (P : Pac) (T lo : Nat) (mode : Mode) (s w : AState) : Prop :=
  ∃ q, Runs P T lo (callBack ++ callTable) 0 s q ∧ Runs P T lo (authWith 2 mode) 0 q w

/-- C62 for the way back, in every mode: `u` is the state in which the function returns;
the caller's stack pointer, which the frame holds, is not above the frame. -/
theorem C62_call_exit {P : Pac} {T lo : Nat} {mode : Mode} {frame : Nat} {u w : AState} (h29 : u.x 29 = frame) (h31 : u.x 31 ≤ frame)
    (hsp : leNat (u.mem.rd (frame + 32) 8) ≤ frame) (hw : A64CallOuts P T lo mode u w) :
    A64Unaffected (fun a => a < lo ∨ frame ≤ a) (callOut P T mode u) w := by
  subst h29
  obtain ⟨q, hq, hw⟩ := hw
  have hge : ∀ k, u.x 29 ≤ u.x 29 + k := fun k => Nat.le_add_right _ _
  have s1 : Safe P T lo (level lo (u.x 29)) (level lo (u.x 29)) (callBack ++ callTable) 0 u := by
    refine level_step rfl (.inr (hge 16)) h31 (level_step rfl (.inr (hge 32)) h31 (level_step rfl (.inl rfl) hsp (level_step rfl (.inl rfl) hsp
      (level_step rfl (.inr (hge 0)) hsp (level_step rfl (.inl rfl) hsp (level_step rfl (.inl rfl) hsp (level_step rfl (.inl rfl) hsp
      (safe_br hsp fun k => ?_))))))))
    exact safe_calm (lim := 0) (by decide) (fun a ha => ha.imp_right fun h => Nat.le_trans hsp h) (fun a h1 h2 => absurd h2 (by omega))
      fun a ha => ha
  obtain ⟨q', hq', hag, hqu⟩ := safe_runs hq (s := u) ⟨rfl, rfl, fun _ _ => rfl⟩ (fun a ha => ha.imp_right fun h => Nat.le_trans h31 h) s1
  have hx : ∀ r, 2 ≤ r → q'.x r = backX T u r := by
    rw [callBack_run] at hq'
    exact calm_run (lim := 0) (by decide) hq'
  have q31 : q'.x 31 ≤ u.x 29 := by rw [hx 31 (by decide)]; exact hsp
  have q2 : q'.x 2 ≤ u.x 29 := by rw [hx 2 (by decide)]; exact Nat.le_refl _
  have s2 : Safe P T lo (level lo (u.x 29)) (level lo (u.x 29)) (authWith 2 mode) 0 q' := by
    cases mode
    · exact fun a ha => ha
    · exact level_step rfl (.inl rfl) q31 (level_step rfl (.inl rfl) q2 (safe_aut q2 fun p => level_step rfl (.inl rfl) q31 fun a ha => ha))
    · exact safe_aut q31 fun p a ha => ha
  obtain ⟨t, ht, ⟨h1, h2, h3⟩, -⟩ := safe_runs hw hag hqu s2
  refine ⟨t, ?_, h1, h2, h3⟩
  unfold callOut
  rw [hq']
  exact ht

/-- The part of a closure's frame that its entry code fills: the frame record, the saved
vector registers if any, and the saved general registers. -/
def A64Filled (vec : Bool) (sp a : Nat) : Prop :=
  (sp - 272 ≤ a ∧ a < sp - 272 + if vec then 144 else 16) ∨ (sp - 272 + 144 ≤ a ∧ a < sp - 272 + 208)

/-- C62 for closures up to the C code, in every mode. -/
theorem C62_closure_enter {P : Pac} {T lo off : Nat} {mode : Mode} {vec : Bool} {s u : AState} (h : A64State s)
    (apart : s.x 17 + off + 24 ≤ lo ∨ s.x 31 ≤ s.x 17 + off) (hu : Runs P T lo (closureIn mode vec off) 0 s u) :
    A64Unaffected (fun a => a < lo ∨ s.x 31 ≤ a ∨ A64Filled vec (s.x 31) a) (run P T (closureIn mode vec off) 0 s) u := by
  have key : ∀ s' : AState, s'.v = s.v → s'.x 17 = s.x 17 → s'.x 31 = s.x 31 →
      Safe P T lo (fr lo (s.x 31) (s.x 31 - 272) (if vec then 144 else 16) 208) (level lo (s.x 31))
        (.stpPre 29 30 272 :: ((if vec then saveV else []) ++ (saveX ++ ([.ldp 0 1 17 off, .ldr 8 false 2 17 (off + 16)] ++ doClosure)))) 0 s' := by
    intro s' e1 e2 e3
    rw [← e3]
    refine safe_frame (by rw [e1]; exact h.v) fun m x h1 h2 h3 => ?_
    have hle : x 31 ≤ s'.x 31 := by omega
    rw [← h3]
    rw [← e2, ← h1, ← e3] at apart
    refine fr_load hle rfl ?_ rfl (fr_load hle rfl ?_ rfl (safe_doClosure (s := ⟨_, _, _⟩) hle))
    · show x 17 + off + 16 ≤ lo ∨ s'.x 31 ≤ x 17 + off
      omega
    · show x 17 + (off + 16) + 8 ≤ lo ∨ s'.x 31 ≤ x 17 + (off + 16)
      omega
  have e : closureIn mode vec off = signLr mode ++ (.stpPre 29 30 272 :: ((if vec then saveV else []) ++
      (saveX ++ ([.ldp 0 1 17 off, .ldr 8 false 2 17 (off + 16)] ++ doClosure)))) := by
    simp [closureIn]
  refine a64_unaffected (F := fr lo (s.x 31) (s.x 31 - 272) (if vec then 144 else 16) 208) (D := level lo (s.x 31)) hu (fun a ha => ha) ?_
  rw [e]
  cases mode
  · exact key s rfl rfl rfl
  · exact level_step rfl (.inl rfl) (Nat.le_refl _) (key (s.set 30 _) rfl rfl rfl)
  · exact level_step rfl (.inl rfl) (Nat.le_refl _) (key (s.set 30 _) rfl rfl rfl)

/-- C62 for Go closures up to the C code, in every mode. -/
theorem C62_go_enter {P : Pac} {T lo : Nat} {mode : Mode} {vec : Bool} {s u : AState} (h : A64State s)
    (apart : s.x 18 + 24 ≤ lo ∨ s.x 31 ≤ s.x 18 + 8) (hu : Runs P T lo (goIn mode vec) 0 s u) :
    A64Unaffected (fun a => a < lo ∨ s.x 31 ≤ a ∨ A64Filled vec (s.x 31) a) (run P T (goIn mode vec) 0 s) u := by
  have key : ∀ s' : AState, s'.v = s.v → s'.x 18 = s.x 18 → s'.x 31 = s.x 31 →
      Safe P T lo (fr lo (s.x 31) (s.x 31 - 272) (if vec then 144 else 16) 208) (level lo (s.x 31))
        (.stpPre 29 30 272 :: ((if vec then saveV else []) ++ (saveX ++ ([.ldp 0 1 18 8, .mov 2 18] ++ doClosure)))) 0 s' := by
    intro s' e1 e2 e3
    rw [← e3]
    refine safe_frame (by rw [e1]; exact h.v) fun m x h1 h2 h3 => ?_
    have hle : x 31 ≤ s'.x 31 := by omega
    rw [← h3]
    rw [← e2, ← h2, ← e3] at apart
    refine fr_load hle rfl ?_ rfl (fr_step hle rfl rfl (p := 0) (n := 0) rfl rfl (fun a ha => .inl ha) (safe_doClosure (s := ⟨_, _, _⟩) hle))
    show x 18 + 8 + 16 ≤ lo ∨ s'.x 31 ≤ x 18 + 8
    omega
  have e : goIn mode vec = (if vec then [] else signLrLinux mode) ++ (.stpPre 29 30 272 :: ((if vec then saveV else []) ++
      (saveX ++ ([.ldp 0 1 18 8, .mov 2 18] ++ doClosure)))) := by
    simp [goIn]
  refine a64_unaffected (F := fr lo (s.x 31) (s.x 31 - 272) (if vec then 144 else 16) 208) (D := level lo (s.x 31)) hu (fun a ha => ha) ?_
  rw [e]
  cases vec
  · cases mode
    · exact key s rfl rfl rfl
    · exact level_step rfl (.inl rfl) (Nat.le_refl _) (key (s.set 30 _) rfl rfl rfl)
    · exact key s rfl rfl rfl
  · exact key s rfl rfl rfl

/-- `ffi_closure_SYSV` after the C code, with interruptions. -/
def A64ClosureOuts (P : Pac) (T lo : Nat) (mode : Mode) (s w : AState) : Prop :=
  ∃ q, Runs P T lo (closureBack ++ closureTable) 0 s q ∧ Runs P T lo ([.ldpPost 29 30 272] ++ authRet mode) 0 q w

/-- C62 for the way back of a closure, in every mode: the result is read from the frame
before the frame is released. -/
theorem C62_closure_exit {P : Pac} {T lo : Nat} {mode : Mode} {u w : AState} (hw : A64ClosureOuts P T lo mode u w) :
    A64Unaffected (fun a => a < lo ∨ u.x 31 + 272 ≤ a) (closureOut P T mode u) w := by
  obtain ⟨q, hq, hw⟩ := hw
  have hr : u.x 31 ≤ u.x 31 := Nat.le_refl _
  have s1 : Safe P T lo (level lo (u.x 31)) (level lo (u.x 31)) (closureBack ++ closureTable) 0 u := by
    refine level_step rfl (.inl rfl) hr (level_step rfl (.inl rfl) hr (level_step rfl (.inl rfl) hr (level_step rfl (.inl rfl) hr
      (safe_br hr fun k => ?_))))
    refine safe_calm (lim := 64) (by decide) (fun a ha => ha) (fun a h1 h2 => .inr (Nat.le_trans (Nat.le_add_right _ 208) h1))
      fun a ha => ha
  obtain ⟨q', hq', hag, hqu⟩ := safe_runs hq (s := u) ⟨rfl, rfl, fun _ _ => rfl⟩ (fun a ha => ha) s1
  have q31 : q'.x 31 = u.x 31 := by
    rw [closureBack_run] at hq'
    exact calm_run (lim := 64) (by decide) hq' 31 (by decide)
  have s2 : Safe P T lo (level lo (u.x 31 + 272)) (level lo (u.x 31)) ([.ldpPost 29 30 272] ++ authRet mode) 0 q' := by
    have hle : q'.x 31 + 272 ≤ u.x 31 + 272 := by omega
    refine safe_step (D' := level lo (u.x 31 + 272)) rfl (fun a h1 h2 => .inr ?_) (fun a ha => ?_) ?_
    · have : q'.x 31 ≤ a := h1
      omega
    · refine ⟨.inl (ha.imp_right fun h => by omega), ha.imp_right fun h => ?_⟩
      show q'.x 31 + 272 ≤ a
      omega
    · cases mode
      · exact fun a ha => ha
      · exact safe_aut hle fun p a ha => ha
      · exact safe_aut hle fun p a ha => ha
  obtain ⟨t, ht, ⟨h1, h2, h3⟩, -⟩ := safe_runs hw hag hqu s2
  refine ⟨t, ?_, h1, h2, h3⟩
  unfold closureOut
  rw [hq']
  exact ht

/-! ## Examples -/

/-- The call of C61's example is interrupted: the handler overwrites the context. -/
example : ∃ u, Runs a64Pac 0 1024 (callIn .linux true) 0 a64CallS u ∧ u.x 9 = 65536 ∧
    leBytes 8 (u.x 0) = List.replicate 8 0 := by
  obtain ⟨u, hu, h1, h2⟩ := C62_call_clobbered (P := a64Pac) (T := 0) (lo := 1024) (go := true) a64CallS_ok
    (m := a64CallS.mem.wr 4096 (List.replicate 192 0)) (fun a ha => Mem.wr_out _ _ _ _ (by rw [List.length_replicate]; omega))
  refine ⟨u, hu, h1, (h2 0 (by decide)).trans ?_⟩
  decide +kernel

/-- Interruptions there are without effect in the other modes; this one changes memory. -/
example : ∃ u, Runs a64Pac 0 1024 (callIn .plain true) 0 a64CallS u ∧ u.mem 2000 = 1 ∧ a64CallS.mem 2000 ≠ 1 ∧
    A64Unaffected (fun a => a < 1024 ∨ 4096 + 192 ≤ a) (run a64Pac 0 (callIn .plain true) 0 a64CallS) u := by
  have h' : A64CallAsm { a64CallS with mem := a64CallS.mem.wr 2000 [1] } 4096 4304 65536 9000 129 5 :=
    ⟨⟨a64CallS_ok.x, a64CallS_ok.v, a64CallS_ok.lr⟩, rfl, rfl, rfl, rfl, rfl, rfl, by decide, by decide⟩
  obtain ⟨u, hu, h⟩ := C61_call_enter (P := a64Pac) (T := 0) (mode := .plain) (go := true) h'
  have hr : Runs a64Pac 0 1024 (callIn .plain true) 0 a64CallS u := .irq (m := a64CallS.mem.wr 2000 [1])
    (fun a ha => Mem.wr_out _ _ _ _ (by simp; have : a64CallS.x 31 = 4096 := rfl; omega)) (runs_of_run hu)
  refine ⟨u, hr, ?_, by decide, C62_call_enter_partial (by decide) a64CallS_ok (Nat.le_refl _) hr⟩
  exact (h.2.2.2.2.2.2.2.2 2000 (.inl (by decide))).trans rfl

example : a64CloS.x 17 + 24 + 24 ≤ 1024 ∨ a64CloS.x 31 ≤ a64CloS.x 17 + 24 := by decide

/-- A way back. -/
example : ∃ w, A64ClosureOuts a64Pac 0 1024 .plain { a64CloS with x := upd a64CloS.x 0 1 } w := by
  have hp : ∀ {m : Mem} {R : RetRegs}, ∃ R', loadRet 1 (8192 + 208) m R = .ok R' := ⟨_, rfl⟩
  obtain ⟨R', hR⟩ := @hp a64CloS.mem ⟨fun k => leBytes 8 (cbackX 0 { a64CloS with x := upd a64CloS.x 0 1 } k), a64CloS.v⟩
  obtain ⟨q, hq, -⟩ := closureTable_run (P := a64Pac) (T := 0) (ret := 1)
    (s := ⟨cbackX 0 { a64CloS with x := upd a64CloS.x 0 1 }, a64CloS.v, a64CloS.mem⟩) hR
  exact ⟨_, q, runs_of_run ((closureBack_run _).trans hq), runs_of_run rfl⟩

end Verif.Props
