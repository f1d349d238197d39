import Verif.Arm.AsmCall

/-! The entry points of closures of src/arm/sysv.S and `ffi_closure_ret`. -/
namespace Verif.Arm.Asm
open Verif

variable {c : Ctx} {lo : Nat} {X : Nat → Prop} {ra : Nat} {g : Nat → Nat} {sp : Nat → Prop} {post : Nat → St → Prop}

def rowA : Row := ⟨13, 16, []⟩
def rowB : Row := ⟨13, 112, []⟩
def rowC : Row := ⟨13, 120, [(14, -116)]⟩
def rowD : Row := ⟨13, 0, [(14, 4), (13, 0)]⟩

/-- The return address of the call of the inner function. -/
def site (vfp : Bool) : Nat := if vfp then 256 else 180

theorem goBlock (vfp : Bool) : Block row1 (off (.go vfp)) [.stmdb [0, 1, 2, 3]] ∧
    Block rowA (off (.go vfp) + 4) [.ldr 0 12 4, .ldr 1 12 8, .mov 2 12, .b (.do vfp)] := by
  cases vfp <;> decide +kernel

theorem closBlock (vfp : Bool) : Block row1 (off (.clos vfp)) [.stmdb [0, 1, 2, 3]] ∧
    Block rowA (off (.clos vfp) + 4) [.ldr 0 12 12, .ldr 1 12 16, .ldr 2 12 20] ∧ off (.clos vfp) + 16 = off (.do vfp) := by
  cases vfp <;> decide +kernel

theorem doBlockA (vfp : Bool) : Block rowA (off (.do vfp)) [.addi 12 13 16, .subi 13 13 96] := by
  cases vfp <;> decide +kernel

theorem doBlockB : Block rowB (off (.do false) + 8) [.stmdb [12, 14]] ∧ Block rowB (off (.do true) + 8) [.vst 16 13, .stmdb [12, 14]] := by
  decide +kernel

theorem doBlockC (vfp : Bool) : Block rowC (site vfp - 8) [.addi 3 13 8, .bl (if vfp then 1 else 0)] ∧
    site vfp = off (.do vfp) + (if vfp then 24 else 20) := by
  cases vfp <;> decide +kernel

theorem siteBlock (vfp : Bool) : Block rowC (site vfp) [.addi 2 13 72, .adr 3 .ret, .addpc 3 0] := by
  cases vfp <;> decide +kernel

/-- The code for each type of result. -/
def retCode : Flag → List Ins
  | .vfpS => [.vld 1 2, .b .epilogue]
  | .vfpD => [.vld 2 2, .b .epilogue]
  | .vfpN => [.vld 8 2, .b .epilogue]
  | .int64 => [.ldr 1 2 4, .nop, .ldr 0 2 0, .b .epilogue]
  | .int => [.ldr 0 2 0, .b .epilogue]
  | .void => [.b .epilogue]
  | .struct => [.b .epilogue]

theorem retBlock (f : Flag) : Block rowD (off .ret + 8 * f.num) (retCode f) ∧ (fetch (off .ret + 8 * f.num)).isSome := by
  cases f <;> decide +kernel

theorem epiBlock : Block rowD (off .epilogue) [.ldmPc] := by decide +kernel

/-- The offsets of the entry points for static trampolines. -/
def altOffs (vfp : Bool) : List Nat := [off (.alt vfp), off (.alt vfp) + 4, off (.alt vfp) + 8]

theorem altCode (vfp : Bool) : fetch (off (.alt vfp)) = some (.ldr 12 13 4) ∧ fetch (off (.alt vfp) + 4) = some (.addi 13 13 8) ∧
    fetch (off (.alt vfp) + 8) = some (.b (.clos vfp)) := by
  cases vfp <;> decide +kernel

theorem altNone (vfp : Bool) : ∀ o ∈ altOffs vfp, rowAt o = none ∧ (fetch o).isSome := by
  cases vfp <;> decide +kernel

attribute [local irreducible] fetch rowAt off Block site

/-- Unwinding when lr has been saved at sp + 4. -/
theorem holds_clos {s t : St} {D : Nat → Prop} {o : Nat} (hr : rowAt o = some rowC) (ht : Agree D s t) (hpc : s.pc = .at_ o)
    (hD : ∀ a, s.r 13 + 4 ≤ a → a < s.r 13 + 8 → D a) (hm : leNat (s.mem.rd (s.r 13 + 4) 4) = ra) (hs : sp (s.r 13 + 120)) (hg : Saved s.r g) :
    Holds X ra g sp post t := by
  unfold Holds
  rw [ht.pc, hpc, ht.r]
  have e1 : t.mem.rd (s.r 13 + 4) 4 = s.mem.rd (s.r 13 + 4) 4 := ht.rd fun a h1 h2 => hD a (by omega) (by omega)
  refine .inr ⟨_, hr, ?_, hs, fun i h1 h2 => ?_⟩
  · show leNat (t.mem.rd (((s.r 13 + 120 : Nat) : Int) + (-116)).toNat 4) = ra
    rw [show (((s.r 13 + 120 : Nat) : Int) + (-116)).toNat = s.r 13 + 4 by omega, e1, hm]
  · have : List.lookup i [(14, (-116 : Int))] = none := by
      simp only [List.lookup]
      rw [show (i == 14) = false by simp; omega]
    unfold unwind rowC
    dsimp only
    rw [this]
    dsimp only
    rw [if_neg (by omega)]
    exact hg i h1 h2

/-- Unwinding in `ffi_closure_ret`. -/
theorem holds_ret {s t : St} {D : Nat → Prop} {o : Nat} (hr : rowAt o = some rowD) (ht : Agree D s t) (hpc : s.pc = .at_ o)
    (hD : ∀ a, s.r 13 ≤ a → a < s.r 13 + 8 → D a) (hm : leNat (s.mem.rd (s.r 13 + 4) 4) = ra) (hs : sp (leNat (s.mem.rd (s.r 13) 4)))
    (hg : Saved s.r g) : Holds X ra g sp post t := by
  unfold Holds
  rw [ht.pc, hpc, ht.r]
  have e1 : t.mem.rd (s.r 13 + 4) 4 = s.mem.rd (s.r 13 + 4) 4 := ht.rd fun a h1 h2 => hD a (by omega) (by omega)
  have e2 : t.mem.rd (s.r 13) 4 = s.mem.rd (s.r 13) 4 := ht.rd fun a h1 h2 => hD a (by omega) (by omega)
  refine .inr ⟨_, hr, ?_, ?_, fun i h1 h2 => ?_⟩
  · show leNat (t.mem.rd (((s.r 13 + 0 : Nat) : Int) + 4).toNat 4) = ra
    rw [show (((s.r 13 + 0 : Nat) : Int) + 4).toNat = s.r 13 + 4 by omega, e1, hm]
  · show sp (leNat (t.mem.rd (((s.r 13 + 0 : Nat) : Int) + 0).toNat 4))
    rw [show (((s.r 13 + 0 : Nat) : Int) + 0).toNat = s.r 13 by omega, e2]
    exact hs
  · have : List.lookup i [(14, (4 : Int)), (13, 0)] = none := by
      simp only [List.lookup]
      rw [show (i == 14) = false by simp; omega, show (i == 13) = false by simp; omega]
    unfold unwind rowD
    dsimp only
    rw [this]
    dsimp only
    rw [if_neg (by omega)]
    exact hg i h1 h2

/-- What is known when the inner function is called; the frame starts at `f + 8`. -/
def dom (lo f : Nat) (vfp : Bool) (a : Nat) : Prop := a < lo ∨ f + 104 ≤ a ∨ (f ≤ a ∧ a < f + 8) ∨ (vfp = true ∧ f + 8 ≤ a ∧ a < f + 72)

/-- The memory with the frame. -/
def frameMem (vfp : Bool) (f lr : Nat) (s : Nat → List Byte) (m : Mem) : Mem :=
  (if vfp then m.wr (f + 8) (singles s 16) else m).wr f (leBytes 4 (f + 120) ++ (leBytes 4 lr ++ []))

theorem frameMem_out {vfp : Bool} {f lr : Nat} {s : Nat → List Byte} {m : Mem} (hv : ∀ i, i < 16 → (s i).length = 4) {a : Nat}
    (h : a < f ∨ f + 72 ≤ a) : frameMem vfp f lr s m a = m a := by
  have l := singles_length 16 (Nat.le_refl _) hv
  unfold frameMem
  rw [Mem.wr_out _ _ _ _ (by simp; omega)]
  split
  · rw [Mem.wr_out _ _ _ _ (by omega)]
  · rfl

theorem up {f g : Nat → Nat} {n v : Nat} (h : Saved f g) (hn : n < 4 ∨ 11 < n) : Saved (upd f n v) g := by
  intro i h1 h2
  simp only [upd]
  rw [if_neg (by omega)]
  exact h i h1 h2

/-- From the label `0` to the call of the inner function. -/
theorem clos_do {r : Nat → Nat} {s : Nat → List Byte} {le : Bool} {m : Mem} {f : Nat} {vfp : Bool} (h13 : r 13 = f + 104)
    (h14 : r 14 = ra) (hra : ra < 2 ^ 32) (hsp : f + 120 < 2 ^ 32) (hv : ∀ i, i < 16 → (s i).length = 4) (hg : Saved r g) (hs : sp (f + 120))
    (hpost : ∀ t, Agree (dom lo f vfp) ⟨.out (c.ext (if vfp then 1 else 0)),
      upd (upd (upd (upd r 12 (f + 120)) 13 f) 3 (f + 8)) 14 (c.base + site vfp), s, le, frameMem vfp f ra s m⟩ t →
      post (c.ext (if vfp then 1 else 0)) t) :
    Safe c lo (Holds X ra g sp post) (level lo (f + 104)) ⟨.at_ (off (.do vfp)), r, s, le, m⟩ := by
  have l := singles_length 16 (Nat.le_refl _) hv
  have pl : ∀ {o k : Nat} {D : Nat → Prop} {r' : Nat → Nat} {m' : Mem} {pc' : Pc}, pc' = .at_ o → r' 13 + k = f + 120 → r' 14 = ra → Saved r' g →
      rowAt o = some ⟨13, k, []⟩ → ∀ t, Agree D ⟨pc', r', s, le, m'⟩ t → Holds X ra g sp post t :=
    fun hpc h1 h2 h3 hr t ht => holds_plain hr ht hpc h2 (by dsimp only; rw [h1]; exact hs) h3
  refine rstep (doBlockA _) rfl (.level (by dsimp only; omega)) (pl rfl (by omega) h14 hg) rfl rfl fun b => ?_
  refine rstep b rfl (.level (by show r 13 ≤ _; omega)) (pl rfl (by show r 13 + 16 = _; omega) h14 (up hg (.inr (by omega)))) rfl
    (s' := ⟨.at_ (off (.do vfp) + 8), upd (upd r 12 (f + 120)) 13 (f + 8), s, le, m⟩) ?_ fun _ => ?_
  · show (if 96 ≤ r 13 then some _ else none) = _
    rw [if_pos (by omega)]
    show some (St.mk _ (upd (upd r 12 (r 13 + 16)) 13 (r 13 - 96)) _ _ _) = _
    rw [h13, show f + 104 + 16 = f + 120 by omega, show f + 104 - 96 = f + 8 by omega]
    rfl
  -- the last three instructions
  have fin : ∀ {m' : Mem} {D : Nat → Prop} {o : Nat}, Block rowB o [.stmdb [12, 14]] → o + 12 = site vfp →
      m' = (if vfp then m.wr (f + 8) (singles s 16) else m) → (∀ a, D a → a < lo ∨ f + 8 ≤ a) → (∀ a, dom lo f vfp a → D a ∨ f ≤ a ∧ a < f + 8) →
      Safe c lo (Holds X ra g sp post) D ⟨.at_ o, upd (upd r 12 (f + 120)) 13 (f + 8), s, le, m'⟩ := by
    intro m' D o hb ho hm' hD hdom
    refine bstep (dom lo f vfp) hb rfl (fun a ha => hD a ha) (pl rfl (by show f + 8 + 112 = _; omega) h14 (up (up hg (.inr (by omega))) (.inr (by omega))))
      (fun a h1 h2 => absurd h2 (by simp [ld])) (s' := ⟨.at_ (site vfp - 8), upd (upd (upd r 12 (f + 120)) 13 (f + 8)) 13 f, s, le, frameMem vfp f ra s m⟩) ?_ ?_
      fun _ => ?_
    · show (if 8 ≤ f + 8 then some _ else none) = _
      rw [if_pos (by omega)]
      show some (St.mk (.at_ (o + 4)) (upd _ 13 (f + 8 - 8)) s le (m'.wr (f + 8 - 8) (leBytes 4 (f + 120) ++ (leBytes 4 (r 14) ++ [])))) = _
      rw [Nat.add_sub_cancel, h14, hm', show o + 4 = site vfp - 8 by omega]
      rfl
    · intro a ha
      refine (hdom a ha).imp_right fun h => ?_
      show f + 8 - 8 ≤ a ∧ a < f + 8 - 8 + 8
      omega
    have w := (rd_words2 (m := if vfp then m.wr (f + 8) (singles s 16) else m) (a := f) hsp hra).2
    have hc : ∀ {o : Nat} {r' : Nat → Nat} {pc' : Pc}, pc' = .at_ o → r' 13 = f → Saved r' g → rowAt o = some rowC → ∀ t,
        Agree (dom lo f vfp) ⟨pc', r', s, le, frameMem vfp f ra s m⟩ t → Holds X ra g sp post t := by
      intro o r' pc' hpc e hg' hr t ht
      refine holds_clos hr ht hpc (fun a h1 h2 => .inr (.inr (.inl ?_))) ?_ ?_ hg'
      · dsimp only at h1 h2; omega
      · dsimp only; rw [e]; exact w
      · dsimp only; rw [e]; exact hs
    have q : ∀ {r' : Nat → Nat} {pc' : Pc}, r' 13 = f → Quiet lo (dom lo f vfp) ⟨pc', r', s, le, frameMem vfp f ra s m⟩ := by
      intro r' pc' e a ha
      show a < lo ∨ r' 13 ≤ a
      unfold dom at ha
      omega
    have sg := up (v := f) (n := 13) (up (v := f + 8) (n := 13) (up (v := f + 120) (n := 12) hg (.inr (by omega))) (.inr (by omega))) (.inr (by omega))
    refine rstep (doBlockC _).1 rfl (q rfl) (hc rfl rfl sg) rfl rfl fun b => ?_
    refine rstep b rfl (q rfl) (hc rfl rfl (up sg (.inl (by omega)))) rfl
      (s' := ⟨.out (c.ext (if vfp then 1 else 0)), upd (upd (upd (upd r 12 (f + 120)) 13 f) 3 (f + 8)) 14 (c.base + site vfp), s, le, frameMem vfp f ra s m⟩)
      ?_ fun _ => .stop (q rfl) (fun t ht => ?_) rfl
    · show some (St.mk _ (upd (upd (upd (upd (upd r 12 (f + 120)) 13 (f + 8)) 13 f) 3 (f + 8)) 14 (c.base + (site vfp - 8 + 4 + 4))) s le _) = _
      rw [show site vfp - 8 + 4 + 4 = site vfp by omega]
      have e : ∀ (h : Nat → Nat) (x y z : Nat), upd (upd h 13 x) 13 y = upd h 13 y := by
        intro h x y z
        funext d
        simp only [upd]
        split <;> rfl
      rw [e _ _ _ 0]
      rfl
    · unfold Holds
      rw [ht.pc]
      exact hpost t ht
  have hsite := (doBlockC vfp).2
  cases vfp with
  | false =>
    refine fin doBlockB.1 (by rw [hsite]; simp) rfl (fun a ha => ha.imp_right fun h => by omega) fun a ha => ?_
    rcases ha with ha | ha | ha | ha
    · exact .inl (.inl ha)
    · exact .inl (.inr ha)
    · exact .inr ha
    · cases ha.1
  | true =>
    refine bstep (fun a => level lo (f + 104) a ∨ f + 8 ≤ a ∧ a < f + 72) doBlockB.2 rfl (fun a ha => ha.imp_right fun h => by show f + 8 ≤ a; omega)
      (pl rfl (by show f + 8 + 112 = _; omega) h14 (up (up hg (.inr (by omega))) (.inr (by omega)))) (fun a h1 h2 => absurd h2 (by simp [ld])) rfl
      (fun a ha => ha.imp_right fun h => ?_) fun b => fin b (by rw [hsite]; simp) rfl (fun a ha => ?_) fun a ha => ?_
    · show f + 8 ≤ a ∧ a < f + 8 + (singles s 16).length
      omega
    · unfold level at ha; omega
    · rcases ha with ha | ha | ha | ha
      · exact .inl (.inl (.inl ha))
      · exact .inl (.inl (.inr ha))
      · exact .inr ha
      · exact .inl (.inr ha.2)

/-- Where the fields are. -/
def cifAt (go : Bool) : Nat := if go then 4 else 12

/-- The third argument of the inner function. -/
def udata (go : Bool) (m : Mem) (self : Nat) : Nat := if go then self else leNat (m.rd (self + 20) 4)

/-- The state in which the inner function is called; `f` is the stack pointer there. -/
def closState (c : Ctx) (go vfp : Bool) (f : Nat) (s : St) : St :=
  { s with
    pc := .out (c.ext (if vfp then 1 else 0))
    r := upd (upd (upd (upd (upd (upd (upd (upd s.r 13 (f + 104)) 0 (leNat (s.mem.rd (s.r 12 + cifAt go) 4))) 1
      (leNat (s.mem.rd (s.r 12 + cifAt go + 4) 4))) 2 (udata go s.mem (s.r 12))) 12 (f + 120)) 13 f) 3 (f + 8)) 14 (c.base + site vfp)
    mem := frameMem vfp f (s.r 14) s.s (s.mem.wr (f + 104) (words s.r [0, 1, 2, 3])) }

/-- The entry points to the call of the inner function. -/
theorem clos_head {s : St} {f : Nat} {go vfp : Bool} (hpc : s.pc = .at_ (off (if go then .go vfp else .clos vfp))) (h13 : s.r 13 = f + 120)
    (hra : s.r 14 < 2 ^ 32) (hsp : f + 120 < 2 ^ 32) (hv : ∀ i, i < 16 → (s.s i).length = 4) (hself : s.r 12 + 24 ≤ lo ∨ f + 120 ≤ s.r 12)
    (hlo : lo ≤ f) (hs : sp (f + 120))
    (hpost : ∀ t, Agree (dom lo f vfp) (closState c go vfp f s) t → post (c.ext (if vfp then 1 else 0)) t) :
    Safe c lo (Holds X (s.r 14) s.r sp post) (level lo (f + 120)) s := by
  obtain ⟨pc, r, s, le, m⟩ := s
  dsimp only at *
  have sv : Saved r r := fun _ _ _ => rfl
  obtain ⟨M, hM⟩ : ∃ M, m.wr (f + 104) (words r [0, 1, 2, 3]) = M := ⟨_, rfl⟩
  have hrd : ∀ k, k ≤ 20 → M.rd (r 12 + k) 4 = m.rd (r 12 + k) 4 := by
    intro k hk
    rw [← hM]
    exact Mem.rd_wr_disj _ _ _ _ _ (by simp; omega)
  have pl : ∀ {o k : Nat} {D : Nat → Prop} {r' : Nat → Nat} {m' : Mem} {pc' : Pc}, pc' = .at_ o → r' 13 + k = f + 120 → r' 14 = r 14 → Saved r' r →
      rowAt o = some ⟨13, k, []⟩ → ∀ t, Agree D ⟨pc', r', s, le, m'⟩ t → Holds X (r 14) r sp post t :=
    fun hpc h1 h2 h3 hr t ht => holds_plain hr ht hpc h2 (by dsimp only; rw [h1]; exact hs) h3
  have q : ∀ {r' : Nat → Nat} {pc' : Pc} {m' : Mem}, r' 13 = f + 104 → Quiet lo (level lo (f + 104)) ⟨pc', r', s, le, m'⟩ :=
    fun h => .level (by dsimp only; omega)
  have first : ∀ {o : Nat} {l : List Ins}, pc = .at_ o → Block row1 o (.stmdb [0, 1, 2, 3] :: l) →
      Safe c lo (Holds X (r 14) r sp post) (level lo (f + 104)) ⟨.at_ (o + 4), upd r 13 (f + 104), s, le, M⟩ →
      Safe c lo (Holds X (r 14) r sp post) (level lo (f + 120)) ⟨pc, r, s, le, m⟩ := by
    intro o l hpc hb h
    refine bstep (level lo (f + 104)) hb hpc (.level (by dsimp only; omega)) (pl hpc (by omega) rfl sv) (fun a h1 h2 => absurd h2 (by simp [ld])) ?_ ?_
      fun _ => h
    · show (if 16 ≤ r 13 then some _ else none) = _
      rw [if_pos (by omega)]
      show some (St.mk _ (upd r 13 (r 13 - 16)) s le (m.wr (r 13 - 16) (words r [0, 1, 2, 3]))) = _
      rw [show r 13 - 16 = f + 104 by omega, hM]
    · intro a ha
      show _ ∨ r 13 - 16 ≤ a ∧ a < r 13 - 16 + 16
      unfold level at *
      omega
  have hl : ∀ {a k : Nat}, k ≤ 20 → r 12 + k ≤ a → a < r 12 + k + 4 → level lo (f + 104) a := by
    intro a k hk h1 h2
    unfold level
    omega
  have ud0 : ∀ m : Mem, udata true m (r 12) = r 12 := fun _ => rfl
  have ud1 : ∀ m : Mem, udata false m (r 12) = leNat (m.rd (r 12 + 20) 4) := fun _ => rfl
  cases go with
  | true =>
    obtain ⟨b1, b2⟩ := goBlock vfp
    refine first hpc b1 ?_
    refine bstep (level lo (f + 104)) b2 rfl (q rfl) (pl rfl (by show f + 104 + 16 = _; omega) rfl (up sv (.inr (by omega)))) (fun a h1 h2 => hl (by omega) h1 h2) rfl
      (fun a h => .inl h) fun b => ?_
    refine bstep (level lo (f + 104)) b rfl (q rfl) (pl rfl (by show f + 104 + 16 = _; omega) rfl (up (up sv (.inr (by omega))) (.inl (by omega))))
      (fun a h1 h2 => hl (k := 8) (by omega) h1 h2) rfl (fun a h => .inl h) fun b => ?_
    have s3 := up (v := leNat (M.rd (r 12 + 8) 4)) (n := 1) (up (v := leNat (M.rd (r 12 + 4) 4)) (n := 0) (up (v := f + 104) (n := 13) sv (.inr (by omega)))
      (.inl (by omega))) (.inl (by omega))
    refine rstep b rfl (q rfl) (pl rfl (by show f + 104 + 16 = _; omega) rfl s3) rfl rfl fun b => ?_
    refine rstep b rfl (q rfl) (pl rfl (by show f + 104 + 16 = _; omega) rfl (up s3 (.inl (by omega)))) rfl rfl fun b => ?_
    refine clos_do rfl rfl hra hsp hv (up s3 (.inl (by omega))) hs fun t ht => hpost t ?_
    unfold closState
    dsimp only
    rw [ud0, ← hrd _ (show cifAt true ≤ 20 by decide), show r 12 + cifAt true + 4 = r 12 + 8 from rfl, ← hrd 8 (by omega), hM]
    exact ht
  | false =>
    obtain ⟨b1, b2, b3⟩ := closBlock vfp
    refine first hpc b1 ?_
    refine bstep (level lo (f + 104)) b2 rfl (q rfl) (pl rfl (by show f + 104 + 16 = _; omega) rfl (up sv (.inr (by omega)))) (fun a h1 h2 => hl (k := 12) (by omega) h1 h2) rfl
      (fun a h => .inl h) fun b => ?_
    refine bstep (level lo (f + 104)) b rfl (q rfl) (pl rfl (by show f + 104 + 16 = _; omega) rfl (up (up sv (.inr (by omega))) (.inl (by omega))))
      (fun a h1 h2 => hl (k := 16) (by omega) h1 h2) rfl (fun a h => .inl h) fun b => ?_
    have s3 := up (v := leNat (M.rd (r 12 + 16) 4)) (n := 1) (up (v := leNat (M.rd (r 12 + 12) 4)) (n := 0) (up (v := f + 104) (n := 13) sv (.inr (by omega)))
      (.inl (by omega))) (.inl (by omega))
    refine bstep (level lo (f + 104)) b rfl (q rfl) (pl rfl (by show f + 104 + 16 = _; omega) rfl s3) (fun a h1 h2 => hl (k := 20) (by omega) h1 h2) rfl
      (fun a h => .inl h) fun b => ?_
    have tail := clos_do (c := c) (lo := lo) (X := X) (ra := r 14) (g := r) (sp := sp) (post := post) (vfp := vfp) (le := le) (m := M)
      (r := upd (upd (upd (upd r 13 (f + 104)) 0 (leNat (M.rd (r 12 + 12) 4))) 1 (leNat (M.rd (r 12 + 16) 4))) 2 (leNat (M.rd (r 12 + 20) 4)))
      rfl rfl hra hsp hv (up s3 (.inl (by omega))) hs fun t ht => hpost t ?_
    · rw [← b3] at tail
      exact tail
    · unfold closState
      dsimp only
      rw [ud1, ← hrd _ (show cifAt false ≤ 20 by decide), show r 12 + cifAt false + 4 = r 12 + 16 from rfl, ← hrd 16 (by omega), ← hrd 20 (by omega), hM]
      exact ht

/-- The core registers of the result, from memory at `a`. -/
def exR (f : Flag) (r : Nat → Nat) (m : Mem) (a : Nat) : Nat → Nat :=
  match f with
  | .int64 => upd (upd r 1 (leNat (m.rd (a + 4) 4))) 0 (leNat (m.rd (a + 0) 4))
  | .int => upd r 0 (leNat (m.rd (a + 0) 4))
  | _ => r

/-- The VFP registers of the result. -/
def exS (f : Flag) (s : Nat → List Byte) (m : Mem) (a : Nat) : Nat → List Byte :=
  match f with
  | .vfpS => loadS m 1 a s
  | .vfpD => loadS m 2 a s
  | .vfpN => loadS m 8 a s
  | _ => s

/-- From the return of the inner function to the return of the closure. -/
theorem clos_tail {u : St} {f sp0 : Nat} {vfp : Bool} {fl : Flag} (hpc : u.pc = .at_ (site vfp)) (h13 : u.r 13 = f) (h0 : u.r 0 = fl.num)
    (hm : leNat (u.mem.rd (f + 4) 4) = ra) (hsp : leNat (u.mem.rd f 4) = sp0) (h120 : sp0 = f + 120) (hs : sp sp0) (hg : Saved u.r g)
    (hpost : ∀ t, t.pc = .out ra → t.r 13 = sp0 → Saved t.r g → t.r 0 = exR fl u.r u.mem (f + 72) 0 → t.r 1 = exR fl u.r u.mem (f + 72) 1 →
      t.s = exS fl u.s u.mem (f + 72) → (∀ a, a < lo ∨ sp0 ≤ a → t.mem a = u.mem a) → post ra t) :
    Safe c lo (Holds X ra g sp post) (level lo f) u := by
  obtain ⟨pc, r, s, le, m⟩ := u
  dsimp only at *
  have hc : ∀ {o : Nat} {r' : Nat → Nat} {pc' : Pc}, pc' = .at_ o → r' 13 = f → Saved r' g → rowAt o = some rowC → ∀ t,
      Agree (level lo f) ⟨pc', r', s, le, m⟩ t → Holds X ra g sp post t := by
    intro o r' pc' hpc e hg' hr t ht
    refine holds_clos hr ht hpc (fun a h1 h2 => .inr ?_) ?_ ?_ hg'
    · dsimp only at h1 h2; omega
    · dsimp only; rw [e]; exact hm
    · dsimp only; rw [e, ← h120]; exact hs
  have q : ∀ {r' : Nat → Nat} {s' : Nat → List Byte} {pc' : Pc}, r' 13 = f → Quiet lo (level lo f) ⟨pc', r', s', le, m⟩ :=
    fun h => .level (by dsimp only; omega)
  refine rstep (siteBlock _) hpc (q h13) (hc hpc h13 hg) rfl rfl fun b => ?_
  refine rstep b rfl (q h13) (hc rfl h13 (up hg (.inl (by omega)))) rfl rfl fun b => ?_
  obtain ⟨rb, ri⟩ := retBlock fl
  obtain ⟨R, hR⟩ : ∃ R, upd (upd r 2 (r 13 + 72)) 3 (c.base + off .ret) = R := ⟨_, rfl⟩
  have r0 : R 0 = r 0 := by rw [← hR]; rfl
  have r1 : R 1 = r 1 := by rw [← hR]; rfl
  have r2 : R 2 = f + 72 := by rw [← hR, ← h13]; rfl
  have r3 : R 3 = c.base + off .ret := by rw [← hR]; rfl
  have r13 : R 13 = f := by rw [← hR]; exact h13
  have hgR : Saved R g := by rw [← hR]; exact up (up hg (.inl (by omega))) (.inl (by omega))
  dsimp only [St.set]
  rw [hR]
  refine rstep b rfl (q r13) (hc rfl r13 hgR) rfl (s' := ⟨.at_ (off .ret + 8 * fl.num), R, s, le, m⟩) ?_ fun _ => ?_
  · show St.goto _ c (R 3 + R 0 * 8) = _
    unfold St.goto
    rw [r3, r0, h0, show c.base + off .ret + fl.num * 8 - c.base = off .ret + 8 * fl.num by omega, if_pos ⟨by omega, ri⟩]
  have hd : ∀ {o : Nat} {r' : Nat → Nat} {s' : Nat → List Byte} {pc' : Pc}, pc' = .at_ o → r' 13 = f → Saved r' g → rowAt o = some rowD → ∀ t,
      Agree (level lo f) ⟨pc', r', s', le, m⟩ t → Holds X ra g sp post t := by
    intro o r' s' pc' hpc e hg' hr t ht
    refine holds_ret hr ht hpc (fun a h1 h2 => .inr ?_) ?_ ?_ hg'
    · dsimp only at h1 h2; omega
    · dsimp only; rw [e]; exact hm
    · dsimp only; rw [e, hsp]; exact hs
  have fin : ∀ {o : Nat} {r' : Nat → Nat} {s' : Nat → List Byte}, Block rowD o [.b .epilogue] → r' 13 = f → Saved r' g →
      r' 0 = exR fl r m (f + 72) 0 → r' 1 = exR fl r m (f + 72) 1 → s' = exS fl s m (f + 72) →
      Safe c lo (Holds X ra g sp post) (level lo f) ⟨.at_ o, r', s', le, m⟩ := by
    intro o r' s' hb e13 hg' e0 e1 es
    refine rstep hb rfl (q e13) (hd rfl e13 hg') rfl rfl fun _ => ?_
    refine bstep (level lo (f + 120)) epiBlock rfl (q e13) (hd rfl e13 hg') (fun a h1 h2 => .inr (by have h1 : r' 13 ≤ a := h1; omega)) rfl
      (fun a h => .inl (h.imp_right fun h => by omega)) fun _ => .stop (.level ?_) (fun t ht => ?_) rfl
    · show leNat (m.rd (r' 13) 4) ≤ _
      rw [e13, hsp, h120]
    · have e : leNat (m.rd (r' 13 + 4) 4) = ra := by rw [e13, hm]
      unfold Holds
      rw [ht.pc]
      dsimp only
      rw [e]
      refine hpost t (by rw [ht.pc, e]) ?_ ?_ ?_ ?_ (ht.v.trans es) fun a ha => ?_
      · rw [ht.r]; show leNat (m.rd (r' 13) 4) = _; rw [e13, hsp]
      · rw [ht.r]; exact up hg' (.inr (by omega))
      · rw [ht.r]; exact e0
      · rw [ht.r]; exact e1
      · exact ht.mem a (by rw [h120] at ha; exact ha)
  have hl : ∀ {a : Nat}, f + 72 ≤ a → level lo f a := fun h => .inr (by omega)
  cases fl with
  | vfpS =>
    refine bstep (level lo f) rb rfl (q r13) (hd rfl r13 hgR) (fun a h1 h2 => hl (by have h1 : R 2 ≤ a := h1; omega)) rfl (fun a h => .inl h)
      fun b => fin b r13 hgR r0 r1 ?_
    show loadS m 1 (R 2) s = _; rw [r2]; rfl
  | vfpD =>
    refine bstep (level lo f) rb rfl (q r13) (hd rfl r13 hgR) (fun a h1 h2 => hl (by have h1 : R 2 ≤ a := h1; omega)) rfl (fun a h => .inl h)
      fun b => fin b r13 hgR r0 r1 ?_
    show loadS m 2 (R 2) s = _; rw [r2]; rfl
  | vfpN =>
    refine bstep (level lo f) rb rfl (q r13) (hd rfl r13 hgR) (fun a h1 h2 => hl (by have h1 : R 2 ≤ a := h1; omega)) rfl (fun a h => .inl h)
      fun b => fin b r13 hgR r0 r1 ?_
    show loadS m 8 (R 2) s = _; rw [r2]; rfl
  | int64 =>
    refine bstep (level lo f) rb rfl (q r13) (hd rfl r13 hgR) (fun a h1 h2 => hl (by have h1 : R 2 + 4 ≤ a := h1; omega)) rfl (fun a h => .inl h)
      fun b => ?_
    refine rstep b rfl (q r13) (hd rfl r13 (up hgR (.inl (by omega)))) rfl rfl fun b => ?_
    refine bstep (level lo f) b rfl (q r13) (hd rfl r13 (up hgR (.inl (by omega)))) (fun a h1 h2 => hl (by have h1 : R 2 + 0 ≤ a := h1; omega)) rfl (fun a h => .inl h)
      fun b => fin b r13 (up (up hgR (.inl (by omega))) (.inl (by omega))) ?_ ?_ rfl
    · show leNat (m.rd (R 2 + 0) 4) = _; rw [r2]; rfl
    · show leNat (m.rd (R 2 + 4) 4) = _; rw [r2]; rfl
  | int =>
    refine bstep (level lo f) rb rfl (q r13) (hd rfl r13 hgR) (fun a h1 h2 => hl (by have h1 : R 2 + 0 ≤ a := h1; omega)) rfl (fun a h => .inl h)
      fun b => fin b r13 (up hgR (.inl (by omega))) ?_ r1 rfl
    show leNat (m.rd (R 2 + 0) 4) = _; rw [r2]; rfl
  | void => exact fin rb r13 hgR r0 r1 rfl
  | struct => exact fin rb r13 hgR r0 r1 rfl

/-- The entry points for static trampolines. -/
theorem alt_head {s : St} {f : Nat} {vfp : Bool} (hpc : s.pc = .at_ (off (.alt vfp))) (h13 : s.r 13 = f + 112)
    (hra : s.r 14 < 2 ^ 32) (hsp : f + 120 < 2 ^ 32) (hv : ∀ i, i < 16 → (s.s i).length = 4)
    (hself : leNat (s.mem.rd (f + 116) 4) + 24 ≤ lo ∨ f + 120 ≤ leNat (s.mem.rd (f + 116) 4)) (hlo : lo ≤ f) (hs : sp (f + 120))
    (hX : ∀ o ∈ altOffs vfp, X o)
    (hpost : ∀ t, Agree (dom lo f vfp) (closState c false vfp f
      { s with r := upd (upd s.r 12 (leNat (s.mem.rd (f + 116) 4))) 13 (f + 120) }) t → post (c.ext (if vfp then 1 else 0)) t) :
    Safe c lo (Holds X (s.r 14) s.r sp post) (level lo (f + 112)) s := by
  obtain ⟨a1, a2, a3⟩ := altCode vfp
  obtain ⟨pc, r, s, le, m⟩ := s
  dsimp only at *
  have hQ : ∀ {o : Nat} {pc' : Pc} {r' : Nat → Nat} {D : Nat → Prop}, pc' = .at_ o → o ∈ altOffs vfp → ∀ t, Agree D ⟨pc', r', s, le, m⟩ t →
      Holds X (r 14) r sp post t := by
    intro o pc' r' D hpc ho t ht
    unfold Holds
    rw [ht.pc, hpc]
    exact .inl (hX o ho)
  refine .step (D' := level lo (f + 112)) (.level (by dsimp only; omega)) (hQ hpc (.head _)) hpc a1 (fun a h1 h2 => .inr (by have h1 : r 13 + 4 ≤ a := h1; omega)) rfl
    (fun a h => .inl h) ?_
  refine .step (D' := level lo (f + 120)) (.level (by show r 13 ≤ _; omega)) (hQ rfl (.tail _ (.head _))) rfl a2 (fun a h1 h2 => absurd h2 (by simp [ld])) rfl
    (fun a h => .inl (h.imp_right fun h => by omega)) ?_
  have e : r 13 + 4 = f + 116 := by omega
  have e' : upd r 12 (leNat (m.rd (r 13 + 4) 4)) 13 + 8 = f + 120 := by show r 13 + 8 = _; omega
  refine .step (D' := level lo (f + 120)) (.level (by show upd r 12 (leNat (m.rd (r 13 + 4) 4)) 13 + 8 ≤ _; omega)) (hQ rfl (.tail _ (.tail _ (.head _)))) rfl a3
    (fun a h1 h2 => absurd h2 (by simp [ld])) rfl (fun a h => .inl h) ?_
  dsimp only [St.set]
  rw [e', e]
  have key := clos_head (c := c) (lo := lo) (X := X) (sp := sp) (post := post) (go := false) (vfp := vfp) (f := f)
    (s := ⟨.at_ (off (.clos vfp)), upd (upd r 12 (leNat (m.rd (f + 116) 4))) 13 (f + 120), s, le, m⟩) rfl rfl hra hsp hv hself hlo hs hpost
  have weak : ∀ t, Holds X (r 14) (upd (upd r 12 (leNat (m.rd (f + 116) 4))) 13 (f + 120)) sp post t → Holds X (r 14) r sp post t := by
    intro t h
    unfold Holds at *
    split <;> rename_i hp <;> rw [hp] at h <;> dsimp only at h
    · refine h.imp_right ?_
      rintro ⟨row, h1, h2, h3, h4⟩
      refine ⟨row, h1, h2, h3, fun i hi1 hi2 => (h4 i hi1 hi2).trans ?_⟩
      simp only [upd]
      rw [if_neg (by omega), if_neg (by omega)]
    · exact h
  have mono : ∀ {D : Nat → Prop} {u : St} {Q Q' : St → Prop}, (∀ t, Q t → Q' t) → Safe c lo Q D u → Safe c lo Q' D u := by
    intro D u Q Q' hw h
    induction h with
    | stop h1 h2 h3 => exact .stop h1 (fun t ht => hw t (h2 t ht)) h3
    | step h1 h2 h3 h4 h5 h6 h7 _ ih => exact .step h1 (fun t ht => hw t (h2 t ht)) h3 h4 h5 h6 h7 ih
  exact mono weak key

end Verif.Arm.Asm
