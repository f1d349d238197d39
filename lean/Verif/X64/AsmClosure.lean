import Verif.X64.AsmExit

/-! The entry points of closures of unix64.S. -/
namespace Verif.X64.Asm
open Verif

variable {c : Ctx} {lo : Nat}

def row3 : Row := ⟨7, 224, [(16, 1)]⟩

/-- The entry points: with vector registers or not, closure or Go closure. -/
def closLbl (go sse : Bool) : Lbl := .uw (if go then (if sse then 12 else 15) else (if sse then 5 else 8))

theorem closBlock1 (cet go sse : Bool) : Block cet row1 (off cet (closLbl go sse) + eo cet) [(7, .subi 216)] := by
  cases cet <;> cases go <;> cases sse <;> decide +kernel

theorem closEndbr (go sse : Bool) : Block true row1 (off true (closLbl go sse)) [(4, .endbr)] := by
  cases go <;> cases sse <;> decide +kernel

def sseLbl (go : Bool) : Lbl := if go then .sse2 else .sse1

theorem closBlock2 (cet go : Bool) : Block cet row3 (off cet (closLbl go true) + eo cet + 7)
    [(6, .stx 0 4 48), (6, .stx 1 4 64), (6, .stx 2 4 80), (6, .stx 3 4 96), (6, .stx 4 4 112), (9, .stx 5 4 128), (9, .stx 6 4 144),
     (9, .stx 7 4 160), (2, .jmp (sseLbl go))] := by
  cases cet <;> cases go <;> decide +kernel

theorem clos_off (cet go : Bool) : off cet (closLbl go false) + eo cet + 7 = off cet (sseLbl go) := by
  cases cet <;> cases go <;> decide +kernel

theorem closBlock3 (cet go : Bool) : Block cet row3 (off cet (sseLbl go))
    [(4, .st 7 4 0), (5, .st 6 4 8), (5, .st 2 4 16), (5, .st 1 4 24), (5, .st 8 4 32), (5, .st 9 4 40)] := by
  cases cet <;> cases go <;> decide +kernel

theorem closBlock4 (cet : Bool) : Block cet row3 (off cet .sse1 + 29) [(4, .ld 8 7 10 32), (4, .ld 8 6 10 40), (4, .ld 8 2 10 48)] ∧
    off cet .sse1 + 29 + 12 = off cet .doClosure ∧
    Block cet row3 (off cet .sse2 + 29) [(4, .ld 8 7 10 8), (4, .ld 8 6 10 16), (3, .mov 2 10), (5, .jmp .doClosure)] := by
  cases cet <;> decide +kernel

theorem closBlock5 (cet : Bool) : Block cet row3 (off cet .doClosure)
    [(8, .lea 1 4 176), (3, .mov 8 4), (8, .lea 9 4 224), (5, .callx 1)] := by
  cases cet <;> decide +kernel

attribute [local irreducible] fetch rowAt off Block eo slot closLbl sseLbl

/-- Unwinding where the return address is `k` bytes below the CFA. -/
theorem holds_rsp' {s : St} {D : Nat → Prop} {o k ra : Nat} {g : Nat → Nat} {sp : Nat → Prop} {post : Nat → St → Prop} {t : St}
    (ht : Agree D s t) (hr : rowAt c.cet o = some ⟨7, k, [(16, 1)]⟩) (hpc : s.pc = .at_ o)
    (hL : ∀ b, s.r 4 + k - 8 ≤ b → b < s.r 4 + k - 8 + 8 → D b) (hm : leNat (s.mem.rd (s.r 4 + k - 8) 8) = ra) (hs : sp (s.r 4 + k))
    (hg : Saved s.r g) : Holds c ra g sp post t := by
  unfold Holds
  rw [ht.pc, hpc, ht.r]
  refine unwinds_rsp hr ?_ hs hg
  rw [ht.rd hL, hm]

/-- What is known while the frame at `b` is filled: `q` bytes of general and `p` bytes of vector registers. -/
def dom (lo b q p : Nat) (a : Nat) : Prop := a < lo ∨ b + 216 ≤ a ∨ (b ≤ a ∧ a < b + q) ∨ (b + 48 ≤ a ∧ a < b + 48 + p)

/-- A step with the frame at `b`. -/
theorem fstep {Q : St → Prop} {row : Row} {b q p q' p' o n : Nat} {i : Ins} {l : List (Nat × Ins)} {s s' : St}
    (hb : Block c.cet row o ((n, i) :: l)) (hpc : s.pc = .at_ o) (h4 : s.r 4 = b)
    (hQ : rowAt c.cet o = some row → ∀ t, Agree (dom lo b q p) s t → Q t)
    (hl : ∀ a, (ld i s).1 ≤ a → a < (ld i s).1 + (ld i s).2 → dom lo b q p a) (he : exec c o n i s = some s')
    (hsub : ∀ a, dom lo b q' p' a → dom lo b q p a ∨ (st i s).1 ≤ a ∧ a < (st i s).1 + (st i s).2)
    (h : Block c.cet row (o + n) l → Safe c lo Q (dom lo b q' p') s') : Safe c lo Q (dom lo b q p) s :=
  bstep hb hpc (fun a ha => ha.imp_right fun h => by omega) hQ hl he hsub h

/-- The memory with the general registers stored at `b`. -/
def gprs (r : Nat → Nat) (m : Mem) (b : Nat) : Mem :=
  (((((m.wr b (leBytes 8 (r 7))).wr (b + 8) (leBytes 8 (r 6))).wr (b + 16) (leBytes 8 (r 2))).wr (b + 24) (leBytes 8 (r 1))).wr (b + 32)
    (leBytes 8 (r 8))).wr (b + 40) (leBytes 8 (r 9))

/-- The memory with the vector registers stored at `b + 48`. -/
def xmms (x : Nat → List Byte) (m : Mem) (b : Nat) : Mem :=
  (((((((m.wr (b + 48) (x 0)).wr (b + 64) (x 1)).wr (b + 80) (x 2)).wr (b + 96) (x 3)).wr (b + 112) (x 4)).wr (b + 128) (x 5)).wr (b + 144)
    (x 6)).wr (b + 160) (x 7)

/-- From `do_closure` to the call. -/
theorem clos_do {r : Nat → Nat} {x : Nat → List Byte} {fp : List (List Byte)} {zf cf : Bool} {m : Mem} {ss : List Nat} {b p ra : Nat}
    {g : Nat → Nat} {sp : Nat → Prop} {post : Nat → St → Prop} (h4 : r 4 = b) (hb : 8 ≤ b) (hm : leNat (m.rd (b + 216) 8) = ra)
    (hs : sp (b + 224)) (hg : Saved r g)
    (hpost : ∀ f t, f.pc = .out (c.ext 1) → f.r = upd (upd (upd (upd r 1 (b + 176)) 8 b) 9 (b + 224)) 4 (b - 8) → f.x = x → f.fp = fp →
      f.mem = m.wr (b - 8) (leBytes 8 (c.base + (off c.cet .doClosure + 24))) → f.ss = (c.base + (off c.cet .doClosure + 24)) :: ss →
      Agree (fun a => dom lo b 48 p a ∨ b - 8 ≤ a ∧ a < b - 8 + 8) f t → post (c.ext 1) t) :
    Safe c lo (Holds c ra g sp post) (dom lo b 48 p) ⟨.at_ (off c.cet .doClosure), r, x, fp, zf, cf, m, ss⟩ := by
  have hQ : ∀ {o : Nat} {r' : Nat → Nat} {pc' : Pc}, pc' = .at_ o → r' 4 = b → Saved r' g →
      rowAt c.cet o = some row3 → ∀ t, Agree (dom lo b 48 p) ⟨pc', r', x, fp, zf, cf, m, ss⟩ t → Holds c ra g sp post t := by
    intro o r' pc' hpc h4' hs' hr t ht
    refine holds_rsp' ht hr hpc (fun a h1 h2 => .inr (.inl ?_)) ?_ ?_ hs'
    · dsimp only at h1 h2; omega
    · dsimp only
      rw [h4']
      exact hm
    · dsimp only
      rw [h4']
      exact hs
  refine fstep (closBlock5 _) rfl h4 (hQ rfl h4 hg) (fun a h1 h2 => absurd h2 (by simp [ld])) rfl (fun a h => .inl h) fun b1 => ?_
  refine fstep b1 rfl h4 (hQ rfl h4 hg) (fun a h1 h2 => absurd h2 (by simp [ld])) rfl (fun a h => .inl h) fun b1 => ?_
  refine fstep b1 rfl h4 (hQ rfl h4 hg) (fun a h1 h2 => absurd h2 (by simp [ld])) rfl (fun a h => .inl h) fun b1 => ?_
  refine bstep (D' := fun a => dom lo b 48 p a ∨ b - 8 ≤ a ∧ a < b - 8 + 8) b1 rfl (fun a ha => ha.imp_right fun h => ?_) (hQ rfl h4 hg)
    (fun a h1 h2 => absurd h2 (by simp [ld]))
    (s' := ⟨.out (c.ext 1), upd (upd (upd (upd r 1 (b + 176)) 8 b) 9 (b + 224)) 4 (b - 8), x, fp, zf, cf,
      m.wr (b - 8) (leBytes 8 (c.base + (off c.cet .doClosure + 24))), (c.base + (off c.cet .doClosure + 24)) :: ss⟩) ?_ ?_ fun _ =>
    .stop ?_ (fun t ht => ?_) rfl
  · show r 4 ≤ _
    omega
  · subst h4
    show (if 8 ≤ r 4 then some _ else none) = _
    rw [if_pos hb]
    rfl
  · intro a ha
    subst h4
    exact ha
  · intro a ha
    show a < lo ∨ b - 8 ≤ _
    unfold dom at ha
    omega
  · unfold Holds
    rw [ht.pc]
    exact hpost _ t rfl rfl rfl rfl rfl rfl ht

/-- The general registers are stored. -/
theorem clos_gpr {r : Nat → Nat} {x : Nat → List Byte} {fp : List (List Byte)} {zf cf go : Bool} {m : Mem} {ss : List Nat} {b p ra : Nat}
    {g : Nat → Nat} {sp : Nat → Prop} {post : Nat → St → Prop} (h4 : r 4 = b) (hm : leNat (m.rd (b + 216) 8) = ra)
    (hs : sp (b + 224)) (hg : Saved r g)
    (h : Safe c lo (Holds c ra g sp post) (dom lo b 48 p) ⟨.at_ (off c.cet (sseLbl go) + 29), r, x, fp, zf, cf, gprs r m b, ss⟩) :
    Safe c lo (Holds c ra g sp post) (dom lo b 0 p) ⟨.at_ (off c.cet (sseLbl go)), r, x, fp, zf, cf, m, ss⟩ := by
  have hQ : ∀ {o q : Nat} {m' : Mem} {pc' : Pc}, pc' = .at_ o → m'.rd (b + 216) 8 = m.rd (b + 216) 8 →
      rowAt c.cet o = some row3 → ∀ t, Agree (dom lo b q p) ⟨pc', r, x, fp, zf, cf, m', ss⟩ t → Holds c ra g sp post t := by
    intro o q m' pc' hpc hm' hr t ht
    refine holds_rsp' ht hr hpc (fun a h1 h2 => .inr (.inl ?_)) ?_ ?_ hg
    · dsimp only at h1 h2; omega
    · dsimp only
      rw [h4]
      show leNat (m'.rd (b + 216) 8) = ra
      rw [hm', hm]
    · dsimp only
      rw [h4]
      exact hs
  have w : ∀ {m' : Mem} {k v : Nat}, k ≤ 40 → m'.rd (b + 216) 8 = m.rd (b + 216) 8 →
      (m'.wr (r 4 + k) (leBytes 8 v)).rd (b + 216) 8 = m.rd (b + 216) 8 := by
    intro m' k v hk h
    rw [Mem.rd_wr_disj _ _ _ _ _ (by rw [leBytes_length]; omega), h]
  have sub : ∀ {k : Nat} {a : Nat}, dom lo b (k + 8) p a → dom lo b k p a ∨ r 4 + k ≤ a ∧ a < r 4 + k + 8 := by
    intro k a ha
    unfold dom at *
    omega
  refine fstep (q' := 8) (p' := p) (closBlock3 _ _) rfl h4 (hQ rfl rfl) (fun a h1 h2 => absurd h2 (by simp [ld])) rfl (fun a h => sub h) fun b1 => ?_
  refine fstep (q' := 16) (p' := p) b1 rfl h4 (hQ rfl (w (by omega) rfl)) (fun a h1 h2 => absurd h2 (by simp [ld])) rfl (fun a h => sub h) fun b1 => ?_
  refine fstep (q' := 24) (p' := p) b1 rfl h4 (hQ rfl (w (by omega) (w (by omega) rfl))) (fun a h1 h2 => absurd h2 (by simp [ld])) rfl (fun a h => sub h) fun b1 => ?_
  refine fstep (q' := 32) (p' := p) b1 rfl h4 (hQ rfl (w (by omega) (w (by omega) (w (by omega) rfl)))) (fun a h1 h2 => absurd h2 (by simp [ld])) rfl (fun a h => sub h) fun b1 => ?_
  refine fstep (q' := 40) (p' := p) b1 rfl h4 (hQ rfl (w (by omega) (w (by omega) (w (by omega) (w (by omega) rfl))))) (fun a h1 h2 => absurd h2 (by simp [ld])) rfl (fun a h => sub h) fun b1 => ?_
  refine fstep (q' := 48) (p' := p) b1 rfl h4 (hQ rfl (w (by omega) (w (by omega) (w (by omega) (w (by omega) (w (by omega) rfl)))))) (fun a h1 h2 => absurd h2 (by simp [ld])) rfl (fun a h => sub h) fun _ => ?_
  subst h4
  exact h

/-- The vector registers are stored. -/
theorem clos_xmm {r : Nat → Nat} {x : Nat → List Byte} {fp : List (List Byte)} {zf cf go : Bool} {m : Mem} {ss : List Nat} {b ra : Nat}
    {g : Nat → Nat} {sp : Nat → Prop} {post : Nat → St → Prop} (h4 : r 4 = b) (hal : b % 16 = 0) (hx : ∀ i, i < 8 → (x i).length = 16)
    (hm : leNat (m.rd (b + 216) 8) = ra) (hs : sp (b + 224)) (hg : Saved r g)
    (h : Safe c lo (Holds c ra g sp post) (dom lo b 0 128) ⟨.at_ (off c.cet (sseLbl go)), r, x, fp, zf, cf, xmms x m b, ss⟩) :
    Safe c lo (Holds c ra g sp post) (dom lo b 0 0) ⟨.at_ (off c.cet (closLbl go true) + eo c.cet + 7), r, x, fp, zf, cf, m, ss⟩ := by
  have hQ : ∀ {o p : Nat} {m' : Mem} {pc' : Pc}, pc' = .at_ o → m'.rd (b + 216) 8 = m.rd (b + 216) 8 →
      rowAt c.cet o = some row3 → ∀ t, Agree (dom lo b 0 p) ⟨pc', r, x, fp, zf, cf, m', ss⟩ t → Holds c ra g sp post t := by
    intro o p m' pc' hpc hm' hr t ht
    refine holds_rsp' ht hr hpc (fun a h1 h2 => .inr (.inl ?_)) ?_ ?_ hg
    · dsimp only at h1 h2; omega
    · dsimp only
      rw [h4]
      show leNat (m'.rd (b + 216) 8) = ra
      rw [hm', hm]
    · dsimp only
      rw [h4]
      exact hs
  have w : ∀ {m' : Mem} {k i : Nat}, i < 8 → k ≤ 160 → m'.rd (b + 216) 8 = m.rd (b + 216) 8 →
      (m'.wr (r 4 + k) (x i)).rd (b + 216) 8 = m.rd (b + 216) 8 := by
    intro m' k i hi hk h
    rw [Mem.rd_wr_disj _ _ _ _ _ (by rw [hx i hi]; omega), h]
  have sub : ∀ {p i : Nat} {a : Nat}, i < 8 → dom lo b 0 (p + 16) a → dom lo b 0 p a ∨ r 4 + (48 + p) ≤ a ∧ a < r 4 + (48 + p) + (x i).length := by
    intro p i a hi ha
    rw [hx i hi]
    unfold dom at *
    omega
  have he : ∀ {o n i k : Nat} {m' : Mem} {pc' : Pc}, k % 16 = 0 → exec c o n (.stx i 4 k) ⟨pc', r, x, fp, zf, cf, m', ss⟩ =
      some ⟨.at_ (o + n), r, x, fp, zf, cf, m'.wr (r 4 + k) (x i), ss⟩ := by
    intro o n i k m' pc' hk
    show (if (r 4 + k) % 16 = 0 then some _ else none) = _
    rw [if_pos (by omega)]
  have k1 := @w m 48 0 (by omega) (by omega) rfl
  have k2 := @w _ 64 1 (by omega) (by omega) k1
  have k3 := @w _ 80 2 (by omega) (by omega) k2
  have k4 := @w _ 96 3 (by omega) (by omega) k3
  have k5 := @w _ 112 4 (by omega) (by omega) k4
  have k6 := @w _ 128 5 (by omega) (by omega) k5
  have k7 := @w _ 144 6 (by omega) (by omega) k6
  have k8 := @w _ 160 7 (by omega) (by omega) k7
  have nl : ∀ {p i k : Nat} {s : St} (a : Nat), (ld (.stx i 4 k) s).1 ≤ a → a < (ld (.stx i 4 k) s).1 + (ld (.stx i 4 k) s).2 → dom lo b 0 p a :=
    fun a h1 h2 => absurd h2 (by simp [ld])
  refine fstep (q' := 0) (p' := 16) (closBlock2 _ _) rfl h4 (hQ rfl rfl) nl (he rfl) (fun a h => sub (i := 0) (by omega) h) fun b1 => ?_
  refine fstep (q' := 0) (p' := 32) b1 rfl h4 (hQ rfl k1) nl (he rfl) (fun a h => sub (i := 1) (by omega) h) fun b1 => ?_
  refine fstep (q' := 0) (p' := 48) b1 rfl h4 (hQ rfl k2) nl (he rfl) (fun a h => sub (i := 2) (by omega) h) fun b1 => ?_
  refine fstep (q' := 0) (p' := 64) b1 rfl h4 (hQ rfl k3) nl (he rfl) (fun a h => sub (i := 3) (by omega) h) fun b1 => ?_
  refine fstep (q' := 0) (p' := 80) b1 rfl h4 (hQ rfl k4) nl (he rfl) (fun a h => sub (i := 4) (by omega) h) fun b1 => ?_
  refine fstep (q' := 0) (p' := 96) b1 rfl h4 (hQ rfl k5) nl (he rfl) (fun a h => sub (i := 5) (by omega) h) fun b1 => ?_
  refine fstep (q' := 0) (p' := 112) b1 rfl h4 (hQ rfl k6) nl (he rfl) (fun a h => sub (i := 6) (by omega) h) fun b1 => ?_
  refine fstep (q' := 0) (p' := 128) b1 rfl h4 (hQ rfl k7) nl (he rfl) (fun a h => sub (i := 7) (by omega) h) fun b1 => ?_
  refine fstep (q' := 0) (p' := 128) b1 rfl h4 (hQ rfl k8) (fun a h1 h2 => absurd h2 (by simp [ld])) rfl (fun a h => .inl h) fun _ => ?_
  subst h4
  exact h

theorem gprs_out {r : Nat → Nat} {m : Mem} {b a : Nat} (h : a < b ∨ b + 48 ≤ a) : gprs r m b a = m a := by
  unfold gprs
  rw [Mem.wr_out _ _ _ _ (by rw [leBytes_length]; omega), Mem.wr_out _ _ _ _ (by rw [leBytes_length]; omega),
    Mem.wr_out _ _ _ _ (by rw [leBytes_length]; omega), Mem.wr_out _ _ _ _ (by rw [leBytes_length]; omega),
    Mem.wr_out _ _ _ _ (by rw [leBytes_length]; omega), Mem.wr_out _ _ _ _ (by rw [leBytes_length]; omega)]

theorem xmms_out {x : Nat → List Byte} {m : Mem} {b a : Nat} (hx : ∀ i, i < 8 → (x i).length = 16) (h : a < b + 48 ∨ b + 176 ≤ a) :
    xmms x m b a = m a := by
  have e := fun i hi => hx i hi
  unfold xmms
  rw [Mem.wr_out _ _ _ _ (by rw [hx 7 (by omega)]; omega), Mem.wr_out _ _ _ _ (by rw [hx 6 (by omega)]; omega),
    Mem.wr_out _ _ _ _ (by rw [hx 5 (by omega)]; omega), Mem.wr_out _ _ _ _ (by rw [hx 4 (by omega)]; omega),
    Mem.wr_out _ _ _ _ (by rw [hx 3 (by omega)]; omega), Mem.wr_out _ _ _ _ (by rw [hx 2 (by omega)]; omega),
    Mem.wr_out _ _ _ _ (by rw [hx 1 (by omega)]; omega), Mem.wr_out _ _ _ _ (by rw [hx 0 (by omega)]; omega)]

/-- Where cif, function and user data are found: a closure after its trampoline, a Go closure after its code pointer;
the user data of a Go closure is its address. -/
def closWords (go : Bool) (m : Mem) (k : Nat) : Nat × Nat × Nat :=
  if go then (leNat (m.rd (k + 8) 8), leNat (m.rd (k + 16) 8), k)
  else (leNat (m.rd (k + 32) 8), leNat (m.rd (k + 40) 8), leNat (m.rd (k + 48) 8))

/-- The frame of a closure. -/
def closFrame (sse : Bool) (r : Nat → Nat) (x : Nat → List Byte) (m : Mem) (b : Nat) : Mem :=
  gprs r (if sse then xmms x m b else m) b

/-- From the loading of cif, function and user data to the call. -/
theorem clos_load {r : Nat → Nat} {x : Nat → List Byte} {fp : List (List Byte)} {zf cf go : Bool} {m : Mem} {ss : List Nat} {b p ra : Nat}
    {g : Nat → Nat} {sp : Nat → Prop} {post : Nat → St → Prop} (h4 : r 4 = b) (hb : 8 ≤ b) (hk : r 10 + 56 ≤ lo ∨ b + 216 ≤ r 10)
    (hm : leNat (m.rd (b + 216) 8) = ra) (hs : sp (b + 224)) (hg : Saved r g)
    (hpost : ∀ f t, f.pc = .out (c.ext 1) → f.r = upd (upd (upd (upd (upd (upd (upd r 7 (closWords go m (r 10)).1) 6 (closWords go m (r 10)).2.1)
        2 (closWords go m (r 10)).2.2) 1 (b + 176)) 8 b) 9 (b + 224)) 4 (b - 8) → f.x = x → f.fp = fp →
      f.mem = m.wr (b - 8) (leBytes 8 (c.base + (off c.cet .doClosure + 24))) → f.ss = (c.base + (off c.cet .doClosure + 24)) :: ss →
      Agree (fun a => dom lo b 48 p a ∨ b - 8 ≤ a ∧ a < b - 8 + 8) f t → post (c.ext 1) t) :
    Safe c lo (Holds c ra g sp post) (dom lo b 48 p) ⟨.at_ (off c.cet (sseLbl go) + 29), r, x, fp, zf, cf, m, ss⟩ := by
  have hQ : ∀ {o : Nat} {r' : Nat → Nat} {pc' : Pc}, pc' = .at_ o → r' 4 = b → Saved r' g →
      rowAt c.cet o = some row3 → ∀ t, Agree (dom lo b 48 p) ⟨pc', r', x, fp, zf, cf, m, ss⟩ t → Holds c ra g sp post t := by
    intro o r' pc' hpc h4' hs' hr t ht
    refine holds_rsp' ht hr hpc (fun a h1 h2 => .inr (.inl ?_)) ?_ ?_ hs'
    · dsimp only at h1 h2; omega
    · dsimp only
      rw [h4']
      exact hm
    · dsimp only
      rw [h4']
      exact hs
  have hl : ∀ {k : Nat}, k ≤ 48 → ∀ a, r 10 + k ≤ a → a < r 10 + k + 8 → dom lo b 48 p a := by
    intro k hk' a h1 h2
    unfold dom
    omega
  cases go
  · have e : sseLbl false = .sse1 := by unfold sseLbl; rfl
    obtain ⟨b1, b2, -⟩ := closBlock4 c.cet
    rw [e]
    refine fstep b1 rfl h4 (hQ rfl h4 hg) (hl (by omega)) rfl (fun a h => .inl h) fun b1 => ?_
    refine fstep b1 rfl h4 (hQ rfl h4 hg) (hl (by omega)) rfl (fun a h => .inl h) fun b1 => ?_
    refine fstep b1 rfl h4 (hQ rfl h4 hg) (hl (by omega)) rfl (fun a h => .inl h) fun b1 => ?_
    refine safe_of_eq ?_ (clos_do (r := upd (upd (upd r 7 (leNat (m.rd (r 10 + 32) 8))) 6 (leNat (m.rd (r 10 + 40) 8))) 2 (leNat (m.rd (r 10 + 48) 8)))
      (zf := zf) (cf := cf) h4 hb hm hs hg hpost)
    rw [← b2]
    rfl
  · have e : sseLbl true = .sse2 := by unfold sseLbl; rfl
    obtain ⟨-, -, b1⟩ := closBlock4 c.cet
    rw [e]
    refine fstep b1 rfl h4 (hQ rfl h4 hg) (hl (by omega)) rfl (fun a h => .inl h) fun b1 => ?_
    refine fstep b1 rfl h4 (hQ rfl h4 hg) (hl (by omega)) rfl (fun a h => .inl h) fun b1 => ?_
    refine fstep b1 rfl h4 (hQ rfl h4 hg) (fun a h1 h2 => absurd h2 (by simp [ld])) rfl (fun a h => .inl h) fun b1 => ?_
    refine fstep b1 rfl h4 (hQ rfl h4 hg) (fun a h1 h2 => absurd h2 (by simp [ld])) rfl (fun a h => .inl h) fun b1 => ?_
    exact clos_do (r := upd (upd (upd r 7 (leNat (m.rd (r 10 + 8) 8))) 6 (leNat (m.rd (r 10 + 16) 8))) 2 (r 10)) h4 hb hm hs hg hpost

/-- A closure from its entry to the call of `ffi_closure_unix64_inner`. -/
theorem clos_enter {s : St} {go sse : Bool} {b ra : Nat} {sp : Nat → Prop} {post : Nat → St → Prop}
    (hpc : s.pc = .at_ (off c.cet (closLbl go sse))) (h4 : s.r 4 = b + 216) (hb : 8 ≤ b) (hlo : lo ≤ b)
    (hal : b % 16 = 0) (hx : ∀ i, i < 8 → (s.x i).length = 16) (hk : s.r 10 + 56 ≤ lo ∨ b + 216 ≤ s.r 10)
    (hm : leNat (s.mem.rd (b + 216) 8) = ra) (hs : sp (b + 224))
    (hpost : ∀ f t, f.pc = .out (c.ext 1) → f.r = upd (upd (upd (upd (upd (upd (upd s.r 7 (closWords go s.mem (s.r 10)).1)
        6 (closWords go s.mem (s.r 10)).2.1) 2 (closWords go s.mem (s.r 10)).2.2) 1 (b + 176)) 8 b) 9 (b + 224)) 4 (b - 8) → f.x = s.x → f.fp = s.fp →
      f.mem = (closFrame sse s.r s.x s.mem b).wr (b - 8) (leBytes 8 (c.base + (off c.cet .doClosure + 24))) →
      f.ss = (c.base + (off c.cet .doClosure + 24)) :: s.ss →
      Agree (fun a => dom lo b 48 (if sse then 128 else 0) a ∨ b - 8 ≤ a ∧ a < b - 8 + 8) f t → post (c.ext 1) t) :
    Safe c lo (Holds c ra s.r sp post) (level lo (s.r 4)) s := by
  obtain ⟨pc, r, x, fp, zf, cf, m, ss⟩ := s
  dsimp only at hpc h4 hx hk hm hpost ⊢
  have hQ : ∀ {o : Nat} {pc' : Pc}, pc' = .at_ o → rowAt c.cet o = some row1 → ∀ t,
      Agree (level lo (r 4)) ⟨pc', r, x, fp, zf, cf, m, ss⟩ t → Holds c ra r sp post t := by
    intro o pc' hpc hr t ht
    refine holds_rsp ht hr hpc (by dsimp only; omega) ?_ ?_ ⟨rfl, rfl, rfl, rfl, rfl, rfl⟩
    · dsimp only
      rw [h4]
      exact hm
    · dsimp only
      rw [h4]
      exact hs
  have hg : Saved (upd r 4 b) r := ⟨rfl, rfl, rfl, rfl, rfl, rfl⟩
  have out : ∀ {a : Nat}, (a < b ∨ b + 176 ≤ a) → closFrame sse r x m b a = m a := by
    intro a ha
    unfold closFrame
    rw [gprs_out (by omega)]
    split
    · exact xmms_out hx (by omega)
    · rfl
  have rdo : ∀ {a n : Nat}, (a + n ≤ b ∨ b + 176 ≤ a) → (closFrame sse r x m b).rd a n = m.rd a n :=
    fun h => Mem.rd_congr fun i hi => out (by omega)
  have cw : closWords go (closFrame sse r x m b) (r 10) = closWords go m (r 10) := by
    unfold closWords
    rw [rdo (by omega), rdo (by omega), rdo (by omega), rdo (by omega), rdo (by omega)]
  have hup : ∀ (v7 v6 v2 v1 v8 v9 v4 : Nat), upd (upd (upd (upd (upd (upd (upd (upd r 4 b) 7 v7) 6 v6) 2 v2) 1 v1) 8 v8) 9 v9) 4 v4 =
      upd (upd (upd (upd (upd (upd (upd r 7 v7) 6 v6) 2 v2) 1 v1) 8 v8) 9 v9) 4 v4 := by
    intros
    funext d
    simp only [upd]
    by_cases h : d = 4
    · rw [if_pos h, if_pos h]
    · rw [if_neg h, if_neg h, if_neg h]
  have hgo : Safe c lo (Holds c ra r sp post) (level lo (r 4)) ⟨.at_ (off c.cet (closLbl go sse) + eo c.cet), r, x, fp, zf, cf, m, ss⟩ := by
    refine bstep (D' := dom lo b 0 0) (closBlock1 _ _ _) rfl (fun a ha => ha.imp_right fun h => by dsimp only; omega) (hQ rfl)
      (fun a h1 h2 => absurd h2 (by simp [ld])) (s' := ⟨.at_ (off c.cet (closLbl go sse) + eo c.cet + 7), upd r 4 b, x, fp, zf, cf, m, ss⟩) ?_ ?_ fun _ => ?_
    · show (if 216 ≤ r 4 then some (St.mk _ (upd r 4 (r 4 - 216)) x fp zf cf m ss) else none) = _
      rw [if_pos (by omega), h4, Nat.add_sub_cancel]
    · intro a ha
      refine .inl ?_
      unfold dom at ha
      unfold level
      omega
    · cases sse
      · rw [clos_off]
        refine clos_gpr (go := go) rfl hm hs hg (clos_load (go := go) rfl hb hk ?_ hs hg ?_)
        · show leNat ((closFrame false r x m b).rd (b + 216) 8) = ra
          rw [rdo (by omega), hm]
        · intro f t e1 e2 e3 e4 e5 e6 ht
          refine hpost f t e1 (e2.trans ?_) e3 e4 e5 e6 ht
          rw [hup, ← cw]
          rfl
      · refine clos_xmm (go := go) rfl hal hx hm hs hg (clos_gpr (go := go) rfl ?_ hs hg (clos_load (go := go) rfl hb hk ?_ hs hg ?_))
        · rw [Mem.rd_congr fun i hi => xmms_out hx (by omega), hm]
        · show leNat ((closFrame true r x m b).rd (b + 216) 8) = ra
          rw [rdo (by omega), hm]
        · intro f t e1 e2 e3 e4 e5 e6 ht
          refine hpost f t e1 (e2.trans ?_) e3 e4 e5 e6 ht
          rw [hup, ← cw]
          rfl
  obtain ⟨cet, base, ext⟩ := c
  cases cet
  · refine safe_of_eq ?_ hgo
    rw [hpc]
    show St.mk (.at_ (_ + eo false)) _ _ _ _ _ _ _ = _
    rw [eo_false]
    rfl
  · refine lstep (closEndbr go sse) hpc (by dsimp only; omega) (hQ hpc) (.inl rfl) rfl fun _ => safe_of_eq ?_ hgo
    show St.mk (.at_ (_ + eo true)) _ _ _ _ _ _ _ = _
    rw [eo_true]

end Verif.X64.Asm
