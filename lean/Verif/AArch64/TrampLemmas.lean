import Verif.AArch64.TrampModel

namespace Verif.A64.Tr
open Verif

theorem w64_lt {n : Nat} (h : n < 2 ^ 64) : w64 n = n := Nat.mod_eq_of_lt h

theorem w64_neg {a k : Nat} (h : k ≤ a) (ha : a < 2 ^ 64) : w64 (a + (2 ^ 64 - k)) = a - k := by
  unfold w64
  by_cases hk : k = 0
  · subst hk; omega
  · omega

theorem w64_sub {a k : Nat} (h : k ≤ a) (ha : a < 2 ^ 64) : w64 (a + 2 ^ 64 - k) = a - k := by
  unfold w64; omega

theorem steps_succ {n : Nat} {s t : MState} (h : step s = some t) : steps (n + 1) s = steps n t := by
  simp [steps, h]

theorem steps_add {a b : Nat} {s t : MState} (h : steps a s = some t) : steps (a + b) s = steps b t := by
  induction a generalizing s with
  | zero => rw [Nat.zero_add]; cases h; rfl
  | succ a ih =>
    rw [Nat.succ_add]
    simp only [steps] at h ⊢
    cases hs : step s with
    | none => rw [hs] at h; cases h
    | some u => rw [hs] at h; exact ih h

theorem leNat4 {v : Nat} (h : v < 2 ^ 32) : leNat (leBytes 4 v) = v := by
  rw [leNat_leBytes, show 256 ^ 4 = 2 ^ 32 from rfl, Nat.mod_eq_of_lt h]

theorem leNat8 {v : Nat} (h : v < 2 ^ 64) : leNat (leBytes 8 v) = v := by
  rw [leNat_leBytes, show 256 ^ 8 = 2 ^ 64 from rfl, Nat.mod_eq_of_lt h]

theorem load_at {m : Mem} {a v : Nat} (h : Code m a (leBytes 8 v)) (ha : a + 8 ≤ 2 ^ 64) (hv : v < 2 ^ 64) :
    load m a = some v := by
  unfold load
  unfold Code at h
  rw [leBytes_length] at h
  rw [if_pos ha, h, leNat8 hv]

theorem code_word {m : Mem} : ∀ {ws : List Nat} {a k : Nat}, Code m a (bytesOf ws) → (hk : k < ws.length) →
    Code m (a + 4 * k) (leBytes 4 ws[k])
  | w :: ws, a, 0, h, _ => by
    have h : Code m a (leBytes 4 w ++ bytesOf ws) := h
    exact h.append.1
  | w :: ws, a, k + 1, h, hk => by
    have h : Code m a (leBytes 4 w ++ bytesOf ws) := h
    have h := h.append.2
    rw [leBytes_length] at h
    have := code_word (k := k) h (by simpa using hk)
    rw [show a + 4 * (k + 1) = a + 4 + 4 * k by omega]
    exact this

theorem bytesOf_length (ws : List Nat) : (bytesOf ws).length = 4 * ws.length := by
  induction ws with
  | nil => rfl
  | cons w ws ih => simp [bytesOf, List.flatMap_cons] at ih ⊢; omega

/-- The instruction at the program counter. -/
theorem step_word {s : MState} {w : Nat} {i : Insn} (h : Code s.mem s.pc (leBytes 4 w)) (hw : w < 2 ^ 32) (hp : 4 ∣ s.pc)
    (hd : decode w = some i) : step s = exec s i := by
  unfold step
  unfold Code at h
  rw [leBytes_length] at h
  rw [if_pos hp, h, leNat4 hw, hd]
  rfl

/-! ## The dynamic trampoline -/

/-- What `ffi_prep_closure_loc` leaves in the object. -/
structure Image (m : Mem) (a start cif fn ud : Nat) : Prop where
  code : Code m a trampoline
  start : Code m (a + 16) (leBytes 8 start)
  cif : Code m (a + 24) (leBytes 8 cif)
  fn : Code m (a + 32) (leBytes 8 fn)
  ud : Code m (a + 40) (leBytes 8 ud)

theorem prep_image {start closure cif fn ud : Nat} {m : Mem} :
    Image (prepClosure start closure cif fn ud m) closure start cif fn ud := by
  have hl : trampoline.length = 16 := rfl
  unfold prepClosure
  dsimp only
  constructor
  · refine Code.wr (Code.wr (Code.wr (Code.wr Code.same ?_) ?_) ?_) ?_ <;> rw [hl, leBytes_length] <;> omega
  · refine Code.wr (Code.wr (Code.wr Code.same ?_) ?_) ?_ <;> simp
  · refine Code.wr (Code.wr Code.same ?_) ?_ <;> simp
  · exact Code.wr Code.same (by simp)
  · exact Code.same

theorem Image.view {m m' : Mem} {a b start cif fn ud : Nat} (h : Image m a start cif fn ud)
    (hv : ∀ i, i < 48 → m' (b + i) = m (a + i)) : Image m' b start cif fn ud := by
  have t : ∀ {k : Nat} {bs : List Byte}, k + bs.length ≤ 48 → Code m (a + k) bs → Code m' (b + k) bs := by
    intro k bs hk hc
    refine hc.congr ?_
    intro i hi
    rw [Nat.add_assoc, Nat.add_assoc, hv _ (by omega)]
  refine ⟨?_, t (by simp) h.start, t (by simp) h.cif, t (by simp) h.fn, t (by simp) h.ud⟩
  have := t (k := 0) (by decide) h.code
  simpa using this

theorem dyn_run {m : Mem} {c start cif fn ud sp : Nat} {x : Nat → Nat} (h : Image m c start cif fn ud)
    (h4 : 4 ∣ c) (hc : c + 48 ≤ 2 ^ 64) (hs : start < 2 ^ 64) :
    steps 3 ⟨c, x, sp, m⟩ = some ⟨start, upd (upd x 16 start) 17 c, sp, m⟩ := by
  have hw : Code m c (bytesOf [0x58000090, 0x10fffff1, 0xd61f0200, 0]) := h.code
  have w0 := code_word (k := 0) hw (by decide)
  have w1 := code_word (k := 1) hw (by decide)
  have w2 := code_word (k := 2) hw (by decide)
  have e0 : exec ⟨c, x, sp, m⟩ (.ldrLit 16 16) = some ⟨c + 4, upd x 16 start, sp, m⟩ := by
    simp only [exec]
    rw [w64_lt (by omega), w64_lt (by omega), load_at h.start (by omega) hs]
    rfl
  rw [steps_succ ((step_word (s := ⟨c, x, sp, m⟩) w0 (by decide) h4 (by decide)).trans e0)]
  have e1 : exec ⟨c + 4, upd x 16 start, sp, m⟩ (.adr 17 (2 ^ 64 - 4)) =
      some ⟨c + 8, upd (upd x 16 start) 17 c, sp, m⟩ := by
    simp only [exec]
    rw [w64_neg (by omega) (by omega), w64_lt (by omega)]
    rfl
  rw [steps_succ ((step_word (s := ⟨c + 4, upd x 16 start, sp, m⟩) w1 (by decide) (by dsimp only; omega) (by decide)).trans e1),
    steps_succ ((step_word (s := ⟨c + 8, upd (upd x 16 start) 17 c, sp, m⟩) w2 (by decide) (by dsimp only; omega) (i := .br 16) (by decide)))]
  rfl

/-! ## The static trampolines -/

/-- Memory after a slot has run. -/
def slotMem (m : Mem) (x17 sp data : Nat) : Mem := (m.wr (sp - 16) (leBytes 8 x17)).wr (sp - 8) (leBytes 8 data)

theorem slot_run {m : Mem} {A sp data target : Nat} {x : Nat → Nat} (h : Code m A (bytesOf slotWords)) (h4 : 4 ∣ A)
    (hp : Code m (A + 16384) (leBytes 8 data ++ leBytes 8 target)) (hA : A + 16400 ≤ 2 ^ 64) (hv : data < 2 ^ 64)
    (ht : target < 2 ^ 64) (hs : 16 ≤ sp) (hs' : sp < 2 ^ 64) (x1 : sp ≤ A ∨ A + 32 ≤ sp - 16)
    (x2 : sp ≤ A + 16384 ∨ A + 16400 ≤ sp - 16) :
    steps 8 ⟨A, x, sp, m⟩ =
      some ⟨target, upd (upd (upd (upd x 17 (A + 16384)) 17 data) 17 (A + 16392)) 17 target, sp - 16, slotMem m (x 17) sp data⟩ := by
  obtain ⟨hp1, hp2⟩ := hp.append
  obtain ⟨Q, hQ⟩ : ∃ Q, A + 16384 = Q := ⟨_, rfl⟩
  obtain ⟨R, hR⟩ : ∃ R, A + 16392 = R := ⟨_, rfl⟩
  rw [leBytes_length, show A + 16384 + 8 = R by omega] at hp2
  rw [hQ] at hp1 ⊢
  rw [hR]
  have hlen : (bytesOf slotWords).length = 32 := rfl
  -- sub sp, sp, #16
  have e0 : exec ⟨A, x, sp, m⟩ (.subImm 31 31 16) = some ⟨A + 4, x, sp - 16, m⟩ := by
    simp only [exec, MState.base, if_true]
    rw [w64_sub hs hs', w64_lt (by omega)]
    rfl
  rw [steps_succ ((step_word (s := ⟨A, x, sp, m⟩) (code_word (k := 0) h (by decide)) (by decide) h4 (by decide)).trans e0)]
  -- str x17, [sp]
  have e1 : exec ⟨A + 4, x, sp - 16, m⟩ (.str 17 31 0) = some ⟨A + 8, x, sp - 16, m.wr (sp - 16) (leBytes 8 (x 17))⟩ := by
    simp only [exec, MState.base, if_true, store, Nat.add_zero]
    rw [w64_lt (by omega), w64_lt (by omega), if_pos (by omega)]
    rfl
  rw [steps_succ ((step_word (s := ⟨A + 4, x, sp - 16, m⟩) (code_word (k := 1) h (by decide)) (by decide) (by dsimp only; omega)
    (by decide)).trans e1)]
  have h1 : Code (m.wr (sp - 16) (leBytes 8 (x 17))) A (bytesOf slotWords) := h.wr (by simp only [hlen, leBytes_length]; omega)
  have p1 : Code (m.wr (sp - 16) (leBytes 8 (x 17))) (Q) (leBytes 8 data) := hp1.wr (by simp; omega)
  have q1 : Code (m.wr (sp - 16) (leBytes 8 (x 17))) (R) (leBytes 8 target) := hp2.wr (by simp; omega)
  unfold slotMem
  generalize m.wr (sp - 16) (leBytes 8 (x 17)) = m1 at *
  -- adr x17, #16376; ldr x17, [x17]
  have e2 : exec ⟨A + 8, x, sp - 16, m1⟩ (.adr 17 16376) = some ⟨A + 12, upd x 17 (Q), sp - 16, m1⟩ := by
    simp only [exec]
    rw [(Nat.add_assoc A 8 16376).trans hQ, w64_lt (by omega), w64_lt (by omega)]
    rfl
  rw [steps_succ ((step_word (s := ⟨A + 8, x, sp - 16, m1⟩) (code_word (k := 2) h1 (by decide)) (by decide) (by dsimp only; omega)
    (by decide)).trans e2)]
  have e3 : exec ⟨A + 12, upd x 17 (Q), sp - 16, m1⟩ (.ldr 17 17 0) =
      some ⟨A + 16, upd (upd x 17 (Q)) 17 data, sp - 16, m1⟩ := by
    have hb : (MState.mk (A + 12) (upd x 17 (Q)) (sp - 16) m1).base 17 = Q := rfl
    simp only [exec, hb, Nat.add_zero]
    rw [w64_lt (by omega), w64_lt (by omega), load_at p1 (by omega) hv]
    rfl
  rw [steps_succ ((step_word (s := ⟨A + 12, upd x 17 (Q), sp - 16, m1⟩) (code_word (k := 3) h1 (by decide)) (by decide)
    (by dsimp only; omega) (by decide)).trans e3)]
  have hd3 : upd (upd x 17 (Q)) 17 data 17 = data := rfl
  generalize upd (upd x 17 (Q)) 17 data = x3 at *
  -- str x17, [sp, #8]
  have e4 : exec ⟨A + 16, x3, sp - 16, m1⟩ (.str 17 31 8) = some ⟨A + 20, x3, sp - 16, m1.wr (sp - 8) (leBytes 8 data)⟩ := by
    simp only [exec, MState.base, if_true, store]
    rw [w64_lt (by omega), w64_lt (by omega), if_pos (by omega), show sp - 16 + 8 = sp - 8 by omega]
    simp [hd3]
  rw [steps_succ ((step_word (s := ⟨A + 16, x3, sp - 16, m1⟩) (code_word (k := 4) h1 (by decide)) (by decide) (by dsimp only; omega)
    (by decide)).trans e4)]
  have h2 : Code (m1.wr (sp - 8) (leBytes 8 data)) A (bytesOf slotWords) := h1.wr (by simp only [hlen, leBytes_length]; omega)
  have q2 : Code (m1.wr (sp - 8) (leBytes 8 data)) (R) (leBytes 8 target) := q1.wr (by simp; omega)
  generalize m1.wr (sp - 8) (leBytes 8 data) = m2 at *
  -- adr x17, #16372; ldr x17, [x17]; br x17
  have e5 : exec ⟨A + 20, x3, sp - 16, m2⟩ (.adr 17 16372) = some ⟨A + 24, upd x3 17 (R), sp - 16, m2⟩ := by
    simp only [exec]
    rw [(Nat.add_assoc A 20 16372).trans hR, w64_lt (by omega), w64_lt (by omega)]
    rfl
  rw [steps_succ ((step_word (s := ⟨A + 20, x3, sp - 16, m2⟩) (code_word (k := 5) h2 (by decide)) (by decide) (by dsimp only; omega)
    (by decide)).trans e5)]
  have e6 : exec ⟨A + 24, upd x3 17 (R), sp - 16, m2⟩ (.ldr 17 17 0) =
      some ⟨A + 28, upd (upd x3 17 (R)) 17 target, sp - 16, m2⟩ := by
    have hb : (MState.mk (A + 24) (upd x3 17 (R)) (sp - 16) m2).base 17 = R := rfl
    simp only [exec, hb, Nat.add_zero]
    rw [w64_lt (by omega), w64_lt (by omega), load_at q2 (by omega) ht]
    rfl
  rw [steps_succ ((step_word (s := ⟨A + 24, upd x3 17 (R), sp - 16, m2⟩) (code_word (k := 6) h2 (by decide)) (by decide)
    (by dsimp only; omega) (by decide)).trans e6),
    steps_succ (step_word (s := ⟨A + 28, upd (upd x3 17 (R)) 17 target, sp - 16, m2⟩) (code_word (k := 7) h2 (by decide))
      (by decide) (by dsimp only; omega) (i := .br 17) (by decide))]
  rfl

/-- A branch reaches any aligned target within 128 MB. -/
theorem decode_b {p d : Nat} (h4 : 4 ∣ p) (hd4 : 4 ∣ d) (_hp : p < 2 ^ 64) (hd : d < 2 ^ 64)
    (near : d < p + 2 ^ 27 ∧ p ≤ d + 2 ^ 27) :
    ∃ off, decode (0x14000000 + w64 (d + 2 ^ 64 - p) / 4 % 2 ^ 26) = some (.b off) ∧ w64 (p + off) = d ∧
      0x14000000 + w64 (d + 2 ^ 64 - p) / 4 % 2 ^ 26 < 2 ^ 32 := by
  obtain ⟨k, hk⟩ : ∃ k, w64 (d + 2 ^ 64 - p) / 4 % 2 ^ 26 = k := ⟨_, rfl⟩
  have hkl : k < 2 ^ 26 := by rw [← hk]; exact Nat.mod_lt _ (by decide)
  rw [hk]
  refine ⟨sext 28 (k * 4), ?_, ?_, by omega⟩
  · unfold decode
    rw [if_neg (by omega), if_neg (by omega), if_neg (by omega), if_neg (by omega), if_neg (by omega), if_neg (by omega),
      if_neg (by omega), if_neg (by omega), if_pos (by omega)]
    have : (335544320 + k) % 2 ^ 26 = k := by omega
    rw [this]
  · unfold sext
    by_cases hdp : p ≤ d
    · have e : w64 (d + 2 ^ 64 - p) = d - p := by unfold w64; omega
      rw [e] at hk
      rw [if_pos (by omega)]
      unfold w64
      omega
    · have e : w64 (d + 2 ^ 64 - p) = d + 2 ^ 64 - p := by unfold w64; omega
      rw [e] at hk
      rw [if_neg (by omega)]
      unfold w64
      omega

/-- Length of `bti c`. -/
def off (bti : Bool) : Nat := if bti then 4 else 0

theorem alt_run {bti : Bool} {m : Mem} {T dest y sp data : Nat} {x : Nat → Nat}
    (h : Code m T (bytesOf (altWords bti (w64 (dest + 2 ^ 64 - (T + off bti + 8)))))) (h4 : 4 ∣ T) (hT : T + 16 ≤ 2 ^ 64)
    (hd4 : 4 ∣ dest) (hd : dest < 2 ^ 64) (near : dest < T + 2 ^ 27 ∧ T + 12 ≤ dest + 2 ^ 27)
    (hl : Code m (sp - 16) (leBytes 8 y ++ leBytes 8 data)) (hv : data < 2 ^ 64) (hs : 16 ≤ sp) (hs' : sp < 2 ^ 64) :
    steps (if bti then 4 else 3) ⟨T, x, sp - 16, m⟩ = some ⟨dest, upd x 17 data, sp, m⟩ := by
  have key : ∀ B, B = T + off bti → Code m B (bytesOf [0xf94007f1, 0x910043ff,
      0x14000000 + w64 (dest + 2 ^ 64 - (T + off bti + 8)) / 4 % 2 ^ 26]) →
      steps 3 ⟨B, x, sp - 16, m⟩ = some ⟨dest, upd x 17 data, sp, m⟩ := by
    intro B hB hc
    have hB' : B ≤ T + 4 ∧ T ≤ B ∧ 4 ∣ B := by rw [hB]; unfold off; split <;> omega
    have hl2 := hl.append.2
    rw [leBytes_length, show sp - 16 + 8 = sp - 8 by omega] at hl2
    have e0 : exec ⟨B, x, sp - 16, m⟩ (.ldr 17 31 8) = some ⟨B + 4, upd x 17 data, sp - 16, m⟩ := by
      simp only [exec, MState.base, if_true]
      rw [w64_lt (by omega), w64_lt (by omega), show sp - 16 + 8 = sp - 8 by omega, load_at hl2 (by omega) hv]
      rfl
    rw [steps_succ ((step_word (s := ⟨B, x, sp - 16, m⟩) (code_word (k := 0) hc (by simp)) (show 0xf94007f1 < 2 ^ 32 by decide)
      hB'.2.2 (show decode 0xf94007f1 = _ by decide)).trans e0)]
    have e1 : exec ⟨B + 4, upd x 17 data, sp - 16, m⟩ (.addImm 31 31 16) = some ⟨B + 8, upd x 17 data, sp, m⟩ := by
      simp only [exec, MState.base, if_true]
      rw [show sp - 16 + 16 = sp by omega, w64_lt hs', w64_lt (by omega)]
      rfl
    rw [steps_succ ((step_word (s := ⟨B + 4, upd x 17 data, sp - 16, m⟩) (code_word (k := 1) hc (by simp))
      (show 0x910043ff < 2 ^ 32 by decide) (by dsimp only; omega) (show decode 0x910043ff = _ by decide)).trans e1)]
    have c2 := code_word (k := 2) hc (by simp)
    rw [← hB] at c2
    obtain ⟨o, d1, d2, d3⟩ := decode_b (p := B + 8) (d := dest) (by omega) hd4 (by omega) hd (by omega)
    rw [steps_succ (step_word (s := ⟨B + 8, upd x 17 data, sp, m⟩) c2 d3 (by dsimp only; omega) d1)]
    show some (MState.mk _ _ _ _) = _
    rw [d2]
  cases bti with
  | false => exact key T rfl h
  | true =>
    have h : Code m T (leBytes 4 0xd503245f ++ bytesOf [0xf94007f1, 0x910043ff,
      0x14000000 + w64 (dest + 2 ^ 64 - (T + off true + 8)) / 4 % 2 ^ 26]) := h
    obtain ⟨ha, hb⟩ := h.append
    rw [if_pos rfl, steps_succ (step_word (s := ⟨T, x, sp - 16, m⟩) ha (by decide) h4 (i := .nop) (by decide))]
    dsimp only
    rw [w64_lt (by omega)]
    exact key (T + 4) rfl hb

/-! ## Mach tables -/

theorem mach_run {m : Mem} {A sp data target : Nat} {x : Nat → Nat} (h : Code m A (bytesOf machWords)) (h4 : 4 ∣ A)
    (hlow : 16384 ≤ A) (hp : Code m (A - 16384) (leBytes 8 data ++ leBytes 8 target)) (hA : A + 16 ≤ 2 ^ 64) (hv : data < 2 ^ 64)
    (ht : target < 2 ^ 64) :
    steps 3 ⟨A, x, sp, m⟩ = some ⟨target, upd (upd (upd x 16 (A - 16384)) 17 data) 16 target, sp, m⟩ := by
  have hB := w64_neg hlow (show A < 2 ^ 64 by omega)
  have hB' : A - 16384 + 16 ≤ 2 ^ 64 := by omega
  obtain ⟨B, hBe⟩ : ∃ B, A - 16384 = B := ⟨_, rfl⟩
  rw [hBe] at hp hB hB' ⊢
  obtain ⟨hp1, hp2⟩ := hp.append
  rw [leBytes_length] at hp2
  have e0 : exec ⟨A, x, sp, m⟩ (.adr 16 (2 ^ 64 - 16384)) = some ⟨A + 4, upd x 16 (B), sp, m⟩ := by
    simp only [exec]
    rw [hB, w64_lt (by omega)]
    rfl
  rw [steps_succ ((step_word (s := ⟨A, x, sp, m⟩) (code_word (k := 0) h (by decide)) (by decide) h4 (by decide)).trans e0)]
  have e1 : exec ⟨A + 4, upd x 16 (B), sp, m⟩ (.ldp 17 16 16 0) =
      some ⟨A + 8, upd (upd (upd x 16 (B)) 17 data) 16 target, sp, m⟩ := by
    have hb : (MState.mk (A + 4) (upd x 16 (B)) sp m).base 16 = B := rfl
    simp only [exec, hb, Nat.add_zero]
    rw [w64_lt (n := B) (by omega), w64_lt (by omega), w64_lt (by omega), load_at hp1 (by omega) hv,
      load_at hp2 (by omega) ht]
    rfl
  rw [steps_succ ((step_word (s := ⟨A + 4, upd x 16 (B), sp, m⟩) (code_word (k := 1) h (by decide)) (by decide)
    (by dsimp only; omega) (by decide)).trans e1),
    steps_succ (step_word (s := ⟨A + 8, upd (upd (upd x 16 (B)) 17 data) 16 target, sp, m⟩)
      (code_word (k := 2) h (by decide)) (by decide) (by dsimp only; omega) (i := .br 16) (by decide))]
  rfl

end Verif.A64.Tr
