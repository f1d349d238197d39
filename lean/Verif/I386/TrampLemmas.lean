import Verif.I386.TrampModel

namespace Verif.I386.Tr
open Verif

theorem w32_lt {n : Nat} (h : n < 2 ^ 32) : w32 n = n := Nat.mod_eq_of_lt h

theorem w32_add (a b : Nat) : w32 (w32 a + b) = w32 (a + b) := by simp [w32]

theorem w32_sub {a k : Nat} (h : k ≤ a) (ha : a < 2 ^ 32) : w32 (a + 2 ^ 32 - k) = a - k := by
  unfold w32
  rw [show a + 2 ^ 32 - k = (a - k) + 2 ^ 32 by omega, Nat.add_mod_right, Nat.mod_eq_of_lt (by omega)]

theorem steps_succ {n : Nat} {s t : MState} (h : step s = some t) : steps (n + 1) s = steps n t := by
  simp [steps, h]

/-- A relative jump reaches its destination from anywhere. -/
theorem rel_dest {a d : Nat} (ha : a ≤ 2 ^ 32) (hd : d < 2 ^ 32) : w32 (a + w32 (d + 2 ^ 32 - w32 a)) = d := by
  unfold w32
  omega

/-! Single instructions. -/

theorem byte_at {m : Mem} {a : Nat} {bs : List Byte} (h : Code m a bs) (ha : a + bs.length ≤ 2 ^ 32) {i : Nat}
    (hi : i < bs.length) : m (w32 (a + i)) = bs.getD i 0 := by
  rw [w32_lt (by omega), h.get hi]

theorem leNat4 (v : Nat) (h : v < 2 ^ 32) : leNat (leBytes 4 v) = v := by
  rw [leNat_leBytes, show 256 ^ 4 = 2 ^ 32 from rfl, Nat.mod_eq_of_lt h]

theorem imm_at {m : Mem} {a k v : Nat} {xs : List Byte} (h : Code m a (xs ++ leBytes 4 v)) (hk : xs.length = k)
    (ha : a + k + 4 ≤ 2 ^ 32) (hv : v < 2 ^ 32) : imm (fun i => m (w32 (a + i))) k = v := by
  have hb := h.append.2
  rw [hk] at hb
  have e : ∀ i, i < 4 → m (w32 (a + (k + i))) = (leBytes 4 v).getD i 0 := by
    intro i hi
    rw [← Nat.add_assoc]
    exact byte_at hb (by simp; omega) (by simpa using hi)
  have e0 := e 0 (by omega)
  have e1 := e 1 (by omega)
  have e2 := e 2 (by omega)
  have e3 := e 3 (by omega)
  rw [Nat.add_zero] at e0
  unfold imm
  simp only [e0, e1, e2, e3]
  exact leNat4 v hv

section
variable {s : MState}

theorem step_of {i : Insn} {n : Nat} (h : decode (fun i => s.mem (w32 (s.eip + i))) = some (i, n)) :
    step s = exec s n i := by
  unfold step
  rw [h]
  rfl

theorem step_endbr (h : Code s.mem s.eip [0xf3, 0x0f, 0x1e, 0xfb]) (ha : s.eip + 4 ≤ 2 ^ 32) :
    step s = exec s 4 .endbr := by
  have b := fun i hi => byte_at h (by simpa using ha) (i := i) hi
  have b0 := b 0 (by simp)
  rw [Nat.add_zero] at b0
  exact step_of (by simp [decode, b0, b 1, b 2, b 3])

theorem step_movEax {v : Nat} (h : Code s.mem s.eip ([0xb8] ++ leBytes 4 v)) (ha : s.eip + 5 ≤ 2 ^ 32) (hv : v < 2 ^ 32) :
    step s = exec s 5 (.movEax v) := by
  have b := fun i hi => byte_at h (by simpa using ha) (i := i) hi
  have b0 := b 0 (by simp)
  rw [Nat.add_zero] at b0
  have e := imm_at h (k := 1) rfl (by omega) hv
  exact step_of (by unfold decode; rw [e]; simp [b0])

theorem step_push {v : Nat} (h : Code s.mem s.eip ([0x68] ++ leBytes 4 v)) (ha : s.eip + 5 ≤ 2 ^ 32) (hv : v < 2 ^ 32) :
    step s = exec s 5 (.push v) := by
  have b := fun i hi => byte_at h (by simpa using ha) (i := i) hi
  have b0 := b 0 (by simp)
  rw [Nat.add_zero] at b0
  have e := imm_at h (k := 1) rfl (by omega) hv
  exact step_of (by unfold decode; rw [e]; simp [b0])

theorem step_jmpRel {v : Nat} (h : Code s.mem s.eip ([0xe9] ++ leBytes 4 v)) (ha : s.eip + 5 ≤ 2 ^ 32) (hv : v < 2 ^ 32) :
    step s = exec s 5 (.jmpRel v) := by
  have b := fun i hi => byte_at h (by simpa using ha) (i := i) hi
  have b0 := b 0 (by simp)
  rw [Nat.add_zero] at b0
  have e := imm_at h (k := 1) rfl (by omega) hv
  exact step_of (by unfold decode; rw [e]; simp [b0])

theorem step_call {v : Nat} (h : Code s.mem s.eip ([0xe8] ++ leBytes 4 v)) (ha : s.eip + 5 ≤ 2 ^ 32) (hv : v < 2 ^ 32) :
    step s = exec s 5 (.call v) := by
  have b := fun i hi => byte_at h (by simpa using ha) (i := i) hi
  have b0 := b 0 (by simp)
  rw [Nat.add_zero] at b0
  have e := imm_at h (k := 1) rfl (by omega) hv
  exact step_of (by unfold decode; rw [e]; simp [b0])

theorem step_subEsp {k : Byte} (h : Code s.mem s.eip [0x83, 0xec, k]) (ha : s.eip + 3 ≤ 2 ^ 32) (hk : k.toNat < 128) :
    step s = exec s 3 (.subEsp k.toNat) := by
  have b := fun i hi => byte_at h (by simpa using ha) (i := i) hi
  have b0 := b 0 (by simp)
  rw [Nat.add_zero] at b0
  exact step_of (by simp [decode, b0, b 1, b 2, hk])

theorem step_addEsp {k : Byte} (h : Code s.mem s.eip [0x83, 0xc4, k]) (ha : s.eip + 3 ≤ 2 ^ 32) (hk : k.toNat < 128) :
    step s = exec s 3 (.addEsp k.toNat) := by
  have b := fun i hi => byte_at h (by simpa using ha) (i := i) hi
  have b0 := b 0 (by simp)
  rw [Nat.add_zero] at b0
  exact step_of (by simp [decode, b0, b 1, b 2, hk])

theorem step_st0 (h : Code s.mem s.eip [0x89, 0x04, 0x24]) (ha : s.eip + 3 ≤ 2 ^ 32) : step s = exec s 3 (.stEsp 0) := by
  have b := fun i hi => byte_at h (by simpa using ha) (i := i) hi
  have b0 := b 0 (by simp)
  rw [Nat.add_zero] at b0
  exact step_of (by simp [decode, b0, b 1, b 2])

theorem step_st {k : Byte} (h : Code s.mem s.eip [0x89, 0x44, 0x24, k]) (ha : s.eip + 4 ≤ 2 ^ 32) (hk : k.toNat < 128) :
    step s = exec s 4 (.stEsp k.toNat) := by
  have b := fun i hi => byte_at h (by simpa using ha) (i := i) hi
  have b0 := b 0 (by simp)
  rw [Nat.add_zero] at b0
  exact step_of (by simp [decode, b0, b 1, b 2, b 3, hk])

theorem step_ld0 (h : Code s.mem s.eip [0x8b, 0x04, 0x24]) (ha : s.eip + 3 ≤ 2 ^ 32) : step s = exec s 3 (.ldEsp 0) := by
  have b := fun i hi => byte_at h (by simpa using ha) (i := i) hi
  have b0 := b 0 (by simp)
  rw [Nat.add_zero] at b0
  exact step_of (by simp [decode, b0, b 1, b 2])

theorem step_ld {k : Byte} (h : Code s.mem s.eip [0x8b, 0x44, 0x24, k]) (ha : s.eip + 4 ≤ 2 ^ 32) (hk : k.toNat < 128) :
    step s = exec s 4 (.ldEsp k.toNat) := by
  have b := fun i hi => byte_at h (by simpa using ha) (i := i) hi
  have b0 := b 0 (by simp)
  rw [Nat.add_zero] at b0
  exact step_of (by simp [decode, b0, b 1, b 2, b 3, hk])

theorem step_ldEax {v : Nat} (h : Code s.mem s.eip ([0x8b, 0x80] ++ leBytes 4 v)) (ha : s.eip + 6 ≤ 2 ^ 32) (hv : v < 2 ^ 32) :
    step s = exec s 6 (.ldEax v) := by
  have b := fun i hi => byte_at h (by simpa using ha) (i := i) hi
  have b0 := b 0 (by simp)
  rw [Nat.add_zero] at b0
  have e := imm_at h (k := 2) rfl (by omega) hv
  exact step_of (by unfold decode; rw [e]; simp [b0, b 1])

theorem step_jmpEax (h : Code s.mem s.eip [0xff, 0xe0]) (ha : s.eip + 2 ≤ 2 ^ 32) : step s = exec s 2 .jmpEax := by
  have b := fun i hi => byte_at h (by simpa using ha) (i := i) hi
  have b0 := b 0 (by simp)
  rw [Nat.add_zero] at b0
  exact step_of (by simp [decode, b0, b 1])

theorem step_ret (h : Code s.mem s.eip [0xc3]) (ha : s.eip + 1 ≤ 2 ^ 32) : step s = exec s 1 .ret := by
  have b := fun i hi => byte_at h (by simpa using ha) (i := i) hi
  have b0 := b 0 (by simp)
  rw [Nat.add_zero] at b0
  exact step_of (by simp [decode, b0])

end

/-! ## The dynamic trampoline -/

/-- What `ffi_prep_closure_loc` leaves in the object. -/
structure Image (m : Mem) (a : Nat) (o : Byte) (dest codeloc cif fn ud : Nat) : Prop where
  endbr : Code m a [0xf3, 0x0f, 0x1e, 0xfb]
  self : Code m (a + 4) ([o] ++ leBytes 4 codeloc)
  jmp : Code m (a + 9) ([0xe9] ++ leBytes 4 (w32 (dest + 2 ^ 32 - w32 (codeloc + 14))))
  cif : Code m (a + 16) (leBytes 4 cif)
  fn : Code m (a + 20) (leBytes 4 fn)
  ud : Code m (a + 24) (leBytes 4 ud)

theorem prep_image {abi : Abi} {dest closure codeloc cif fn ud : Nat} {m : Mem} :
    Image (prepClosure abi dest closure codeloc cif fn ud m) closure (op abi) dest codeloc cif fn ud := by
  unfold prepClosure
  dsimp only
  constructor
  · refine Code.wr (Code.wr (Code.wr (Code.wr (Code.wr (Code.wr (Code.wr ?_ ?_) ?_) ?_) ?_) ?_) ?_) ?_ <;> try (simp <;> omega)
    exact Code.same
  · refine Code.wr (Code.wr (Code.wr (Code.wr (Code.wr ?_ ?_) ?_) ?_) ?_) ?_ <;> try (simp <;> omega)
    exact Code.join (Code.wr Code.same (by simp)) Code.same
  · refine Code.wr (Code.wr (Code.wr ?_ ?_) ?_) ?_ <;> try (simp <;> omega)
    exact Code.join (Code.wr Code.same (by simp)) Code.same
  · refine Code.wr (Code.wr ?_ ?_) ?_ <;> try (simp <;> omega)
    exact Code.same
  · refine Code.wr ?_ ?_ <;> try (simp <;> omega)
    exact Code.same
  · exact Code.same

theorem Image.view {m m' : Mem} {a b : Nat} {o : Byte} {dest codeloc cif fn ud : Nat}
    (h : Image m a o dest codeloc cif fn ud) (hv : ∀ i, i < 28 → m' (b + i) = m (a + i)) :
    Image m' b o dest codeloc cif fn ud := by
  have t : ∀ {k : Nat} {bs : List Byte}, k + bs.length ≤ 28 → Code m (a + k) bs → Code m' (b + k) bs := by
    intro k bs hk hc
    refine hc.congr ?_
    intro i hi
    rw [Nat.add_assoc, Nat.add_assoc, hv _ (by omega)]
  refine ⟨?_, t (by simp) h.self, t (by simp) h.jmp, t (by simp) h.cif, t (by simp) h.fn, t (by simp) h.ud⟩
  have := t (k := 0) (by simp) h.endbr
  simpa using this

theorem dyn_run {m : Mem} {c dest cif fn ud eax sp : Nat} (h : Image m c 0xb8 dest c cif fn ud) (hc : c + 28 ≤ 2 ^ 32)
    (hd : dest < 2 ^ 32) : steps 3 ⟨c, eax, sp, m⟩ = some ⟨dest, c, sp, m⟩ := by
  rw [steps_succ (step_endbr (s := ⟨c, eax, sp, m⟩) h.endbr (by dsimp only; omega))]
  dsimp only
  rw [w32_lt (by omega), steps_succ (step_movEax (s := ⟨c + 4, eax, sp, m⟩) h.self (by dsimp only; omega) (by omega))]
  dsimp only
  rw [w32_lt (by omega), steps_succ (step_jmpRel (s := ⟨c + 9, c, sp, m⟩) h.jmp (by dsimp only; omega)
    (Nat.mod_lt _ (by omega)))]
  show some (MState.mk _ _ _ _) = _
  rw [show c + 9 + 5 = c + 14 by omega, rel_dest (by omega) hd]

theorem dyn_run_push {m : Mem} {c dest cif fn ud eax sp : Nat} (h : Image m c 0x68 dest c cif fn ud) (hc : c + 28 ≤ 2 ^ 32)
    (hd : dest < 2 ^ 32) (hs : 4 ≤ sp) (hs' : sp < 2 ^ 32) (hdis : sp ≤ c ∨ c + 28 ≤ sp - 4) :
    steps 3 ⟨c, eax, sp, m⟩ = some ⟨dest, eax, sp - 4, m.wr (sp - 4) (leBytes 4 c)⟩ := by
  rw [steps_succ (step_endbr (s := ⟨c, eax, sp, m⟩) h.endbr (by dsimp only; omega))]
  dsimp only
  have hst : exec ⟨c + 4, eax, sp, m⟩ 5 (.push c) = some ⟨c + 9, eax, sp - 4, m.wr (sp - 4) (leBytes 4 c)⟩ := by
    simp only [exec, w32_sub hs hs', store]
    rw [if_pos (by omega), w32_lt (by omega)]
    rfl
  rw [w32_lt (by omega), steps_succ ((step_push (s := ⟨c + 4, eax, sp, m⟩) h.self (by dsimp only; omega) (by omega)).trans hst),
    steps_succ (step_jmpRel (s := ⟨c + 9, eax, sp - 4, m.wr (sp - 4) (leBytes 4 c)⟩)
      (h.jmp.wr (by simp; omega)) (by dsimp only; omega) (Nat.mod_lt _ (by omega)))]
  show some (MState.mk _ _ _ _) = _
  rw [show c + 9 + 5 = c + 14 by omega, rel_dest (by omega) hd]

/-! ## The trampoline of raw closures -/

/-- What `ffi_prep_raw_closure_loc` leaves in the object. -/
structure RawImage (m : Mem) (a : Nat) (dest codeloc cif fn ud : Nat) : Prop where
  self : Code m a ([0xb8] ++ leBytes 4 codeloc)
  jmp : Code m (a + 5) ([0xe9] ++ leBytes 4 (w32 (dest + 2 ^ 32 - w32 (codeloc + 10))))
  cif : Code m (a + 16) (leBytes 4 cif)
  fn : Code m (a + 20) (leBytes 4 fn)
  ud : Code m (a + 24) (leBytes 4 ud)

theorem prepRaw_image {dest closure codeloc cif fn ud : Nat} {m : Mem} :
    RawImage (prepRaw dest closure codeloc cif fn ud m) closure dest codeloc cif fn ud := by
  unfold prepRaw
  dsimp only
  constructor
  · refine Code.wr (Code.wr (Code.wr (Code.wr (Code.wr ?_ ?_) ?_) ?_) ?_) ?_ <;> try (simp <;> omega)
    exact Code.join (Code.wr Code.same (by simp)) Code.same
  · refine Code.wr (Code.wr (Code.wr ?_ ?_) ?_) ?_ <;> try (simp <;> omega)
    exact Code.join (Code.wr Code.same (by simp)) Code.same
  · refine Code.wr (Code.wr ?_ ?_) ?_ <;> try (simp <;> omega)
    exact Code.same
  · refine Code.wr ?_ ?_ <;> try (simp <;> omega)
    exact Code.same
  · exact Code.same

theorem RawImage.view {m m' : Mem} {a b : Nat} {dest codeloc cif fn ud : Nat}
    (h : RawImage m a dest codeloc cif fn ud) (hv : ∀ i, i < 28 → m' (b + i) = m (a + i)) :
    RawImage m' b dest codeloc cif fn ud := by
  have t : ∀ {k : Nat} {bs : List Byte}, k + bs.length ≤ 28 → Code m (a + k) bs → Code m' (b + k) bs := by
    intro k bs hk hc
    refine hc.congr ?_
    intro i hi
    rw [Nat.add_assoc, Nat.add_assoc, hv _ (by omega)]
  refine ⟨?_, t (by simp) h.jmp, t (by simp) h.cif, t (by simp) h.fn, t (by simp) h.ud⟩
  have := t (k := 0) (by simp) h.self
  simpa using this

theorem raw_run {m : Mem} {c dest cif fn ud eax sp : Nat} (h : RawImage m c dest c cif fn ud) (hc : c + 28 ≤ 2 ^ 32)
    (hd : dest < 2 ^ 32) : steps 2 ⟨c, eax, sp, m⟩ = some ⟨dest, c, sp, m⟩ := by
  rw [steps_succ (step_movEax (s := ⟨c, eax, sp, m⟩) h.self (by dsimp only; omega) (by omega))]
  dsimp only
  rw [w32_lt (by omega), steps_succ (step_jmpRel (s := ⟨c + 5, c, sp, m⟩) h.jmp (by dsimp only; omega)
    (Nat.mod_lt _ (by omega)))]
  show some (MState.mk _ _ _ _) = _
  rw [show c + 5 + 5 = c + 10 by omega, rel_dest (by omega) hd]

/-! ## The static trampolines -/

theorem load_at {m : Mem} {a v : Nat} (h : Code m a (leBytes 4 v)) (ha : a + 4 ≤ 2 ^ 32) (hv : v < 2 ^ 32) :
    load m a = some v := by
  unfold load
  unfold Code at h
  rw [leBytes_length] at h
  rw [if_pos ha, h, leNat4 v hv]

/-- The code of a slot after `endbr`. -/
def body (d c : Nat) : List Byte :=
  [0x83, 0xec, 0x08] ++ [0x89, 0x04, 0x24] ++ ([0xe8] ++ leBytes 4 23) ++ ([0x8b, 0x80] ++ leBytes 4 d) ++
  [0x89, 0x44, 0x24, 0x04] ++ ([0xe8] ++ leBytes 4 8) ++ ([0x8b, 0x80] ++ leBytes 4 c) ++ [0xff, 0xe0] ++
  [0x8b, 0x04, 0x24] ++ [0xc3]

/-- Memory after a slot has run: the saved %eax, the data word, and the return address of
the second `call` over that of the first. -/
def slotMem (m : Mem) (B eax sp data : Nat) : Mem :=
  (((m.wr (sp - 8) (leBytes 4 eax)).wr (sp - 12) (leBytes 4 (B + 11))).wr (sp - 4) (leBytes 4 data)).wr
    (sp - 12) (leBytes 4 (B + 26))

theorem slice_of {m : Mem} {B d c : Nat} (h : Code m B (body d c)) :
    Code m B [0x83, 0xec, 0x08] ∧ Code m (B + 3) [0x89, 0x04, 0x24] ∧ Code m (B + 6) ([0xe8] ++ leBytes 4 23) ∧
    Code m (B + 11) ([0x8b, 0x80] ++ leBytes 4 d) ∧ Code m (B + 17) [0x89, 0x44, 0x24, 0x04] ∧
    Code m (B + 21) ([0xe8] ++ leBytes 4 8) ∧ Code m (B + 26) ([0x8b, 0x80] ++ leBytes 4 c) ∧
    Code m (B + 32) [0xff, 0xe0] ∧ Code m (B + 34) [0x8b, 0x04, 0x24] ∧ Code m (B + 37) [0xc3] := by
  unfold body at h
  obtain ⟨h, h9⟩ := h.append
  obtain ⟨h, h8⟩ := h.append
  obtain ⟨h, h7⟩ := h.append
  obtain ⟨h, h6⟩ := h.append
  obtain ⟨h, h5⟩ := h.append
  obtain ⟨h, h4⟩ := h.append
  obtain ⟨h, h3⟩ := h.append
  obtain ⟨h, h2⟩ := h.append
  obtain ⟨h, h1⟩ := h.append
  exact ⟨h, h1, h2, h3, h4, h5, h6, h7, h8, h9⟩

theorem body_run {m : Mem} {B d c eax sp data target : Nat} (h : Code m B (body d c)) (hB : B + 38 ≤ 2 ^ 32)
    (hdata : Code m (B + 11 + d) (leBytes 4 data)) (htarget : Code m (B + 26 + c) (leBytes 4 target))
    (hd : B + 11 + d + 4 ≤ 2 ^ 32) (hc : B + 26 + c + 4 ≤ 2 ^ 32) (hv : data < 2 ^ 32) (ht : target < 2 ^ 32)
    (hs : 12 ≤ sp) (hs' : sp < 2 ^ 32) (x1 : sp ≤ B ∨ B + 38 ≤ sp - 12)
    (x2 : sp ≤ B + 11 + d ∨ B + 11 + d + 4 ≤ sp - 12) (x3 : sp ≤ B + 26 + c ∨ B + 26 + c + 4 ≤ sp - 12) :
    steps 12 ⟨B, eax, sp, m⟩ = some ⟨target, target, sp - 8, slotMem m B eax sp data⟩ := by
  obtain ⟨c0, -, -, -, -, -, -, -, -, -⟩ := slice_of h
  rw [steps_succ (step_subEsp (s := ⟨B, eax, sp, m⟩) c0 (by dsimp only; omega) (by decide))]
  dsimp only
  rw [show BitVec.toNat (8 : Byte) = 8 from rfl, w32_lt (by omega), w32_sub (by omega) hs']
  -- movl %eax,(%esp)
  have e1 : exec ⟨B + 3, eax, sp - 8, m⟩ 3 (.stEsp 0) = some ⟨B + 6, eax, sp - 8, m.wr (sp - 8) (leBytes 4 eax)⟩ := by
    simp only [exec, store, Nat.add_zero]
    rw [w32_lt (by omega), w32_lt (by omega), if_pos (by omega)]
    rfl
  obtain ⟨-, c1, -⟩ := slice_of h
  rw [steps_succ ((step_st0 (s := ⟨B + 3, eax, sp - 8, m⟩) c1 (by dsimp only; omega)).trans e1)]
  have h1 : Code (m.wr (sp - 8) (leBytes 4 eax)) B (body d c) := h.wr (by simp [body]; omega)
  have hdata1 : Code (m.wr (sp - 8) (leBytes 4 eax)) (B + 11 + d) (leBytes 4 data) := hdata.wr (by simp; omega)
  have htarget1 : Code (m.wr (sp - 8) (leBytes 4 eax)) (B + 26 + c) (leBytes 4 target) := htarget.wr (by simp; omega)
  unfold slotMem
  generalize m.wr (sp - 8) (leBytes 4 eax) = m1 at *
  -- call 1f; 1: movl (%esp),%eax; ret
  have e2 : exec ⟨B + 6, eax, sp - 8, m1⟩ 5 (.call 23) = some ⟨B + 34, eax, sp - 12, m1.wr (sp - 12) (leBytes 4 (B + 11))⟩ := by
    simp only [exec, store]
    rw [w32_sub (by omega) (by omega), show sp - 8 - 4 = sp - 12 by omega, if_pos (by omega), w32_lt (by omega), w32_lt (by omega)]
    rfl
  obtain ⟨-, -, c2, -⟩ := slice_of h1
  rw [steps_succ ((step_call (s := ⟨B + 6, eax, sp - 8, m1⟩) c2 (by dsimp only; omega) (by omega)).trans e2)]
  have h2 : Code (m1.wr (sp - 12) (leBytes 4 (B + 11))) B (body d c) := h1.wr (by simp [body]; omega)
  have hdata2 : Code (m1.wr (sp - 12) (leBytes 4 (B + 11))) (B + 11 + d) (leBytes 4 data) := hdata1.wr (by simp; omega)
  have htarget2 : Code (m1.wr (sp - 12) (leBytes 4 (B + 11))) (B + 26 + c) (leBytes 4 target) := htarget1.wr (by simp; omega)
  have l2 : load (m1.wr (sp - 12) (leBytes 4 (B + 11))) (sp - 12) = some (B + 11) :=
    load_at Code.same (by omega) (by omega)
  generalize m1.wr (sp - 12) (leBytes 4 (B + 11)) = m2 at *
  have e3 : exec ⟨B + 34, eax, sp - 12, m2⟩ 3 (.ldEsp 0) = some ⟨B + 37, B + 11, sp - 12, m2⟩ := by
    simp only [exec, Nat.add_zero]
    rw [w32_lt (by omega), w32_lt (by omega), l2]
    rfl
  obtain ⟨-, -, -, -, -, -, -, -, c3, c3'⟩ := slice_of h2
  rw [steps_succ ((step_ld0 (s := ⟨B + 34, eax, sp - 12, m2⟩) c3 (by dsimp only; omega)).trans e3)]
  have e4 : exec ⟨B + 37, B + 11, sp - 12, m2⟩ 1 .ret = some ⟨B + 11, B + 11, sp - 8, m2⟩ := by
    simp only [exec]
    rw [l2, w32_lt (by omega), show sp - 12 + 4 = sp - 8 by omega]
    rfl
  rw [steps_succ ((step_ret (s := ⟨B + 37, B + 11, sp - 12, m2⟩) c3' (by dsimp only; omega)).trans e4)]
  -- movl DATA(%eax),%eax
  have e5 : exec ⟨B + 11, B + 11, sp - 8, m2⟩ 6 (.ldEax d) = some ⟨B + 17, data, sp - 8, m2⟩ := by
    simp only [exec]
    rw [w32_lt (by omega), w32_lt (by omega), load_at hdata2 (by omega) hv]
    rfl
  obtain ⟨-, -, -, c5, -⟩ := slice_of h2
  rw [steps_succ ((step_ldEax (s := ⟨B + 11, B + 11, sp - 8, m2⟩) c5 (by dsimp only; omega) (by omega)).trans e5)]
  -- movl %eax,4(%esp)
  have e6 : exec ⟨B + 17, data, sp - 8, m2⟩ 4 (.stEsp 4) = some ⟨B + 21, data, sp - 8, m2.wr (sp - 4) (leBytes 4 data)⟩ := by
    simp only [exec, store]
    rw [w32_lt (by omega), w32_lt (by omega), show sp - 8 + 4 = sp - 4 by omega, if_pos (by omega)]
    rfl
  obtain ⟨-, -, -, -, c6, -⟩ := slice_of h2
  rw [steps_succ ((step_st (s := ⟨B + 17, data, sp - 8, m2⟩) c6 (by dsimp only; omega) (by decide)).trans e6)]
  have h3 : Code (m2.wr (sp - 4) (leBytes 4 data)) B (body d c) := h2.wr (by simp [body]; omega)
  have htarget3 : Code (m2.wr (sp - 4) (leBytes 4 data)) (B + 26 + c) (leBytes 4 target) := htarget2.wr (by simp; omega)
  generalize m2.wr (sp - 4) (leBytes 4 data) = m3 at *
  -- call 1f; 1: movl (%esp),%eax; ret
  have e7 : exec ⟨B + 21, data, sp - 8, m3⟩ 5 (.call 8) = some ⟨B + 34, data, sp - 12, m3.wr (sp - 12) (leBytes 4 (B + 26))⟩ := by
    simp only [exec, store]
    rw [w32_sub (by omega) (by omega), show sp - 8 - 4 = sp - 12 by omega, if_pos (by omega), w32_lt (by omega), w32_lt (by omega)]
    rfl
  obtain ⟨-, -, -, -, -, c7, -⟩ := slice_of h3
  rw [steps_succ ((step_call (s := ⟨B + 21, data, sp - 8, m3⟩) c7 (by dsimp only; omega) (by omega)).trans e7)]
  have h4 : Code (m3.wr (sp - 12) (leBytes 4 (B + 26))) B (body d c) := h3.wr (by simp [body]; omega)
  have htarget4 : Code (m3.wr (sp - 12) (leBytes 4 (B + 26))) (B + 26 + c) (leBytes 4 target) := htarget3.wr (by simp; omega)
  have l4 : load (m3.wr (sp - 12) (leBytes 4 (B + 26))) (sp - 12) = some (B + 26) :=
    load_at Code.same (by omega) (by omega)
  generalize m3.wr (sp - 12) (leBytes 4 (B + 26)) = m4 at *
  have e8 : exec ⟨B + 34, data, sp - 12, m4⟩ 3 (.ldEsp 0) = some ⟨B + 37, B + 26, sp - 12, m4⟩ := by
    simp only [exec, Nat.add_zero]
    rw [w32_lt (by omega), w32_lt (by omega), l4]
    rfl
  obtain ⟨-, -, -, -, -, -, c9, c10, c8, c8'⟩ := slice_of h4
  rw [steps_succ ((step_ld0 (s := ⟨B + 34, data, sp - 12, m4⟩) c8 (by dsimp only; omega)).trans e8)]
  have e9 : exec ⟨B + 37, B + 26, sp - 12, m4⟩ 1 .ret = some ⟨B + 26, B + 26, sp - 8, m4⟩ := by
    simp only [exec]
    rw [l4, w32_lt (by omega), show sp - 12 + 4 = sp - 8 by omega]
    rfl
  rw [steps_succ ((step_ret (s := ⟨B + 37, B + 26, sp - 12, m4⟩) c8' (by dsimp only; omega)).trans e9)]
  -- movl CODE(%eax),%eax; jmp *%eax
  have e10 : exec ⟨B + 26, B + 26, sp - 8, m4⟩ 6 (.ldEax c) = some ⟨B + 32, target, sp - 8, m4⟩ := by
    simp only [exec]
    rw [w32_lt (by omega), w32_lt (by omega), load_at htarget4 (by omega) ht]
    rfl
  rw [steps_succ ((step_ldEax (s := ⟨B + 26, B + 26, sp - 8, m4⟩) c9 (by dsimp only; omega) (by omega)).trans e10),
    steps_succ (step_jmpEax (s := ⟨B + 32, target, sp - 8, m4⟩) c10 (by dsimp only; omega))]
  rfl

/-- Length of `endbr`. -/
def off (endbr : Bool) : Nat := if endbr then 4 else 0

theorem slotCode_eq (endbr : Bool) : slotCode endbr =
    (if endbr then [0xf3, 0x0f, 0x1e, 0xfb] else []) ++ body (4085 - off endbr) (4074 - off endbr) := by
  cases endbr <;> rfl

theorem slot_run {endbr : Bool} {m : Mem} {A eax sp data target : Nat} (h : Code m A (slotCode endbr))
    (hp : Code m (A + 4096) (leBytes 4 data ++ leBytes 4 target)) (hA : A + 4104 ≤ 2 ^ 32) (hv : data < 2 ^ 32)
    (ht : target < 2 ^ 32) (hs : 12 ≤ sp) (hs' : sp < 2 ^ 32) (x1 : sp ≤ A ∨ A + 42 ≤ sp - 12)
    (x2 : sp ≤ A + 4096 ∨ A + 4104 ≤ sp - 12) :
    steps (if endbr then 13 else 12) ⟨A, eax, sp, m⟩ =
      some ⟨target, target, sp - 8, slotMem m (A + off endbr) eax sp data⟩ := by
  obtain ⟨hp1, hp2⟩ := hp.append
  rw [leBytes_length] at hp2
  rw [slotCode_eq] at h
  cases endbr with
  | false =>
    have h := h.append.2
    exact body_run (B := A) (d := 4085) (c := 4074) h (by omega) hp1 hp2 (by omega) (by omega) hv ht hs hs'
      (by omega) (by omega) (by omega)
  | true =>
    obtain ⟨ha, hb⟩ := h.append
    rw [if_pos rfl, steps_succ (step_endbr (s := ⟨A, eax, sp, m⟩) ha (by dsimp only; omega))]
    dsimp only
    rw [w32_lt (by omega)]
    exact body_run (B := A + 4) (d := 4081) (c := 4070) hb (by omega) hp1 hp2 (by omega) (by omega) hv ht hs hs'
      (by omega) (by omega) (by omega)

/-- The two entry points that load the closure. -/
theorem alt_run {endbr : Bool} {e : Dest} {m : Mem} {T dest eax x sp data : Nat} (he : e ≠ .register)
    (h : Code m T (altCode endbr e (w32 (dest + 2 ^ 32 - w32 (T + off endbr + 12))))) (hT : T + 20 ≤ 2 ^ 32)
    (hd : dest < 2 ^ 32) (hl : Code m (sp - 8) (leBytes 4 x ++ leBytes 4 data)) (hv : data < 2 ^ 32) (hs : 8 ≤ sp)
    (hs' : sp < 2 ^ 32) :
    steps (if endbr then 4 else 3) ⟨T, eax, sp - 8, m⟩ = some ⟨dest, data, sp, m⟩ := by
  have key : ∀ B, B = T + off endbr → Code m B ([0x8b, 0x44, 0x24, 0x04] ++ [0x83, 0xc4, 0x08] ++
      ([0xe9] ++ leBytes 4 (w32 (dest + 2 ^ 32 - w32 (T + off endbr + 12))))) →
      steps 3 ⟨B, eax, sp - 8, m⟩ = some ⟨dest, data, sp, m⟩ := by
    intro B hB hc
    have hB' : B ≤ T + 4 := by rw [hB]; unfold off; split <;> omega
    obtain ⟨hc, c2⟩ := hc.append
    obtain ⟨c0, c1⟩ := hc.append
    have hl2 := hl.append.2
    rw [leBytes_length, show sp - 8 + 4 = sp - 4 by omega] at hl2
    have e0 : exec ⟨B, eax, sp - 8, m⟩ 4 (.ldEsp 4) = some ⟨B + 4, data, sp - 8, m⟩ := by
      simp only [exec]
      rw [w32_lt (by omega), w32_lt (by omega), show sp - 8 + 4 = sp - 4 by omega, load_at hl2 (by omega) hv]
      rfl
    rw [steps_succ ((step_ld (s := ⟨B, eax, sp - 8, m⟩) c0 (by dsimp only; omega) (by decide)).trans e0),
      steps_succ (step_addEsp (s := ⟨B + 4, data, sp - 8, m⟩) c1 (by dsimp only; omega) (by decide))]
    dsimp only
    rw [show BitVec.toNat (8 : Byte) = 8 from rfl, w32_lt (by omega), w32_lt (by omega), show sp - 8 + 8 = sp by omega]
    rw [steps_succ (step_jmpRel (s := ⟨B + 4 + 3, data, sp, m⟩) c2 (by dsimp only; omega) (Nat.mod_lt _ (by omega)))]
    show some (MState.mk _ _ _ _) = _
    rw [show B + 4 + 3 + 5 = T + off endbr + 12 by omega, rel_dest (by omega) hd]
  have hb : altBody e = [0x8b, 0x44, 0x24, 0x04] ++ [0x83, 0xc4, 0x08] := by cases e <;> first | rfl | exact absurd rfl he
  unfold altCode at h
  rw [List.append_assoc, List.append_assoc, hb] at h
  obtain ⟨ha, hb⟩ := h.append
  cases endbr with
  | false => exact key T rfl hb
  | true =>
    rw [if_pos rfl, steps_succ (step_endbr (s := ⟨T, eax, sp - 8, m⟩) ha (by dsimp only; omega))]
    dsimp only
    rw [w32_lt (by omega)]
    exact key (T + 4) rfl hb

/-- `ffi_closure_REGISTER_alt`. -/
theorem alt_run_reg {endbr : Bool} {m : Mem} {T dest eax x sp : Nat}
    (h : Code m T (altCode endbr .register (w32 (dest + 2 ^ 32 - w32 (T + off endbr + 11))))) (hT : T + 20 ≤ 2 ^ 32)
    (hd : dest < 2 ^ 32) (hl : Code m (sp - 8) (leBytes 4 x)) (hv : x < 2 ^ 32) (hs : 8 ≤ sp) (hs' : sp < 2 ^ 32) :
    steps (if endbr then 4 else 3) ⟨T, eax, sp - 8, m⟩ = some ⟨dest, x, sp - 4, m⟩ := by
  have key : ∀ B, B = T + off endbr → Code m B ([0x8b, 0x04, 0x24] ++ [0x83, 0xc4, 0x04] ++
      ([0xe9] ++ leBytes 4 (w32 (dest + 2 ^ 32 - w32 (T + off endbr + 11))))) →
      steps 3 ⟨B, eax, sp - 8, m⟩ = some ⟨dest, x, sp - 4, m⟩ := by
    intro B hB hc
    have hB' : B ≤ T + 4 := by rw [hB]; unfold off; split <;> omega
    obtain ⟨hc, c2⟩ := hc.append
    obtain ⟨c0, c1⟩ := hc.append
    have e0 : exec ⟨B, eax, sp - 8, m⟩ 3 (.ldEsp 0) = some ⟨B + 3, x, sp - 8, m⟩ := by
      simp only [exec, Nat.add_zero]
      rw [w32_lt (by omega), w32_lt (by omega), load_at hl (by omega) hv]
      rfl
    rw [steps_succ ((step_ld0 (s := ⟨B, eax, sp - 8, m⟩) c0 (by dsimp only; omega)).trans e0),
      steps_succ (step_addEsp (s := ⟨B + 3, x, sp - 8, m⟩) c1 (by dsimp only; omega) (by decide))]
    dsimp only
    rw [show BitVec.toNat (4 : Byte) = 4 from rfl, w32_lt (by omega), w32_lt (by omega), show sp - 8 + 4 = sp - 4 by omega]
    rw [steps_succ (step_jmpRel (s := ⟨B + 3 + 3, x, sp - 4, m⟩) c2 (by dsimp only; omega) (Nat.mod_lt _ (by omega)))]
    show some (MState.mk _ _ _ _) = _
    rw [show B + 3 + 3 + 5 = T + off endbr + 11 by omega, rel_dest (by omega) hd]
  unfold altCode at h
  rw [List.append_assoc, List.append_assoc, show altBody .register = [0x8b, 0x04, 0x24] ++ [0x83, 0xc4, 0x04] from rfl] at h
  obtain ⟨ha, hb⟩ := h.append
  cases endbr with
  | false => exact key T rfl hb
  | true =>
    rw [if_pos rfl, steps_succ (step_endbr (s := ⟨T, eax, sp - 8, m⟩) ha (by dsimp only; omega))]
    dsimp only
    rw [w32_lt (by omega)]
    exact key (T + 4) rfl hb

end Verif.I386.Tr
