import Verif.X64.TrampModel

namespace Verif.X64
open Verif

theorem bytes_of_holds {m : Nat → Byte} {a : Nat} {bs : List Byte} (h : Holds m a bs) {o n : Nat}
    (hn : o + n ≤ bs.length) : MState.bytes m (a + o) n = (bs.drop o).take n := by
  unfold MState.bytes
  apply bytes_ext
  · simp; omega
  · intro i hi
    simp only [List.length_map, List.length_range] at hi
    have := h (o + i) (by omega)
    rw [← Nat.add_assoc] at this
    simp only [List.getD_eq_getElem?_getD, List.getElem?_map, List.getElem?_range hi, Option.map_some,
      Option.getD_some]
    rw [this]
    simp [List.getD_eq_getElem?_getD, hi]

theorem w64_of_lt {n : Nat} (h : n < 2 ^ 64) : w64 n = n := Nat.mod_eq_of_lt h

theorem bytes_w64 (m : Nat → Byte) (a n : Nat) : MState.bytes m (w64 a) n = MState.bytes m a n := by
  unfold MState.bytes
  apply List.map_congr_left
  intro i _
  simp [w64]

theorem load64_of_holds {m : Nat → Byte} {a : Nat} {bs : List Byte} (h : Holds m a bs) {o v : Nat}
    (hn : o + 8 ≤ bs.length) (hv : (bs.drop o).take 8 = leBytes 8 v) (hlt : v < 2 ^ 64) :
    load64 m (w64 (a + o)) = v := by
  unfold load64
  rw [bytes_w64, bytes_of_holds h hn, hv, leNat_leBytes, show 256 ^ 8 = 2 ^ 64 from rfl, Nat.mod_eq_of_lt hlt]

/-- Storing eight bytes leaves other addresses alone. -/
theorem store64_other {m : Nat → Byte} {a v x : Nat} (ha : a + 8 ≤ 2 ^ 64) (hx : x < 2 ^ 64)
    (h : x < a ∨ a + 8 ≤ x) : store64 m a v x = m x := by
  unfold store64
  have : w64 a = a := w64_of_lt (by omega)
  rw [this, if_neg]
  unfold w64
  rcases h with h | h
  · rw [Nat.mod_eq_of_lt (by omega)]; omega
  · rw [show x + 2 ^ 64 - a = (x - a) + 2 ^ 64 by omega, Nat.add_mod_right, Nat.mod_eq_of_lt (by omega)]; omega

theorem sub_mod_self (a i M : Nat) (h : i < M) : (a + i + M - a) % M = i := by
  rw [show a + i + M - a = i + M by omega, Nat.add_mod_right, Nat.mod_eq_of_lt h]

theorem store64_at {m : Nat → Byte} {a v i : Nat} (ha : a + 8 ≤ 2 ^ 64) (hi : i < 8) :
    store64 m a v (a + i) = (leBytes 8 v).getD i 0 := by
  have h1 : w64 a = a := w64_of_lt (by omega)
  have h2 : w64 (a + i + 2 ^ 64 - a) = i := sub_mod_self a i (2 ^ 64) (by omega)
  unfold store64
  rw [h1, h2, if_pos hi]

theorem load_store64 {m : Nat → Byte} {a v : Nat} (ha : a + 8 ≤ 2 ^ 64) (hv : v < 2 ^ 64) :
    load64 (store64 m a v) a = v := by
  have h : Holds (store64 m a v) a (leBytes 8 v) := by
    intro i hi
    rw [leBytes_length] at hi
    rw [← store64_at (m := m) ha hi, w64_of_lt (by omega)]
  have := load64_of_holds h (o := 0) (v := v) (by rw [leBytes_length])
    (by rw [List.drop_zero, List.take_of_length_le (by rw [leBytes_length])]) hv
  rwa [Nat.add_zero, w64_of_lt (by omega)] at this

theorem load_store64_other {m : Nat → Byte} {a b v : Nat} (ha : a + 8 ≤ 2 ^ 64) (hb : b + 8 ≤ 2 ^ 64)
    (h : b + 8 ≤ a ∨ a + 8 ≤ b) : load64 (store64 m a v) b = load64 m b := by
  unfold load64 MState.bytes
  congr 1
  apply List.map_congr_left
  intro i hi
  rw [List.mem_range] at hi
  rw [w64_of_lt (by omega)]
  exact store64_other ha (by omega) (by omega)

/-- Code bytes survive stores elsewhere. -/
theorem holds_store64 {m : Nat → Byte} {a c v : Nat} {bs : List Byte} (h : Holds m c bs)
    (ha : a + 8 ≤ 2 ^ 64) (hc : c + bs.length ≤ 2 ^ 64) (hd : c + bs.length ≤ a ∨ a + 8 ≤ c) :
    Holds (store64 m a v) c bs := by
  intro i hi
  rw [w64_of_lt (by omega), store64_other ha (by omega) (by omega), ← h i hi, w64_of_lt (by omega)]

/-! ### Single instructions -/

theorem step_endbr {s : MState} {b4 b5 b6}
    (h : MState.bytes s.mem s.rip 7 = [0xf3, 0x0f, 0x1e, 0xfa, b4, b5, b6]) :
    step s = some { s with rip := w64 (s.rip + 4) } := by
  simp [step, h]

theorem step_lea {s : MState} {b3 b4 b5 b6}
    (h : MState.bytes s.mem s.rip 7 = [0x4c, 0x8d, 0x15, b3, b4, b5, b6]) :
    step s = some { s with rip := w64 (s.rip + 7), r10 := w64 (s.rip + 7 + disp32 [b3, b4, b5, b6]) } := by
  simp [step, h]

theorem step_ldr {s : MState} {b3 b4 b5 b6}
    (h : MState.bytes s.mem s.rip 7 = [0x4c, 0x8b, 0x15, b3, b4, b5, b6]) :
    step s = some { s with rip := w64 (s.rip + 7),
                           r10 := load64 s.mem (w64 (s.rip + 7 + disp32 [b3, b4, b5, b6])) } := by
  simp [step, h]

theorem step_jmpm {s : MState} {b2 b3 b4 b5 b6}
    (h : MState.bytes s.mem s.rip 7 = [0xff, 0x25, b2, b3, b4, b5, b6]) :
    step s = some { s with rip := load64 s.mem (w64 (s.rip + 6 + disp32 [b2, b3, b4, b5])) } := by
  simp [step, h]

theorem step_sub {s : MState} {b4 b5 b6}
    (h : MState.bytes s.mem s.rip 7 = [0x48, 0x83, 0xec, 0x10, b4, b5, b6]) :
    step s = some { s with rip := w64 (s.rip + 4), rsp := w64 (s.rsp + 2 ^ 64 - 16) } := by
  simp [step, h]

theorem step_st0 {s : MState} {b4 b5 b6}
    (h : MState.bytes s.mem s.rip 7 = [0x4c, 0x89, 0x14, 0x24, b4, b5, b6]) :
    step s = some { s with rip := w64 (s.rip + 4), mem := store64 s.mem s.rsp s.r10 } := by
  simp [step, h]

theorem step_st8 {s : MState} {b5 b6}
    (h : MState.bytes s.mem s.rip 7 = [0x4c, 0x89, 0x54, 0x24, 0x08, b5, b6]) :
    step s = some { s with rip := w64 (s.rip + 5), mem := store64 s.mem (w64 (s.rsp + 8)) s.r10 } := by
  simp [step, h]

theorem step_jmpr {s : MState} {b3 b4 b5 b6}
    (h : MState.bytes s.mem s.rip 7 = [0x41, 0xff, 0xe2, b3, b4, b5, b6]) :
    step s = some { s with rip := s.r10 } := by
  simp [step, h]

/-! ### Runs -/

theorem fetch {m : Nat → Byte} {a o n : Nat} {bs l : List Byte} (h : Holds m a bs)
    (hn : o + n ≤ bs.length) (hl : (bs.drop o).take n = l) : MState.bytes m (w64 (a + o)) n = l := by
  rw [bytes_w64, bytes_of_holds h hn, hl]

/-- The last three bytes of a code sequence, followed by anything. -/
theorem fetch3 {m : Nat → Byte} {a o : Nat} {bs : List Byte} {x y z : Byte} (h : Holds m a bs)
    (hn : o + 3 ≤ bs.length) (hl : (bs.drop o).take 3 = [x, y, z]) :
    ∃ b3 b4 b5 b6, MState.bytes m (w64 (a + o)) 7 = [x, y, z, b3, b4, b5, b6] := by
  have h3 := fetch h hn hl
  rw [bytes_w64] at h3 ⊢
  have e3 : MState.bytes m (a + o) 3 = [m (w64 (a + o)), m (w64 (a + o + 1)), m (w64 (a + o + 2))] := rfl
  rw [e3] at h3
  have e7 : MState.bytes m (a + o) 7 = [m (w64 (a + o)), m (w64 (a + o + 1)), m (w64 (a + o + 2)),
    m (w64 (a + o + 3)), m (w64 (a + o + 4)), m (w64 (a + o + 5)), m (w64 (a + o + 6))] := rfl
  injection h3 with h0 h3
  injection h3 with h1 h3
  injection h3 with h2 _
  exact ⟨_, _, _, _, by rw [e7, h0, h1, h2]⟩

theorem w64_add (a b : Nat) : w64 (w64 a + b) = w64 (a + b) := by simp [w64]

theorem steps_succ {n : Nat} {s t : MState} (h : step s = some t) : steps (n + 1) s = steps n t := by
  simp [steps, h]

theorem dyn_run {m : Nat → Byte} {c dest cif fn ud r sp : Nat} (hc : c < 2 ^ 64) (hd : dest < 2 ^ 64)
    (h : Holds m c (closureImage dest cif fn ud)) :
    steps 3 ⟨c, r, sp, m⟩ = some ⟨dest, c, sp, m⟩ := by
  have hlen : (closureImage dest cif fn ud).length = 56 := by simp [closureImage, dynTramp]
  have e0 : MState.bytes m c 7 = [0xf3, 0x0f, 0x1e, 0xfa, 0x4c, 0x8d, 0x15] := by
    have := fetch h (o := 0) (n := 7) (by omega) rfl
    rwa [Nat.add_zero, w64_of_lt hc] at this
  have e4 : MState.bytes m (w64 (c + 4)) 7 = [0x4c, 0x8d, 0x15, 0xf5, 0xff, 0xff, 0xff] :=
    fetch h (o := 4) (n := 7) (by omega) rfl
  have e11 : MState.bytes m (w64 (c + 11)) 7 = [0xff, 0x25, 0x07, 0, 0, 0, 0x0f] :=
    fetch h (o := 11) (n := 7) (by omega) rfl
  rw [steps_succ (step_endbr (s := ⟨c, r, sp, m⟩) e0)]
  rw [steps_succ (step_lea (s := ⟨w64 (c + 4), r, sp, m⟩) e4)]
  have d1 : disp32 [0xf5, 0xff, 0xff, 0xff] = 2 ^ 64 - 11 := by decide
  have d2 : disp32 [0x07, 0, 0, 0] = 7 := by decide
  have r1 : w64 (w64 (c + 4) + 7) = w64 (c + 11) := by rw [w64_add]
  have r2 : w64 (w64 (c + 4) + 7 + disp32 [0xf5, 0xff, 0xff, 0xff]) = c := by
    rw [d1, Nat.add_assoc, w64_add, show c + 4 + (7 + (2 ^ 64 - 11)) = c + 2 ^ 64 by omega]
    unfold w64
    rw [Nat.add_mod_right, Nat.mod_eq_of_lt hc]
  have r3 : load64 m (w64 (w64 (c + 11) + 6 + disp32 [0x07, 0, 0, 0])) = dest := by
    rw [d2, Nat.add_assoc, w64_add, Nat.add_assoc]
    refine load64_of_holds h (o := 24) (by omega) ?_ hd
    have : (closureImage dest cif fn ud).drop 24 = leBytes 8 dest ++ (leBytes 8 cif ++ leBytes 8 fn ++ leBytes 8 ud) := by
      simp [closureImage, dynTramp]
    rw [this, List.take_left' (by simp)]
  simp only [r1, r2]
  rw [steps_succ (step_jmpm (s := ⟨w64 (c + 11), c, sp, m⟩) e11)]
  simp only [r3, steps]

theorem dyn_fields {m : Nat → Byte} {c dest cif fn ud : Nat} (h1 : cif < 2 ^ 64) (h2 : fn < 2 ^ 64)
    (h3 : ud < 2 ^ 64) (h : Holds m c (closureImage dest cif fn ud)) :
    load64 m (w64 (c + 32)) = cif ∧ load64 m (w64 (c + 40)) = fn ∧ load64 m (w64 (c + 48)) = ud := by
  have hlen : (closureImage dest cif fn ud).length = 56 := by simp [closureImage, dynTramp]
  refine ⟨load64_of_holds h (by omega) ?_ h1, load64_of_holds h (by omega) ?_ h2,
    load64_of_holds h (by omega) ?_ h3⟩
  · have : (closureImage dest cif fn ud).drop 32 = leBytes 8 cif ++ (leBytes 8 fn ++ leBytes 8 ud) := by
      simp [closureImage, dynTramp]
    rw [this, List.take_left' (by simp)]
  · have : (closureImage dest cif fn ud).drop 40 = leBytes 8 fn ++ leBytes 8 ud := by
      simp [closureImage, dynTramp, List.drop_append, leBytes_length]
    rw [this, List.take_left' (by simp)]
  · have : (closureImage dest cif fn ud).drop 48 = leBytes 8 ud :=
      List.drop_left' (by simp [dynTramp])
    rw [this, List.take_of_length_le (by simp)]

/-- The common part of both static layouts: from the `subq` on, at code offset `o`. -/
theorem static_tail {m : Nat → Byte} {A o r sp data target : Nat} {bs : List Byte}
    (hbs : bs.drop o = [0x48, 0x83, 0xec, 0x10] ++ [0x4c, 0x89, 0x14, 0x24] ++
      [0x4c, 0x8b, 0x15] ++ leBytes 4 (4081 - o) ++ [0x4c, 0x89, 0x54, 0x24, 0x08] ++
      [0x4c, 0x8b, 0x15] ++ leBytes 4 (4077 - o) ++ [0x41, 0xff, 0xe2])
    (hlen : bs.length = o + 30) (ho : o ≤ 4) (hd : data < 2 ^ 64) (ht : target < 2 ^ 64)
    (hA : A + 4112 ≤ 2 ^ 64) (hcode : Holds m A bs)
    (hparm : Holds m (A + 4096) (leBytes 8 data ++ leBytes 8 target))
    (hsp : 16 ≤ sp) (hsp' : sp < 2 ^ 64)
    (hd1 : sp ≤ A ∨ A + o + 30 ≤ sp - 16) (hd2 : sp ≤ A + 4096 ∨ A + 4096 + 16 ≤ sp - 16) :
    steps 6 ⟨w64 (A + o), r, sp, m⟩ =
      some ⟨target, target, sp - 16, store64 (store64 m (sp - 16) r) (sp - 8) data⟩ := by
  have hf : ∀ {m' : Nat → Byte}, Holds m' A bs → ∀ k, k + 7 ≤ 30 → ∀ l,
      ((bs.drop o).drop k).take 7 = l → MState.bytes m' (w64 (A + o + k)) 7 = l := by
    intro m' hm k hk l hl
    rw [Nat.add_assoc]
    exact fetch hm (by omega) (by rw [← hl, List.drop_drop])
  have hm1 : Holds (store64 m (sp - 16) r) A bs := holds_store64 hcode (by omega) (by omega) (by omega)
  have hm2 : Holds (store64 (store64 m (sp - 16) r) (sp - 8) data) A bs :=
    holds_store64 hm1 (by omega) (by omega) (by omega)
  have hp1 : Holds (store64 m (sp - 16) r) (A + 4096) (leBytes 8 data ++ leBytes 8 target) :=
    holds_store64 hparm (by omega) (by simp; omega) (by simp; omega)
  have hp2 : Holds (store64 (store64 m (sp - 16) r) (sp - 8) data) (A + 4096)
      (leBytes 8 data ++ leBytes 8 target) :=
    holds_store64 hp1 (by omega) (by simp; omega) (by simp; omega)
  have l1 : load64 (store64 m (sp - 16) r) (w64 (A + 4096)) = data :=
    load64_of_holds hp1 (o := 0) (by simp) (by rw [List.drop_zero, List.take_left' (by simp)]) hd
  have l2 : load64 (store64 (store64 m (sp - 16) r) (sp - 8) data) (w64 (A + 4104)) = target :=
    load64_of_holds hp2 (o := 8) (by simp)
      (by rw [List.drop_left' (by simp), List.take_of_length_le (by simp)]) ht
  have dd : ∀ v, v < 2 ^ 31 → disp32 (leBytes 4 v) = v := by
    intro v hv
    unfold disp32
    rw [leNat_leBytes, show 256 ^ 4 = 2 ^ 32 from rfl, Nat.mod_eq_of_lt (by omega)]
    exact if_pos hv
  have four : ∀ v, leBytes 4 v = [BitVec.ofNat 8 v, BitVec.ofNat 8 (v / 256), BitVec.ofNat 8 (v / 256 / 256),
    BitVec.ofNat 8 (v / 256 / 256 / 256)] := fun _ => rfl
  -- subq $16,%rsp
  have f0 := hf hcode 0 (by omega) _ (congrArg (fun l => (List.drop _ l).take 7) hbs)
  rw [Nat.add_zero] at f0
  rw [steps_succ (step_sub (s := ⟨w64 (A + o), r, sp, m⟩) f0)]
  have esp : w64 (sp + 2 ^ 64 - 16) = sp - 16 := by
    rw [show sp + 2 ^ 64 - 16 = (sp - 16) + 2 ^ 64 by omega]
    unfold w64
    rw [Nat.add_mod_right, Nat.mod_eq_of_lt (by omega)]
  simp only [w64_add, esp]
  -- movq %r10,(%rsp)
  have f4 := hf hcode 4 (by omega) _ (congrArg (fun l => (List.drop _ l).take 7) hbs)
  rw [steps_succ (step_st0 (s := ⟨w64 (A + o + 4), r, sp - 16, m⟩) f4)]
  simp only [w64_add]
  -- movq DATA(%rip),%r10
  have f8 := hf hm1 8 (by omega) _ (congrArg (fun l => (List.drop _ l).take 7) hbs)
  rw [steps_succ (step_ldr (s := ⟨w64 (A + o + 4 + 4), r, sp - 16, store64 m (sp - 16) r⟩) f8)]
  have a1 : w64 (w64 (A + o + 4 + 4) + 7 + disp32 (leBytes 4 (4081 - o))) = w64 (A + 4096) := by
    rw [dd _ (by omega), Nat.add_assoc, w64_add,
      show A + o + 4 + 4 + (7 + (4081 - o)) = A + 4096 by omega]
  rw [four] at a1
  simp only [w64_add, a1, l1]
  -- movq %r10,8(%rsp)
  have f15 := hf hm1 15 (by omega) _ (congrArg (fun l => (List.drop _ l).take 7) hbs)
  rw [steps_succ (step_st8 (s := ⟨w64 (A + o + 4 + 4 + 7), data, sp - 16, store64 m (sp - 16) r⟩) f15)]
  have e8 : w64 (sp - 16 + 8) = sp - 8 := by rw [w64_of_lt (by omega)]; omega
  simp only [w64_add, e8]
  -- movq CODE(%rip),%r10
  have f20 := hf hm2 20 (by omega) _ (congrArg (fun l => (List.drop _ l).take 7) hbs)
  rw [steps_succ (step_ldr (s := ⟨w64 (A + o + 4 + 4 + 7 + 5), data, sp - 16,
    store64 (store64 m (sp - 16) r) (sp - 8) data⟩) f20)]
  have a2 : w64 (w64 (A + o + 4 + 4 + 7 + 5) + 7 + disp32 (leBytes 4 (4077 - o))) = w64 (A + 4104) := by
    rw [dd _ (by omega), Nat.add_assoc, w64_add,
      show A + o + 4 + 4 + 7 + 5 + (7 + (4077 - o)) = A + 4104 by omega]
  rw [four] at a2
  simp only [w64_add, a2, l2]
  -- jmp *%r10
  obtain ⟨b3, b4, b5, b6, f27⟩ := fetch3 hm2 (o := o + 27) (x := 0x41) (y := 0xff) (z := 0xe2) (by omega)
    (by rw [← List.drop_drop, hbs]; rfl)
  rw [← Nat.add_assoc] at f27
  rw [steps_succ (step_jmpr (s := ⟨w64 (A + o + 4 + 4 + 7 + 5 + 7), target, sp - 16,
    store64 (store64 m (sp - 16) r) (sp - 8) data⟩) f27)]
  rfl

theorem static_run {endbr : Bool} {m : Nat → Byte} {A r sp data target : Nat}
    (hd : data < 2 ^ 64) (ht : target < 2 ^ 64)
    (hA : A + 4112 ≤ 2 ^ 64) (hcode : Holds m A (staticTramp endbr))
    (hparm : Holds m (A + 4096) (leBytes 8 data ++ leBytes 8 target))
    (hsp : 16 ≤ sp) (hsp' : sp < 2 ^ 64)
    (hd1 : sp ≤ A ∨ A + trampSize endbr ≤ sp - 16) (hd2 : sp ≤ A + 4096 ∨ A + 4096 + 16 ≤ sp - 16) :
    steps (if endbr then 7 else 6) ⟨A, r, sp, m⟩ =
      some ⟨target, target, sp - 16, store64 (store64 m (sp - 16) r) (sp - 8) data⟩ := by
  cases endbr with
  | false =>
    have := static_tail (o := 0) (A := A) (r := r) (sp := sp) (data := data) (target := target)
      (m := m) (bs := staticTramp false) rfl rfl (by omega) hd ht hA hcode hparm hsp hsp'
      (by simp [trampSize] at hd1; omega) hd2
    rw [Nat.add_zero, w64_of_lt (by omega)] at this
    exact this
  | true =>
    have e0 : MState.bytes m A 7 = [0xf3, 0x0f, 0x1e, 0xfa, 0x48, 0x83, 0xec] := by
      have := fetch hcode (o := 0) (n := 7) (by decide) rfl
      rwa [Nat.add_zero, w64_of_lt (by omega)] at this
    have := static_tail (o := 4) (A := A) (r := r) (sp := sp) (data := data) (target := target)
      (m := m) (bs := staticTramp true) rfl rfl (by omega) hd ht hA hcode hparm hsp hsp'
      (by simp [trampSize] at hd1; omega) hd2
    rw [if_pos rfl, steps_succ (step_endbr (s := ⟨A, r, sp, m⟩) e0)]
    exact this

end Verif.X64
