import Verif.Ppc.Entry
import Verif.Ppc.AsmCall

/-! Assembly and C together: calls. -/
namespace Verif.Ppc
open Verif Verif.Spec Verif.Spec.Ppc Verif.Ppc.Asm

/-- The machine as the calling convention sees it. -/
def mregs (s : M) : Regs := ⟨fun k => s.r (3 + k), fun k => s.f (1 + k), fun k => s.v (2 + k), s.mem, s.r 1⟩

/-- `u`: a function entered in state `t` has returned, as the calling convention demands: r1, r14 to r31, f14 to
f31, v20 to v31, and cr2 to cr4 are preserved. -/
structure Conforms (t u : M) : Prop where
  pc : u.pc = t.lr
  r : ∀ k, k = 1 ∨ 14 ≤ k ∧ k ≤ 31 → u.r k = t.r k
  f : ∀ k, 14 ≤ k → k ≤ 31 → u.f k = t.f k
  v : ∀ k, 20 ≤ k → k ≤ 31 → u.v k = t.v k
  cr : ∀ k, 8 ≤ k → k < 20 → u.cr k = t.cr k

/-- Same argument registers, as far as they are used. -/
structure RegsEq (fp vec : Bool) (N : Nat) (R R' : Regs) : Prop where
  gpr : ∀ k, k < 8 → k < N → R.gpr k = R'.gpr k
  fpr : fp = true → ∀ k, k < 13 → R.fpr k = R'.fpr k
  vec : vec = true → ∀ k, k < 12 → R.vec k = R'.vec k
  mem : ∀ o, 64 ≤ o → o < 8 * N → R.mem (R.sp + 32 + o) = R'.mem (R'.sp + 32 + o)

theorem img_congr {fp vec : Bool} {N : Nat} {R R' : Regs} (h : RegsEq fp vec N R R') {o n : Nat} (hn : o + n ≤ 8 * N) : R.img.rd o n = R'.img.rd o n := by
  apply Mem.rd_congr
  intro i hi
  unfold Regs.img
  by_cases h64 : o + i < 64
  · rw [if_pos h64, if_pos h64, h.gpr _ (by omega) (by omega)]
  · rw [if_neg h64, if_neg h64, h.mem _ (by omega) (by omega)]

theorem passedAt_congr {ld : LD} {t : FType} (ht : Ty ld t) {named fp vec : Bool} {N : Nat} {R R' : Regs} (h : RegsEq fp vec N R R') {p : Pos} {v : List Byte}
    (hN : (placeArg ld named t p).2.slot ≤ N)
    (hf : p.nf < (placeArg ld named t p).2.nf → fp = true) (hv : p.nv < (placeArg ld named t p).2.nv → vec = true)
    (hp : PassedAt R t v (placeArg ld named t p).1) : PassedAt R' t v (placeArg ld named t p).1 := by
  cases hh : homog ld t with
  | none =>
    rw [placeArg_none hh] at *
    dsimp only at hN hp ⊢
    have hz := ht.1.size_pos (tab_ok ld)
    by_cases hs : t.tc = .struct
    · rw [if_pos hs] at hp ⊢
      show _ = _
      rw [← img_congr h (by omega)]
      exact hp
    · rw [if_neg hs] at hp ⊢
      show _ = _
      rw [← img_congr h (by omega)]
      exact hp
  | some q =>
    obtain ⟨c, n⟩ := q
    rw [placeArg_homog hh] at *
    dsimp only at hN hf hv hp ⊢
    obtain ⟨a1, a2, a3, a4, a5⟩ := homog_size ht hh
    intro j hj
    have hp := hp j hj
    have hle : c.bytes * (j + 1) ≤ c.bytes * n := Nat.mul_le_mul_left _ hj
    rw [Nat.mul_succ] at hle
    split
    · rename_i hr
      rw [if_pos hr] at hp
      cases c
      · show R'.fpr _ = _
        rw [← h.fpr (hf (by simp only [nfOf]; omega)) _ hr.2]; exact hp
      · show R'.fpr _ = _
        rw [← h.fpr (hf (by simp only [nfOf]; omega)) _ hr.2]; exact hp
      · show R'.fpr _ = _
        rw [← h.fpr (hf (by simp only [nfOf]; omega)) _ hr.2]; exact hp
      · show R'.vec _ = _
        rw [← h.vec (hv (by simp only [nvOf]; omega)) _ hr.2]; exact hp
    · rename_i hr
      rw [if_neg hr] at hp
      rw [← img_congr h (by omega)]
      exact hp

theorem allPassed_congr {ld : LD} {fp vec : Bool} {N : Nat} {R R' : Regs} (h : RegsEq fp vec N R R') : ∀ {ts : List FType} {vs : List (List Byte)} {k : Nat} {p : Pos},
    (∀ t ∈ ts, Ty ld t) → (endFrom ld ts p).slot ≤ N → (p.nf < (endFrom ld ts p).nf → fp = true) → (p.nv < (endFrom ld ts p).nv → vec = true) →
    AllPassed R ts vs (placeFrom ld k ts p) → AllPassed R' ts vs (placeFrom ld k ts p)
  | [], [], _, _, _, _, _, _, _ => trivial
  | [], _ :: _, _, _, _, _, _, _, ha => ha.elim
  | _ :: _, [], _, _, _, _, _, _, ha => ha.elim
  | t :: ts, _ :: _, k, p, hty, hN, hf, hv, ha => by
    have hm1 := placeArg_mono ld (decide (0 < k)) t p
    have hq : (placeArg ld (decide (0 < k)) t p).2 = (placeArg ld true t p).2 := placeArg_pos _ _ _ _ _
    have hm2 := endFrom_mono ld ts (placeArg ld true t p).2
    rw [endFrom] at hN hf hv
    rw [← hq] at hN hf hv hm2
    exact ⟨passedAt_congr (hty t (by simp)) h (by omega) (fun h => hf (by omega)) (fun h => hv (by omega)) ha.1,
      allPassed_congr h (fun x hx => hty x (by simp [hx])) hN (fun h => hf (by omega)) (fun h => hv (by omega)) ha.2⟩

/-! ## Results -/

/-- What `rvalue` shows (libffi.texi, "The Basics"): integers are widened to `ffi_arg`. -/
def Result (ld : LD) (t : FType) (v : List Byte) (m : Mem) (a : Nat) : Prop :=
  match retPlace ld t with
  | .int => (leNat (m.rd a 8) : Int) = intVal t.tc v % 2 ^ 64
  | .parts _ _ | .small => m.rd a t.size = v
  | _ => True

/-- Bytes at `rvalue` that are written after the call. -/
def resSize (ld : LD) (t : FType) : Nat :=
  match retPlace ld t with
  | .int => 8
  | .parts _ _ | .small => t.size
  | _ => 0

/-- Bytes that `ffi_call_LINUX64` writes. -/
def rawSize (ld : LD) (t : FType) : Nat := if t.tc = .struct then (if retPlace ld t = .mem then 0 else 128) else resSize ld t

theorem rd_parts {m : Mem} {a b : Nat} {v : List Byte} : ∀ {n : Nat}, (∀ j, j < n → m.rd (a + b * j) b = (v.drop (b * j)).take b) → b * n ≤ v.length → m.rd a (b * n) = v.take (b * n)
  | 0, _, _ => by simp [Mem.rd]
  | n + 1, h, hl => by
    rw [Nat.mul_succ] at hl
    rw [Nat.mul_succ, Mem.rd_append, rd_parts (fun j hj => h j (by omega)) (by omega), h n (by omega), List.take_add]

theorem leBytes_leNat' {n : Nat} {v : List Byte} (h : v.length = n) : leBytes n (leNat v) = v := by
  rw [← h, leBytes_leNat]

theorem part_length {c : Cls} {v : List Byte} {j n : Nat} (hj : j < n) (hv : v.length = c.bytes * n) : (part c v j).length = c.bytes := by
  have : c.bytes * (j + 1) ≤ c.bytes * n := Nat.mul_le_mul_left _ hj
  rw [Nat.mul_succ] at this
  unfold part
  rw [List.length_take, List.length_drop]
  omega

/-- A part of the result as it is stored. -/
def outBytes (c : Cls) (u : M) (k : Nat) : List Byte :=
  match c with
  | .f32 => leBytes 4 (sglOf (u.f (1 + k)))
  | .f64 | .ibm => leBytes 8 (u.f (1 + k))
  | .v128 => leBytes 16 (u.v (2 + k))

theorem outBytes_length (c : Cls) (u : M) (k : Nat) : (outBytes c u k).length = c.bytes := by
  cases c <;> exact leBytes_length _ _

theorem retPlace_parts {ld : LD} {t : FType} {c : Cls} {n : Nat} (hp : retPlace ld t = .parts c n) : homog ld t = some (c, n) := by
  unfold retPlace at hp
  split at hp
  · cases hp
  · split at hp
    · rename_i h; cases hp; exact h
    · split at hp
      · split at hp <;> cases hp
      · cases hp

theorem retPlace_ty {ld : LD} {t : FType} (h : Ty ld t ∨ t.tc = .void) (hp : retPlace ld t ≠ .void) : Ty ld t :=
  h.resolve_right fun h => hp (by unfold retPlace; rw [if_pos h])

theorem stored_eq {ld : LD} {rt : FType} (hrt : Ty ld rt ∨ rt.tc = .void) (n : Cnt) (rv : Nat) (u : M) :
    stored (prepFlags ld rt n) rv u = match retPlace ld rt with
      | .void | .mem => u.mem
      | .int => u.mem.wr rv (leBytes 8 (u.r 3))
      | .small => stores u.mem rv 8 (fun k => leBytes 8 (u.r (3 + k))) 2
      | .parts c n => stores u.mem rv c.bytes (outBytes c u) (if rt.tc = .struct then 8 else n) := by
  unfold stored
  rw [prepFlags_low hrt n 0 (by decide), prepFlags_low hrt n 1 (by decide), prepFlags_low hrt n 2 (by decide), prepFlags_low hrt n 3 (by decide),
    prepFlags_low hrt n 4 (by decide), prepFlags_low hrt n 5 (by decide)]
  have hc := retFlags_cases hrt
  have b27 : (2 ^ 27 + 2 : Nat).testBit 0 = false ∧ (2 ^ 27 + 2 : Nat).testBit 1 = true := by decide
  cases hp : retPlace ld rt with
  | void => rw [hp] at hc; rw [hc]; rfl
  | mem => rw [hp] at hc; rw [hc.1, b27.1, b27.2]; rfl
  | int =>
    rw [hp] at hc
    rcases hc.1 with h | h <;> rw [h] <;> rfl
  | small => rw [hp] at hc; rw [hc.1]; rfl
  | parts c n =>
    rw [hp] at hc
    dsimp only at hc ⊢
    by_cases hs : rt.tc = .struct
    · rw [if_pos hs] at hc ⊢
      rw [hc]
      cases c <;> rfl
    · rw [if_neg hs] at hc ⊢
      have hty := retPlace_ty hrt (by rw [hp]; simp)
      have hn : n = c.regs := by
        have h1 := (ty_scalar_or hty).resolve_left hs
        rw [retPlace_parts hp] at h1
        have h2 := h1.2
        cases hk : cls ld rt.tc with
        | none => rw [hk] at h2; cases h2
        | some d => rw [hk] at h2; cases h2; rfl
      subst hn
      rw [hc]
      cases c <;> rfl

/-- Only the result is written. -/
theorem stored_out {ld : LD} {rt : FType} (hrt : Ty ld rt ∨ rt.tc = .void) {n : Cnt} {rv : Nat} {u : M} {x : Nat} (hx : x < rv ∨ rv + rawSize ld rt ≤ x) :
    stored (prepFlags ld rt n) rv u x = u.mem x := by
  rw [stored_eq hrt]
  have hc := retFlags_cases hrt
  unfold rawSize resSize at hx
  have l8 : ∀ k, (leBytes 8 k).length = 8 := fun k => leBytes_length _ _
  cases hp : retPlace ld rt with
  | void => rfl
  | mem => rfl
  | int =>
    rw [hp] at hc hx
    rw [if_neg hc.2] at hx
    exact Mem.wr_out _ _ _ _ (by rw [l8]; omega)
  | small =>
    rw [hp] at hc hx
    rw [if_pos hc.2.1, if_neg (by simp)] at hx
    exact stores_out (fun _ => l8 _) (by omega)
  | parts c n =>
    rw [hp] at hc hx
    dsimp only at hc hx ⊢
    refine stores_out (outBytes_length c u) ?_
    have hty := retPlace_ty hrt (by rw [hp]; simp)
    obtain ⟨a1, a2, a3, a4, a5⟩ := homog_size hty (retPlace_parts hp)
    by_cases hs : rt.tc = .struct
    · rw [if_pos hs] at hx ⊢
      rw [if_neg (by simp)] at hx
      have : c.bytes ≤ 16 := by cases c <;> decide
      omega
    · rw [if_neg hs] at hx ⊢
      omega

/-- The result is there. -/
theorem stored_result {ld : LD} {rt : FType} (hrt : Ty ld rt ∨ rt.tc = .void) {n : Cnt} {rv : Nat} {u : M} {v : List Byte}
    (hv : Returned ld rt v (mregs u)) : Result ld rt v (stored (prepFlags ld rt n) rv u) rv := by
  rw [stored_eq hrt]
  obtain ⟨hl, hv⟩ := hv
  have hc := retFlags_cases hrt
  unfold Result
  cases hp : retPlace ld rt with
  | void => trivial
  | mem => trivial
  | int =>
    rw [hp] at hv
    dsimp only at hv ⊢
    have hu : u.r 3 < 2 ^ 64 := by
      have hv : (u.r 3 : Int) = intVal rt.tc v % 2 ^ 64 := hv
      have := Int.emod_lt_of_pos (intVal rt.tc v) (show (0 : Int) < 2 ^ 64 by decide)
      omega
    rw [wr_rd _ _ (leBytes_length _ _), leNat_leBytes, Nat.mod_eq_of_lt (by simpa using hu)]
    exact hv
  | small =>
    rw [hp] at hv hc
    dsimp only at hv hc ⊢
    have l8 : ∀ k, (leBytes 8 (u.r (3 + k))).length = 8 := fun k => leBytes_length _ _
    have h0 := stores_rd (m := u.mem) (a := rv) l8 (k := 0) (n := 2) (by decide)
    have h1 := stores_rd (m := u.mem) (a := rv) l8 (k := 1) (n := 2) (by decide)
    have h16 : (stores u.mem rv 8 (fun k => leBytes 8 (u.r (3 + k))) 2).rd rv 16 = leBytes 8 (u.r 3) ++ leBytes 8 (u.r 4) := by
      rw [show 16 = 8 + 8 from rfl, Mem.rd_append]
      rw [Nat.mul_zero, Nat.add_zero] at h0
      rw [h0]
      rw [show rv + 8 = rv + 8 * 1 from rfl, h1]
    rw [← Mem.rd_take _ _ hc.2.2, h16]
    exact hv
  | parts c n =>
    rw [hp] at hv
    dsimp only at hv ⊢
    have hty := retPlace_ty hrt (by rw [hp]; simp)
    obtain ⟨a1, a2, a3, a4, a5⟩ := homog_size hty (retPlace_parts hp)
    rw [a2] at hl ⊢
    have := rd_parts (m := stores u.mem rv c.bytes (outBytes c u) (if rt.tc = .struct then 8 else n)) (a := rv) (b := c.bytes) (v := v) (n := n) (fun j hj => by
      rw [stores_rd (outBytes_length c u) (by split <;> omega)]
      have h1 := hv j hj
      have h2 := part_length hj hl
      show outBytes c u j = part c v j
      cases c
      · show leBytes 4 (sglOf (u.f (1 + j))) = _
        have h1 : u.f (1 + j) = dblOf (leNat (part .f32 v j)) := h1
        rw [h1, sglOf_dblOf (by have := leNat_lt (part .f32 v j); rw [h2] at this; exact this)]; exact leBytes_leNat' h2
      · show leBytes 8 (u.f (1 + j)) = _
        rw [show u.f (1 + j) = leNat (part .f64 v j) from h1]; exact leBytes_leNat' h2
      · show leBytes 8 (u.f (1 + j)) = _
        rw [show u.f (1 + j) = leNat (part .ibm v j) from h1]; exact leBytes_leNat' h2
      · show leBytes 16 (u.v (2 + j)) = _
        rw [show u.v (2 + j) = leNat (part .v128 v j) from h1]; exact leBytes_leNat' h2) (by omega)
    rw [this, ← hl, List.take_length]

/-! ## The call -/

/-- `ffi_prep_args64` was called in state `t` and has returned; it has its own frame below, and may use the words
for the condition register and the link register. -/
structure Prepared (ld : LD) (cif : Cif) (ats : List FType) (rvalue : Nat) (avalue : List Nat) (t u : M) : Prop where
  conf : Conforms t u
  mem : ∀ x, t.r 1 ≤ x → x < t.r 1 + 8 ∨ t.r 1 + 24 ≤ x → u.mem x = prepArgs ld cif ats rvalue avalue (t.r 1) t.mem x

theorem wr_self (m : Mem) (a n : Nat) : m.wr a (m.rd a n) = m := by
  funext x
  by_cases hx : a ≤ x ∧ x < a + n
  · obtain ⟨i, rfl⟩ : ∃ i, x = a + i := ⟨x - a, by omega⟩
    rw [Mem.wr_in _ _ _ _ (by rw [Mem.rd_length]; omega), Mem.rd_getD _ _ _ _ (by omega)]
  · exact Mem.wr_out _ _ _ _ (by rw [Mem.rd_length]; omega)

/-- FLAG_RETURNS_SMST in `cif->flags`. -/
theorem flags_smst {ld : LD} {rt : FType} (h : Ty ld rt ∨ rt.tc = .void) (n : Cnt) :
    prepFlags ld rt n &&& flagSmst ≠ 0 ↔ rt.tc = .struct ∧ retPlace ld rt ≠ .mem := by
  rw [← (smst_iff h).1, show flagSmst = 2 ^ 0 from rfl, and_pow, and_pow, prepFlags_low h n 0 (by decide)]

/-- `ecif.rvalue`. -/
theorem callRv_eq {ld : LD} {rt : FType} (h : Ty ld rt ∨ rt.tc = .void) (n : Cnt) (B k rvalue buf tmp : Nat) :
    callRv ⟨prepFlags ld rt n, B, k⟩ rt rvalue buf tmp =
      if rt.tc = .struct then (if retPlace ld rt = .mem then (if rvalue = 0 then tmp else rvalue) else buf) else rvalue := by
  unfold callRv
  dsimp only
  have hs := flags_smst h n
  by_cases h1 : rt.tc = .struct
  · rw [if_pos h1]
    by_cases h2 : retPlace ld rt = .mem
    · rw [if_pos h2, if_neg (fun hc => (hs.1 hc).2 h2)]
      simp [h1]
    · rw [if_neg h2, if_pos (hs.2 ⟨h1, h2⟩)]
  · rw [if_neg h1, if_neg (fun hc => h1 (hs.1 hc).1), if_neg (fun hc => h1 hc.2)]

/-- Bits of the flags that go together. -/
theorem flags_bits {ld : LD} {rt : FType} (h : Ty ld rt ∨ rt.tc = .void) (n : Cnt) :
    ((prepFlags ld rt n).testBit 0 = true → (prepFlags ld rt n).testBit 1 = false) ∧
    ((prepFlags ld rt n).testBit 3 = true → ∃ k, retPlace ld rt = .parts .v128 k) := by
  rw [prepFlags_low h n 0 (by decide), prepFlags_low h n 1 (by decide), prepFlags_low h n 3 (by decide)]
  have hc := retFlags_cases h
  have b27 : (2 ^ 27 + 2 : Nat).testBit 0 = false ∧ (2 ^ 27 + 2 : Nat).testBit 3 = false := by decide
  cases hp : retPlace ld rt with
  | void => rw [hp] at hc; rw [hc]; exact ⟨by decide, fun h => absurd h (by decide)⟩
  | mem => rw [hp] at hc; rw [hc.1, b27.1, b27.2]; exact ⟨by decide, fun h => by cases h⟩
  | int => rw [hp] at hc; rcases hc.1 with h | h <;> rw [h] <;> exact ⟨by decide, fun h => absurd h (by decide)⟩
  | small => rw [hp] at hc; rw [hc.1]; exact ⟨by decide, fun h => absurd h (by decide)⟩
  | parts c k =>
    rw [hp] at hc
    dsimp only at hc
    by_cases hs : rt.tc = .struct
    · rw [if_pos hs] at hc
      rw [hc]
      cases c <;> first | exact ⟨by decide, fun _ => ⟨_, rfl⟩⟩ | exact ⟨by decide, fun h => absurd h (by decide)⟩
    · rw [if_neg hs] at hc
      rw [hc]
      cases c <;> first | exact ⟨by decide, fun _ => ⟨_, rfl⟩⟩ | exact ⟨by decide, fun h => absurd h (by decide)⟩

/-- Structs that are not returned in memory. -/
theorem small_size {ld : LD} {rt : FType} (h : Ty ld rt ∨ rt.tc = .void) (hs : rt.tc = .struct) (hm : retPlace ld rt ≠ .mem) :
    rt.size ≤ 128 ∧ resSize ld rt = rt.size := by
  have hc := retFlags_cases h
  unfold resSize
  cases hp : retPlace ld rt with
  | void => unfold retPlace at hp; rw [hs] at hp; simp only [reduceCtorEq, if_false, if_true] at hp; split at hp <;> first | cases hp | (split at hp <;> cases hp)
  | mem => exact absurd hp hm
  | int => rw [hp] at hc; exact absurd hs hc.2
  | small => rw [hp] at hc; exact ⟨by have := hc.2.2; omega, rfl⟩
  | parts c k =>
    obtain ⟨a1, a2, a3, a4, a5⟩ := homog_size (retPlace_ty h (by rw [hp]; simp)) (retPlace_parts hp)
    refine ⟨?_, rfl⟩
    rw [a2]
    have : c.bytes ≤ 16 := by cases c <;> decide
    calc c.bytes * k ≤ 16 * 8 := Nat.mul_le_mul this a4
      _ = 128 := rfl

end Verif.Ppc
