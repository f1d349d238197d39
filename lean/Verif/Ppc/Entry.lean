import Verif.Ppc.Loop

/-! `ffi_prep_args64` as a whole. -/
namespace Verif.Ppc
open Verif Verif.Spec Verif.Spec.Ppc

/-- What later arguments do not touch stays. -/
theorem passed_keep {F : Fr} {ps fp vec : Bool} {N : Nat} (g : Geo F ps fp vec N) {ld : LD} {t : FType} (ht : Ty ld t) {named : Bool} {p : Pos} {m m' : Mem} {v : List Byte}
    (hN : (placeArg ld named t p).2.slot ≤ N)
    (hf : p.nf < (placeArg ld named t p).2.nf → fp = true) (hv : p.nv < (placeArg ld named t p).2.nv → vec = true)
    (hreg : ps = false → named = true ∧ AllRegs t (placeArg ld named t p).1)
    (hk : ∀ x, ¬ Later F ps fp vec N (8 * (placeArg ld named t p).2.slot) (placeArg ld named t p).2.nf (placeArg ld named t p).2.nv x → m' x = m x)
    (h : PassedAt (regsOf F m) t v (placeArg ld named t p).1) : PassedAt (regsOf F m') t v (placeArg ld named t p).1 := by
  have himg : ∀ o n, o + n ≤ 8 * (placeArg ld named t p).2.slot → o + n ≤ 64 ∨ ps = true → (regsOf F m').img.rd o n = (regsOf F m).img.rd o n := by
    intro o n h1 h2
    apply Mem.rd_congr
    intro i hi
    rw [img_at, img_at]
    exact hk _ (at_early g (by omega) (h2.imp (fun h => by omega) (fun h => ⟨h, by omega⟩)))
  cases hh : homog ld t with
  | none =>
    rw [placeArg_none hh] at *
    dsimp only at hN hreg himg h ⊢
    have hz := ht.1.size_pos (tab_ok ld)
    by_cases hs : t.tc = .struct
    · rw [if_pos hs] at hreg h ⊢
      show _ = _
      rw [himg _ _ (by omega) (by
        cases hp : ps with
        | true => exact .inr rfl
        | false =>
          have h8 : first ld t p.slot + (t.size + 7) / 8 ≤ 8 := (hreg hp).2
          exact .inl (by omega))]
      exact h
    · rw [if_neg hs] at hreg h ⊢
      show _ = _
      rw [himg _ _ (by omega) (by
        cases hp : ps with
        | true => exact .inr rfl
        | false =>
          have h8 : first ld t p.slot + 1 ≤ 8 := (hreg hp).2
          exact .inl (by omega))]
      exact h
  | some q =>
    obtain ⟨c, n⟩ := q
    rw [placeArg_homog hh] at *
    dsimp only at hN hf hv hreg hk h ⊢
    obtain ⟨a1, a2, a3, a4, a5⟩ := homog_size ht hh
    have hhas : Has fp vec c := by
      cases c
      · exact hf (by simp only [nfOf]; omega)
      · exact hf (by simp only [nfOf]; omega)
      · exact hf (by simp only [nfOf]; omega)
      · exact hv (by simp only [nvOf]; omega)
    intro j hj
    have hle : c.bytes * (j + 1) ≤ c.bytes * n := Nat.mul_le_mul_left _ hj
    rw [Nat.mul_succ] at hle
    refine got_keep g hhas (h j hj) hk (by omega) (by cases c <;> simp only [rOf, nfOf, nvOf] <;> omega) ?_
    intro hcon
    cases hp : ps with
    | true => exact .inr ⟨rfl, by omega⟩
    | false =>
      obtain ⟨b1, b2⟩ := hreg hp
      have b2 : rOf c p.nf p.nv + n ≤ c.count := b2
      exact absurd ⟨b1, by omega⟩ hcon

/-- The arguments are given: `a` points to a value outside of the frame. -/
def Given (P : Nat → Prop) : List FType → List Nat → Prop
  | t :: ts, a :: as => (∀ i, i < t.size → ¬ P (a + i)) ∧ Given P ts as
  | [], [] => True
  | _, _ => False

def vals (m : Mem) : List FType → List Nat → List (List Byte)
  | t :: ts, a :: as => m.rd a t.size :: vals m ts as
  | _, _ => []

theorem vals_congr {m m' : Mem} {P : Nat → Prop} (h : ∀ x, ¬ P x → m' x = m x) : ∀ {ts : List FType} {as : List Nat}, Given P ts as → vals m' ts as = vals m ts as
  | [], [], _ => rfl
  | t :: ts, a :: as, hg => by
    rw [vals, vals, vals_congr h hg.2, Mem.rd_congr (fun i hi => h _ (hg.1 i hi))]

theorem placeArg_mono (ld : LD) (named : Bool) (t : FType) (p : Pos) :
    p.slot ≤ (placeArg ld named t p).2.slot ∧ p.nf ≤ (placeArg ld named t p).2.nf ∧ p.nv ≤ (placeArg ld named t p).2.nv := by
  have hf := first_ge ld t p.slot
  cases hh : homog ld t with
  | none => rw [placeArg_none hh]; dsimp only; omega
  | some q =>
    obtain ⟨c, n⟩ := q
    rw [placeArg_homog hh]
    dsimp only
    cases c <;> simp only [nfOf, nvOf] <;> omega

theorem endFrom_mono (ld : LD) (ts : List FType) : ∀ p : Pos, p.slot ≤ (endFrom ld ts p).slot ∧ p.nf ≤ (endFrom ld ts p).nf ∧ p.nv ≤ (endFrom ld ts p).nv := by
  induction ts with
  | nil => intro p; exact ⟨Nat.le_refl _, Nat.le_refl _, Nat.le_refl _⟩
  | cons t ts ih =>
    intro p
    have h1 := placeArg_mono ld true t p
    have h2 := ih (placeArg ld true t p).2
    rw [endFrom]
    omega

theorem callLoop_ok {F : Fr} {ps fp vec : Bool} {N : Nat} (g : Geo F ps fp vec N) {ld : LD} : ∀ (ts : List FType) (as : List Nat) (k : Nat) (s : St) (p : Pos) (m : Mem) (n : Cnt),
    (∀ t ∈ ts, Ty ld t) → Given (Area F) ts as → Mid F ps (decide (0 < k)) s (8 * p.slot) p.nf p.nv → (endFrom ld ts p).slot ≤ N →
    (p.nf < (endFrom ld ts p).nf → fp = true) → (p.nv < (endFrom ld ts p).nv → vec = true) →
    (ps = false → ts.length ≤ k ∧ (prepLoop ld ts n).ps = false) → posOf n = p →
    AllPassed (regsOf F (callLoop F ld k ts as s m).2) ts (vals m ts as) (placeFrom ld k ts p) ∧
    ∀ x, ¬ Later F ps fp vec N (8 * p.slot) p.nf p.nv x → (callLoop F ld k ts as s m).2 x = m x
  | [], [], k, s, p, m, n, _, _, _, _, _, _, _, _ => ⟨trivial, fun _ _ => rfl⟩
  | t :: ts, a :: as, k, s, p, m, n, hty, hg, hm, hN, hf, hv, hps, hn => by
    have hm1 := placeArg_mono ld (decide (0 < k)) t p
    have hq : (placeArg ld (decide (0 < k)) t p).2 = (placeArg ld true t p).2 := placeArg_pos _ _ _ _ _
    have hm2 := endFrom_mono ld ts (placeArg ld true t p).2
    rw [endFrom] at hN hf hv
    rw [← hq] at hN hf hv hm2
    have ht := hty t (by simp)
    have hreg : ps = false → decide (0 < k) = true ∧ AllRegs t (placeArg ld (decide (0 < k)) t p).1 := by
      intro h
      obtain ⟨h1, h2⟩ := hps h
      rw [List.length_cons] at h1
      rw [prepLoop] at h2
      refine ⟨by simpa using (by omega : 0 < k), ?_⟩
      rw [← hn]
      exact prepArg_regs ht _ n (prepLoop_ps ts _ h2)
    obtain ⟨h1, h2, h3⟩ := callArg_ok (m := m) g ht hm (by omega) (fun h => hf (by omega)) (fun h => hv (by omega)) hreg hg.1
    have hnm : decide (0 < k - 1) = true → decide (0 < k) = true := by simp; omega
    obtain ⟨i1, i2⟩ := callLoop_ok g ts as (k - 1) _ _ (callArg F ld (decide (0 < k)) t a s m).2 (prepArg ld t n) (fun x hx => hty x (by simp [hx])) hg.2
      (h1.weaken hnm) hN (fun h => hf (by omega)) (fun h => hv (by omega))
      (fun h => by
        obtain ⟨h1, h2⟩ := hps h
        rw [List.length_cons] at h1
        exact ⟨by omega, h2⟩)
      (by rw [prepArg_pos ht (decide (0 < k)), hn])
    have hvals : vals (callArg F ld (decide (0 < k)) t a s m).2 ts as = vals m ts as :=
      vals_congr (P := Area F) (fun x hx => h3 x (fun hl => hx (hl.area g))) hg.2
    rw [hvals] at i1
    refine ⟨⟨?_, i1⟩, ?_⟩
    · exact passed_keep g ht (by omega) (fun h => hf (by omega)) (fun h => hv (by omega)) hreg i2 h2
    · intro x hx
      rw [callLoop]
      rw [i2 x (fun hl => hx (hl.mono (by omega) (by omega) (by omega))), h3 x hx]

/-! ## The frame -/

theorem testBit_bit (b : Bool) (k j : Nat) : (bit b (2 ^ k)).testBit j = (b && decide (k = j)) := by
  unfold bit
  cases b
  · simp
  · simp [Nat.testBit_two_pow]

theorem and_pow (x k : Nat) : x &&& 2 ^ k ≠ 0 ↔ x.testBit k = true := by
  constructor
  · intro h
    by_contra hc
    apply h
    apply Nat.eq_of_testBit_eq
    intro i
    rw [Nat.testBit_and, Nat.testBit_two_pow, Nat.zero_testBit]
    by_cases hi : k = i
    · subst hi; simpa using hc
    · simp [hi]
  · intro h hc
    have : (x &&& 2 ^ k).testBit k = true := by rw [Nat.testBit_and, h, Nat.testBit_two_pow]; simp
    rw [hc, Nat.zero_testBit] at this
    cases this

/-- Bits of the result; bit 27 is FLAG_RETVAL_REFERENCE. -/
theorem retFlags_cases {ld : LD} {t : FType} (h : Ty ld t ∨ t.tc = .void) :
    match retPlace ld t with
    | .void => retFlags ld t = 2
    | .int => (retFlags ld t = 0 ∨ retFlags ld t = 16) ∧ t.tc ≠ .struct
    | .parts c n => if t.tc = .struct then retFlags ld t = (match c with | .f32 => 5 | .f64 => 21 | .ibm => 53 | .v128 => 9)
        else retFlags ld t = (match c with | .f32 => 4 | .f64 => 20 | .ibm => 52 | .v128 => 8)
    | .small => retFlags ld t = 1 ∧ t.tc = .struct ∧ t.size ≤ 16
    | .mem => retFlags ld t = 2 ^ 27 + 2 ∧ t.tc = .struct := by
  unfold retFlags retPlace
  rcases h with h | h
  · rcases ty_scalar_or h with hs | ⟨ht, hh⟩
    · rw [hs, discover_eq h]
      simp only [reduceCtorEq, if_false, if_true]
      cases hh : homog ld t with
      | none =>
        dsimp only [Option.map_none]
        by_cases h16 : t.size ≤ 16
        · rw [if_pos h16, if_pos h16]; exact ⟨rfl, trivial, h16⟩
        · rw [if_neg h16, if_neg h16]; exact ⟨rfl, trivial⟩
      | some p =>
        obtain ⟨c, n⟩ := p
        have ho := homog_occurs hh
        dsimp only [Option.map_some]
        cases c
        · cases ld <;> rfl
        · cases ld <;> rfl
        · rw [ho.1 rfl]; rfl
        · rw [ho.2 rfl]; rfl
    · rw [hh]
      obtain ⟨s, a, tc, es⟩ := t
      simp only [FType.tc_mk, FType.size_mk, FType.align_mk] at ht
      cases tc <;> cases ld <;> simp [tab] at ht <;> obtain ⟨rfl, rfl⟩ := ht <;> simp [cls, FType.tc, numFlags, flagFp, flag64, flag128, flagVec]
  · rw [h]
    rfl

theorem retFlags_high {ld : LD} {t : FType} (h : Ty ld t ∨ t.tc = .void) (k : Nat) (h1 : 6 ≤ k) (h2 : k ≠ 27) : (retFlags ld t).testBit k = false := by
  have hlt : ∀ x : Nat, x < 64 → x.testBit k = false := by
    intro x hx
    exact Nat.testBit_lt_two_pow (Nat.lt_of_lt_of_le hx (by rw [show 64 = 2 ^ 6 from rfl]; exact Nat.pow_le_pow_right (by decide) h1))
  have := retFlags_cases h
  split at this
  · rw [this]; exact hlt _ (by decide)
  · rcases this.1 with h | h <;> rw [h] <;> exact hlt _ (by decide)
  · split at this <;> rw [this] <;> split <;> exact hlt _ (by decide)
  · rw [this.1]; exact hlt _ (by decide)
  · rw [this.1, show 2 ^ 27 + 2 = 2 ^ 27 ||| 2 from rfl, Nat.testBit_or, hlt 2 (by decide), Nat.testBit_two_pow]
    simp; omega

theorem prepFlags_bit {ld : LD} {rt : FType} (h : Ty ld rt ∨ rt.tc = .void) (n : Cnt) (k : Nat) :
    (prepFlags ld rt n).testBit k = ((retFlags ld rt).testBit k || (n.ps && decide (24 = k)) || ((n.fp != 0) && decide (25 = k)) || (decide (n.int > 4) && decide (26 = k)) ||
      ((n.vec != 0) && decide (28 = k))) := by
  unfold prepFlags flagPsave flagFpArgs flag4Gpr flagVecArgs
  rw [Nat.testBit_or, Nat.testBit_or, Nat.testBit_or, Nat.testBit_or, testBit_bit, testBit_bit, testBit_bit, testBit_bit]

theorem prepFlags_low {ld : LD} {rt : FType} (h : Ty ld rt ∨ rt.tc = .void) (n : Cnt) (k : Nat) (hk : k < 6) : (prepFlags ld rt n).testBit k = (retFlags ld rt).testBit k := by
  rw [prepFlags_bit h]
  simp [show 24 ≠ k by omega, show 25 ≠ k by omega, show 26 ≠ k by omega, show 28 ≠ k by omega]

theorem prepFlags_ps {ld : LD} {rt : FType} (h : Ty ld rt ∨ rt.tc = .void) (n : Cnt) : (prepFlags ld rt n).testBit 24 = n.ps := by
  rw [prepFlags_bit h, retFlags_high h _ (by decide) (by decide)]; simp
theorem prepFlags_fp {ld : LD} {rt : FType} (h : Ty ld rt ∨ rt.tc = .void) (n : Cnt) : (prepFlags ld rt n).testBit 25 = (n.fp != 0) := by
  rw [prepFlags_bit h, retFlags_high h _ (by decide) (by decide)]; simp
theorem prepFlags_gpr {ld : LD} {rt : FType} (h : Ty ld rt ∨ rt.tc = .void) (n : Cnt) : (prepFlags ld rt n).testBit 26 = decide (n.int > 4) := by
  rw [prepFlags_bit h, retFlags_high h _ (by decide) (by decide)]; simp
theorem prepFlags_vec {ld : LD} {rt : FType} (h : Ty ld rt ∨ rt.tc = .void) (n : Cnt) : (prepFlags ld rt n).testBit 28 = (n.vec != 0) := by
  rw [prepFlags_bit h, retFlags_high h _ (by decide) (by decide)]; simp
theorem prepFlags_ref {ld : LD} {rt : FType} (h : Ty ld rt ∨ rt.tc = .void) (n : Cnt) : (prepFlags ld rt n).testBit 27 = true ↔ retPlace ld rt = .mem := by
  rw [← (smst_iff h).2, flagRetRef, and_pow, prepFlags_bit h]
  simp

theorem prepBytes_mod (n : Cnt) : prepBytes n % 16 = 0 := by
  unfold prepBytes; dsimp only; omega

theorem frOf_geo {ld : LD} {rt : FType} (h : Ty ld rt ∨ rt.tc = .void) {n : Cnt} {S nfx : Nat} (hS : S % 16 = 0) :
    Geo (frOf ⟨prepFlags ld rt n, prepBytes n, nfx⟩ S) n.ps (n.fp != 0) (n.vec != 0) n.int ∧ 128 ≤ prepBytes n ∧ (n.ps = true → 128 + 8 * n.int ≤ prepBytes n) := by
  have hfp : (frOf ⟨prepFlags ld rt n, prepBytes n, nfx⟩ S).fp = (n.fp != 0) := by
    unfold frOf
    dsimp only
    rw [flagFpArgs]
    have := and_pow (prepFlags ld rt n) 25
    rw [prepFlags_fp h] at this
    rw [Bool.eq_iff_iff, decide_eq_true_iff]
    exact this
  have hB : (frOf ⟨prepFlags ld rt n, prepBytes n, nfx⟩ S).B = prepBytes n := rfl
  have hSS : (frOf ⟨prepFlags ld rt n, prepBytes n, nfx⟩ S).S = S := rfl
  have hmod := prepBytes_mod n
  have hall : 128 ≤ prepBytes n ∧ (n.ps = true → 128 + 8 * n.int ≤ prepBytes n) ∧ (n.fp ≠ 0 → 232 ≤ prepBytes n ∧ (n.ps = true → 232 + 8 * n.int ≤ prepBytes n)) ∧
      (n.vec ≠ 0 → 320 ≤ prepBytes n ∧ (n.ps = true → 320 + 8 * n.int ≤ prepBytes n)) ∧
      (n.vec ≠ 0 → n.fp ≠ 0 → 432 ≤ prepBytes n ∧ (n.ps = true → 432 + 8 * n.int ≤ prepBytes n)) := by
    unfold prepBytes asmRegs numGpr numFpr numVec
    dsimp only
    refine ⟨?_, ?_, ?_, ?_, ?_⟩
    · split <;> split <;> split <;> omega
    · intro hp
      rw [if_pos hp]
      split <;> split <;> omega
    · intro hf
      rw [if_pos hf]
      refine ⟨?_, ?_⟩
      · split <;> split <;> omega
      · intro hp
        rw [if_pos hp]
        split <;> omega
    · intro hf
      rw [if_pos hf]
      refine ⟨?_, ?_⟩
      · split <;> split <;> omega
      · intro hp
        rw [if_pos hp]
        split <;> omega
    · intro hv hf
      rw [if_pos hv, if_pos hf]
      refine ⟨?_, ?_⟩
      · split <;> omega
      · intro hp
        rw [if_pos hp]
        omega
  obtain ⟨b1, b2, b3, b4, b5⟩ := hall
  have hg : (frOf ⟨prepFlags ld rt n, prepBytes n, nfx⟩ S).gprBase = S + prepBytes n - 96 := by
    unfold Fr.gprBase Fr.top asmRegs numGpr; rw [hB, hSS]; omega
  have hf : (frOf ⟨prepFlags ld rt n, prepBytes n, nfx⟩ S).fprBase = S + prepBytes n - 200 := by
    unfold Fr.fprBase numFpr; rw [hg]; omega
  have hv1 : n.fp ≠ 0 → (frOf ⟨prepFlags ld rt n, prepBytes n, nfx⟩ S).vecBase = S + prepBytes n - 400 := by
    intro h0
    unfold Fr.vecBase numVec
    rw [hfp, hf, if_pos (by simpa using h0)]
    have := b3 h0
    omega
  have hv2 : n.fp = 0 → (frOf ⟨prepFlags ld rt n, prepBytes n, nfx⟩ S).vecBase = S + prepBytes n - 288 := by
    intro h0
    unfold Fr.vecBase numVec
    rw [hfp, hg, if_neg (by simpa using h0)]
    omega
  refine ⟨⟨?_, ?_, ?_, ?_, ?_, ?_, ?_, ?_, ?_⟩, b1, b2⟩
  · rw [hSS]; exact hS
  · rw [hg]; omega
  · rw [hg, hSS]; omega
  · intro hp; have := b2 hp; rw [hg, hSS]; omega
  · intro h0
    have h0 : n.fp ≠ 0 := by simpa using h0
    have := b3 h0
    rw [hf, hg, hSS]; omega
  · intro h0 hp
    have h0 : n.fp ≠ 0 := by simpa using h0
    have := (b3 h0).2 hp
    rw [hf, hSS]; omega
  · intro h0
    have h0 : n.vec ≠ 0 := by simpa using h0
    by_cases h1 : n.fp = 0
    · rw [hv2 h1, hg, hSS]; have := b4 h0; omega
    · rw [hv1 h1, hg, hSS]; have := b5 h0 h1; omega
  · intro h0 h1
    have h0 : n.vec ≠ 0 := by simpa using h0
    have h1 : n.fp ≠ 0 := by simpa using h1
    rw [hv1 h1, hf]; have := b5 h0 h1; omega
  · intro h0 hp
    have h0 : n.vec ≠ 0 := by simpa using h0
    by_cases h1 : n.fp = 0
    · rw [hv2 h1, hSS]; have := (b4 h0).2 hp; omega
    · rw [hv1 h1, hSS]; have := (b5 h0 h1).2 hp; omega

theorem frOf_base {ld : LD} {rt : FType} (h : Ty ld rt ∨ rt.tc = .void) {n : Cnt} {S nfx : Nat} (hS : S % 16 = 0) :
    (frOf ⟨prepFlags ld rt n, prepBytes n, nfx⟩ S).gprBase = S + prepBytes n - 96 ∧ (frOf ⟨prepFlags ld rt n, prepBytes n, nfx⟩ S).fprBase = S + prepBytes n - 200 ∧
    (frOf ⟨prepFlags ld rt n, prepBytes n, nfx⟩ S).vecBase = if n.fp != 0 then S + prepBytes n - 400 else S + prepBytes n - 288 := by
  have hfp : (frOf ⟨prepFlags ld rt n, prepBytes n, nfx⟩ S).fp = (n.fp != 0) := by
    unfold frOf
    dsimp only
    rw [flagFpArgs]
    have := and_pow (prepFlags ld rt n) 25
    rw [prepFlags_fp h] at this
    rw [Bool.eq_iff_iff, decide_eq_true_iff]
    exact this
  have hmod := prepBytes_mod n
  have hB : n.fp ≠ 0 → 232 ≤ prepBytes n := by
    intro hf
    unfold prepBytes asmRegs numGpr numFpr numVec
    dsimp only
    rw [if_pos hf]
    split <;> split <;> omega
  have hg : (frOf ⟨prepFlags ld rt n, prepBytes n, nfx⟩ S).gprBase = S + prepBytes n - 96 := by
    unfold Fr.gprBase Fr.top asmRegs numGpr frOf; dsimp only; omega
  have hf : (frOf ⟨prepFlags ld rt n, prepBytes n, nfx⟩ S).fprBase = S + prepBytes n - 200 := by
    unfold Fr.fprBase numFpr; rw [hg]; omega
  refine ⟨hg, hf, ?_⟩
  unfold Fr.vecBase numVec
  rw [hfp, hf, hg]
  split
  · rename_i h0
    have := hB (by simpa using h0)
    omega
  · omega

/-! ## `ffi_prep_args64` -/

/-- The named arguments. -/
def namedOf (var : Bool) (nfixed : Nat) (ats : List FType) : Nat := if var then nfixed else ats.length

theorem prepStart_pos {ld : LD} {rt : FType} (h : Ty ld rt ∨ rt.tc = .void) (var : Bool) : posOf (prepStart ld var rt) = start ld rt := by
  unfold prepStart posOf start
  by_cases hm : retPlace ld rt = .mem
  · rw [if_pos hm, if_pos ((smst_iff h).2.2 hm)]
  · rw [if_neg hm, if_neg (fun hc => hm ((smst_iff h).2.1 hc))]

theorem prepCnt_pos {ld : LD} {rt : FType} (h : Ty ld rt ∨ rt.tc = .void) {ats : List FType} (ht : ∀ t ∈ ats, Ty ld t) (var : Bool) :
    posOf (prepCnt ld var rt ats) = endFrom ld ats (start ld rt) := by
  unfold prepCnt
  rw [prepLoop_pos ht, prepStart_pos h]

theorem prepCif_eq {ld : LD} {var : Bool} {nfixed : Nat} {rt : FType} {ats : List FType} (hb : prepBytes (prepCnt ld var rt ats) < 2 ^ 32) :
    prepCif ld var nfixed rt ats = ⟨prepFlags ld rt (prepCnt ld var rt ats), prepBytes (prepCnt ld var rt ats), namedOf var nfixed ats⟩ := by
  unfold prepCif namedOf
  dsimp only
  rw [Nat.mod_eq_of_lt hb]

theorem prepArgs_ok {ld : LD} {var : Bool} {nfixed : Nat} {rt : FType} {ats : List FType} (hrt : Ty ld rt ∨ rt.tc = .void) (hty : ∀ t ∈ ats, Ty ld t)
    (hb : prepBytes (prepCnt ld var rt ats) < 2 ^ 32) {S rvalue : Nat} (hS : S % 16 = 0) (hrv : rvalue < 2 ^ 64) {as : List Nat} {m : Mem}
    (hg : Given (Area (frOf (prepCif ld var nfixed rt ats) S)) ats as) :
    AllPassed (regsOf (frOf (prepCif ld var nfixed rt ats) S) (prepArgs ld (prepCif ld var nfixed rt ats) ats rvalue as S m)) ats (vals m ats as)
      (places ld rt (namedOf var nfixed ats) ats) ∧
    (retPlace ld rt = .mem → (regsOf (frOf (prepCif ld var nfixed rt ats) S) (prepArgs ld (prepCif ld var nfixed rt ats) ats rvalue as S m)).gpr 0 = rvalue) ∧
    (∀ x, ¬ Area (frOf (prepCif ld var nfixed rt ats) S) x → prepArgs ld (prepCif ld var nfixed rt ats) ats rvalue as S m x = m x) := by
  rw [prepCif_eq hb] at *
  generalize hn : prepCnt ld var rt ats = n at *
  have hpos := prepCnt_pos hrt hty var
  rw [hn] at hpos
  obtain ⟨g, hB, hBp⟩ := frOf_geo (S := S) (n := n) (nfx := namedOf var nfixed ats) hrt hS
  unfold prepArgs
  dsimp only
  generalize hF : frOf ⟨prepFlags ld rt n, prepBytes n, namedOf var nfixed ats⟩ S = F at *
  have e1 : (endFrom ld ats (start ld rt)).slot = n.int := by rw [← hpos]; rfl
  have e2 : (endFrom ld ats (start ld rt)).nf = n.fp := by rw [← hpos]; rfl
  have e3 : (endFrom ld ats (start ld rt)).nv = n.vec := by rw [← hpos]; rfl
  have hps : n.ps = false → ats.length ≤ namedOf var nfixed ats ∧ (prepLoop ld ats (prepStart ld var rt)).ps = false := by
    intro h
    have h0 : (prepLoop ld ats (prepStart ld var rt)).ps = false := by rw [show prepLoop ld ats (prepStart ld var rt) = n from hn]; exact h
    refine ⟨?_, h0⟩
    have : var = false := prepLoop_ps ats _ h0
    rw [this]
    exact Nat.le_refl _
  have loop : ∀ (s : St) (m : Mem), Mid F n.ps (decide (0 < namedOf var nfixed ats)) s (8 * (start ld rt).slot) (start ld rt).nf (start ld rt).nv → _ :=
    fun s m hm => callLoop_ok g ats as (namedOf var nfixed ats) s (start ld rt) m (prepStart ld var rt) hty hg hm (by rw [e1])
      (fun h => by rw [e2] at h; simp; omega) (fun h => by rw [e3] at h; simp; omega) hps (prepStart_pos hrt var)
  have hgb := g.g
  by_cases hm : retPlace ld rt = .mem
  · have hs1 : start ld rt = ⟨1, 0, 0⟩ := by unfold start; rw [if_pos hm]
    have hbit : prepFlags ld rt n &&& flagRetRef ≠ 0 := (and_pow _ 27).2 ((prepFlags_ref hrt n).2 hm)
    rw [if_pos hbit]
    rw [hs1] at loop
    have hmid : Mid F n.ps (decide (0 < namedOf var nfixed ats)) { na := F.gprBase + 8, fb := F.fprBase, fc := 0, vb := F.vecBase, vc := 0 } (8 * 1) 0 0 :=
      ⟨fun _ => by simp [Fr.at], rfl, rfl, fun _ _ => by show F.fprBase = _; omega, fun _ _ => by show F.vecBase = _; omega⟩
    obtain ⟨l1, l2⟩ := loop _ (m.wr F.gprBase (leBytes 8 rvalue)) hmid
    have hw : ∀ x, ¬ Area F x → (m.wr F.gprBase (leBytes 8 rvalue)) x = m x := by
      intro x hx
      apply Mem.wr_out
      rw [leBytes_length]
      unfold Area at hx
      omega
    rw [vals_congr hw hg] at l1
    refine ⟨?_, ?_, ?_⟩
    · unfold places; rw [hs1]; exact l1
    · intro _
      show leNat (Mem.rd _ (F.gprBase + 8 * 0) 8) = _
      rw [Mem.rd_congr (m := m.wr F.gprBase (leBytes 8 rvalue))]
      · have := Mem.rd_wr_same m F.gprBase (leBytes 8 rvalue)
        rw [leBytes_length] at this
        rw [Nat.mul_zero, Nat.add_zero, this, leNat_leBytes, Nat.mod_eq_of_lt (by simpa using hrv)]
      · intro i hi
        apply l2
        have := at_early (nf := 0) (nv := 0) g (i := i) (o := 8 * 1) (by omega) (.inl (by omega))
        rw [show F.at i = F.gprBase + 8 * 0 + i by unfold Fr.at; rw [if_pos (by omega)]; rfl] at this
        exact this
    · intro x hx
      rw [l2 x (fun hl => hx (hl.area g)), hw x hx]
  · have hs0 : start ld rt = ⟨0, 0, 0⟩ := by unfold start; rw [if_neg hm]
    have hbit : ¬ prepFlags ld rt n &&& flagRetRef ≠ 0 := fun hc => hm ((prepFlags_ref hrt n).1 ((and_pow _ 27).1 hc))
    rw [if_neg hbit]
    rw [hs0] at loop
    have hmid : Mid F n.ps (decide (0 < namedOf var nfixed ats)) { na := F.gprBase, fb := F.fprBase, fc := 0, vb := F.vecBase, vc := 0 } (8 * 0) 0 0 :=
      ⟨fun _ => by simp [Fr.at], rfl, rfl, fun _ _ => by show F.fprBase = _; omega, fun _ _ => by show F.vecBase = _; omega⟩
    obtain ⟨l1, l2⟩ := loop _ m hmid
    refine ⟨?_, fun h => absurd h hm, ?_⟩
    · unfold places; rw [hs0]; exact l1
    · intro x hx
      exact l2 x (fun hl => hx (hl.area g))

/-- Where the convention wants memory for the parameter list, there is. -/
theorem area_ps {ld : LD} : ∀ (ts : List FType) (k : Nat) (n : Cnt), (∀ t ∈ ts, Ty ld t) → ts.length ≤ k →
    (∃ x ∈ ts.zip (placeFrom ld k ts (posOf n)), InMem x.1 x.2) → (prepLoop ld ts n).ps = true
  | [], _, _, _, _, ⟨x, hx, _⟩ => by simp [placeFrom] at hx
  | t :: ts, k, n, hty, hk, ⟨x, hx, hm⟩ => by
    rw [List.length_cons] at hk
    rw [placeFrom, List.zip_cons_cons, List.mem_cons] at hx
    have hd : decide (0 < k) = true := by simp; omega
    rcases hx with rfl | hx
    · by_contra hc
      have h1 := prepArg_regs (hty t (by simp)) true n (prepLoop_ps ts _ (by simpa [prepLoop] using hc))
      rw [hd] at hm
      dsimp only at hm
      generalize hpl : (placeArg ld true t (posOf n)).1 = pl at h1 hm
      cases pl with
      | int s => simp only [AllRegs, InMem] at h1 hm; omega
      | agg s => simp only [AllRegs, InMem] at h1 hm; omega
      | parts s c n' r nm =>
        obtain ⟨j, h2, h3, _⟩ := hm
        simp only [AllRegs] at h1
        apply h3
        refine ⟨?_, by omega⟩
        unfold placeArg at hpl
        dsimp only at hpl
        split at hpl
        · cases hpl; rfl
        · cases hpl; rfl
        · split at hpl <;> cases hpl
    · rw [prepLoop]
      apply area_ps ts (k - 1) _ (fun x hx => hty x (by simp [hx])) (by omega)
      refine ⟨x, ?_, hm⟩
      rw [prepArg_pos (hty t (by simp)) (decide (0 < k))]
      exact hx

theorem hasArea_ps {ld : LD} {var : Bool} {nfixed : Nat} {rt : FType} {ats : List FType} (hrt : Ty ld rt ∨ rt.tc = .void) (hty : ∀ t ∈ ats, Ty ld t)
    (h : HasArea var ats (places ld rt (namedOf var nfixed ats) ats)) : (prepCnt ld var rt ats).ps = true := by
  cases hv : var with
  | true =>
    by_contra hc
    have := prepLoop_ps ats _ (by simpa [prepCnt] using hc)
    cases this
  | false =>
    rw [hv] at h
    rcases h with h | h
    · cases h
    · apply area_ps ats _ _ hty (Nat.le_refl _)
      rw [prepStart_pos hrt]
      exact h

end Verif.Ppc
