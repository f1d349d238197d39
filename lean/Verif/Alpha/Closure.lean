import Verif.Alpha.Call

/-! Lemmas about `ffi_closure_osf_inner`. -/
namespace Verif.Alpha
open Verif Verif.Spec Verif.Spec.Alpha

/-- Registers have 64 bits. -/
structure RegsOk (R : Regs) : Prop where
  int : ∀ k, k < 6 → R.int k < 2 ^ 64
  fp : ∀ k, k < 6 → R.fp k < 2 ^ 64

theorem RegsOk.islot {R : Regs} (h : RegsOk R) (k : Nat) : R.islot k < 2 ^ 64 := by
  unfold Regs.islot
  split
  · exact h.int k ‹_›
  · exact rd_lt8 _ _

/-- The arguments from slot `n` to slot `e` are where `ffi_closure_osf` put them. -/
structure Area (argp : Nat) (R : Regs) (n e : Nat) (m : Mem) : Prop where
  int : ∀ k, n ≤ k → k < e → m.rd (argp + 8 * k) 8 = leBytes 8 (R.islot k)
  fp : ∀ k, n ≤ k → k < 6 → m.rd (argp + 8 * k - 48) 8 = leBytes 8 (R.fp k)

theorem leNat_low {w s : Nat} {v : List Byte} (hv : v.length = s) (hs : s ≤ 8) (h : w % 256 ^ s = leNat v) : (leBytes 8 w).take s = v := by
  subst hv
  rw [leBytes_take _ hs, ← leBytes_mod, h, leBytes_leNat]

theorem int_low {tc : TC} {s al w : Nat} {v : List Byte} (h : lp64 tc = some (s, al)) (hn : tc ≠ .longdouble) (hv : v.length = s)
    (hw : (w : Int) = intVal tc v % 2 ^ 64) : (leBytes 8 w).take s = v := by
  have hl := leNat_lt v
  rw [hv] at hl
  have hs : s = 1 ∨ s = 2 ∨ s = 4 ∨ s = 8 := by
    cases tc <;> simp [lp64] at h hn <;> omega
  apply leNat_low hv (by omega)
  unfold intVal at hw
  rw [hv] at hw
  rcases hs with rfl | rfl | rfl | rfl <;> split at hw <;> omega

def isFp : TC → Bool
  | .float | .double => true
  | _ => false

section
variable {argp n e : Nat} {R : Regs} {m : Mem}

theorem int_rd (ha : Area argp R n e m) {k s al : Nat} {tc : TC} {u : List Byte} (h : lp64 tc = some (s, al)) (hn : tc ≠ .longdouble) (hf : isFp tc = false)
    (hu : u.length = s) (hp : ScalarAt R k tc u) (h1 : n ≤ k) (h2 : k < e) : m.rd (argp + 8 * k) s = u := by
  have hs : s ≤ 8 := by cases tc <;> simp [lp64] at h hn <;> omega
  rw [← Mem.rd_take _ _ hs, ha.int k h1 h2]
  refine int_low h hn hu ?_
  cases tc <;> simp [lp64] at h hn <;> first | exact hp | (exfalso; revert hf; decide)

theorem bytes_of {u : List Byte} {s : Nat} (h : u.length = s) : leBytes s (leNat u) = u := by subst h; exact leBytes_leNat u

theorem dbl_rd_lt (hR : RegsOk R) (ha : Area argp R n e m) {k : Nat} {u : List Byte} (hu : u.length = 8) (hp : ScalarAt R k .double u) (h1 : n ≤ k) (h2 : k < 6) :
    m.rd (argp + 8 * k - 48) 8 = u := by
  have hp : R.fslot k = leNat u := hp
  unfold Regs.fslot at hp
  rw [if_pos h2] at hp
  rw [ha.fp k h1 h2, hp, bytes_of hu]

theorem fslot_ge {k : Nat} (h : 6 ≤ k) : R.fslot k = R.islot k := by
  unfold Regs.fslot Regs.islot
  rw [if_neg (by omega), if_neg (by omega)]

theorem dbl_rd_ge (ha : Area argp R n e m) {k : Nat} {u : List Byte} (hu : u.length = 8) (hp : ScalarAt R k .double u) (h1 : n ≤ k) (h2 : 6 ≤ k) (h3 : k < e) :
    m.rd (argp + 8 * k) 8 = u := by
  have hp : R.fslot k = leNat u := hp
  rw [fslot_ge h2] at hp
  rw [ha.int k h1 h3, hp, bytes_of hu]

theorem flt_rd_lt (ha : Area argp R n e m) {k : Nat} {u : List Byte} (hu : u.length = 4) (hp : ScalarAt R k .float u) (h1 : n ≤ k) (h2 : k < 6) :
    leBytes 4 (sts (leNat (m.rd (argp + 8 * k - 48) 8))) = u := by
  unfold ScalarAt at hp
  dsimp only at hp
  unfold Regs.fslot at hp
  rw [if_pos h2, if_pos h2] at hp
  have hl := leNat_lt u
  rw [hu] at hl
  rw [ha.fp k h1 h2, hp, leNat8 (lds_lt hl), sts_lds hl, bytes_of hu]

theorem flt_rd_ge (ha : Area argp R n e m) {k : Nat} {u : List Byte} (hp : ScalarAt R k .float u) (h1 : n ≤ k) (h2 : 6 ≤ k) (h3 : k < e) :
    m.rd (argp + 8 * k) 4 = u := by
  unfold ScalarAt at hp
  dsimp only at hp
  rw [if_neg (by omega), fslot_ge h2] at hp
  rw [← Mem.rd_take _ _ (show 4 ≤ 8 by decide), ha.int k h1 h3, hp]
end

/-- Memory that belongs to the arguments from slot `n` to slot `n1`. -/
def Own (argp tmp n n1 x : Nat) : Prop :=
  (argp + 8 * n ≤ x ∧ x < argp + 8 * n1) ∨ (argp + 8 * n ≤ x + 48 ∧ x + 48 < argp + 8 * n1 ∧ x < argp) ∨ (n ≤ 5 ∧ 5 < n1 ∧ tmp ≤ x ∧ x < tmp + 16)

/-- What a round does: `p` is the address of the argument. -/
structure CArgOk (argp tmp n n1 : Nat) (R : Regs) (t : FType) (v : List Byte) (p : Nat) (m m' : Mem) : Prop where
  out : ∀ x, ¬ Own argp tmp n n1 x → m' x = m x
  loc : byRef t = true ∧ p = R.islot n ∨ byRef t = false ∧ ∀ x, p ≤ x → x < p + t.size → Own argp tmp n n1 x
  val : byRef t = false → m'.rd p t.size = v

theorem wr_append (m : Mem) (p a b : Nat) (bs : List Byte) (hb : bs.length = b) : (m.wr (p + a) bs).rd p (a + b) = m.rd p a ++ bs := by
  rw [Mem.rd_append, Mem.rd_wr_disj _ _ _ _ _ (by omega), wr_rd _ _ hb]

theorem parts {v : List Byte} {s : Nat} (h : v.length = 2 * s) : (v.take (2 * s / 2)).length = s ∧ (v.drop (2 * s / 2)).length = s ∧
    v.take (2 * s / 2) ++ v.drop (2 * s / 2) = v := by
  rw [List.length_take, List.length_drop, List.take_append_drop]
  exact ⟨by omega, by omega, rfl⟩

theorem stsTo_eq (p src : Nat) (m : Mem) {u : List Byte} (h : leBytes 4 (sts (leNat (m.rd src 8))) = u) : stsTo p src m = m.wr p u := by
  unfold stsTo; rw [h]

theorem low4 (m : Mem) (a : Nat) : leBytes 4 (leNat (m.rd a 8)) = m.rd a 4 := by
  rw [← leBytes_take (m := 4) (n := 8) _ (by decide), leBytes_rd8, Mem.rd_take _ _ (by decide)]

theorem closureArg_ok {argp tmp n e : Nat} {R : Regs} {m : Mem} {t : FType} {v : List Byte} (ht : WF lp64 t) (h48 : 48 ≤ argp) (htmp : tmp + 16 + 48 ≤ argp)
    (hR : RegsOk R) (ha : Area argp R n e m) (he : n + slots t ≤ e) (hv : v.length = t.size) (hp : PassedAt R n t v) :
    ∃ p m', closureArg argp tmp t n m = some (p, n + slots t, m') ∧ CArgOk argp tmp n (n + slots t) R t v p m m' := by
  have refc : ∀ t : FType, byRef t = true → n + slots t ≤ e → CArgOk argp tmp n (n + slots t) R t v (leNat (m.rd (argp + 8 * n) 8)) m m := by
    intro t hr he
    have hs : slots t = 1 := by unfold slots; rw [if_pos hr]
    refine ⟨fun _ _ => rfl, .inl ⟨hr, ?_⟩, fun h => by rw [h] at hr; cases hr⟩
    rw [ha.int n (Nat.le_refl _) (by omega), leNat8 (hR.islot n)]
  cases ht with
  | @scalar tc s al h =>
    by_cases hl : tc = .longdouble
    · subst hl
      exact ⟨_, _, rfl, refc _ rfl he⟩
    have hr : byRef (.mk s al tc []) = false := by cases tc <;> simp [lp64] at h hl <;> rfl
    have hs : slots (.mk s al tc []) = 1 := by cases tc <;> simp [lp64] at h hl <;> rfl
    have hsz : s ≤ 8 := by cases tc <;> simp [lp64] at h hl <;> omega
    have hv : v.length = s := hv
    rw [hs] at he ⊢
    unfold PassedAt at hp
    rw [if_neg (by rw [hr]; decide)] at hp
    have hp : ScalarAt R n tc v := by cases tc <;> simp [lp64] at h hl <;> exact hp
    by_cases hf : tc = .float
    · subst hf
      cases h
      by_cases h6 : n < 6
      · refine ⟨argp + 8 * n - 48, stsTo (argp + 8 * n - 48) (argp + 8 * n - 48) m, if_pos h6, ?_, .inr ⟨hr, ?_⟩, fun _ => ?_⟩
        · intro x hx
          unfold Own at hx
          exact Mem.wr_out _ _ _ _ (by rw [leBytes_length]; omega)
        · intro x h1 h2
          have h2 : x < argp + 8 * n - 48 + 4 := h2
          unfold Own; omega
        · rw [stsTo_eq _ _ _ (flt_rd_lt ha hv hp (Nat.le_refl _) h6)]
          exact wr_rd _ _ hv
      · refine ⟨argp + 8 * n, m, if_neg h6, fun _ _ => rfl, .inr ⟨hr, ?_⟩, fun _ => ?_⟩
        · intro x h1 h2
          have h2 : x < argp + 8 * n + 4 := h2
          unfold Own; omega
        · exact flt_rd_ge ha hp (Nat.le_refl _) (by omega) (by omega)
    by_cases hd : tc = .double
    · subst hd
      cases h
      by_cases h6 : n < 6
      · refine ⟨argp + 8 * n - 48, m, ?_, fun _ _ => rfl, .inr ⟨hr, ?_⟩, fun _ => ?_⟩
        · show some (if n < 6 then _ else _, _, _) = _; rw [if_pos h6]
        · intro x h1 h2
          have h2 : x < argp + 8 * n - 48 + 8 := h2
          unfold Own; omega
        · exact dbl_rd_lt hR ha hv hp (Nat.le_refl _) h6
      · refine ⟨argp + 8 * n, m, ?_, fun _ _ => rfl, .inr ⟨hr, ?_⟩, fun _ => ?_⟩
        · show some (if n < 6 then _ else _, _, _) = _; rw [if_neg h6]
        · intro x h1 h2
          have h2 : x < argp + 8 * n + 8 := h2
          unfold Own; omega
        · exact dbl_rd_ge ha hv hp (Nat.le_refl _) (by omega) (by omega)
    · refine ⟨argp + 8 * n, m, ?_, fun _ _ => rfl, .inr ⟨hr, ?_⟩, fun _ => ?_⟩
      · cases tc <;> simp [lp64] at h hl hf hd <;> rfl
      · intro x h1 h2
        have h2 : x < argp + 8 * n + s := h2
        unfold Own; omega
      · refine int_rd ha h hl ?_ hv hp (Nat.le_refl _) (by omega)
        cases tc <;> simp [lp64] at h hl hf hd <;> rfl
  | @complex tc s al hb h =>
    by_cases hl : tc = .longdouble
    · subst hl
      exact ⟨_, _, rfl, refc _ rfl he⟩
    have hr : byRef (.mk (2 * s) al .complex [.mk s al tc []]) = false := by cases tc <;> simp [lp64] at h hl <;> rfl
    have hs : slots (.mk (2 * s) al .complex [.mk s al tc []]) = 2 := by unfold slots; rw [if_neg (by rw [hr]; decide)]; rfl
    have hsz : s ≤ 8 := by cases tc <;> simp [lp64] at h hl <;> omega
    have hv : v.length = 2 * s := hv
    rw [hs] at he ⊢
    unfold PassedAt at hp
    rw [if_neg (by rw [hr]; decide)] at hp
    have hp : ScalarAt R n tc (v.take (2 * s / 2)) ∧ ScalarAt R (n + 1) tc (v.drop (2 * s / 2)) := hp
    obtain ⟨hp1, hp2⟩ := hp
    obtain ⟨l1, l2, l3⟩ := parts hv
    obtain ⟨v1, hv1⟩ : ∃ x, v.take (2 * s / 2) = x := ⟨_, rfl⟩
    obtain ⟨v2, hv2⟩ : ∃ x, v.drop (2 * s / 2) = x := ⟨_, rfl⟩
    rw [hv1] at hp1 l1 l3
    rw [hv2] at hp2 l2 l3
    have A8 : argp + 8 * (n + 1) = argp + 8 * n + 8 := by omega
    have two : ∀ {m' : Mem} {p : Nat}, m'.rd p s = v1 → m'.rd (p + s) s = v2 → m'.rd p (2 * s) = v := by
      intro m' p e1 e2
      rw [Nat.two_mul, Mem.rd_append, e1, e2, l3]
    by_cases hf : tc = .float
    · subst hf
      cases h
      by_cases h5 : n + 1 < 6
      · have h6 : n < 6 := by omega
        have e1 := stsTo_eq (argp + 8 * n - 48) (argp + 8 * n - 48) m (flt_rd_lt ha l1 hp1 (Nat.le_refl _) h6)
        have f2 := flt_rd_lt ha l2 hp2 (Nat.le_succ _) h5
        rw [show argp + 8 * (n + 1) - 48 = argp + 8 * n - 48 + 8 by omega] at f2
        have f2' : leBytes 4 (sts (leNat ((m.wr (argp + 8 * n - 48) v1).rd (argp + 8 * n - 48 + 8) 8))) = v2 := by
          rw [Mem.rd_wr_disj _ _ _ _ _ (by omega)]; exact f2
        refine ⟨argp + 8 * n - 48, (m.wr (argp + 8 * n - 48) v1).wr (argp + 8 * n - 48 + 4) v2, ?_, ?_, .inr ⟨hr, ?_⟩, fun _ => ?_⟩
        · rw [← e1, ← stsTo_eq _ _ _ (by rw [e1]; exact f2')]
          show some (if n < 6 then _ else _, _, if n + 1 < 6 then _ else _) = _
          rw [if_pos h6, if_pos h6, if_pos h5]
        · intro x hx
          unfold Own at hx
          rw [Mem.wr_out _ _ _ _ (by omega), Mem.wr_out _ _ _ _ (by omega)]
        · intro x h1 h2
          have h2 : x < argp + 8 * n - 48 + 8 := h2
          unfold Own; omega
        · apply two
          · rw [Mem.rd_wr_disj _ _ _ _ _ (by omega), wr_rd _ _ l1]
          · rw [wr_rd _ _ l2]
      · have f2 := flt_rd_ge ha hp2 (Nat.le_succ _) (by omega) (by omega)
        rw [A8] at f2
        by_cases h6 : n < 6
        · have e1 := stsTo_eq (argp + 8 * n - 48) (argp + 8 * n - 48) m (flt_rd_lt ha l1 hp1 (Nat.le_refl _) h6)
          refine ⟨argp + 8 * n - 48, (m.wr (argp + 8 * n - 48) v1).wr (argp + 8 * n - 48 + 4) v2, ?_, ?_, .inr ⟨hr, ?_⟩, fun _ => ?_⟩
          · show some (if n < 6 then _ else _, _, if n + 1 < 6 then _ else _) = _
            rw [if_pos h6, if_pos h6, if_neg h5, low4, e1, Mem.rd_wr_disj _ _ _ _ _ (by omega), f2]
          · intro x hx
            unfold Own at hx
            rw [Mem.wr_out _ _ _ _ (by omega), Mem.wr_out _ _ _ _ (by omega)]
          · intro x h1 h2
            have h2 : x < argp + 8 * n - 48 + 8 := h2
            unfold Own; omega
          · apply two
            · rw [Mem.rd_wr_disj _ _ _ _ _ (by omega), wr_rd _ _ l1]
            · rw [wr_rd _ _ l2]
        · have f1 := flt_rd_ge ha hp1 (Nat.le_refl _) (by omega) (by omega)
          refine ⟨argp + 8 * n, m.wr (argp + 8 * n + 4) v2, ?_, ?_, .inr ⟨hr, ?_⟩, fun _ => ?_⟩
          · show some (if n < 6 then _ else _, _, if n + 1 < 6 then _ else _) = _
            rw [if_neg h6, if_neg h6, if_neg h5, low4, f2]
          · intro x hx
            unfold Own at hx
            rw [Mem.wr_out _ _ _ _ (by omega)]
          · intro x h1 h2
            have h2 : x < argp + 8 * n + 8 := h2
            unfold Own; omega
          · apply two
            · rw [Mem.rd_wr_disj _ _ _ _ _ (by omega), f1]
            · rw [wr_rd _ _ l2]
    by_cases hd : tc = .double
    · subst hd
      cases h
      by_cases h5 : n < 5
      · have f1 := dbl_rd_lt hR ha l1 hp1 (Nat.le_refl _) (by omega)
        have f2 := dbl_rd_lt hR ha l2 hp2 (Nat.le_succ _) (by omega)
        refine ⟨argp + 8 * n - 48, m, if_pos h5, fun _ _ => rfl, .inr ⟨hr, ?_⟩, fun _ => ?_⟩
        · intro x h1 h2
          have h2 : x < argp + 8 * n - 48 + 16 := h2
          unfold Own; omega
        · refine two f1 ?_
          rw [show argp + 8 * n - 48 + 8 = argp + 8 * (n + 1) - 48 by omega]
          exact f2
      · by_cases h5' : n = 5
        · subst h5'
          have f1 := dbl_rd_lt hR ha l1 hp1 (Nat.le_refl _) (by omega)
          have f2 := dbl_rd_ge ha l2 hp2 (Nat.le_succ _) (by omega) (by omega)
          rw [show argp + 8 * 5 - 48 = argp - 8 by omega] at f1
          refine ⟨tmp, (m.wr tmp v1).wr (tmp + 8) v2, ?_, ?_, .inr ⟨hr, ?_⟩, fun _ => ?_⟩
          · have e1 : leBytes 8 (leNat (m.rd (argp - 8) 8)) = v1 := by rw [leBytes_rd8, f1]
            have e2 : leBytes 8 (leNat ((m.wr tmp v1).rd (argp + 48) 8)) = v2 := by
              rw [leBytes_rd8, Mem.rd_wr_disj _ _ _ _ _ (by omega)]; exact f2
            rw [← e2, ← e1]
            rfl
          · intro x hx
            unfold Own at hx
            rw [Mem.wr_out _ _ _ _ (by omega), Mem.wr_out _ _ _ _ (by omega)]
          · intro x h1 h2
            have h2 : x < tmp + 16 := h2
            unfold Own; omega
          · apply two
            · rw [Mem.rd_wr_disj _ _ _ _ _ (by omega), wr_rd _ _ l1]
            · rw [wr_rd _ _ l2]
        · have f1 := dbl_rd_ge ha l1 hp1 (Nat.le_refl _) (by omega) (by omega)
          have f2 := dbl_rd_ge ha l2 hp2 (Nat.le_succ _) (by omega) (by omega)
          refine ⟨argp + 8 * n, m, ?_, fun _ _ => rfl, .inr ⟨hr, ?_⟩, fun _ => ?_⟩
          · show (if n < 5 then _ else if n = 5 then _ else _) = _
            rw [if_neg h5, if_neg h5']
          · intro x h1 h2
            have h2 : x < argp + 8 * n + 16 := h2
            unfold Own; omega
          · refine two f1 ?_
            rw [← A8]
            exact f2
    · have hfp : isFp tc = false := by cases tc <;> simp [lp64] at h hl hf hd <;> rfl
      have f1 := int_rd ha h hl hfp l1 hp1 (Nat.le_refl _) (by omega)
      have f2 := int_rd ha h hl hfp l2 hp2 (Nat.le_succ _) (by omega)
      rw [A8] at f2
      by_cases h8 : s = 8
      · subst h8
        refine ⟨argp + 8 * n, m, ?_, fun _ _ => rfl, .inr ⟨hr, ?_⟩, fun _ => ?_⟩
        · cases tc <;> simp [lp64] at h hl hf hd <;> first | rfl | cases hb
        · intro x h1 h2
          have h2 : x < argp + 8 * n + 16 := h2
          unfold Own; omega
        · exact two f1 f2
      · refine ⟨argp + 8 * n, m.wr (argp + 8 * n + s) v2, ?_, ?_, .inr ⟨hr, ?_⟩, fun _ => ?_⟩
        · rw [← f2]
          cases tc <;> simp [lp64] at h hl hf hd h8 <;> first | rfl | (exfalso; omega)
        · intro x hx
          unfold Own at hx
          rw [Mem.wr_out _ _ _ _ (by omega)]
        · intro x h1 h2
          have h2 : x < argp + 8 * n + 2 * s := h2
          unfold Own; omega
        · apply two
          · rw [Mem.rd_wr_disj _ _ _ _ _ (by omega), f1]
          · rw [wr_rd _ _ l2]
  | @struct es s al offs hes hlay =>
    have hs : slots (.mk s al .struct es) = (s + 7) / 8 := rfl
    refine ⟨argp + 8 * n, m, ?_, fun _ _ => rfl, .inr ⟨rfl, ?_⟩, fun _ => ?_⟩
    · show some (_, n + align8 s / 8, _) = some (_, n + slots _, _)
      rw [hs]
      unfold align8
      rw [Nat.mul_div_cancel _ (by decide)]
    · intro x h1 h2
      have h2 : x < argp + 8 * n + s := h2
      rw [hs]
      unfold Own; omega
    · have hp : ((List.range ((s + 7) / 8)).flatMap fun k => leBytes 8 (R.islot (n + k))).take s = v := hp
      show m.rd (argp + 8 * n) s = v
      rw [← hp, ← Mem.rd_take _ _ (show s ≤ 8 * ((s + 7) / 8) by omega), ← rd_flat]
      congr 1
      rw [List.flatMap_def, List.flatMap_def]
      congr 1
      apply List.map_congr_left
      intro k hk
      rw [← ha.int (n + k) (by omega) (by rw [hs] at he; have := List.mem_range.1 hk; omega), Nat.mul_add, Nat.add_assoc]

/-- The values at the addresses. -/
theorem closureLoop_ok {argp tmp e : Nat} {R : Regs} (h48 : 48 ≤ argp) (htmp : tmp + 16 + 48 ≤ argp) (hR : RegsOk R) :
    ∀ {ts : List FType} {vs : List (List Byte)} {n : Nat} {m : Mem}, (∀ t ∈ ts, WF lp64 t) → vs.map (·.length) = ts.map (·.size) → endSlot n ts ≤ e →
      Area argp R n e m → AllPassed R n ts vs →
      (∀ x ∈ refs R n ts, ∀ b, x.1 ≤ b → b < x.1 + x.2 → ¬ Own argp tmp n e b ∧ m b = R.mem b) →
      ∃ ps m', closureLoop argp tmp ts n m = some (ps, m') ∧ ps.length = ts.length ∧ (∀ x, ¬ Own argp tmp n e x → m' x = m x) ∧ vals m' ts ps = vs
  | [], [], n, m, _, _, _, _, _, _ => ⟨[], m, rfl, rfl, fun _ _ => rfl, rfl⟩
  | [], _ :: _, _, _, _, hl, _, _, _, _ => by cases hl
  | _ :: _, [], _, _, _, hl, _, _, _, _ => by cases hl
  | t :: ts, v :: vs, n, m, hwf, hl, hn, ha, hp, hr => by
    have hn : endSlot (n + slots t) ts ≤ e := hn
    have hle := endSlot_le ts (n + slots t)
    simp only [List.map_cons, List.cons.injEq] at hl
    obtain ⟨p, m1, e1, o1⟩ := closureArg_ok (hwf t (by simp)) h48 htmp hR ha (by omega) hl.1 hp.1
    have own : ∀ x, ¬ Own argp tmp n e x → ¬ Own argp tmp n (n + slots t) x := by
      intro x hx hy; apply hx; unfold Own at hy ⊢; omega
    have own2 : ∀ x, Own argp tmp (n + slots t) e x → Own argp tmp n e x := by
      intro x hy; unfold Own at hy ⊢; omega
    have apart : ∀ x, Own argp tmp n (n + slots t) x → ¬ Own argp tmp (n + slots t) e x := by
      intro x hy hz; unfold Own at hy hz; omega
    have ha1 : Area argp R (n + slots t) e m1 := by
      constructor
      · intro k h1 h2
        rw [← ha.int k (by omega) h2]
        exact Mem.rd_congr fun i hi => o1.out _ (by unfold Own; omega)
      · intro k h1 h2
        rw [← ha.fp k (by omega) h2]
        exact Mem.rd_congr fun i hi => o1.out _ (by unfold Own; omega)
    have hr1 : ∀ x ∈ refs R (n + slots t) ts, ∀ b, x.1 ≤ b → b < x.1 + x.2 → ¬ Own argp tmp (n + slots t) e b ∧ m1 b = R.mem b := by
      intro x hx b h1 h2
      have := hr x (by unfold refs; exact List.mem_append_right _ hx) b h1 h2
      exact ⟨fun hy => this.1 (own2 b hy), (o1.out b (own b this.1)).trans this.2⟩
    obtain ⟨ps, m', e2, l2, o2, v2⟩ := closureLoop_ok h48 htmp hR (ts := ts) (vs := vs) (n := n + slots t) (m := m1) (fun u hu => hwf u (by simp [hu])) hl.2 hn ha1 hp.2 hr1
    refine ⟨p :: ps, m', ?_, by simp [l2], ?_, ?_⟩
    · rw [closureLoop, e1]
      dsimp only
      rw [e2]
    · intro x hx
      rw [o2 x (fun hy => hx (own2 x hy)), o1.out x (own x hx)]
    · show m'.rd p t.size :: vals m' ts ps = v :: vs
      rw [v2]
      congr 1
      rcases o1.loc with ⟨hb, hpl⟩ | ⟨hb, hown⟩
      · have hp1 := hp.1
        unfold PassedAt at hp1
        rw [if_pos hb] at hp1
        rw [← hp1, hpl]
        apply Mem.rd_congr
        intro i hi
        have := hr (R.islot n, t.size) (by unfold refs; rw [if_pos hb]; simp) (R.islot n + i) (Nat.le_add_right _ _) (by dsimp only; omega)
        rw [o2 _ (fun hy => this.1 (own2 _ hy)), o1.out _ (own _ this.1), this.2]
      · rw [← o1.val hb]
        exact Mem.rd_congr fun i hi => o2 _ (apart _ (hown _ (by omega) (by omega)))

end Verif.Alpha
