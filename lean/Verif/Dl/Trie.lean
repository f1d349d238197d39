import Verif.Spec.Dl
import Verif.Dl.Bits
import Mathlib.Tactic.Ring

/-
The order in the tree bins: the chunks of a subtree at depth `d` agree in the bits above the
one that decides there.
-/
namespace Verif.Dl
open Verif

/-- The sizes in the tree have the upper bits `p`, and `n` lower bits that decide. -/
def T.Trie (sz : Nat → Nat) : T → Nat → Nat → Prop
  | .nil, _, _ => True
  | .node a ring l r, n, p => sz a / 2 ^ n = p ∧ (∀ x ∈ ring, sz x = sz a) ∧ (n = 0 → l = .nil ∧ r = .nil) ∧
      l.Trie sz (n - 1) (2 * p) ∧ r.Trie sz (n - 1) (2 * p + 1)

theorem div_pow_pred {z n q : Nat} (hn : n ≠ 0) (h : z / 2 ^ (n - 1) = q) : z / 2 ^ n = q / 2 := by
  obtain ⟨m, rfl⟩ := Nat.exists_eq_succ_of_ne_zero hn
  rw [Nat.succ_sub_one] at h
  rw [Nat.pow_succ, ← Nat.div_div_eq_div_mul, h]

theorem T.Trie.all {sz : Nat → Nat} {t : T} {n p : Nat} (h : t.Trie sz n p) : ∀ x ∈ t.chunks, sz x / 2 ^ n = p := by
  induction t generalizing n p with
  | nil => intro x hx; simp [T.chunks] at hx
  | node a ring l r ihl ihr =>
    obtain ⟨h1, h2, h3, h4, h5⟩ := h
    intro x hx
    simp only [T.chunks, List.mem_cons, List.mem_append] at hx
    by_cases hn : n = 0
    · obtain ⟨rfl, rfl⟩ := h3 hn
      simp only [T.chunks, List.not_mem_nil, or_false] at hx
      rcases hx with rfl | hx
      · exact h1
      · rw [h2 x hx]; exact h1
    · rcases hx with rfl | hx | hx | hx
      · exact h1
      · rw [h2 x hx]; exact h1
      · rw [div_pow_pred hn (ihl h4 x hx)]; omega
      · rw [div_pow_pred hn (ihr h5 x hx)]; omega

theorem T.Trie.congr {sz sz' : Nat → Nat} {t : T} {n p : Nat} (h : t.Trie sz n p) (e : ∀ x ∈ t.chunks, sz' x = sz x) :
    t.Trie sz' n p := by
  induction t generalizing n p with
  | nil => trivial
  | node a ring l r ihl ihr =>
    obtain ⟨h1, h2, h3, h4, h5⟩ := h
    have ea := e a (by simp [T.chunks])
    refine ⟨by rw [ea]; exact h1, ?_, h3, ihl h4 ?_, ihr h5 ?_⟩
    · intro x hx; rw [ea, e x (by simp [T.chunks, hx])]; exact h2 x hx
    · intro x hx; exact e x (by simp [T.chunks, hx])
    · intro x hx; exact e x (by simp [T.chunks, hx])

/-- The word that steers the descent: the deciding bits at its upper end. -/
def steer (S n : Nat) : Nat := S * 2 ^ (64 - n) % 2 ^ 64

theorem steer_next {S n : Nat} (h0 : n ≠ 0) (hn : n ≤ 64) : 2 * steer S n % 2 ^ 64 = steer S (n - 1) := by
  unfold steer
  rw [Nat.mul_mod_mod]
  congr 1
  rw [show 64 - (n - 1) = 64 - n + 1 by omega, Nat.pow_succ]
  ring

theorem steer_bit {S n : Nat} (h0 : n ≠ 0) (hn : n ≤ 64) : steer S n / 2 ^ 63 % 2 = S / 2 ^ (n - 1) % 2 := by
  unfold steer
  have e : S * 2 ^ (64 - n) / 2 ^ 63 = S / 2 ^ (n - 1) := by
    rw [show (63 : Nat) = (n - 1) + (64 - n) by omega, Nat.pow_add, Nat.mul_div_mul_right _ _ (Nat.two_pow_pos _)]
  rw [← e]
  omega

/-- The child in which a size is. -/
theorem div_step {S n p : Nat} (h0 : n ≠ 0) (h : S / 2 ^ n = p) : S / 2 ^ (n - 1) = 2 * p + S / 2 ^ (n - 1) % 2 := by
  have := div_pow_pred h0 (rfl : S / 2 ^ (n - 1) = _)
  omega

theorem T.Trie.insert {sz : Nat → Nat} {x S : Nat} {t : T} {n p : Nat} (h : t.Trie sz n p) (hx : sz x = S)
    (hp : S / 2 ^ n = p) (hn : n ≤ 64) : (t.insert sz x S (steer S n)).Trie sz n p := by
  induction t generalizing n p with
  | nil => exact ⟨by rw [hx]; exact hp, by simp, by simp, trivial, trivial⟩
  | node a ring l r ihl ihr =>
    obtain ⟨h1, h2, h3, h4, h5⟩ := h
    unfold T.insert
    split
    · rename_i hne
      have hn0 : n ≠ 0 := by
        rintro rfl
        rw [Nat.pow_zero, Nat.div_one] at h1 hp
        omega
      rw [steer_bit hn0 hn, steer_next hn0 hn]
      have hd := div_step hn0 hp
      split
      · rename_i hb
        exact ⟨h1, h2, fun h => absurd h hn0, h4, ihr h5 (by omega) (by omega)⟩
      · rename_i hb
        exact ⟨h1, h2, fun h => absurd h hn0, ihl h4 (by omega) (by omega), h5⟩
    · rename_i he
      refine ⟨h1, ?_, h3, h4, h5⟩
      intro y hy
      rcases List.mem_cons.1 hy with rfl | hy
      · rw [hx]; omega
      · exact h2 y hy

theorem T.Trie.popLeaf {sz : Nat → Nat} {t : T} {n p a : Nat} {ring : List Nat} {t' : T} (h : t.Trie sz n p)
    (e : t.popLeaf = some ((a, ring), t')) : t'.Trie sz n p ∧ sz a / 2 ^ n = p ∧ ∀ x ∈ ring, sz x = sz a := by
  induction t generalizing n p t' with
  | nil => simp [T.popLeaf] at e
  | node b rg l r ihl ihr =>
    obtain ⟨h1, h2, h3, h4, h5⟩ := h
    simp only [T.popLeaf] at e
    cases hr : r.popLeaf with
    | some y =>
      obtain ⟨⟨a', ring'⟩, r'⟩ := y
      rw [hr] at e
      simp only [Option.some.injEq, Prod.mk.injEq] at e
      obtain ⟨⟨rfl, rfl⟩, rfl⟩ := e
      obtain ⟨k1, k2, k3⟩ := ihr h5 hr
      have hn0 : n ≠ 0 := by
        intro c; rw [(h3 c).2] at hr; simp [T.popLeaf] at hr
      exact ⟨⟨h1, h2, fun h => absurd h hn0, h4, k1⟩, by rw [div_pow_pred hn0 k2]; omega, k3⟩
    | none =>
      rw [hr] at e
      cases hl : l.popLeaf with
      | some y =>
        obtain ⟨⟨a', ring'⟩, l'⟩ := y
        rw [hl] at e
        simp only [Option.some.injEq, Prod.mk.injEq] at e
        obtain ⟨⟨rfl, rfl⟩, rfl⟩ := e
        obtain ⟨k1, k2, k3⟩ := ihl h4 hl
        have hn0 : n ≠ 0 := by
          intro c; rw [(h3 c).1] at hl; simp [T.popLeaf] at hl
        exact ⟨⟨h1, h2, fun h => absurd h hn0, k1, h5⟩, by rw [div_pow_pred hn0 k2]; omega, k3⟩
      | none =>
        rw [hl] at e
        simp only [Option.some.injEq, Prod.mk.injEq] at e
        obtain ⟨⟨rfl, rfl⟩, rfl⟩ := e
        exact ⟨trivial, h1, h2⟩

theorem T.Trie.dropRoot {sz : Nat → Nat} {a : Nat} {ring : List Nat} {l r : T} {n p : Nat} (h : (T.node a ring l r).Trie sz n p) :
    (T.dropRoot (.node a ring l r)).Trie sz n p := by
  obtain ⟨h1, h2, h3, h4, h5⟩ := h
  cases ring with
  | cons c ring =>
    simp only [T.dropRoot]
    have hl := h2 _ (List.getLast_mem (show c :: ring ≠ [] by simp))
    refine ⟨by rw [hl]; exact h1, ?_, h3, h4, h5⟩
    intro x hx; rw [hl]; exact h2 x (List.dropLast_subset _ hx)
  | nil =>
    simp only [T.dropRoot]
    cases hr : r.popLeaf with
    | some y =>
      obtain ⟨⟨b, ring⟩, r'⟩ := y
      have hn0 : n ≠ 0 := by
        intro c; rw [(h3 c).2] at hr; simp [T.popLeaf] at hr
      obtain ⟨k1, k2, k3⟩ := h5.popLeaf hr
      exact ⟨by rw [div_pow_pred hn0 k2]; omega, k3, fun h => absurd h hn0, h4, k1⟩
    | none =>
      cases hl : l.popLeaf with
      | some y =>
        obtain ⟨⟨b, ring⟩, l'⟩ := y
        have hn0 : n ≠ 0 := by
          intro c; rw [(h3 c).1] at hl; simp [T.popLeaf] at hl
        obtain ⟨k1, k2, k3⟩ := h4.popLeaf hl
        exact ⟨by rw [div_pow_pred hn0 k2]; omega, k3, fun h => absurd h hn0, k1, h5⟩
      | none => trivial

theorem T.remove_nil (x : Nat) : T.remove x .nil = .nil := rfl

theorem T.Trie.remove {sz : Nat → Nat} {t : T} {n p : Nat} (h : t.Trie sz n p) (x : Nat) : (t.remove x).Trie sz n p := by
  induction t generalizing n p with
  | nil => trivial
  | node a ring l r ihl ihr =>
    unfold T.remove
    split
    · exact h.dropRoot
    · obtain ⟨h1, h2, h3, h4, h5⟩ := h
      split
      · exact ⟨h1, fun y hy => h2 y (List.mem_of_mem_erase hy), h3, h4, h5⟩
      · refine ⟨h1, h2, ?_, ihl h4, ihr h5⟩
        intro c
        obtain ⟨rfl, rfl⟩ := h3 c
        exact ⟨rfl, rfl⟩

/-! ## The smallest chunk -/

/-- Along the leftmost children the smallest chunk is found. -/
theorem T.Trie.least {sz : Nat → Nat} {nb : Nat} {t : T} {n p : Nat} (h : t.Trie sz n p) (hs : ∀ x ∈ t.chunks, sz x < 2 ^ 64)
    (hb : ∀ x ∈ t.chunks, nb ≤ sz x) (v : Option Nat) (rs : Nat) :
    (t.least sz nb (v, rs)).2 ≤ rs ∧ ∀ x ∈ t.chunks, (t.least sz nb (v, rs)).2 ≤ sub64 (sz x) nb := by
  induction t generalizing n p v rs with
  | nil => exact ⟨Nat.le_refl _, by simp [T.chunks]⟩
  | node a ring l r ihl ihr =>
    obtain ⟨h1, h2, h3, h4, h5⟩ := h
    have hsl : ∀ x ∈ l.chunks, sz x < 2 ^ 64 := fun x hx => hs x (by simp [T.chunks, hx])
    have hsr : ∀ x ∈ r.chunks, sz x < 2 ^ 64 := fun x hx => hs x (by simp [T.chunks, hx])
    have hbl : ∀ x ∈ l.chunks, nb ≤ sz x := fun x hx => hb x (by simp [T.chunks, hx])
    have hbr : ∀ x ∈ r.chunks, nb ≤ sz x := fun x hx => hb x (by simp [T.chunks, hx])
    have key : ∀ V : Option Nat × Nat, V = (if sub64 (sz a) nb < rs then (some a, sub64 (sz a) nb) else (v, rs)) →
        V.2 ≤ rs ∧ V.2 ≤ sub64 (sz a) nb := by
      intro V e
      by_cases c : sub64 (sz a) nb < rs
      · rw [if_pos c] at e; subst e; exact ⟨by dsimp only; omega, Nat.le_refl _⟩
      · rw [if_neg c] at e; subst e; exact ⟨Nat.le_refl _, by dsimp only; omega⟩
    unfold T.least
    generalize hV : (if sub64 (sz a) nb < rs then (some a, sub64 (sz a) nb) else (v, rs)) = V
    obtain ⟨k1, k2⟩ := key V hV.symm
    obtain ⟨v', rs'⟩ := V
    dsimp only at k1 k2
    have mono : ∀ {y z : Nat}, nb ≤ y → y ≤ z → z < 2 ^ 64 → sub64 y nb ≤ sub64 z nb := by
      intro y z e1 e2 e3; unfold sub64; omega
    have split : ∀ x ∈ (T.node a ring l r).chunks, sz x = sz a ∨ x ∈ l.chunks ∨ x ∈ r.chunks := by
      intro x hx
      simp only [T.chunks, List.mem_cons, List.mem_append] at hx
      rcases hx with rfl | hx | hx | hx
      · exact .inl rfl
      · exact .inl (h2 x hx)
      · exact .inr (.inl hx)
      · exact .inr (.inr hx)
    cases l with
    | nil =>
      obtain ⟨i1, i2⟩ := ihr h5 hsr hbr v' rs'
      simp only []
      refine ⟨by omega, fun x hx => ?_⟩
      rcases split x hx with c | c | c
      · rw [c]; omega
      · simp [T.chunks] at c
      · exact i2 x c
    | node b ring' l' r' =>
      obtain ⟨i1, i2⟩ := ihl h4 hsl hbl v' rs'
      simp only []
      refine ⟨by omega, fun x hx => ?_⟩
      rcases split x hx with c | c | c
      · rw [c]; omega
      · exact i2 x c
      · have hn0 : n ≠ 0 := by intro c; have := (h3 c).1; cases this
        have e1 := h5.all x c
        have e2 := h4.all b (by simp [T.chunks])
        have hlt : sz b < sz x := by
          by_contra hc
          have := Nat.div_le_div_right (c := 2 ^ (n - 1)) (show sz x ≤ sz b by omega)
          omega
        exact Nat.le_trans (i2 b (by simp [T.chunks])) (mono (hbl b (by simp [T.chunks])) (by omega) (hsr x c))

/-- The descent loses no chunk that could be the best. -/
theorem T.Trie.search {sz : Nat → Nat} {nb : Nat} {t : T} {n p : Nat} (h : t.Trie sz n p) (hp : nb / 2 ^ n = p) (hn : n ≤ 64)
    (hs : ∀ x ∈ t.chunks, sz x < 2 ^ 64) (rst : T) (v : Option Nat) (rs : Nat) {n1 p1 : Nat} (hr : rst.Trie sz n1 p1)
    (hrs : ∀ x ∈ rst.chunks, sz x < 2 ^ 64) (hgt : ∀ x ∈ rst.chunks, p < sz x / 2 ^ n) :
    ∃ rst' v' rs', t.search sz nb (steer nb n) rst (v, rs) = (rst', v', rs') ∧ rs' ≤ rs ∧
      ((∃ n1 p1, rst'.Trie sz n1 p1 ∧ ∀ x ∈ rst'.chunks, nb ≤ sz x) ∨ rs' = 0) ∧
      ∀ x, nb ≤ sz x → x ∈ t.chunks ∨ x ∈ rst.chunks → rs' ≤ sub64 (sz x) nb ∨ ∃ y ∈ rst'.chunks, sub64 (sz y) nb ≤ sub64 (sz x) nb := by
  have mono : ∀ {y z : Nat}, nb ≤ y → y ≤ z → z < 2 ^ 64 → sub64 y nb ≤ sub64 z nb := by
    intro y z e1 e2 e3; unfold sub64; omega
  induction t generalizing n p rst v rs n1 p1 with
  | nil =>
    refine ⟨rst, v, rs, rfl, Nat.le_refl _, .inl ⟨n1, p1, hr, fun x hx => ?_⟩, fun x _ hx => ?_⟩
    · by_contra hc
      have := Nat.div_le_div_right (c := 2 ^ n) (show sz x ≤ nb by omega)
      have := hgt x hx
      omega
    · rcases hx with hx | hx
      · simp [T.chunks] at hx
      · exact .inr ⟨x, hx, Nat.le_refl _⟩
  | node a ring l r ihl ihr =>
    obtain ⟨h1, h2, h3, h4, h5⟩ := h
    have hsl : ∀ x ∈ l.chunks, sz x < 2 ^ 64 := fun x hx => hs x (by simp [T.chunks, hx])
    have hsr : ∀ x ∈ r.chunks, sz x < 2 ^ 64 := fun x hx => hs x (by simp [T.chunks, hx])
    have split : ∀ x ∈ (T.node a ring l r).chunks, sz x = sz a ∨ x ∈ l.chunks ∨ x ∈ r.chunks := by
      intro x hx
      simp only [T.chunks, List.mem_cons, List.mem_append] at hx
      rcases hx with rfl | hx | hx | hx
      · exact .inl rfl
      · exact .inl (h2 x hx)
      · exact .inr (.inl hx)
      · exact .inr (.inr hx)
    unfold T.search
    by_cases c0 : sub64 (sz a) nb < rs ∧ sub64 (sz a) nb = 0
    · simp only [if_pos c0]
      exact ⟨_, _, _, rfl, by omega, .inr rfl, fun x _ _ => .inl (Nat.zero_le _)⟩
    · simp only [if_neg c0]
      have key : ∀ V : Option Nat × Nat, V = (if sub64 (sz a) nb < rs then (some a, sub64 (sz a) nb) else (v, rs)) →
          V.2 ≤ rs ∧ V.2 ≤ sub64 (sz a) nb := by
        intro V e
        by_cases c : sub64 (sz a) nb < rs
        · rw [if_pos c] at e; subst e; exact ⟨by dsimp only; omega, Nat.le_refl _⟩
        · rw [if_neg c] at e; subst e; exact ⟨Nat.le_refl _, by dsimp only; omega⟩
      generalize hV : (if sub64 (sz a) nb < rs then (some a, sub64 (sz a) nb) else (v, rs)) = V
      obtain ⟨k1, k2⟩ := key V hV.symm
      obtain ⟨v', rs'⟩ := V
      dsimp only at k1 k2
      by_cases hn0 : n = 0
      · -- no bits are left: the chunks all have the size `nb`
        obtain ⟨rfl, rfl⟩ := h3 hn0
        subst hn0
        rw [Nat.pow_zero, Nat.div_one] at h1 hp
        have e0 : sub64 (sz a) nb = 0 := by
          have := hs a (by simp [T.chunks])
          unfold sub64; omega
        have rs0 : rs' = 0 := by omega
        have nilS : ∀ k rst, T.search sz nb .nil k rst (v', rs') = (rst, v', rs') := fun _ _ => rfl
        simp only [nilS]
        split
        · exact ⟨_, _, _, rfl, k1, .inr rs0, fun x _ _ => .inl (by omega)⟩
        · exact ⟨_, _, _, rfl, k1, .inr rs0, fun x _ _ => .inl (by omega)⟩
      · rw [steer_bit hn0 hn, steer_next hn0 hn]
        have hd := div_step hn0 hp
        have up : ∀ x, p < sz x / 2 ^ n → 2 * p + 1 < sz x / 2 ^ (n - 1) := by
          intro x hx
          have := div_pow_pred hn0 (rfl : sz x / 2 ^ (n - 1) = _)
          omega
        by_cases hb : nb / 2 ^ (n - 1) % 2 = 1
        · rw [if_pos hb]
          obtain ⟨rst', v2, rs2, e1, e2, e3, e4⟩ := ihr h5 (by omega) (by omega) hsr rst v' rs' hr hrs
            (fun x hx => up x (hgt x hx))
          refine ⟨rst', v2, rs2, e1, by omega, e3, fun x hfit hx => ?_⟩
          rcases hx with hx | hx
          · rcases split x hx with c | c | c
            · left; rw [c]; omega
            · -- the left child is too small
              exfalso
              have e := h4.all x c
              have := Nat.div_le_div_right (c := 2 ^ (n - 1)) hfit
              omega
            · exact e4 x hfit (.inl c)
          · exact e4 x hfit (.inr hx)
        · rw [if_neg hb]
          -- in the right child all are large enough, and smaller than those seen before
          have big : ∀ x ∈ r.chunks, nb < sz x := by
            intro x hx
            by_contra hc
            have := Nat.div_le_div_right (c := 2 ^ (n - 1)) (show sz x ≤ nb by omega)
            have := h5.all x hx
            omega
          have run : ∀ {R : T} {n2 p2 : Nat}, R.Trie sz n2 p2 → (∀ x ∈ R.chunks, sz x < 2 ^ 64) →
              (∀ x ∈ R.chunks, 2 * p < sz x / 2 ^ (n - 1)) →
              (∀ x, x ∈ r.chunks ∨ x ∈ rst.chunks → ∃ y ∈ R.chunks, sub64 (sz y) nb ≤ sub64 (sz x) nb) →
              ∃ rst' v2 rs2, l.search sz nb (steer nb (n - 1)) R (v', rs') = (rst', v2, rs2) ∧ rs2 ≤ rs ∧
                ((∃ n1 p1, rst'.Trie sz n1 p1 ∧ ∀ x ∈ rst'.chunks, nb ≤ sz x) ∨ rs2 = 0) ∧
                ∀ x, nb ≤ sz x → x ∈ (T.node a ring l r).chunks ∨ x ∈ rst.chunks →
                  rs2 ≤ sub64 (sz x) nb ∨ ∃ y ∈ rst'.chunks, sub64 (sz y) nb ≤ sub64 (sz x) nb := by
            intro R n2 p2 hR hRs hRgt hcov
            obtain ⟨rst', v2, rs2, e1, e2, e3, e4⟩ := ihl h4 (by omega) (by omega) hsl R v' rs' hR hRs hRgt
            refine ⟨rst', v2, rs2, e1, by omega, e3, fun x hfit hx => ?_⟩
            have viaR : ∀ x, x ∈ r.chunks ∨ x ∈ rst.chunks → rs2 ≤ sub64 (sz x) nb ∨ ∃ y ∈ rst'.chunks, sub64 (sz y) nb ≤ sub64 (sz x) nb := by
              intro x hx
              obtain ⟨y, hy, hle⟩ := hcov x hx
              have hfy : nb ≤ sz y := by
                by_contra hc
                have := Nat.div_le_div_right (c := 2 ^ (n - 1)) (show sz y ≤ nb by omega)
                have := hRgt y hy
                omega
              rcases e4 y hfy (.inr hy) with c | ⟨w, hw, c⟩
              · exact .inl (by omega)
              · exact .inr ⟨w, hw, by omega⟩
            rcases hx with hx | hx
            · rcases split x hx with c | c | c
              · left; rw [c]; omega
              · exact e4 x hfit (.inl c)
              · exact viaR x (.inl c)
            · exact viaR x (.inr hx)
          cases hrc : r with
          | nil =>
            rw [hrc] at run
            rw [if_neg (by simp)]
            refine run hr hrs (fun x hx => ?_) (fun x hx => ?_)
            · have := up x (hgt x hx); omega
            · rcases hx with hx | hx
              · simp [T.chunks] at hx
              · exact ⟨x, hx, Nat.le_refl _⟩
          | node b ring' l' r' =>
            rw [← hrc]
            have hbm : b ∈ r.chunks := by rw [hrc]; simp [T.chunks]
            rw [if_pos (by rw [hrc]; simp)]
            refine run h5 hsr (fun x hx => ?_) (fun x hx => ?_)
            · have := h5.all x hx; omega
            · rcases hx with hx | hx
              · exact ⟨x, hx, Nat.le_refl _⟩
              · refine ⟨b, hbm, mono (by have := big b hbm; omega) ?_ (hrs x hx)⟩
                have e1 := h5.all b hbm
                have e2 := up x (hgt x hx)
                by_contra hc
                have := Nat.div_le_div_right (c := 2 ^ (n - 1)) (show sz x ≤ sz b by omega)
                omega

/-! ## The bins of the trees -/

/-- How many bits decide in a bin, and those above them. -/
def tbits (i : Nat) : Nat := if i = 31 then 64 else i / 2 + 7
def tpre (i : Nat) : Nat := if i = 31 then 0 else 2 + i % 2

theorem treeIndex_cases {S : Nat} (h : 256 ≤ S) : (2 ^ 24 ≤ S ∧ treeIndex S = 31) ∨
    ∃ K, K < 16 ∧ 2 ^ (K + 8) ≤ S ∧ S < 2 ^ (K + 9) ∧ S / 2 ^ (K + 7) = 2 + S / 2 ^ (K + 7) % 2 ∧
      treeIndex S = 2 * K + S / 2 ^ (K + 7) % 2 := by
  rw [treeIndex_eq, if_neg (by omega)]
  by_cases c : 0xffff < S / 2 ^ 8
  · rw [if_pos c]; exact .inl ⟨by omega, rfl⟩
  · rw [if_neg c]
    obtain ⟨l1, l2, l3⟩ := logX_spec (X := S / 2 ^ 8) (by omega) (by omega)
    generalize logX (S / 2 ^ 8) = K at *
    have a1 : 2 ^ (K + 8) ≤ S := by
      rw [Nat.pow_add]
      exact Nat.le_trans (Nat.mul_le_mul_right _ l1) (Nat.div_mul_le_self _ _)
    have a2 : S < 2 ^ (K + 9) := by
      rw [show K + 9 = K + 1 + 8 by omega, Nat.pow_add]
      exact (Nat.div_lt_iff_lt_mul (by decide)).1 l2
    have b1 : 2 ≤ S / 2 ^ (K + 7) := by
      rw [Nat.le_div_iff_mul_le (Nat.two_pow_pos _)]
      rw [show K + 8 = K + 7 + 1 by omega, Nat.pow_succ] at a1
      omega
    have b2 : S / 2 ^ (K + 7) < 4 := by
      rw [Nat.div_lt_iff_lt_mul (Nat.two_pow_pos _)]
      rw [show K + 9 = K + 7 + 2 by omega, Nat.pow_add] at a2
      omega
    refine .inr ⟨K, l3, a1, a2, by omega, ?_⟩
    rw [Nat.and_one_is_mod, Nat.shiftRight_eq_div_pow]

theorem treeIndex_pre {S : Nat} (h : 256 ≤ S) (h64 : S < 2 ^ 64) : S / 2 ^ tbits (treeIndex S) = tpre (treeIndex S) := by
  unfold tbits tpre
  by_cases c : treeIndex S = 31
  · rw [if_pos c, if_pos c]; exact Nat.div_eq_of_lt h64
  · rw [if_neg c, if_neg c]
    rcases treeIndex_cases h with ⟨_, e⟩ | ⟨K, hK, _, _, e1, e2⟩
    · exact absurd e c
    · rw [e2]
      have : S / 2 ^ (K + 7) % 2 < 2 := Nat.mod_lt _ (by decide)
      rw [show (2 * K + S / 2 ^ (K + 7) % 2) / 2 = K by omega, show (2 * K + S / 2 ^ (K + 7) % 2) % 2 = S / 2 ^ (K + 7) % 2 by omega]
      exact e1

theorem tbits_le {i : Nat} (h : i < 32) : tbits i ≤ 64 := by unfold tbits; split <;> omega

theorem steer_eq {S i : Nat} (h : i < 32) : S <<< leftshift i % 2 ^ 64 = steer S (tbits i) := by
  unfold steer leftshift tbits
  rw [Nat.shiftLeft_eq]
  congr 3
  split <;> omega

/-- Larger chunks are in later bins. -/
theorem treeIndex_mono {S S' : Nat} (h : 256 ≤ S) (hle : S ≤ S') : treeIndex S ≤ treeIndex S' := by
  rcases treeIndex_cases (show 256 ≤ S' by omega) with ⟨_, e⟩ | ⟨K', hK', p1, p2, p3, p4⟩
  · rw [e]; have := treeIndex_lt S; omega
  · rcases treeIndex_cases h with ⟨h1, e⟩ | ⟨K, hK, q1, q2, q3, q4⟩
    · have : (2 : Nat) ^ (K' + 9) ≤ 2 ^ 24 := Nat.pow_le_pow_right (by decide) (by omega)
      omega
    · have hKK : K ≤ K' := by
        by_contra hc
        have : (2 : Nat) ^ (K' + 9) ≤ 2 ^ (K + 8) := Nat.pow_le_pow_right (by decide) (by omega)
        omega
      by_cases e : K = K'
      · subst e
        have := Nat.div_le_div_right (c := 2 ^ (K + 7)) hle
        omega
      · omega

theorem T.insert_congr {sz sz' : Nat → Nat} {x S : Nat} {t : T} (k : Nat) (h : ∀ y ∈ t.chunks, sz y = sz' y) :
    t.insert sz x S k = t.insert sz' x S k := by
  induction t generalizing k with
  | nil => rfl
  | node a ring l r ihl ihr =>
    unfold T.insert
    rw [h a (by simp [T.chunks]), ihl _ (fun y hy => h y (by simp [T.chunks, hy])), ihr _ (fun y hy => h y (by simp [T.chunks, hy]))]

end Verif.Dl
