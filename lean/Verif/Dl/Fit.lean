import Verif.Dl.Top

/-
Which chunk is used.
-/
namespace Verif.Dl
open Verif

section
variable {P : Nat} {s : Hp} {A : Chunks}

theorem T.least_le (sz : Nat → Nat) (nb : Nat) (t : T) (v : Option Nat) (rs : Nat) : (t.least sz nb (v, rs)).2 ≤ rs := by
  rcases T.least_spec sz nb t v rs with h | ⟨b, _, h, hl⟩
  · rw [h]
  · rw [h]; exact Nat.le_of_lt hl

theorem Inv.trie (i : Inv P s A) (j : Nat) : (s.tree j).Trie (fun a => chunksize (s.mem (a + 8))) (tbits j) (tpre j) := by
  refine (i.bins.trie j).congr (fun x hx => ?_)
  obtain ⟨z, h1, _, _, h2⟩ := i.of_tree hx
  rw [h2, binF_some.2 h1]; rfl

theorem Inv.in_tree (i : Inv P s A) {p z : Nat} (h : A p = some (z, .free)) (hz : 256 ≤ z) :
    p ∈ (s.tree (treeIndex z)).chunks := i.bins.tmem.2 ⟨z, binF_some.2 h, isSmall_not.2 hz, rfl⟩

theorem Inv.in_small (i : Inv P s A) {p z : Nat} (h : A p = some (z, .free)) (hz : z < 256) :
    p ∈ s.small (z / 8) := i.bins.smem.2 ⟨z, binF_some.2 h, isSmall_iff.2 hz, rfl⟩

theorem lt_of_treeIndex {z w : Nat} (hw : 256 ≤ w) (h : treeIndex z < treeIndex w) : z < w := by
  by_contra hc
  have := treeIndex_mono hw (show w ≤ z by omega)
  omega

/-- The smallest chunk of a tree. -/
theorem Inv.leastTree (i : Inv P s A) {j nb : Nat} (v : Option Nat) (rs : Nat) (hb : ∀ x z, A x = some (z, .free) → 256 ≤ z → treeIndex z = j → nb ≤ z) :
    ∀ x z, A x = some (z, .free) → 256 ≤ z → treeIndex z = j →
      ((s.tree j).least (fun a => chunksize (s.mem (a + 8))) nb (v, rs)).2 ≤ z - nb := by
  intro x z hx hz hj
  have L := (i.trie j).least (nb := nb) (fun y hy => by
      obtain ⟨w, h1, _, _, h2⟩ := i.of_tree hy
      have := i.lt64 h1
      rw [h2]; omega) (fun y hy => by
      obtain ⟨w, h1, h2, h3, h4⟩ := i.of_tree hy
      rw [h4]; exact hb y w h1 h2 h3) v rs
  have hm := i.in_tree hx hz
  rw [hj] at hm
  have := L.2 x hm
  rw [(i.tags.ok hx).size] at this
  have h64 := i.lt64 hx
  rw [sub64_eq (hb x z hx hz hj) (by omega)] at this
  exact this

/-- The first tree behind a bin has the smallest chunks there. -/
theorem Inv.nextTree (i : Inv P s A) {nb : Nat} (h256 : 256 ≤ nb) (v : Option Nat) (rs : Nat) {p w : Nat} (hp : A p = some (w, .free))
    (hw : nb ≤ w) (hne : treeIndex w ≠ treeIndex nb) :
    ((if leftBits (1 <<< treeIndex nb) &&& s.treemap ≠ 0 then
      s.tree (bit2idx (leastBit (leftBits (1 <<< treeIndex nb) &&& s.treemap))) else .nil).least
        (fun a => chunksize (s.mem (a + 8))) nb (v, rs)).2 ≤ w - nb := by
  have hmono := treeIndex_mono h256 hw
  have hpm := i.in_tree hp (by omega)
  have hbit : s.treemap.testBit (treeIndex w) = true := by
    rw [i.bins.tbit]; intro c; rw [c] at hpm; simp [T.chunks] at hpm
  have hbits : ∀ j, j < 32 → ((leftBits (1 <<< treeIndex nb) &&& s.treemap).testBit j = true ↔ treeIndex nb < j ∧ s.treemap.testBit j = true) := by
    intro j hj
    rw [Nat.testBit_and, Bool.and_eq_true, leftBits_spec _ (treeIndex_lt nb) j hj]
  have hb1 := (hbits _ (treeIndex_lt w)).2 ⟨by omega, hbit⟩
  have hB : leftBits (1 <<< treeIndex nb) &&& s.treemap ≠ 0 := by
    intro c; rw [c, Nat.zero_testBit] at hb1; cases hb1
  rw [if_pos hB]
  obtain ⟨l1, l2, l3⟩ := lowest hB (Nat.lt_of_le_of_lt Nat.and_le_left (leftBits_lt _))
  generalize bit2idx (leastBit (leftBits (1 <<< treeIndex nb) &&& s.treemap)) = j at l1 l2 l3 ⊢
  have hj := (hbits j l2).1 l1
  have hle : j ≤ treeIndex w := by
    by_contra hc
    rw [l3 _ (by omega)] at hb1; cases hb1
  have hbig : ∀ x z, A x = some (z, .free) → 256 ≤ z → treeIndex z = j → nb ≤ z := by
    intro x z _ hz hx
    have := lt_of_treeIndex hz (show treeIndex nb < treeIndex z by omega)
    omega
  by_cases c : treeIndex w = j
  · exact i.leastTree v rs hbig p w hp (by omega) c
  · -- a chunk of an earlier bin is smaller still
    have hne := (i.bins.tbit j).1 hj.2
    obtain ⟨x, hx⟩ : ∃ x, x ∈ (s.tree j).chunks := by
      cases e : s.tree j with
      | nil => exact absurd e hne
      | node a ring l r => exact ⟨a, by simp [T.chunks]⟩
    obtain ⟨z, g1, g2, g3, _⟩ := i.of_tree hx
    have := i.leastTree v rs hbig x z g1 g2 g3
    have := lt_of_treeIndex (z := z) (show 256 ≤ w by omega) (by omega)
    omega

theorem chooseLarge_eq (s : Hp) (nb : Nat) {t : T} {v : Option Nat} {rs : Nat}
    (e : (s.tree (treeIndex nb)).search (fun a => chunksize (s.mem (a + 8))) nb (nb <<< leftshift (treeIndex nb) % 2 ^ 64) .nil
      (none, sub64 0 nb) = (t, v, rs)) :
    chooseLarge s nb = (if t = .nil ∧ v = none then
        (if leftBits (1 <<< treeIndex nb) &&& s.treemap ≠ 0 then
          s.tree (bit2idx (leastBit (leftBits (1 <<< treeIndex nb) &&& s.treemap))) else .nil) else t).least
        (fun a => chunksize (s.mem (a + 8))) nb (v, rs) := by
  unfold chooseLarge
  simp only []
  cases h : s.tree (treeIndex nb) with
  | nil => rw [h] at e; cases e; simp only []
  | node a ring l r => rw [h] at e; simp only []; rw [e]

theorem T.least_node (sz : Nat → Nat) (nb a : Nat) (ring : List Nat) (l r : T) (v : Option Nat) (rs : Nat) :
    (T.node a ring l r).least sz nb (v, rs) =
      (if l = .nil then r else l).least sz nb (if sub64 (sz a) nb < rs then (some a, sub64 (sz a) nb) else (v, rs)) := by
  conv => lhs; unfold T.least
  generalize (if sub64 (sz a) nb < rs then (some a, sub64 (sz a) nb) else (v, rs)) = V
  cases l with
  | nil => rw [if_pos rfl]
  | node b g x y => rw [if_neg (by simp)]

theorem sub64_lt (x y : Nat) : sub64 x y < 2 ^ 64 := by unfold sub64; omega

theorem chooseSmall_eq (s : Hp) (nb : Nat) (h : s.tree (bit2idx (leastBit s.treemap)) ≠ .nil) {big : Nat} (hb : ∀ x y, sub64 x y < big) :
    chooseSmall s nb = (s.tree (bit2idx (leastBit s.treemap))).least (fun a => chunksize (s.mem (a + 8))) nb (none, big) := by
  unfold chooseSmall
  cases e : s.tree (bit2idx (leastBit s.treemap)) with
  | nil => exact absurd e h
  | node a ring l r =>
    rw [T.least_node, if_pos (hb (chunksize (s.mem (a + 8))) nb)]

/-- `tmalloc_large` finds the best chunk of the trees. -/
theorem Inv.chooseLarge_best (i : Inv P s A) {nb : Nat} (hn : nb < 2 ^ 64) (h256 : 256 ≤ nb) {p w : Nat} (hp : A p = some (w, .free))
    (hw : nb ≤ w) : (Dl.chooseLarge s nb).2 ≤ w - nb := by
  have w64 := i.lt64 hp
  have next := fun v rs => i.nextTree h256 v rs hp hw
  have hmono := treeIndex_mono h256 hw
  have none64 : w - nb < sub64 0 nb := by unfold sub64; omega
  have sp := T.search_spec (fun a => chunksize (s.mem (a + 8))) nb (s.tree (treeIndex nb))
    (steer nb (tbits (treeIndex nb))) .nil none (sub64 0 nb)
  obtain ⟨t, v, rs, e1, e2, e3, e4⟩ := (i.trie (treeIndex nb)).search (nb := nb) (treeIndex_pre h256 hn) (tbits_le (treeIndex_lt nb))
    (fun x hx => by
      obtain ⟨z, h1, _, _, h2⟩ := i.of_tree hx
      have := i.lt64 h1
      rw [h2]; omega) .nil none (sub64 0 nb) (n1 := 0) (p1 := 0) trivial (by simp [T.chunks]) (by simp [T.chunks])
  rw [e1] at sp
  rw [chooseLarge_eq s nb (t := t) (v := v) (rs := rs) (by rw [steer_eq (treeIndex_lt nb)]; exact e1)]
  have inT : ∀ x ∈ t.chunks, x ∈ (s.tree (treeIndex nb)).chunks := by
    intro x hx
    rcases sp.2 x hx with h | h
    · exact h
    · simp [T.chunks] at h
  have hv : (v = none ∧ rs = sub64 0 nb) ∨ ∃ a ∈ (s.tree (treeIndex nb)).chunks, v = some a ∧
      rs = sub64 (chunksize (s.mem (a + 8))) nb ∧ rs < sub64 0 nb := by
    rcases sp.1 with h | ⟨b, hb, h, hl⟩
    · simp only [Prod.mk.injEq] at h; exact .inl h
    · simp only [Prod.mk.injEq] at h
      exact .inr ⟨b, hb, h.1, h.2, by rw [h.2]; exact hl⟩
  -- the result of the second loop, on the tree of the first
  have second : ∀ x ∈ t.chunks, rs ≠ 0 → (t.least (fun a => chunksize (s.mem (a + 8))) nb (v, rs)).2 ≤ sub64 (chunksize (s.mem (x + 8))) nb := by
    intro x hx h0
    rcases e3 with ⟨n1, p1, g1, g2⟩ | h
    · exact (g1.least (nb := nb) (fun y hy => by
        obtain ⟨z, h1, _, _, h2⟩ := i.of_tree (inT y hy)
        have := i.lt64 h1
        rw [h2]; omega) g2 v rs).2 x hx
    · exact absurd h h0
  have hle := T.least_le (fun a => chunksize (s.mem (a + 8))) nb t v rs
  by_cases c : treeIndex w = treeIndex nb
  · have hpm := i.in_tree hp (by omega)
    rw [c] at hpm
    have hsz : chunksize (s.mem (p + 8)) = w := (i.tags.ok hp).size
    have hb := e4 p (by rw [hsz]; exact hw) (.inl hpm)
    rw [hsz, sub64_eq hw (by omega)] at hb
    have hsome : ¬ (t = .nil ∧ v = none) := by
      rintro ⟨rfl, rfl⟩
      rcases hv with ⟨_, h⟩ | ⟨_, _, h, _⟩
      · rcases hb with h' | ⟨y, hy, _⟩
        · omega
        · simp [T.chunks] at hy
      · cases h
    rw [if_neg hsome]
    rcases hb with h | ⟨y, hy, h⟩
    · omega
    · by_cases h0 : rs = 0
      · omega
      · have := second y hy h0; omega
  · by_cases hsome : t = .nil ∧ v = none
    · rw [if_pos hsome]; exact next _ _ c
    · rw [if_neg hsome]
      -- all that is found in the bin is smaller
      rcases hv with ⟨h1, h2⟩ | ⟨a, ha, h1, h2, h3⟩
      · obtain ⟨x, hx⟩ : ∃ x, x ∈ t.chunks := by
          cases e : t with
          | nil => exact absurd ⟨e, h1⟩ hsome
          | node a ring l r => exact ⟨a, by simp [T.chunks]⟩
        have h0 : rs ≠ 0 := by omega
        obtain ⟨z, g1, g2, g3, g4⟩ := i.of_tree (inT x hx)
        have := second x hx h0
        have hnz : nb ≤ z := by
          rcases e3 with ⟨_, _, _, k⟩ | h
          · have := k x hx; rw [g4] at this; exact this
          · exact absurd h h0
        have z64 := i.lt64 g1
        rw [g4, sub64_eq hnz (by omega)] at this
        have := lt_of_treeIndex (z := z) (show 256 ≤ w by omega) (by omega)
        omega
      · obtain ⟨z, g1, g2, g3, g4⟩ := i.of_tree ha
        have z64 := i.lt64 g1
        rw [g4] at h2
        rw [h2] at h3
        obtain ⟨k1, k2⟩ := sub64_fits (by omega) hn (by omega) h3
        have := lt_of_treeIndex (z := z) (show 256 ≤ w by omega) (by omega)
        omega

/-- `tmalloc_small` finds the smallest chunk of the trees. -/
theorem Inv.chooseSmall_best (i : Inv P s A) {nb : Nat} (hn : nb ≤ 248) {p w : Nat} (hp : A p = some (w, .free))
    (hw : 256 ≤ w) : (Dl.chooseSmall s nb).2 ≤ w - nb := by
  have hpm := i.in_tree hp hw
  have hbit : s.treemap.testBit (treeIndex w) = true := by
    rw [i.bins.tbit]; intro c; rw [c] at hpm; simp [T.chunks] at hpm
  have h0 : s.treemap ≠ 0 := by intro c; rw [c, Nat.zero_testBit] at hbit; cases hbit
  obtain ⟨l1, l2, l3⟩ := lowest h0 i.treemap_lt
  have hne := (i.bins.tbit _).1 l1
  obtain ⟨big, hbg⟩ : ∃ big, ∀ x y, sub64 x y < big := ⟨_, sub64_lt⟩
  rw [chooseSmall_eq s nb hne hbg]
  generalize bit2idx (leastBit s.treemap) = j at l1 l2 l3 hne ⊢
  have hle : j ≤ treeIndex w := by
    by_contra hc
    rw [l3 _ (by omega)] at hbit; cases hbit
  have hbig : ∀ x z, A x = some (z, .free) → 256 ≤ z → treeIndex z = j → nb ≤ z := by intro x z _ hz _; omega
  by_cases c : treeIndex w = j
  · exact i.leastTree _ _ hbig p w hp hw c
  · obtain ⟨x, hx⟩ : ∃ x, x ∈ (s.tree j).chunks := by
      cases e : s.tree j with
      | nil => exact absurd e hne
      | node a ring l r => exact ⟨a, by simp [T.chunks]⟩
    obtain ⟨z, g1, g2, g3, _⟩ := i.of_tree hx
    have := i.leastTree none big hbig x z g1 g2 g3
    have := lt_of_treeIndex (z := z) hw (by omega)
    omega

theorem chooseLarge_none {nb rs : Nat} (h : Dl.chooseLarge s nb = (none, rs)) : rs = sub64 0 nb := by
  cases e : (s.tree (treeIndex nb)).search (fun a => chunksize (s.mem (a + 8))) nb (nb <<< leftshift (treeIndex nb) % 2 ^ 64) .nil
      (none, sub64 0 nb) with
  | mk t x =>
    obtain ⟨v, rs0⟩ := x
    rw [chooseLarge_eq s nb e] at h
    have sp := (T.search_spec (fun a => chunksize (s.mem (a + 8))) nb (s.tree (treeIndex nb))
      (nb <<< leftshift (treeIndex nb) % 2 ^ 64) .nil none (sub64 0 nb)).1
    rw [e] at sp
    generalize (if t = .nil ∧ v = none then
        (if leftBits (1 <<< treeIndex nb) &&& s.treemap ≠ 0 then
          s.tree (bit2idx (leastBit (leftBits (1 <<< treeIndex nb) &&& s.treemap))) else .nil) else t) = U at h
    rcases T.least_spec (fun a => chunksize (s.mem (a + 8))) nb U v rs0 with k | ⟨b, _, k, _⟩
    · rw [k] at h
      cases h
      rcases sp with g | ⟨b, _, g, _⟩
      · simp only [Prod.mk.injEq, true_and] at g; exact g
      · simp at g
    · rw [k] at h; simp at h

/-! ## Which address is returned -/

theorem bind_ok {α β : Type} {r : R α} {f : α → R β} {y : β} (h : r.bind f = .ok y) : ∃ x, r = .ok x ∧ f x = .ok y := by
  cases r with
  | error e => cases h
  | ok x => exact ⟨x, rfl, h⟩

theorem exactSmall_at {s s' : Hp} {j m : Nat} (h : exactSmall s j = .ok (m, s')) : ∃ p ∈ s.small j, m = p + 16 := by
  unfold exactSmall at h
  cases e : s.small j with
  | nil => rw [e] at h; cases h
  | cons p l =>
    rw [e] at h
    obtain ⟨s1, _, h2⟩ := bind_ok h
    cases h2
    exact ⟨p, by simp, rfl⟩

theorem nextSmall_at {s s' : Hp} {nb j m : Nat} (h : nextSmall s nb j = .ok (m, s')) : ∃ p ∈ s.small j, m = p + 16 := by
  unfold nextSmall at h
  cases e : s.small j with
  | nil => rw [e] at h; cases h
  | cons p l =>
    rw [e] at h
    simp only [] at h
    split at h
    · obtain ⟨s1, _, h2⟩ := bind_ok h
      cases h2
      exact ⟨p, by simp, rfl⟩
    · obtain ⟨s1, _, h2⟩ := bind_ok h
      obtain ⟨s2, _, h3⟩ := bind_ok h2
      cases h3
      exact ⟨p, by simp, rfl⟩

theorem tmallocSmall_at {s s' : Hp} {nb m : Nat} (h : tmallocSmall s nb = .ok (m, s')) :
    ∃ v rs, chooseSmall s nb = (some v, rs) ∧ m = v + 16 := by
  unfold tmallocSmall at h
  generalize chooseSmall s nb = X at h
  obtain ⟨v, rs⟩ := X
  cases v with
  | none => cases h
  | some v =>
    refine ⟨v, rs, rfl, ?_⟩
    simp only [] at h
    split at h
    · obtain ⟨x, _, h2⟩ := bind_ok h
      split at h2
      · obtain ⟨s1, _, h3⟩ := bind_ok h2
        cases h3; rfl
      · obtain ⟨s1, _, h3⟩ := bind_ok h2
        obtain ⟨s2, _, h4⟩ := bind_ok h3
        cases h4; rfl
    · cases h

theorem tmallocLarge_at {s s' : Hp} {nb m : Nat} (h : tmallocLarge s nb = .ok (some m, s')) :
    ∃ v rs, chooseLarge s nb = (some v, rs) ∧ m = v + 16 ∧ rs < sub64 s.dvsize nb := by
  unfold tmallocLarge at h
  generalize chooseLarge s nb = X at h
  obtain ⟨v, rs⟩ := X
  cases v with
  | none => cases h
  | some v =>
    simp only [] at h
    split at h
    · rename_i hlt
      refine ⟨v, rs, rfl, ?_, hlt⟩
      split at h
      · obtain ⟨x, _, h2⟩ := bind_ok h
        split at h2
        · obtain ⟨s1, _, h3⟩ := bind_ok h2
          cases h3; rfl
        · obtain ⟨s1, _, h3⟩ := bind_ok h2
          obtain ⟨s2, _, h4⟩ := bind_ok h3
          cases h4; rfl
      · cases h
    · cases h

theorem tmallocLarge_none {s s' : Hp} {nb : Nat} (h : tmallocLarge s nb = .ok (none, s')) :
    s' = s ∧ ∀ v rs, chooseLarge s nb = (some v, rs) → sub64 s.dvsize nb ≤ rs := by
  unfold tmallocLarge at h
  generalize chooseLarge s nb = X at h
  obtain ⟨v, rs⟩ := X
  cases v with
  | none => cases h; exact ⟨rfl, fun _ _ h => by cases h⟩
  | some v =>
    simp only [] at h
    split at h
    · rename_i hlt
      split at h
      · obtain ⟨x, _, h2⟩ := bind_ok h
        split at h2
        · obtain ⟨s1, _, h3⟩ := bind_ok h2
          cases h3
        · obtain ⟨s1, _, h3⟩ := bind_ok h2
          obtain ⟨s2, _, h4⟩ := bind_ok h3
          cases h4
      · cases h
    · rename_i hlt
      cases h
      refine ⟨rfl, fun v' rs' h => ?_⟩
      cases h; omega

theorem dvTopSys_dv {e : Env} {s s' : Hp} {nb m : Nat} (hn : nb ≤ s.dvsize) (h : dvTopSys e s nb = .ok (some m, s')) : m = s.dv + 16 := by
  unfold dvTopSys at h
  rw [if_pos hn] at h
  simp only [] at h
  split at h
  · obtain ⟨s1, _, h3⟩ := bind_ok h
    obtain ⟨s2, _, h4⟩ := bind_ok h3
    cases h4; rfl
  · obtain ⟨s1, _, h3⟩ := bind_ok h
    cases h3; rfl

theorem dvTopSys_any {s : Hp} {nb : Nat} (hn : nb ≤ s.dvsize ∨ nb < s.topsize) (e e' : Env) : dvTopSys e s nb = dvTopSys e' s nb := by
  unfold dvTopSys
  by_cases c : nb ≤ s.dvsize
  · rw [if_pos c, if_pos c]
  · rw [if_neg c, if_neg c, if_pos (by omega), if_pos (by omega)]

/-- The chunk that is used. -/
structure Pick (s : Hp) (A : Chunks) (small : Bool) (nb q : Nat) : Prop where
  fits : ∃ w v, A q = some (w, v) ∧ v.isFree = true ∧ nb ≤ w ∧
    ∀ p z u, A p = some (z, u) → u.isFree = true → nb ≤ z →
      w ≤ z ∨ (small = true ∧ (q = s.dv ∨ (p = s.dv ∧ w ≤ nb + 8)))

theorem Inv.dvChunk (i : Inv P s A) {nb : Nat} (h0 : 0 < nb) (h : nb ≤ s.dvsize) : A s.dv = some (s.dvsize, .dv) :=
  (i.dv.iff _ _).2 ⟨rfl, rfl, by omega⟩

/-- The designated victim, when nothing else fits. -/
theorem Inv.pickDv (i : Inv P s A) {nb : Nat} (h8 : 8 ∣ nb) (h32 : 32 ≤ nb) (hn : nb ≤ s.dvsize) (small : Bool)
    (hb : small = true ∨ ∀ p z, A p = some (z, .free) → nb ≤ z → s.dvsize ≤ z) :
    ∃ q s', (∀ e, Dl.dvTopSys e s nb = .ok (some (q + 16), s')) ∧ Pick s A small nb q := by
  have e0 : Env := ⟨0, fun _ => none, false, false, 0, fun _ _ => false⟩
  obtain ⟨p, s', A', h1, _⟩ := i.useDv hn h8 h32 e0
  have := dvTopSys_dv hn h1
  have hp : p = s.dv := by omega
  subst hp
  refine ⟨s.dv, s', fun e => by rw [dvTopSys_any (.inl hn) e e0, h1], ⟨s.dvsize, .dv, i.dvChunk (by omega) hn, rfl, hn, ?_⟩⟩
  intro p z u hp hu hz
  rcases hb with rfl | hb
  · exact .inr ⟨rfl, .inl rfl⟩
  · left
    cases u <;> simp [Use.isFree] at hu
    · exact hb p z hp hz
    · have := ((i.dv.iff _ _).1 hp).2.1; omega

theorem Inv.fitLarge (i : Inv P s A) {nb : Nat} (h8 : 8 ∣ nb) (h256 : 256 ≤ nb) (hn : nb < 2 ^ 64) {p z : Nat} {u : Use} (hp : A p = some (z, u))
    (hu : u.isFree = true) (hz : nb ≤ z) :
    ∃ q s', Pick s A false nb q ∧ ((s.treemap ≠ 0 ∧ Dl.tmallocLarge s nb = .ok (some (q + 16), s')) ∨
      (s.treemap ≠ 0 → Dl.tmallocLarge s nb = .ok (none, s)) ∧ ∀ e, Dl.dvTopSys e s nb = .ok (some (q + 16), s')) := by
  have isdv : (∀ p z, A p = some (z, .free) → nb ≤ z → s.dvsize ≤ z) → (A p ≠ some (z, .free) ∨ nb ≤ s.dvsize) →
      ∃ q s', (∀ e, Dl.dvTopSys e s nb = .ok (some (q + 16), s')) ∧ Pick s A false nb q := by
    intro h1 h2
    refine i.pickDv h8 (by omega) ?_ false (.inr h1)
    rcases h2 with h2 | h2
    · cases u <;> simp [Use.isFree] at hu
      · exact absurd hp h2
      · have := ((i.dv.iff _ _).1 hp).2.1; omega
    · exact h2
  by_cases c : s.treemap ≠ 0
  · rcases i.tmallocLarge hn h8 (by omega) with h | ⟨q, s', A', h, _⟩
    · have hno := (tmallocLarge_none h).2
      rcases i.chooseLarge hn (by omega) with ⟨rs, hc⟩ | ⟨v, w, hc, hA, _, hnw⟩
      · -- no chunk of the trees fits
        have nofit : ∀ p z, A p = some (z, .free) → nb ≤ z → False := by
          intro p z hp hz
          have b := i.chooseLarge_best hn h256 hp hz
          have lt := i.lt64 hp
          rw [hc] at b
          dsimp only at b
          have : rs = sub64 0 nb := by
            have := chooseLarge_none hc
            exact this
          unfold sub64 at this
          omega
        obtain ⟨q, s', k1, k2⟩ := isdv (fun p z h1 h2 => (nofit p z h1 h2).elim) (.inl fun h => nofit p z h hz)
        exact ⟨q, s', k2, .inr ⟨fun _ => h, k1⟩⟩
      · have := hno v _ hc
        have lt := i.lt64 hA
        have hdv : nb ≤ s.dvsize := by
          by_contra hcon
          unfold sub64 at this; omega
        have hd64 := i.lt64 (i.dvChunk (by omega) hdv)
        rw [sub64_eq hdv (by omega)] at this
        obtain ⟨q, s', k1, k2⟩ := isdv (fun p z h1 h2 => by
          have b := i.chooseLarge_best hn h256 h1 h2
          rw [hc] at b
          dsimp only at b
          omega) (.inr hdv)
        exact ⟨q, s', k2, .inr ⟨fun _ => h, k1⟩⟩
    · obtain ⟨v, rs, h1, h2, h3⟩ := tmallocLarge_at h
      have hq : q = v := by omega
      subst hq
      refine ⟨q, s', ?_, .inl ⟨c, h⟩⟩
      rcases i.chooseLarge hn (by omega) with ⟨rs', hc⟩ | ⟨v, w, hc, hA, _, hnw⟩
      · rw [hc] at h1; cases h1
      · rw [hc] at h1
        cases h1
        refine ⟨w, .free, hA, rfl, hnw, fun p z u hp hu hz => .inl ?_⟩
        cases u <;> simp [Use.isFree] at hu
        · have b := i.chooseLarge_best hn h256 hp hz
          rw [hc] at b
          dsimp only at b
          omega
        · have h4 := ((i.dv.iff _ _).1 hp).2.1
          have := i.lt64 hp
          rw [sub64_eq (by omega) (by omega)] at h3
          omega
  · have nofit : ∀ p z, A p = some (z, .free) → nb ≤ z → False := by
      intro p z hp hz
      have hpm := i.in_tree hp (by omega)
      apply c
      intro h0
      have : s.tree (treeIndex z) ≠ .nil := by intro c; rw [c] at hpm; simp [T.chunks] at hpm
      rw [← i.bins.tbit, h0, Nat.zero_testBit] at this; cases this
    obtain ⟨q, s', k1, k2⟩ := isdv (fun p z h1 h2 => (nofit p z h1 h2).elim) (.inl fun h => nofit p z h hz)
    exact ⟨q, s', k2, .inr ⟨fun h => absurd h c, k1⟩⟩

theorem Inv.fitSmall (i : Inv P s A) {nb : Nat} (h8 : 8 ∣ nb) (h32 : 32 ≤ nb) (hn : nb ≤ 248) {p z : Nat} {u : Use} (hp : A p = some (z, u))
    (hu : u.isFree = true) (hz : nb ≤ z) :
    ∃ q s', (∀ e, Dl.smallRequest e s nb = .ok (some (q + 16), s')) ∧ Pick s A true nb q := by
  have hid : 8 * (nb / 8) = nb := by omega
  have h31 : nb / 8 < 32 := by omega
  have sb : ∀ j, (s.smallmap >>> (nb / 8)).testBit j = s.smallmap.testBit (nb / 8 + j) := by
    intro j; rw [Nat.testBit_shiftRight]
  have bit : ∀ {p z : Nat}, A p = some (z, .free) → z < 256 → s.smallmap.testBit (z / 8) = true := by
    intro p z hp hz
    have := i.in_small hp hz
    rw [i.bins.sbit]
    exact List.ne_nil_of_mem this
  -- given the chunk of a small bin
  have fin : ∀ {j q : Nat} {s' : Hp}, q ∈ s.small j → nb ≤ 8 * j → (s.dvsize < nb ∨ 8 * j ≤ nb + 8) →
      (∀ p z, A p = some (z, .free) → z < 256 → nb ≤ z → j ≤ z / 8) →
      (∀ e, Dl.smallRequest e s nb = .ok (some (q + 16), s')) →
      ∃ q s', (∀ e, Dl.smallRequest e s nb = .ok (some (q + 16), s')) ∧ Pick s A true nb q := by
    intro j q s' hq hj hd hm he
    obtain ⟨hA, h256⟩ := i.of_small hq
    refine ⟨q, s', he, 8 * j, .free, hA, rfl, hj, fun p z u hp hu hz => ?_⟩
    cases u <;> simp [Use.isFree] at hu
    · left
      by_cases c : z < 256
      · have := hm p z hp c hz; omega
      · omega
    · have h4 := (i.dv.iff _ _).1 hp
      rcases hd with hd | hd
      · omega
      · exact .inr ⟨rfl, .inr ⟨h4.1, hd⟩⟩
  by_cases c : s.smallmap >>> (nb / 8) &&& 3 ≠ 0
  · have hj : ∃ j, nb / 8 + (1 - s.smallmap >>> (nb / 8) % 2) = j ∧ s.small j ≠ [] ∧ nb ≤ 8 * j ∧ 8 * j ≤ nb + 8 ∧
        ∀ p z, A p = some (z, .free) → z < 256 → nb ≤ z → j ≤ z / 8 := by
      rcases testBit_zero_one _ c with h | ⟨h, h'⟩
      · have e1 : s.smallmap >>> (nb / 8) % 2 = 1 := by rw [Nat.testBit_zero] at h; exact of_decide_eq_true h
        rw [e1]
        refine ⟨_, rfl, ?_, by omega, by omega, fun p z _ _ h => by omega⟩
        apply (i.bins.sbit _).1
        rw [sb] at h; exact h
      · have e1 : s.smallmap >>> (nb / 8) % 2 = 0 := by
          rw [Nat.testBit_zero] at h
          have := Nat.mod_two_eq_zero_or_one (s.smallmap >>> (nb / 8))
          have := of_decide_eq_false h; omega
        rw [e1]
        refine ⟨_, rfl, ?_, by omega, by omega, fun p z hp h1 h2 => ?_⟩
        · apply (i.bins.sbit _).1
          rw [sb] at h'; exact h'
        · have hb := bit hp h1
          have : z / 8 ≠ nb / 8 := by
            intro e
            rw [e] at hb
            rw [sb, Nat.add_zero, hb] at h; cases h
          omega
    obtain ⟨j, e1, e2, e3, e4, e5⟩ := hj
    obtain ⟨q, s', A', h1, _⟩ := i.exactSmall (nb := nb) e2 (by omega)
    obtain ⟨q', hq', hm⟩ := exactSmall_at h1
    have : q = q' := by omega
    subst this
    refine fin hq' e3 (.inr e4) e5 (s' := s') (fun e => ?_)
    unfold Dl.smallRequest
    simp only []
    rw [if_pos c, e1, h1]; rfl
  · by_cases d : s.dvsize < nb
    · by_cases f : s.smallmap >>> (nb / 8) ≠ 0
      · obtain ⟨j, ej, b1, b2, b3⟩ := i.smallNext hid h31 c f
        obtain ⟨q, s', A', h1, _⟩ := i.nextSmall (nb := nb) ((i.bins.sbit _).1 b1) (by omega) h8 h32 (by omega)
        obtain ⟨q', hq', hm⟩ := nextSmall_at h1
        have : q = q' := by omega
        subst this
        refine fin hq' (by omega) (.inl d) (fun p z hp h1 h2 => ?_) (s' := s') (fun e => ?_)
        · exact b3 _ (bit hp h1) (by omega) (by omega)
        · unfold Dl.smallRequest
          simp only []
          rw [if_neg c, if_pos d, if_pos f, ej, h1]; rfl
      · have nosmall : ∀ {p z : Nat}, A p = some (z, .free) → nb ≤ z → 256 ≤ z := by
          intro p z hp hz
          by_contra hc
          have hb := bit hp (by omega)
          have : (s.smallmap >>> (nb / 8)).testBit (z / 8 - nb / 8) = true := by
            rw [sb, show nb / 8 + (z / 8 - nb / 8) = z / 8 by omega]; exact hb
          rw [not_not.1 f, Nat.zero_testBit] at this; cases this
        have hfree : u = .free := by
          cases u <;> simp [Use.isFree] at hu
          · rfl
          · have := ((i.dv.iff _ _).1 hp).2.1; omega
        subst hfree
        have h256 := nosmall hp hz
        have g : s.treemap ≠ 0 := by
          intro h0
          have hpm := i.in_tree hp h256
          have : s.tree (treeIndex z) ≠ .nil := by intro c; rw [c] at hpm; simp [T.chunks] at hpm
          rw [← i.bins.tbit, h0, Nat.zero_testBit] at this; cases this
        obtain ⟨q, s', A', h1, _⟩ := i.tmallocSmall g hn h8 h32 (by omega)
        obtain ⟨v, rs, hc, hm⟩ := tmallocSmall_at h1
        obtain ⟨v', w, hc', hA, hw⟩ := i.chooseSmall g hn
        have : q = v := by omega
        subst this
        have hcc := hc.symm.trans hc'
        cases hcc
        refine ⟨q, s', fun e => ?_, w, .free, hA, rfl, by omega, fun p z u hp hu hz => .inl ?_⟩
        · unfold Dl.smallRequest
          simp only []
          rw [if_neg c, if_pos d, if_neg f, if_pos g, h1]; rfl
        · cases u <;> simp [Use.isFree] at hu
          · have := i.chooseSmall_best hn hp (nosmall hp hz)
            rw [hc] at this
            dsimp only at this
            omega
          · have := ((i.dv.iff _ _).1 hp).2.1; omega
    · obtain ⟨q, s', h1, h2⟩ := i.pickDv h8 h32 (by omega) true (.inl rfl)
      refine ⟨q, s', fun e => ?_, h2⟩
      unfold Dl.smallRequest
      simp only []
      rw [if_neg c, if_neg d]; exact h1 e

/-- `dlmalloc` when a free chunk is large enough. -/
theorem Inv.fit (i : Inv P s A) {n p z : Nat} {u : Use} (hp : A p = some (z, u)) (hu : u.isFree = true) (hz : need n ≤ z) :
    ∃ q s', (∀ e, Dl.dlmalloc e n s = .ok (some (q + 16), s')) ∧ Pick s A (decide (n ≤ 240)) (need n) q := by
  obtain ⟨h1, h2⟩ := need_ok (bytes := n)
  have lt := i.lt64 hp
  have hb : need n + 1 < 2 ^ 64 := by omega
  obtain ⟨a1, a2, a3, a4⟩ := h2 hb
  unfold Dl.dlmalloc
  by_cases c : n ≤ 240
  · have e1 : (if n < 23 then 32 else padRequest n) = need n := by
      unfold need
      split
      · rfl
      · rw [if_neg (by omega)]
    have e2 : need n ≤ 248 := by
      unfold need padRequest
      split
      · omega
      · split <;> omega
    simp only [if_pos c, e1, decide_eq_true c]
    exact i.fitSmall a1 a2 e2 hp hu hz
  · have d : ¬ 2 ^ 64 - 128 ≤ n := by
      intro d
      have : need n = 2 ^ 64 - 1 := by unfold need; rw [if_neg (by omega), if_pos d]
      omega
    have hnb : padRequest n = need n := by unfold need; rw [if_neg (by omega), if_neg d]
    have h256 : 256 ≤ need n := by rw [← hnb]; unfold padRequest; omega
    simp only [if_neg c, if_neg d, hnb, decide_eq_false c]
    obtain ⟨q, s', k1, ⟨k2, k3⟩ | ⟨k2, k3⟩⟩ := i.fitLarge a1 h256 h1 hp hu hz
    · refine ⟨q, s', fun e => ?_, k1⟩
      rw [if_pos k2, k3]; rfl
    · refine ⟨q, s', fun e => ?_, k1⟩
      by_cases g : s.treemap ≠ 0
      · rw [if_pos g, k2 g]; exact k3 e
      · rw [if_neg g]; exact k3 e

/-- The top serves when it is large enough. -/
theorem dlmalloc_any {n : Nat} (hn : need n ≤ s.dvsize ∨ need n < s.topsize) (e e' : Env) :
    dlmalloc e n s = dlmalloc e' n s := by
  unfold dlmalloc
  by_cases c : n ≤ 240
  · have e1 : (if n < 23 then 32 else padRequest n) = need n := by
      unfold need
      split
      · rfl
      · rw [if_neg (by omega)]
    rw [if_pos c, if_pos c, e1]
    unfold smallRequest
    rw [dvTopSys_any hn e e']
  · rw [if_neg c, if_neg c]
    by_cases d : 2 ^ 64 - 128 ≤ n
    · have : need n = 2 ^ 64 - 1 := by unfold need; rw [if_neg (by omega), if_pos d]
      rw [if_pos d, if_pos d, ← this, dvTopSys_any hn e e']
    · have hnb : padRequest n = need n := by unfold need; rw [if_neg (by omega), if_neg d]
      rw [if_neg d, if_neg d, hnb]
      simp only []
      have key : tmallocLarge s (need n) = .ok (none, s) ∨ (∃ x, tmallocLarge s (need n) = .error x) ∨ 
          ∃ p s', tmallocLarge s (need n) = .ok (some p, s') := by
        cases h : tmallocLarge s (need n) with
        | error x => exact .inr (.inl ⟨x, rfl⟩)
        | ok y =>
          obtain ⟨v, s'⟩ := y
          cases v with
          | none => rw [(tmallocLarge_none h).1]; exact .inl rfl
          | some p => exact .inr (.inr ⟨p, s', rfl⟩)
      rcases key with k | ⟨x, k⟩ | ⟨p, s', k⟩
      · rw [k]; simp only [bind, Except.bind]; rw [dvTopSys_any hn e e']
      · rw [k]; simp only [bind, Except.bind]; rw [dvTopSys_any hn e e']
      · rw [k]; simp only [bind, Except.bind]; rw [dvTopSys_any hn e e']

end
end Verif.Dl
