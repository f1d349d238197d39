import Verif.Dl.Alloc
import Verif.Dl.Bits

/-
The choice of a free chunk, and its use.
-/
namespace Verif.Dl
open Verif

/-! ## Trees -/

theorem T.least_spec (sz : Nat → Nat) (nb : Nat) (t : T) (v : Option Nat) (rs : Nat) :
    t.least sz nb (v, rs) = (v, rs) ∨ ∃ a ∈ t.chunks, t.least sz nb (v, rs) = (some a, sub64 (sz a) nb) ∧
      sub64 (sz a) nb < rs := by
  induction t generalizing v rs with
  | nil => left; rfl
  | node a ring l r ihl ihr =>
    unfold T.least
    by_cases c : sub64 (sz a) nb < rs
    · simp only [if_pos c]
      right
      cases l with
      | nil =>
        simp only []
        rcases ihr (some a) (sub64 (sz a) nb) with h | ⟨b, hb, h, hl⟩
        · exact ⟨a, by simp [T.chunks], h, c⟩
        · exact ⟨b, by simp [T.chunks, hb], h, by omega⟩
      | node a' ring' l' r' =>
        simp only []
        rcases ihl (some a) (sub64 (sz a) nb) with h | ⟨b, hb, h, hl⟩
        · exact ⟨a, by simp [T.chunks], h, c⟩
        · refine ⟨b, ?_, h, by omega⟩
          rw [T.chunks, List.mem_cons, List.mem_append, List.mem_append]
          exact .inr (.inr (.inl hb))
    · simp only [if_neg c]
      cases l with
      | nil =>
        simp only []
        rcases ihr v rs with h | ⟨b, hb, h, hl⟩
        · exact .inl h
        · exact .inr ⟨b, by simp [T.chunks, hb], h, hl⟩
      | node a' ring' l' r' =>
        simp only []
        rcases ihl v rs with h | ⟨b, hb, h, hl⟩
        · exact .inl h
        · refine .inr ⟨b, ?_, h, hl⟩
          rw [T.chunks, List.mem_cons, List.mem_append, List.mem_append]
          exact .inr (.inr (.inl hb))

theorem T.search_spec (sz : Nat → Nat) (nb : Nat) (t : T) (k : Nat) (rst : T) (v : Option Nat) (rs : Nat) :
    ((t.search sz nb k rst (v, rs)).2 = (v, rs) ∨ ∃ a ∈ t.chunks,
      (t.search sz nb k rst (v, rs)).2 = (some a, sub64 (sz a) nb) ∧ sub64 (sz a) nb < rs) ∧
    ∀ x ∈ (t.search sz nb k rst (v, rs)).1.chunks, x ∈ t.chunks ∨ x ∈ rst.chunks := by
  induction t generalizing k rst v rs with
  | nil => exact ⟨.inl rfl, fun x hx => .inr hx⟩
  | node a ring l r ihl ihr =>
    have hl : ∀ {x}, x ∈ l.chunks → x ∈ (T.node a ring l r).chunks := by
      intro x h; simp [T.chunks, h]
    have hr : ∀ {x}, x ∈ r.chunks → x ∈ (T.node a ring l r).chunks := by
      intro x h; simp [T.chunks, h]
    have ha : a ∈ (T.node a ring l r).chunks := by simp [T.chunks]
    unfold T.search
    by_cases c0 : sub64 (sz a) nb < rs ∧ sub64 (sz a) nb = 0
    · simp only [if_pos c0]
      exact ⟨.inr ⟨a, ha, by rw [c0.2], c0.1⟩, fun x hx => .inl hx⟩
    · simp only [if_neg c0]
      have gen : ∀ (v' : Option Nat) (rs' : Nat), (v', rs') = (if sub64 (sz a) nb < rs then (some a, sub64 (sz a) nb) else (v, rs)) →
          ((v', rs') = (v, rs) ∨ ((v', rs') = (some a, sub64 (sz a) nb) ∧ sub64 (sz a) nb < rs)) := by
        intro v' rs' e
        by_cases c : sub64 (sz a) nb < rs
        · rw [if_pos c] at e; exact .inr ⟨e, c⟩
        · rw [if_neg c] at e; exact .inl e
      generalize hv : (if sub64 (sz a) nb < rs then (some a, sub64 (sz a) nb) else (v, rs)) = V at gen ⊢
      obtain ⟨v', rs'⟩ := V
      have g := gen v' rs' rfl
      by_cases ck : k / 2 ^ 63 % 2 = 1
      · rw [if_pos ck]
        obtain ⟨i1, i2⟩ := ihr (2 * k % 2 ^ 64) rst v' rs'
        refine ⟨?_, fun x hx => (i2 x hx).imp hr id⟩
        rcases i1 with h | ⟨b, hb, h, hlt⟩
        · rw [h]
          rcases g with g | g
          · exact .inl g
          · exact .inr ⟨a, ha, g.1, g.2⟩
        · rcases g with g | g
          · cases g; exact .inr ⟨b, hr hb, h, hlt⟩
          · have := g.2; have e := g.1; cases e; exact .inr ⟨b, hr hb, h, by omega⟩
      · rw [if_neg ck]
        obtain ⟨i1, i2⟩ := ihl (2 * k % 2 ^ 64) (if r ≠ .nil then r else rst) v' rs'
        refine ⟨?_, ?_⟩
        · rcases i1 with h | ⟨b, hb, h, hlt⟩
          · rw [h]
            rcases g with g | g
            · exact .inl g
            · exact .inr ⟨a, ha, g.1, g.2⟩
          · rcases g with g | g
            · cases g; exact .inr ⟨b, hl hb, h, hlt⟩
            · have := g.2; have e := g.1; cases e; exact .inr ⟨b, hl hb, h, by omega⟩
        · intro x hx
          rcases i2 x hx with h | h
          · exact .inl (hl h)
          · split at h
            · exact .inl (hr h)
            · exact .inr h

section
variable {P : Nat} {s : Hp} {A : Chunks}

theorem isSmall_iff {z : Nat} : isSmall z = true ↔ z < 256 := by unfold isSmall; rw [decide_eq_true_iff]; omega
theorem isSmall_not {z : Nat} : isSmall z = false ↔ 256 ≤ z := by unfold isSmall; rw [decide_eq_false_iff_not]; omega

theorem Inv.treemap_lt (i : Inv P s A) : s.treemap < 2 ^ 32 := by
  apply lt_of_bits
  intro j hj
  have h := (i.bins.tbit j).1 hj
  cases e : s.tree j with
  | nil => exact absurd e h
  | node a ring l r =>
    obtain ⟨z, _, _, h⟩ := i.bins.tmem.1 (show a ∈ (s.tree j).chunks by rw [e]; simp [T.chunks])
    rw [← h]; exact treeIndex_lt z

theorem Inv.smallmap_lt (i : Inv P s A) : s.smallmap < 2 ^ 32 := by
  apply lt_of_bits
  intro j hj
  have h := (i.bins.sbit j).1 hj
  cases e : s.small j with
  | nil => exact absurd e h
  | cons a l =>
    obtain ⟨z, _, hs, h⟩ := i.bins.smem.1 (show a ∈ s.small j by rw [e]; simp)
    rw [isSmall_iff] at hs; omega

/-- A chunk of a tree. -/
theorem Inv.of_tree (i : Inv P s A) {j v : Nat} (h : v ∈ (s.tree j).chunks) :
    ∃ z, A v = some (z, .free) ∧ 256 ≤ z ∧ treeIndex z = j ∧ chunksize (s.mem (v + 8)) = z := by
  obtain ⟨z, h1, h2, h3⟩ := i.bins.tmem.1 h
  have hA := binF_some.1 h1
  exact ⟨z, hA, isSmall_not.1 h2, h3, (i.tags.ok hA).size⟩

theorem sub64_eq {z nb : Nat} (h : nb ≤ z) (hz : z < 2 ^ 64) : sub64 z nb = z - nb := by unfold sub64; omega

theorem sub64_fits {z nb : Nat} (hz : z < 2 ^ 64) (hn : nb < 2 ^ 64) (h0 : 0 < nb) (h : sub64 z nb < sub64 0 nb) :
    nb ≤ z ∧ sub64 z nb = z - nb := by
  have hle : nb ≤ z := by unfold sub64 at h; omega
  exact ⟨hle, sub64_eq hle hz⟩

/-- What `tmalloc_small` chooses. -/
theorem Inv.chooseSmall (i : Inv P s A) (h : s.treemap ≠ 0) {nb : Nat} (hn : nb ≤ 248) :
    ∃ v z, Dl.chooseSmall s nb = (some v, z - nb) ∧ A v = some (z, .free) ∧ 256 ≤ z := by
  obtain ⟨h1, h2, h3⟩ := lowest h i.treemap_lt
  have hne := (i.bins.tbit _).1 h1
  unfold Dl.chooseSmall
  cases e : s.tree (bit2idx (leastBit s.treemap)) with
  | nil => exact absurd e hne
  | node a ring l r =>
    simp only []
    have fin : ∀ v, v ∈ (s.tree (bit2idx (leastBit s.treemap))).chunks →
        ∃ z, sub64 (chunksize (s.mem (v + 8))) nb = z - nb ∧ A v = some (z, .free) ∧ 256 ≤ z := by
      intro v hv
      obtain ⟨z, h4, h5, _, h6⟩ := i.of_tree hv
      have := i.lt64 h4
      exact ⟨z, by rw [h6]; exact sub64_eq (by omega) (by omega), h4, h5⟩
    rw [e] at fin
    rcases T.least_spec (fun a => chunksize (s.mem (a + 8))) nb (if l = .nil then r else l) (some a)
      (sub64 (chunksize (s.mem (a + 8))) nb) with h | ⟨b, hb, h, _⟩
    · obtain ⟨z, g1, g2⟩ := fin a (by simp [T.chunks])
      rw [h]
      exact ⟨a, z, by rw [g1], g2⟩
    · obtain ⟨z, g1, g2⟩ := fin b (by
        split at hb <;> simp [T.chunks, hb])
      rw [h]
      exact ⟨b, z, by simp only [g1], g2⟩

/-- What `tmalloc_large` chooses. -/
theorem Inv.chooseLarge (i : Inv P s A) {nb : Nat} (hn : nb < 2 ^ 64) (h0 : 0 < nb) :
    (∃ rs, Dl.chooseLarge s nb = (none, rs)) ∨
    ∃ v z, Dl.chooseLarge s nb = (some v, z - nb) ∧ A v = some (z, .free) ∧ 256 ≤ z ∧ nb ≤ z := by
  have fin : ∀ j v, v ∈ (s.tree j).chunks → sub64 (chunksize (s.mem (v + 8))) nb < sub64 0 nb →
      ∃ z, sub64 (chunksize (s.mem (v + 8))) nb = z - nb ∧ A v = some (z, .free) ∧ 256 ≤ z ∧ nb ≤ z := by
    intro j v hv hlt
    obtain ⟨z, h4, h5, _, h6⟩ := i.of_tree hv
    have := i.lt64 h4
    rw [h6] at hlt ⊢
    obtain ⟨g1, g2⟩ := sub64_fits (by omega) hn h0 hlt
    exact ⟨z, g2, h4, h5, g1⟩
  -- the state after the first loop
  have mid : ∃ t v rs, Dl.chooseLarge s nb = (if t = .nil ∧ v = none then
        (if leftBits (1 <<< treeIndex nb) &&& s.treemap ≠ 0 then
          s.tree (bit2idx (leastBit (leftBits (1 <<< treeIndex nb) &&& s.treemap))) else .nil) else t).least
        (fun a => chunksize (s.mem (a + 8))) nb (v, rs) ∧
      (∀ x ∈ t.chunks, x ∈ (s.tree (treeIndex nb)).chunks) ∧
      ((v = none ∧ rs = sub64 0 nb) ∨ ∃ a ∈ (s.tree (treeIndex nb)).chunks, v = some a ∧
        rs = sub64 (chunksize (s.mem (a + 8))) nb ∧ rs < sub64 0 nb) := by
    unfold Dl.chooseLarge
    simp only []
    cases e : s.tree (treeIndex nb) with
    | nil => exact ⟨.nil, none, sub64 0 nb, rfl, by simp [T.chunks], .inl ⟨rfl, rfl⟩⟩
    | node a ring l r =>
      simp only []
      have sp := T.search_spec (fun a => chunksize (s.mem (a + 8))) nb (.node a ring l r)
        (nb <<< leftshift (treeIndex nb) % 2 ^ 64) .nil none (sub64 0 nb)
      generalize T.search (fun a => chunksize (s.mem (a + 8))) nb (.node a ring l r)
        (nb <<< leftshift (treeIndex nb) % 2 ^ 64) .nil (none, sub64 0 nb) = X at sp ⊢
      obtain ⟨t, v, rs⟩ := X
      refine ⟨t, v, rs, rfl, fun x hx => ?_, ?_⟩
      · rcases sp.2 x hx with h | h
        · exact h
        · simp [T.chunks] at h
      · rcases sp.1 with h | ⟨b, hb, h, hl⟩
        · simp only [Prod.mk.injEq] at h; exact .inl h
        · simp only [Prod.mk.injEq] at h
          exact .inr ⟨b, hb, h.1, h.2, by rw [h.2]; exact hl⟩
  obtain ⟨t, v, rs, e, ht, hv⟩ := mid
  rw [e]
  have hrs : rs ≤ sub64 0 nb := by rcases hv with h | ⟨_, _, _, _, h⟩ <;> omega
  have hT : ∃ j, ∀ x ∈ (if t = .nil ∧ v = none then
        (if leftBits (1 <<< treeIndex nb) &&& s.treemap ≠ 0 then
          s.tree (bit2idx (leastBit (leftBits (1 <<< treeIndex nb) &&& s.treemap))) else .nil) else t).chunks,
        x ∈ (s.tree j).chunks := by
    split
    · split
      · exact ⟨_, fun x hx => hx⟩
      · exact ⟨0, fun x hx => by simp [T.chunks] at hx⟩
    · exact ⟨_, ht⟩
  obtain ⟨j, hj⟩ := hT
  generalize (if t = .nil ∧ v = none then
        (if leftBits (1 <<< treeIndex nb) &&& s.treemap ≠ 0 then
          s.tree (bit2idx (leastBit (leftBits (1 <<< treeIndex nb) &&& s.treemap))) else .nil) else t) = U at hj ⊢
  rcases T.least_spec (fun a => chunksize (s.mem (a + 8))) nb U v rs with h | ⟨b, hb, h, hl⟩
  · rw [h]
    rcases hv with ⟨rfl, _⟩ | ⟨a, ha, rfl, hr, hl⟩
    · exact .inl ⟨rs, rfl⟩
    · obtain ⟨z, g1, g2⟩ := fin _ a ha (by rw [← hr]; exact hl)
      exact .inr ⟨a, z, by rw [hr, g1], g2⟩
  · rw [h]
    obtain ⟨z, g1, g2⟩ := fin j b (hj b hb) (by omega)
    exact .inr ⟨b, z, by simp only [g1], g2⟩

/-! ## Use -/

theorem Inv.dvOk_live (i : Inv P s A) {p z : Nat} (h : A p = some (z, .free)) :
    DvOk s.dv s.dvsize (one A p (p + z) z .live) := dvOk_one i h (by simp) (by simp)

/-- A chunk of a bin is used as a whole. -/
theorem Inv.binWhole (i : Inv P s A) {p z : Nat} (h : A p = some (z, .free)) {nb : Nat} (hnb : nb ≤ z ∧ z < nb + 32) :
    ∃ s', setInuse (unlinkChunk s p z) p z = .ok s' ∧ Got P s A nb p s' (one A p (p + z) z .live) := by
  have sb := unlinkChunk_same s p z
  apply i.useWhole h rfl sb.same (i.bins.unlinkChunk (binF_some.2 h)) _ hnb
  rw [sb.dv, sb.dvsize]; exact i.dvOk_live h

/-- The designated victim becomes an ordinary free chunk. -/
def retire (s : Hp) (A : Chunks) : Chunks := fun q =>
  if q = s.dv ∧ s.dvsize ≠ 0 then some (s.dvsize, .free) else A q

theorem retire_iff (i : Inv P s A) {q w : Nat} {v : Use} :
    retire s A q = some (w, v) ↔ (A q = some (w, v) ∧ v ≠ .dv) ∨ (A q = some (w, .dv) ∧ v = .free) := by
  unfold retire
  split
  · rename_i c
    have hd := (i.dv.iff q s.dvsize).2 ⟨c.1, rfl, c.2⟩
    rw [hd]
    constructor
    · intro e; cases e; exact .inr ⟨rfl, rfl⟩
    · rintro (⟨e, h⟩ | ⟨e, h⟩)
      · cases e; exact absurd rfl h
      · cases e; rw [h]
  · rename_i c
    constructor
    · intro e
      refine .inl ⟨e, ?_⟩
      rintro rfl
      have := (i.dv.iff q w).1 e
      exact c ⟨this.1, this.2.2⟩
    · rintro (⟨e, _⟩ | ⟨e, _⟩)
      · exact e
      · have := (i.dv.iff q w).1 e
        exact absurd ⟨this.1, this.2.2⟩ c

/-- Chunks of the same size that are free as before. -/
theorem Tags.retag {mem : Nat → Nat} {A A' : Chunks} (t : Tags mem A)
    (h : ∀ p z u', A' p = some (z, u') → ∃ u, A p = some (z, u) ∧ u.inuse = u'.inuse ∧ u.isFree = u'.isFree ∧
      (u = .link ↔ u' = .link) ∧ (u = .top ↔ u' = .top))
    (h' : ∀ p z u, A p = some (z, u) → ∃ u', A' p = some (z, u') ∧ u.isFree = u'.isFree) : Tags mem A' := by
  have hpf : ∀ p, PF A' p ↔ PF A p := by
    intro p
    constructor
    · rintro ⟨q, w, v, hq, hv, e⟩
      obtain ⟨u, g1, _, g2, _⟩ := h q w v hq
      exact ⟨q, w, u, g1, by rw [g2]; exact hv, e⟩
    · rintro ⟨q, w, v, hq, hv, e⟩
      obtain ⟨u, g1, g2⟩ := h' q w v hq
      exact ⟨q, w, u, g1, by rw [← g2]; exact hv, e⟩
  have hno : ∀ p, A' p = none ↔ A p = none := by
    intro p
    constructor
    · intro e
      cases c : A p with
      | none => rfl
      | some y => obtain ⟨u', g, _⟩ := h' p y.1 y.2 c; rw [e] at g; cases g
    · intro e
      cases c : A' p with
      | none => rfl
      | some y => obtain ⟨u', g, _⟩ := h p y.1 y.2 c; rw [e] at g; cases g
  refine ⟨?_, ?_⟩
  · intro p z u' hp
    obtain ⟨u, g1, g2, g3, g4, g5⟩ := h p z u' hp
    have o := t.ok g1
    refine ⟨o.pos, o.al, o.alz, o.min, ?_, o.size, by rw [o.cin, g2], by rw [hpf]; exact o.pin,
      by rw [← g3]; exact o.foot, ?_, ?_, ?_⟩
    · intro hne; exact o.min' (fun e => hne (g5.1 e))
    · intro h1 h2 e; exact o.next (fun e => h1 (g4.1 e)) (fun e => h2 (g5.1 e)) ((hno _).1 e)
    · intro hl
      rw [hno]
      exact o.last (by rcases hl with e | e
                       · exact .inl (g4.2 e)
                       · exact .inr (g5.2 e))
    · intro hf w v hw
      obtain ⟨u2, k1, k2, _⟩ := h _ w v hw
      rw [← k2]; exact o.nofree (by rw [g3]; exact hf) w u2 k1
  · intro p z u q w v hp hq hl
    obtain ⟨u1, k1, _⟩ := h p z u hp
    obtain ⟨u2, k2, _⟩ := h q w v hq
    exact t.disj k1 k2 hl

theorem Tags.retire (i : Inv P s A) : Tags s.mem (retire s A) := by
  apply i.tags.retag
  · intro p z u' h
    rcases (retire_iff i).1 h with ⟨e, _⟩ | ⟨e, rfl⟩
    · exact ⟨u', e, rfl, rfl, Iff.rfl, Iff.rfl⟩
    · exact ⟨.dv, e, rfl, rfl, by simp, by simp⟩
  · intro p z u h
    by_cases c : u = .dv
    · subst c; exact ⟨.free, (retire_iff i).2 (.inr ⟨h, rfl⟩), rfl⟩
    · exact ⟨u, (retire_iff i).2 (.inl ⟨h, c⟩), rfl⟩

theorem binF_retire (i : Inv P s A) (q : Nat) :
    binF (retire s A) q = if s.dvsize ≠ 0 then addF (binF A) s.dv s.dvsize q else binF A q := by
  unfold binF retire addF
  by_cases c : s.dvsize ≠ 0
  · simp only [if_pos c, c]
    by_cases d : q = s.dv
    · simp [d, c]
    · simp [d]
  · simp only [if_neg c]
    rw [if_neg (fun h => c h.2)]

theorem Segs.retire (i : Inv P s A) : Segs P s.segs s.mapped s.top s.topsize s.least (retire s A) := by
  have S := i.segs
  have hno : ∀ p, Dl.retire s A p = none → A p = none := by
    intro p e
    unfold Dl.retire at e
    split at e
    · cases e
    · exact e
  refine ⟨S.page, S.disj, S.map, ?_, ?_, fun g hg h => S.first g hg (hno _ h), ?_, S.head, ?_, S.nil, ?_⟩
  · intro p z u h
    rcases (retire_iff i).1 h with ⟨e, _⟩ | ⟨e, _⟩ <;> exact S.hold _ _ _ e
  · intro p z u h g hg h1 h2
    rcases (retire_iff i).1 h with ⟨e, _⟩ | ⟨e, eu⟩
    · exact S.past _ _ _ e g hg h1 h2
    · have := S.past _ _ _ e g hg h1 h2
      exact ⟨this.1, fun _ => this.2 (by simp)⟩
  · intro g hg
    obtain ⟨h1, h2, h3⟩ := S.link g hg
    exact ⟨h1, (retire_iff i).2 (.inl ⟨h2, by simp⟩), h3⟩
  · intro p z u h
    rcases (retire_iff i).1 h with ⟨e, _⟩ | ⟨e, _⟩ <;> exact S.least _ _ _ e
  · intro p z h
    rcases (retire_iff i).1 h with ⟨e, _⟩ | ⟨_, e⟩
    · exact S.own _ _ e
    · cases e

theorem Inv.retire (i : Inv P s A) {sm tm small tree} (b : Bins sm tm small tree (binF (retire s A))) :
    Inv P { s with smallmap := sm, treemap := tm, small := small, tree := tree, dv := 0, dvsize := 0 } (retire s A) where
  tags := Tags.retire i
  bins := b
  dv := by
    refine ⟨?_, fun _ => rfl⟩
    intro q w
    constructor
    · intro h
      rcases (retire_iff i).1 h with ⟨_, e⟩ | ⟨_, e⟩
      · exact absurd rfl e
      · cases e
    · rintro ⟨_, _, h⟩; exact absurd rfl h
  top := by
    intro q w
    show _ ↔ q = s.top ∧ _
    rw [← i.top q w, retire_iff i]
    constructor
    · rintro (h | h)
      · exact h.1
      · cases h.2
    · intro h; exact .inl ⟨h, by simp⟩
  segs := Segs.retire i

/-- The beginning of a chunk of a bin is used, what remains is put into a bin. -/
theorem Inv.binSplit (i : Inv P s A) {p z nb rs : Nat} (h : A p = some (z, .free)) (hz : nb + rs = z) (hnb : 8 ∣ nb)
    (h32 : 32 ≤ nb) (hrs : 32 ≤ rs) :
    ∃ s1 s2, setSizeInuse (unlinkChunk s p z) p nb = .ok s1 ∧ setSizeFree s1 (p + nb) rs = .ok s2 ∧
      Got P s A nb p (insertChunk s2 (p + nb) rs) (two A p (p + z) nb .live rs .free) := by
  have sb := unlinkChunk_same s p z
  have mp : ∀ x, p ≤ x → x < p + z + 32 → (unlinkChunk s p z).mapped x = true := by
    intro x h1 h2; rw [sb.mapped]; exact i.mapped h h1 h2
  have m2 : (unlinkChunk s p z).mapped (p + nb + rs) = true := mp _ (by omega) (by omega)
  refine ⟨_, _, setSizeInuse_ok nb (mp _ (by omega) (by omega)), setSizeFree_ok (mp _ (by omega) (by omega)) m2, ?_⟩
  generalize hs2 : ({ ({ unlinkChunk s p z with mem := upd (unlinkChunk s p z).mem (p + 8) (nb ||| 1 ||| 2) } : Hp) with
    mem := upd (upd (upd (unlinkChunk s p z).mem (p + 8) (nb ||| 1 ||| 2)) (p + nb + 8) (rs ||| 1)) (p + nb + rs) rs } : Hp) = s2
  have sc := insertChunk_same s2 (p + nb) rs
  have mem2 : s2.mem = upd (upd (upd s.mem (p + 8) (nb ||| 1 ||| 2)) (p + nb + 8) (rs ||| 1)) (p + nb + rs) rs := by
    rw [← hs2, sb.mem]
  have b2 : s2.Bins (delF (binF A) p) := by rw [← hs2]; exact i.bins.unlinkChunk (binF_some.2 h)
  have f2 : s2.mapped = s.mapped ∧ s2.least = s.least ∧ s2.segs = s.segs ∧ s2.top = s.top ∧ s2.topsize = s.topsize ∧
      s2.dv = s.dv ∧ s2.dvsize = s.dvsize := by
    rw [← hs2]; exact ⟨sb.mapped, sb.least, sb.segs, sb.top, sb.topsize, sb.dv, sb.dvsize⟩
  clear hs2
  have bb : (insertChunk s2 (p + nb) rs).Bins (binF (two A p (p + z) nb .live rs .free)) := by
    refine (b2.insertChunk (p := p + nb) (z := rs) ?_ (by have := i.lt64 h; omega) ?_).congr (fun q => ?_)
    · have hnn : A (p + nb) = none := none_inside i.tags h (by omega) (by omega)
      simp [delF, binF, hnn]
    · intro q w hq
      obtain ⟨q1, q2⟩ := delF_some.1 hq
      have hq := binF_some.1 q2
      have d : q + w ≤ p ∨ p + z ≤ q := by
        rcases Nat.lt_or_gt_of_ne q1 with c | c
        · exact .inl (i.tags.disj hq h c)
        · exact .inr (i.tags.disj h hq c)
      have o := i.tags.ok hq
      have := o.min' (by simp)
      rw [mem2, upd_ne (by omega), upd_ne (by omega), upd_ne (by omega)]
      exact o.size
    · rw [binF_two i h (by omega) (by omega), if_pos rfl]
  have e0 : p + nb + rs = p + z := by omega
  apply i.useSplit h (v := .free) (.inl ⟨rfl, rfl, hrs⟩) hnb h32 hz
    (by rw [sc.mapped]; exact f2.1) (by rw [sc.least]; exact f2.2.1) (by rw [sc.segs]; exact f2.2.2.1)
    (by rw [if_neg (by simp), sc.top, sc.topsize]; exact ⟨f2.2.2.2.1, f2.2.2.2.2.1⟩)
  · rw [sc.mem, mem2, upd_ne (by omega), upd_ne (by omega), upd_same]
  · rw [sc.mem, mem2, upd_ne (by omega), upd_same]
  · intro _; rw [sc.mem, mem2, e0, upd_same]
  · intro x h1 h2 h3
    rw [sc.mem, mem2, upd_ne (by rw [e0]; exact h3 rfl), upd_ne h2, upd_ne h1]
  · exact bb
  · rw [sc.dv, sc.dvsize, f2.2.2.2.2.2.1, f2.2.2.2.2.2.2]
    exact dvOk_two i h (by omega) (by omega) (by simp) (by simp)

/-- The beginning of a chunk of a bin is used, what remains becomes the designated victim. -/
theorem Inv.binSplitDv (i : Inv P s A) {p z nb rs : Nat} (h : A p = some (z, .free)) (hz : nb + rs = z) (hnb : 8 ∣ nb)
    (h32 : 32 ≤ nb) (hrs : 32 ≤ rs) (hd : s.dvsize < 256) :
    ∃ s1 s2, setSizeInuse (unlinkChunk s p z) p nb = .ok s1 ∧ setSizeFree s1 (p + nb) rs = .ok s2 ∧
      ∃ A', Got P s A nb p (replaceDv s2 (p + nb) rs) A' := by
  have sb := unlinkChunk_same s p z
  have mp : ∀ x, p ≤ x → x < p + z + 32 → (unlinkChunk s p z).mapped x = true := by
    intro x h1 h2; rw [sb.mapped]; exact i.mapped h h1 h2
  have m2 : (unlinkChunk s p z).mapped (p + nb + rs) = true := mp _ (by omega) (by omega)
  refine ⟨_, _, setSizeInuse_ok nb (mp _ (by omega) (by omega)), setSizeFree_ok (mp _ (by omega) (by omega)) m2,
    two (Dl.retire s A) p (p + z) nb .live rs .dv, ?_⟩
  generalize hs2 : ({ ({ unlinkChunk s p z with mem := upd (unlinkChunk s p z).mem (p + 8) (nb ||| 1 ||| 2) } : Hp) with
    mem := upd (upd (upd (unlinkChunk s p z).mem (p + 8) (nb ||| 1 ||| 2)) (p + nb + 8) (rs ||| 1)) (p + nb + rs) rs } : Hp) = s2
  have mem2 : s2.mem = upd (upd (upd s.mem (p + 8) (nb ||| 1 ||| 2)) (p + nb + 8) (rs ||| 1)) (p + nb + rs) rs := by
    rw [← hs2, sb.mem]
  have b2 : s2.Bins (delF (binF A) p) := by rw [← hs2]; exact i.bins.unlinkChunk (binF_some.2 h)
  have f2 : s2.mapped = s.mapped ∧ s2.least = s.least ∧ s2.segs = s.segs ∧ s2.top = s.top ∧ s2.topsize = s.topsize ∧
      s2.dv = s.dv ∧ s2.dvsize = s.dvsize := by
    rw [← hs2]; exact ⟨sb.mapped, sb.least, sb.segs, sb.top, sb.topsize, sb.dv, sb.dvsize⟩
  clear hs2
  -- the intermediate heap: the old designated victim is in a bin
  have hpd : ∀ w, A p ≠ some (w, .dv) := by intro w e; rw [h] at e; cases e
  have b0 : ∃ s0 : Hp, Inv P s0 (Dl.retire s A) ∧ s0.mem = s.mem ∧ s0.mapped = s.mapped ∧ s0.least = s.least ∧
      s0.segs = s.segs ∧ s0.top = s.top ∧ s0.topsize = s.topsize := by
    by_cases c : s.dvsize ≠ 0
    · have hdA := (i.dv.iff s.dv s.dvsize).2 ⟨rfl, rfl, c⟩
      have b1 := i.bins.insertSmall (p := s.dv) (z := s.dvsize) (binF_none (by intro z e; rw [hdA] at e; cases e))
        (isSmall_iff.2 hd)
      have b1' := b1.congr (G := binF (Dl.retire s A)) (by intro q; rw [binF_retire i, if_pos c])
      exact ⟨_, i.retire b1', rfl, rfl, rfl, rfl, rfl, rfl⟩
    · have b1' := i.bins.congr (G := binF (Dl.retire s A)) (by intro q; rw [binF_retire i, if_neg c])
      exact ⟨_, i.retire b1', rfl, rfl, rfl, rfl, rfl, rfl⟩
  obtain ⟨s0, i0, g1, g2, g3, g4, g5, g6⟩ := b0
  have h' : Dl.retire s A p = some (z, .free) := (retire_iff i).2 (.inl ⟨h, by simp⟩)
  have e0 : p + nb + rs = p + z := by omega
  have fr : (replaceDv s2 (p + nb) rs).mem = s2.mem ∧ (replaceDv s2 (p + nb) rs).mapped = s2.mapped ∧
      (replaceDv s2 (p + nb) rs).least = s2.least ∧ (replaceDv s2 (p + nb) rs).segs = s2.segs ∧
      (replaceDv s2 (p + nb) rs).top = s2.top ∧ (replaceDv s2 (p + nb) rs).topsize = s2.topsize ∧
      (replaceDv s2 (p + nb) rs).dv = p + nb ∧ (replaceDv s2 (p + nb) rs).dvsize = rs := by
    unfold replaceDv
    by_cases c : s2.dvsize ≠ 0
    · rw [if_pos c]; exact ⟨rfl, rfl, rfl, rfl, rfl, rfl, rfl, rfl⟩
    · rw [if_neg c]; exact ⟨rfl, rfl, rfl, rfl, rfl, rfl, rfl, rfl⟩
  have got := Inv.useSplit (s' := replaceDv s2 (p + nb) rs) i0 h' (v := .dv) (.inl ⟨rfl, rfl, hrs⟩) hnb h32 hz
    (by rw [fr.2.1, f2.1, g2]) (by rw [fr.2.2.1, f2.2.1, g3]) (by rw [fr.2.2.2.1, f2.2.2.1, g4])
    (by rw [if_neg (by simp), fr.2.2.2.2.1, fr.2.2.2.2.2.1, f2.2.2.2.1, f2.2.2.2.2.1, g5, g6]; exact ⟨rfl, rfl⟩)
    (by rw [fr.1, mem2, upd_ne (by omega), upd_ne (by omega), upd_same])
    (by rw [fr.1, mem2, upd_ne (by omega), upd_same])
    (by intro _; rw [fr.1, mem2, e0, upd_same])
    (by intro x h1 h2 h3; rw [fr.1, mem2, upd_ne (by rw [e0]; exact h3 rfl), upd_ne h2, upd_ne h1, g1])
    ?_ ?_
  · refine ⟨got.inv, got.chunk, ?_, ?_, ?_⟩
    · intro w e; rw [h] at e; cases e
    swap
    · intro q w hq
      rcases got.only q w hq with c | c
      · exact .inl c
      · rcases (retire_iff i).1 c with ⟨c, _⟩ | ⟨_, c⟩
        · exact .inr c
        · cases c
    intro q w hq
    have hq' : Dl.retire s A q = some (w, .live) := (retire_iff i).2 (.inl ⟨hq, by simp⟩)
    have := got.keep q w hq'
    refine ⟨this.1, fun x h1 h2 => ?_⟩
    rw [this.2 x h1 h2, g1]
  · have key : ∀ q, binF (two (Dl.retire s A) p (p + z) nb .live rs .dv) q =
        if s.dvsize ≠ 0 then addF (delF (binF A) p) s.dv s.dvsize q else delF (binF A) p q := by
      intro q
      rw [binF_two i0 h' (by omega) (by omega), if_neg (by simp)]
      unfold delF
      rw [binF_retire i]
      by_cases c : s.dvsize ≠ 0
      · have hdA := (i.dv.iff s.dv s.dvsize).2 ⟨rfl, rfl, c⟩
        have : p ≠ s.dv := by rintro rfl; exact hpd _ hdA
        rw [if_pos c, if_pos c]
        unfold addF
        by_cases d : q = p
        · simp only [if_pos d, d, if_neg this, if_true]
        · rw [if_neg d]
          by_cases d2 : q = s.dv
          · rw [if_pos d2, if_pos d2]
          · simp only [if_neg d2, if_neg d]
      · rw [if_neg c, if_neg c]
    unfold replaceDv
    by_cases c : s.dvsize ≠ 0
    · have hdA := (i.dv.iff s.dv s.dvsize).2 ⟨rfl, rfl, c⟩
      have c' : s2.dvsize ≠ 0 := by rw [f2.2.2.2.2.2.2]; exact c
      simp only [if_pos c']
      have b3 := b2.insertSmall (p := s2.dv) (z := s2.dvsize) (by
        unfold delF
        split
        · rfl
        · rw [f2.2.2.2.2.2.1]; exact binF_none (by intro z e; rw [hdA] at e; cases e)) (by
        rw [f2.2.2.2.2.2.2]; exact isSmall_iff.2 hd)
      refine b3.congr (fun q => ?_)
      rw [key, if_pos c, f2.2.2.2.2.2.1, f2.2.2.2.2.2.2]
    · have c' : ¬ s2.dvsize ≠ 0 := by rw [f2.2.2.2.2.2.2]; exact c
      simp only [if_neg c']
      refine b2.congr (fun q => ?_)
      rw [key, if_neg c]
  · rw [fr.2.2.2.2.2.2.1, fr.2.2.2.2.2.2.2]
    apply dvOk_two_dv (by omega) (by omega) (by omega)
    intro q w e
    rcases (retire_iff i).1 e with ⟨_, e⟩ | ⟨_, e⟩
    · exact absurd rfl e
    · cases e
end

end Verif.Dl
