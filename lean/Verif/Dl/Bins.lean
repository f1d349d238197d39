import Verif.Dl.Tags
import Verif.Spec.Dl
import Verif.Dl.Trie
import Mathlib.Data.List.Perm.Basic

/-
The bins hold exactly the free chunks that are not the designated victim, each in the bin
of its size; the maps say which bins are not empty.
-/
namespace Verif.Dl
open Verif

theorem T.chunks_nil {t : T} : t.chunks = [] ↔ t = .nil := by cases t <;> simp [T.chunks]

theorem T.insert_perm (sz : Nat → Nat) (x S : Nat) (t : T) (k : Nat) :
    (t.insert sz x S k).chunks.Perm (x :: t.chunks) := by
  induction t generalizing k with
  | nil => simp [T.insert, T.chunks]
  | node a ring l r ihl ihr =>
    unfold T.insert
    split
    · split
      · unfold T.chunks
        refine (List.Perm.cons a (List.Perm.append_left ring (List.Perm.append_left l.chunks (ihr _)))).trans ?_
        rw [← List.append_assoc, ← List.append_assoc]
        refine (List.Perm.cons a List.perm_middle).trans (List.Perm.swap x a _)
      · unfold T.chunks
        refine (List.Perm.cons a (List.Perm.append_left ring (List.Perm.append_right r.chunks (ihl _)))).trans ?_
        rw [List.cons_append]
        refine (List.Perm.cons a List.perm_middle).trans (List.Perm.swap x a _)
    · unfold T.chunks
      rw [List.cons_append]
      exact List.Perm.swap x a _

theorem T.popLeaf_none {t : T} : t.popLeaf = none ↔ t = .nil := by
  cases t with
  | nil => simp [T.popLeaf]
  | node a ring l r =>
    simp only [T.popLeaf]
    cases r.popLeaf with
    | some x => simp
    | none => cases l.popLeaf <;> simp

theorem T.popLeaf_perm {t : T} {a : Nat} {ring : List Nat} {t' : T} (h : t.popLeaf = some ((a, ring), t')) :
    t.chunks.Perm (a :: (ring ++ t'.chunks)) := by
  induction t generalizing t' with
  | nil => simp [T.popLeaf] at h
  | node b rg l r ihl ihr =>
    simp only [T.popLeaf] at h
    cases hr : r.popLeaf with
    | some x =>
      obtain ⟨⟨a', ring'⟩, r'⟩ := x
      rw [hr] at h
      simp only [Option.some.injEq, Prod.mk.injEq] at h
      obtain ⟨⟨rfl, rfl⟩, rfl⟩ := h
      have p := ihr hr
      unfold T.chunks
      calc (b :: (rg ++ (l.chunks ++ r.chunks))).Perm (b :: (rg ++ (l.chunks ++ ((a' :: ring') ++ r'.chunks)))) :=
            List.Perm.cons b (List.Perm.append_left rg (List.Perm.append_left _ p))
        _ = (b :: (rg ++ l.chunks)) ++ ((a' :: ring') ++ r'.chunks) := by simp
        _ |>.Perm ((a' :: ring') ++ ((b :: (rg ++ l.chunks)) ++ r'.chunks)) := by
            rw [← List.append_assoc, ← List.append_assoc]
            exact List.Perm.append_right _ List.perm_append_comm
        _ = a' :: (ring' ++ b :: (rg ++ (l.chunks ++ r'.chunks))) := by simp
    | none =>
      have er := T.popLeaf_none.1 hr
      subst er
      rw [hr] at h
      cases hl : l.popLeaf with
      | some x =>
        obtain ⟨⟨a', ring'⟩, l'⟩ := x
        rw [hl] at h
        simp only [Option.some.injEq, Prod.mk.injEq] at h
        obtain ⟨⟨rfl, rfl⟩, rfl⟩ := h
        have p := ihl hl
        simp only [T.chunks, List.append_nil]
        calc (b :: (rg ++ l.chunks)).Perm (b :: (rg ++ ((a' :: ring') ++ l'.chunks))) :=
              List.Perm.cons b (List.Perm.append_left rg p)
          _ = (b :: rg) ++ ((a' :: ring') ++ l'.chunks) := by simp
          _ |>.Perm ((a' :: ring') ++ ((b :: rg) ++ l'.chunks)) := by
              rw [← List.append_assoc, ← List.append_assoc]
              exact List.Perm.append_right _ List.perm_append_comm
          _ = a' :: (ring' ++ b :: (rg ++ l'.chunks)) := by simp
      | none =>
        have el := T.popLeaf_none.1 hl
        subst el
        rw [hl] at h
        simp only [Option.some.injEq, Prod.mk.injEq] at h
        obtain ⟨⟨rfl, rfl⟩, rfl⟩ := h
        simp [T.chunks]

theorem T.dropRoot_perm (a : Nat) (ring : List Nat) (l r : T) :
    (T.dropRoot (.node a ring l r)).chunks.Perm (ring ++ (l.chunks ++ r.chunks)) := by
  cases ring with
  | cons c ring =>
    simp only [T.dropRoot, T.chunks]
    have e : (c :: ring).dropLast ++ [(c :: ring).getLast (by simp)] = c :: ring := List.dropLast_append_getLast _
    have : ((c :: ring).getLast (by simp) :: (c :: ring).dropLast).Perm (c :: ring) := by
      conv_rhs => rw [← e]
      exact (List.perm_append_singleton _ _).symm
    rw [← List.cons_append]
    exact List.Perm.append_right _ this
  | nil =>
    simp only [T.dropRoot, List.nil_append]
    cases hr : r.popLeaf with
    | some x =>
      obtain ⟨⟨b, ring⟩, r'⟩ := x
      have p := T.popLeaf_perm hr
      simp only [T.chunks]
      refine List.Perm.trans ?_ (List.Perm.append_left _ p.symm)
      calc (b :: (ring ++ (l.chunks ++ r'.chunks))) = ((b :: ring) ++ l.chunks) ++ r'.chunks := by simp
        _ |>.Perm ((l.chunks ++ (b :: ring)) ++ r'.chunks) := List.Perm.append_right _ List.perm_append_comm
        _ = l.chunks ++ b :: (ring ++ r'.chunks) := by simp
    | none =>
      have er := T.popLeaf_none.1 hr
      subst er
      cases hl : l.popLeaf with
      | some x =>
        obtain ⟨⟨b, ring⟩, l'⟩ := x
        have p := T.popLeaf_perm hl
        simp only [T.chunks, List.append_nil]
        exact p.symm
      | none =>
        have el := T.popLeaf_none.1 hl
        subst el
        simp [T.chunks]

theorem T.remove_perm {x : Nat} {t : T} (h : x ∈ t.chunks) (hn : t.chunks.Nodup) :
    (x :: (t.remove x).chunks).Perm t.chunks := by
  induction t with
  | nil => simp [T.chunks] at h
  | node a ring l r ihl ihr =>
    unfold T.remove
    split
    case isTrue e =>
      subst e
      exact List.Perm.cons a (T.dropRoot_perm a ring l r)
    case isFalse ne =>
      simp only [T.chunks, List.mem_cons, List.mem_append] at h
      split
      case isTrue hr =>
        simp only [T.chunks]
        refine (List.Perm.swap a x _).trans (List.Perm.cons a ?_)
        rw [← List.cons_append]
        exact List.Perm.append_right _ (List.perm_cons_erase hr).symm
      case isFalse hr =>
        simp only [T.chunks, List.nodup_cons, List.nodup_append, List.mem_append] at hn
        have nin : ∀ (t : T), x ∉ t.chunks → t.remove x = t := by
          intro t
          induction t with
          | nil => intro _; rfl
          | node a ring l r ihl ihr =>
            intro h
            simp only [T.chunks, List.mem_cons, List.mem_append, not_or] at h
            unfold T.remove
            rw [if_neg (Ne.symm h.1), if_neg h.2.1, ihl h.2.2.1, ihr h.2.2.2]
        simp only [T.chunks]
        rcases h with h | h | h | h
        · exact absurd h.symm ne
        · exact absurd h hr
        · have hrr : x ∉ r.chunks := fun h' => (hn.2.2.1.2.2 x h x h') rfl
          rw [nin r hrr]
          refine (List.Perm.swap a x _).trans (List.Perm.cons a ?_)
          refine List.perm_middle.symm.trans (List.Perm.append_left ring ?_)
          rw [← List.cons_append]
          exact List.Perm.append_right _ (ihl h hn.2.2.1.1)
        · have hll : x ∉ l.chunks := fun h' => (hn.2.2.1.2.2 x h' x h) rfl
          rw [nin l hll]
          refine (List.Perm.swap a x _).trans (List.Perm.cons a ?_)
          refine List.perm_middle.symm.trans (List.Perm.append_left ring ?_)
          refine List.perm_middle.symm.trans (List.Perm.append_left _ ?_)
          exact ihr h hn.2.2.1.2.1

/-! ## The bins -/

structure Bins (sm tm : Nat) (small : Nat → List Nat) (tree : Nat → T) (F : Nat → Option Nat) : Prop where
  smem : ∀ {i p}, p ∈ small i ↔ ∃ z, F p = some z ∧ isSmall z = true ∧ z / 8 = i
  tmem : ∀ {i p}, p ∈ (tree i).chunks ↔ ∃ z, F p = some z ∧ isSmall z = false ∧ treeIndex z = i
  snd : ∀ i, (small i).Nodup
  tnd : ∀ i, (tree i).chunks.Nodup
  sbit : ∀ i, sm.testBit i = true ↔ small i ≠ []
  tbit : ∀ i, tm.testBit i = true ↔ tree i ≠ .nil
  trie : ∀ i, (tree i).Trie (fun a => (F a).getD 0) (tbits i) (tpre i)

/-- Bins of a heap. -/
abbrev Hp.Bins (s : Hp) (F : Nat → Option Nat) : Prop := Dl.Bins s.smallmap s.treemap s.small s.tree F

theorem testBit_mark (m i j : Nat) : (mark m i).testBit j = (decide (j = i) || m.testBit j) := by
  unfold mark
  rw [Nat.testBit_or, Nat.one_shiftLeft, Nat.testBit_two_pow, Bool.or_comm]
  congr 1
  exact decide_eq_decide.2 eq_comm

theorem testBit_clear (m i j : Nat) : (clear m i).testBit j = (!decide (j = i) && m.testBit j) := by
  unfold clear
  split
  · rename_i h
    rw [Nat.testBit_xor, Nat.one_shiftLeft, Nat.testBit_two_pow]
    by_cases e : j = i
    · subst e; simp [h]
    · simp [e, Ne.symm e]
  · rename_i h
    by_cases e : j = i
    · subst e; simp at h; simp [h]
    · simp [e]

theorem updL_same {α : Type} (f : Nat → α) (i : Nat) (v : α) : updL f i v i = v := by simp [updL]
theorem updL_ne {α : Type} {f : Nat → α} {i j : Nat} {v : α} (h : j ≠ i) : updL f i v j = f j := by simp [updL, h]

/-- A map with one more entry; without one. -/
def addF (F : Nat → Option Nat) (p z : Nat) : Nat → Option Nat := fun q => if q = p then some z else F q
def delF (F : Nat → Option Nat) (p : Nat) : Nat → Option Nat := fun q => if q = p then none else F q

theorem delF_some {F : Nat → Option Nat} {p q z : Nat} : delF F p q = some z ↔ q ≠ p ∧ F q = some z := by
  unfold delF; split <;> simp [*]

theorem addF_some {F : Nat → Option Nat} {p q z w : Nat} (h : F p = none) :
    addF F p z q = some w ↔ (q = p ∧ w = z) ∨ F q = some w := by
  unfold addF
  split
  · rename_i e; subst e; simp [h]; exact eq_comm
  · rename_i e; simp [e]

theorem Bins.insertSmall {s : Hp} {F : Nat → Option Nat} (b : s.Bins F) {p z : Nat} (hp : F p = none)
    (hz : isSmall z = true) : (insertSmall s p z).Bins (addF F p z) := by
  refine ⟨?_, ?_, ?_, b.tnd, ?_, b.tbit, ?_⟩
  · intro i q
    simp only [Dl.insertSmall, addF_some hp]
    by_cases e : i = z / 8
    · subst e
      rw [updL_same, List.mem_cons, b.smem]
      constructor
      · rintro (h | ⟨w, h⟩)
        · exact ⟨z, .inl ⟨h, rfl⟩, hz, rfl⟩
        · exact ⟨w, .inr h.1, h.2⟩
      · rintro ⟨w, h | h, h2⟩
        · exact .inl h.1
        · exact .inr ⟨w, h, h2⟩
    · rw [updL_ne e, b.smem]
      constructor
      · rintro ⟨w, h⟩; exact ⟨w, .inr h.1, h.2⟩
      · rintro ⟨w, h | h, h2⟩
        · rw [h.2] at h2; exact absurd h2.2.symm e
        · exact ⟨w, h, h2⟩
  · intro i q
    simp only [Dl.insertSmall, addF_some hp]
    rw [b.tmem]
    constructor
    · rintro ⟨w, h⟩; exact ⟨w, .inr h.1, h.2⟩
    · rintro ⟨w, h | h, h2⟩
      · rw [h.2, hz] at h2; exact absurd h2.1 (by simp)
      · exact ⟨w, h, h2⟩
  · intro i
    simp only [Dl.insertSmall]
    by_cases e : i = z / 8
    · subst e
      rw [updL_same, List.nodup_cons]
      refine ⟨?_, b.snd _⟩
      intro h
      obtain ⟨w, h, _⟩ := b.smem.1 h
      rw [hp] at h; cases h
    · rw [updL_ne e]; exact b.snd i
  · intro i
    simp only [Dl.insertSmall, testBit_mark]
    by_cases e : i = z / 8
    · subst e; rw [updL_same]; simp
    · rw [updL_ne e]; simp [e, b.sbit]
  · intro i
    refine (b.trie i).congr (fun x hx => ?_)
    obtain ⟨w, h, _⟩ := b.tmem.1 hx
    have : x ≠ p := by rintro rfl; rw [hp] at h; cases h
    simp [addF, this]

theorem Bins.unlinkSmall {s : Hp} {F : Nat → Option Nat} (b : s.Bins F) {p z : Nat} (hp : F p = some z)
    (hz : isSmall z = true) : (unlinkSmall s p (z / 8)).Bins (delF F p) := by
  have hm : p ∈ s.small (z / 8) := b.smem.2 ⟨z, hp, hz, rfl⟩
  refine ⟨?_, ?_, ?_, b.tnd, ?_, b.tbit, ?_⟩
  · intro i q
    simp only [Dl.unlinkSmall, delF_some]
    by_cases e : i = z / 8
    · subst e
      rw [updL_same, (b.snd _).mem_erase_iff, b.smem]
      constructor
      · rintro ⟨h, w, h2⟩; exact ⟨w, ⟨h, h2.1⟩, h2.2⟩
      · rintro ⟨w, h, h2⟩; exact ⟨h.1, w, h.2, h2⟩
    · rw [updL_ne e, b.smem]
      constructor
      · rintro ⟨w, h, h2⟩
        refine ⟨w, ⟨?_, h⟩, h2⟩
        rintro rfl
        rw [hp] at h; cases h; exact e h2.2.symm
      · rintro ⟨w, h, h2⟩; exact ⟨w, h.2, h2⟩
  · intro i q
    simp only [Dl.unlinkSmall, delF_some]
    rw [b.tmem]
    constructor
    · rintro ⟨w, h, h2⟩
      refine ⟨w, ⟨?_, h⟩, h2⟩
      rintro rfl
      rw [hp] at h; cases h; rw [hz] at h2; exact absurd h2.1 (by simp)
    · rintro ⟨w, h, h2⟩; exact ⟨w, h.2, h2⟩
  · intro i
    simp only [Dl.unlinkSmall]
    by_cases e : i = z / 8
    · subst e; rw [updL_same]; exact (b.snd _).erase _
    · rw [updL_ne e]; exact b.snd i
  · intro i
    simp only [Dl.unlinkSmall]
    by_cases e : i = z / 8
    · subst e
      rw [updL_same]
      by_cases hl : (s.small (z / 8)).erase p = []
      · rw [if_pos hl, testBit_clear]; simp [hl]
      · rw [if_neg hl, b.sbit]
        have : s.small (z / 8) ≠ [] := List.ne_nil_of_mem hm
        simp [hl, this]
    · rw [updL_ne e]
      by_cases hl : (s.small (z / 8)).erase p = []
      · rw [if_pos hl, testBit_clear]; simp [e, b.sbit]
      · rw [if_neg hl, b.sbit]
  · intro i
    refine (b.trie i).congr (fun x hx => ?_)
    obtain ⟨w, h, h2, _⟩ := b.tmem.1 hx
    have : x ≠ p := by rintro rfl; rw [hp] at h; cases h; rw [hz] at h2; cases h2
    simp [delF, this]

theorem Bins.insertLarge {s : Hp} {F : Nat → Option Nat} (b : s.Bins F) {p z : Nat} (hp : F p = none)
    (hz : isSmall z = false) (h64 : z < 2 ^ 64) (hm : ∀ q w, F q = some w → chunksize (s.mem (q + 8)) = w) : (insertLarge s p z).Bins (addF F p z) := by
  have P := T.insert_perm (fun a => chunksize (s.mem (a + 8))) p z (s.tree (treeIndex z))
    (z <<< leftshift (treeIndex z) % 2 ^ 64)
  refine ⟨?_, ?_, b.snd, ?_, b.sbit, ?_, ?_⟩
  · intro i q
    simp only [Dl.insertLarge, addF_some hp]
    rw [b.smem]
    constructor
    · rintro ⟨w, h⟩; exact ⟨w, .inr h.1, h.2⟩
    · rintro ⟨w, h | h, h2⟩
      · rw [h.2, hz] at h2; exact absurd h2.1 (by simp)
      · exact ⟨w, h, h2⟩
  · intro i q
    simp only [Dl.insertLarge, addF_some hp]
    by_cases e : i = treeIndex z
    · subst e
      rw [updL_same, P.mem_iff, List.mem_cons, b.tmem]
      constructor
      · rintro (h | ⟨w, h⟩)
        · exact ⟨z, .inl ⟨h, rfl⟩, hz, rfl⟩
        · exact ⟨w, .inr h.1, h.2⟩
      · rintro ⟨w, h | h, h2⟩
        · exact .inl h.1
        · exact .inr ⟨w, h, h2⟩
    · rw [updL_ne e, b.tmem]
      constructor
      · rintro ⟨w, h⟩; exact ⟨w, .inr h.1, h.2⟩
      · rintro ⟨w, h | h, h2⟩
        · rw [h.2] at h2; exact absurd h2.2.symm e
        · exact ⟨w, h, h2⟩
  · intro i
    simp only [Dl.insertLarge]
    by_cases e : i = treeIndex z
    · subst e
      rw [updL_same, P.nodup_iff, List.nodup_cons]
      refine ⟨?_, b.tnd _⟩
      intro h
      obtain ⟨w, h, _⟩ := b.tmem.1 h
      rw [hp] at h; cases h
    · rw [updL_ne e]; exact b.tnd i
  · intro i
    simp only [Dl.insertLarge, testBit_mark]
    by_cases e : i = treeIndex z
    · subst e; rw [updL_same]
      have : T.insert (fun a => chunksize (s.mem (a + 8))) p z (s.tree (treeIndex z))
        (z <<< leftshift (treeIndex z) % 2 ^ 64) ≠ .nil := by
        intro h
        rw [h] at P
        exact absurd P.length_eq (by simp [T.chunks])
      exact ⟨fun _ => this, fun _ => by simp⟩
    · rw [updL_ne e]; simp [e, b.tbit]
  · intro i
    have keep : ∀ i, (s.tree i).Trie (fun a => (addF F p z a).getD 0) (tbits i) (tpre i) := by
      intro i
      refine (b.trie i).congr (fun x hx => ?_)
      obtain ⟨w, h, _⟩ := b.tmem.1 hx
      have : x ≠ p := by rintro rfl; rw [hp] at h; cases h
      simp [addF, this]
    simp only [Dl.insertLarge]
    by_cases e : i = treeIndex z
    · subst e
      rw [updL_same]
      have z256 : 256 ≤ z := by unfold isSmall at hz; simp at hz; omega
      rw [T.insert_congr (sz' := fun a => (addF F p z a).getD 0), steer_eq (treeIndex_lt z)]
      · exact (keep _).insert (by simp [addF]) (treeIndex_pre z256 h64) (tbits_le (treeIndex_lt z))
      · intro y hy
        obtain ⟨w, h, _⟩ := b.tmem.1 hy
        have : y ≠ p := by rintro rfl; rw [hp] at h; cases h
        rw [hm y w h]
        simp [addF, this, h]
    · rw [updL_ne e]; exact keep i

theorem Bins.unlinkLarge {s : Hp} {F : Nat → Option Nat} (b : s.Bins F) {p z : Nat} (hp : F p = some z)
    (hz : isSmall z = false) : (unlinkLarge s p (treeIndex z)).Bins (delF F p) := by
  have hm : p ∈ (s.tree (treeIndex z)).chunks := b.tmem.2 ⟨z, hp, hz, rfl⟩
  have P := T.remove_perm hm (b.tnd _)
  have N : (p :: ((s.tree (treeIndex z)).remove p).chunks).Nodup := P.nodup_iff.2 (b.tnd _)
  rw [List.nodup_cons] at N
  refine ⟨?_, ?_, b.snd, ?_, b.sbit, ?_, ?_⟩
  · intro i q
    simp only [Dl.unlinkLarge, delF_some]
    rw [b.smem]
    constructor
    · rintro ⟨w, h, h2⟩
      refine ⟨w, ⟨?_, h⟩, h2⟩
      rintro rfl
      rw [hp] at h; cases h; rw [hz] at h2; exact absurd h2.1 (by simp)
    · rintro ⟨w, h, h2⟩; exact ⟨w, h.2, h2⟩
  · intro i q
    simp only [Dl.unlinkLarge, delF_some]
    by_cases e : i = treeIndex z
    · subst e
      rw [updL_same]
      have : q ∈ ((s.tree (treeIndex z)).remove p).chunks ↔ q ≠ p ∧ q ∈ (s.tree (treeIndex z)).chunks := by
        rw [← P.mem_iff, List.mem_cons]
        constructor
        · intro h; exact ⟨by rintro rfl; exact N.1 h, .inr h⟩
        · rintro ⟨h, h2 | h2⟩
          · exact absurd h2 h
          · exact h2
      rw [this, b.tmem]
      constructor
      · rintro ⟨h, w, h2⟩; exact ⟨w, ⟨h, h2.1⟩, h2.2⟩
      · rintro ⟨w, h, h2⟩; exact ⟨h.1, w, h.2, h2⟩
    · rw [updL_ne e, b.tmem]
      constructor
      · rintro ⟨w, h, h2⟩
        refine ⟨w, ⟨?_, h⟩, h2⟩
        rintro rfl
        rw [hp] at h; cases h; exact e h2.2.symm
      · rintro ⟨w, h, h2⟩; exact ⟨w, h.2, h2⟩
  · intro i
    simp only [Dl.unlinkLarge]
    by_cases e : i = treeIndex z
    · subst e; rw [updL_same]; exact N.2
    · rw [updL_ne e]; exact b.tnd i
  · intro i
    simp only [Dl.unlinkLarge]
    by_cases e : i = treeIndex z
    · subst e
      rw [updL_same]
      by_cases hl : (s.tree (treeIndex z)).remove p = .nil
      · rw [if_pos hl, testBit_clear]; simp [hl]
      · rw [if_neg hl, b.tbit]
        have : s.tree (treeIndex z) ≠ .nil := by
          intro h; rw [h] at hm; simp [T.chunks] at hm
        simp [hl, this]
    · rw [updL_ne e]
      by_cases hl : (s.tree (treeIndex z)).remove p = .nil
      · rw [if_pos hl, testBit_clear]; simp [e, b.tbit]
      · rw [if_neg hl, b.tbit]
  · intro i
    have keep : ∀ (t : T) i, t.Trie (fun a => (F a).getD 0) (tbits i) (tpre i) → p ∉ t.chunks →
        t.Trie (fun a => (delF F p a).getD 0) (tbits i) (tpre i) := by
      intro t i h hn
      refine h.congr (fun x hx => ?_)
      have : x ≠ p := by rintro rfl; exact hn hx
      simp [delF, this]
    simp only [Dl.unlinkLarge]
    by_cases e : i = treeIndex z
    · subst e
      rw [updL_same]
      exact keep _ _ ((b.trie _).remove p) N.1
    · rw [updL_ne e]
      refine keep _ _ (b.trie i) (fun h => ?_)
      obtain ⟨w, h, _, h2⟩ := b.tmem.1 h
      rw [hp] at h; cases h
      exact e h2.symm

theorem Bins.insertChunk {s : Hp} {F : Nat → Option Nat} (b : s.Bins F) {p z : Nat} (hp : F p = none)
    (h64 : z < 2 ^ 64) (hm : ∀ q w, F q = some w → chunksize (s.mem (q + 8)) = w) :
    (insertChunk s p z).Bins (addF F p z) := by
  unfold Dl.insertChunk
  cases h : isSmall z with
  | true => rw [if_pos rfl]; exact b.insertSmall hp h
  | false => rw [if_neg (by simp)]; exact b.insertLarge hp h h64 hm

theorem Bins.unlinkChunk {s : Hp} {F : Nat → Option Nat} (b : s.Bins F) {p z : Nat} (hp : F p = some z) :
    (unlinkChunk s p z).Bins (delF F p) := by
  unfold Dl.unlinkChunk
  cases h : isSmall z with
  | true => rw [if_pos rfl]; exact b.unlinkSmall hp h
  | false => rw [if_neg (by simp)]; exact b.unlinkLarge hp h

/-- No bins at all. -/
theorem Bins.empty : Bins 0 0 (fun _ => []) (fun _ => .nil) (fun _ => none) :=
  ⟨by simp, by simp [T.chunks], by simp, by simp [T.chunks], by simp, by simp, fun _ => trivial⟩

theorem Bins.congr {sm tm : Nat} {small : Nat → List Nat} {tree : Nat → T} {F G : Nat → Option Nat}
    (b : Bins sm tm small tree F) (h : ∀ p, G p = F p) : Bins sm tm small tree G := by
  have : G = F := funext h
  rw [this]; exact b

/-! ## Fields that stay -/

theorem insertChunk_mem (s : Hp) (p z : Nat) : (insertChunk s p z).mem = s.mem := by unfold insertChunk; split <;> rfl
theorem unlinkChunk_mem (s : Hp) (p z : Nat) : (unlinkChunk s p z).mem = s.mem := by unfold unlinkChunk; split <;> rfl

/-- Only the bins differ. -/
structure SameBut (s s' : Hp) : Prop where
  mem : s'.mem = s.mem
  mapped : s'.mapped = s.mapped
  dv : s'.dv = s.dv
  dvsize : s'.dvsize = s.dvsize
  top : s'.top = s.top
  topsize : s'.topsize = s.topsize
  least : s'.least = s.least
  segs : s'.segs = s.segs
  trim : s'.trim = s.trim

theorem insertChunk_same (s : Hp) (p z : Nat) : SameBut s (insertChunk s p z) := by
  unfold insertChunk; split <;> exact ⟨rfl, rfl, rfl, rfl, rfl, rfl, rfl, rfl, rfl⟩
theorem unlinkChunk_same (s : Hp) (p z : Nat) : SameBut s (unlinkChunk s p z) := by
  unfold unlinkChunk; split <;> exact ⟨rfl, rfl, rfl, rfl, rfl, rfl, rfl, rfl, rfl⟩

end Verif.Dl
