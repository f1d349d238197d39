import Verif.Base.Common

/-
Doubly linked lists given by `next` and `prev` functions.
-/
namespace Verif

variable {K : Type} [DecidableEq K]

/-- The nodes reachable from `h` by `nx` are `xs`, and their `pv` links are right when
the first one has predecessor `p`. -/
def Seg (nx pv : K → Option K) : Option K → List K → Option K → Prop
  | _, [], h => h = none
  | p, x :: xs, h => h = some x ∧ pv x = p ∧ Seg nx pv (some x) xs (nx x)

omit [DecidableEq K] in
theorem Seg.congr {nx pv nx' pv' : K → Option K} : ∀ {xs : List K} {p h}, Seg nx pv p xs h →
    (∀ x ∈ xs, nx' x = nx x ∧ pv' x = pv x) → Seg nx' pv' p xs h
  | [], _, _, h, _ => h
  | x :: xs, p, hd, ⟨h1, h2, h3⟩, hc => by
    refine ⟨h1, (hc x (by simp)).2.trans h2, ?_⟩
    rw [(hc x (by simp)).1]
    exact Seg.congr h3 fun y hy => hc y (by simp [hy])

omit [DecidableEq K] in
theorem Seg.head_eq {nx pv : K → Option K} {xs : List K} {p h} (H : Seg nx pv p xs h) : h = xs.head? := by
  cases xs with
  | nil => exact H
  | cons x xs => exact H.1

omit [DecidableEq K] in
/-- Predecessor of a member. -/
theorem Seg.pv_mem {nx pv : K → Option K} : ∀ {xs : List K} {p h t}, Seg nx pv p xs h → t ∈ xs →
    (h = some t ∧ pv t = p) ∨ ∃ y ∈ xs, pv t = some y ∧ nx y = some t
  | x :: xs, p, hd, t, ⟨h1, h2, h3⟩, ht => by
    rcases List.mem_cons.1 ht with rfl | ht
    · exact .inl ⟨h1, h2⟩
    · right
      rcases Seg.pv_mem h3 ht with ⟨a, b⟩ | ⟨y, hy, a, b⟩
      · exact ⟨x, by simp, b, a⟩
      · exact ⟨y, by simp [hy], a, b⟩

omit [DecidableEq K] in
/-- Successor of a member. -/
theorem Seg.nx_mem {nx pv : K → Option K} : ∀ {xs : List K} {p h t}, Seg nx pv p xs h → t ∈ xs →
    nx t = none ∨ ∃ y ∈ xs.tail, nx t = some y
  | x :: xs, p, hd, t, ⟨h1, h2, h3⟩, ht => by
    rcases List.mem_cons.1 ht with rfl | ht
    · have := h3.head_eq
      cases xs with
      | nil => exact .inl this
      | cons y ys => exact .inr ⟨y, by simp, this⟩
    · rcases Seg.nx_mem h3 ht with h | ⟨y, hy, h⟩
      · exact .inl h
      · exact .inr ⟨y, by simpa using List.mem_of_mem_tail hy, h⟩

omit [DecidableEq K] in
theorem Seg.nx_ne {nx pv : K → Option K} : ∀ {xs : List K} {p h t}, Seg nx pv p xs h → xs.Nodup → t ∈ xs →
    nx t ≠ some t
  | x :: xs, p, hd, t, ⟨h1, h2, h3⟩, hn, ht => by
    rw [List.nodup_cons] at hn
    rcases List.mem_cons.1 ht with rfl | ht
    · intro h
      have := h3.head_eq
      rw [h] at this
      exact hn.1 (List.mem_of_mem_head? this.symm)
    · exact Seg.nx_ne h3 hn.2 ht

omit [DecidableEq K] in
theorem Seg.pv_ne {nx pv : K → Option K} {xs : List K} {h t} (H : Seg nx pv none xs h) (hn : xs.Nodup)
    (ht : t ∈ xs) : pv t ≠ some t := by
  intro e
  rcases H.pv_mem ht with ⟨_, b⟩ | ⟨y, hy, a, b⟩
  · rw [b] at e; exact absurd e (by simp)
  · rw [a, Option.some.injEq] at e
    subst e
    exact H.nx_ne hn hy b

/-- Pushing `x` at the front. -/
theorem Seg.push {nx pv nx' pv' : K → Option K} {xs : List K} {h : Option K} {x : K} (H : Seg nx pv none xs h)
    (hx : x ∉ xs) (hn : xs.Nodup) (h1 : nx' x = h) (h2 : pv' x = none)
    (h3 : ∀ y ∈ xs, nx' y = nx y ∧ pv' y = if h = some y then some x else pv y) :
    Seg nx' pv' none (x :: xs) (some x) := by
  refine ⟨rfl, h2, ?_⟩
  rw [h1]
  cases xs with
  | nil => exact H
  | cons y ys =>
    obtain ⟨a, b, c⟩ := H
    rw [List.nodup_cons] at hn
    have hy := h3 y (by simp)
    refine ⟨a, by rw [hy.2, if_pos a], ?_⟩
    rw [hy.1]
    refine c.congr fun z hz => ?_
    have := h3 z (by simp [hz])
    rw [if_neg (by rw [a]; intro e; exact hn.1 (by simpa using (Option.some.inj e) ▸ hz))] at this
    exact this

/-- Unlinking a member `t`: `next` of its predecessor and `prev` of its successor. -/
theorem Seg.unlink {nx pv nx' pv' : K → Option K} {t : K} : ∀ {xs : List K} {p h : Option K},
    Seg nx pv p xs h → t ∈ xs → xs.Nodup → (∀ q, p = some q → q ∉ xs) →
    (∀ y ∈ xs, nx' y = (if pv t = some y then nx t else nx y)) →
    (∀ y ∈ xs, pv' y = (if nx t = some y then pv t else pv y)) →
    Seg nx' pv' p (xs.erase t) (if h = some t then nx t else h)
  | x :: xs, p, hd, ⟨h1, h2, h3⟩, ht, hn, hp, e1, e2 => by
    have hn' := hn
    rw [List.nodup_cons] at hn
    by_cases hxt : x = t
    · subst hxt
      rw [List.erase_cons_head, if_pos h1]
      -- the rest, with the first one's `prev` now `p`
      cases xs with
      | nil => exact h3
      | cons y ys =>
        obtain ⟨a, b, c⟩ := h3
        have hny := hn.2
        rw [List.nodup_cons] at hny
        refine ⟨a, by rw [e2 y (by simp), if_pos a, h2], ?_⟩
        have hpv : ∀ z ∈ y :: ys, pv x ≠ some z := by
          intro z hz e
          rw [h2] at e
          exact hp z e (by simp [List.mem_cons.1 hz])
        rw [e1 y (by simp), if_neg (hpv y (by simp))]
        refine c.congr fun z hz => ?_
        rw [e1 z (by simp [hz]), e2 z (by simp [hz]), if_neg (hpv z (by simp [hz])), if_neg]
        · exact ⟨rfl, rfl⟩
        · rw [a]; intro e; exact hny.1 ((Option.some.inj e) ▸ hz)
    · have ht' : t ∈ xs := by
        rcases List.mem_cons.1 ht with h | h
        · exact absurd h.symm hxt
        · exact h
      rw [List.erase_cons_tail (by simpa using hxt), if_neg (by rw [h1]; simpa using hxt)]
      refine ⟨h1, ?_, ?_⟩
      · rw [e2 x (by simp), if_neg, h2]
        intro e
        rcases h3.nx_mem ht' with h | ⟨y, hy, h⟩
        · rw [h] at e; exact absurd e (by simp)
        · rw [h, Option.some.injEq] at e
          subst e
          exact hn.1 (List.mem_of_mem_tail hy)
      · have key : nx' x = if nx x = some t then nx t else nx x := by
          rw [e1 x (by simp)]
          by_cases h : nx x = some t
          · rw [if_pos h, if_pos]
            rcases h3.pv_mem ht' with ⟨_, b⟩ | ⟨y, hy, a, b⟩
            · exact b
            · -- t is first in xs
              exfalso
              have h4 := h3.head_eq
              rw [h] at h4
              cases xs with
              | nil => simp at ht'
              | cons z zs =>
                simp only [List.head?_cons, Option.some.injEq] at h4
                subst h4
                obtain ⟨_, _, c⟩ := h3
                have hnz := hn.2
                rw [List.nodup_cons] at hnz
                rcases List.mem_cons.1 hy with rfl | hy
                · have := c.head_eq
                  rw [b] at this
                  exact hnz.1 (List.mem_of_mem_head? this.symm)
                · rcases c.nx_mem hy with h | ⟨w, hw, h⟩
                  · rw [h] at b; exact absurd b (by simp)
                  · rw [h, Option.some.injEq] at b
                    subst b
                    exact hnz.1 (List.mem_of_mem_tail hw)
          · rw [if_neg h, if_neg]
            intro e
            rcases h3.pv_mem ht' with ⟨a, _⟩ | ⟨y, hy, a, b⟩
            · exact h a
            · rw [a, Option.some.injEq] at e
              subst e
              exact hn.1 hy
        rw [key]
        exact Seg.unlink h3 ht' hn.2 (fun q hq hm => by
            rw [Option.some.injEq] at hq
            subst hq
            exact hn.1 hm)
          (fun y hy => e1 y (by simp [hy])) (fun y hy => e2 y (by simp [hy]))

end Verif
