import Verif.Dl.Sys

/-
Memory from the system in front of a segment.
-/
namespace Verif.Dl
open Verif

theorem updFirst_split {p : Seg → Bool} (f : Seg → Seg) {l : List Seg} {g : Seg} (h : l.find? p = some g) :
    ∃ l1 l2, l = l1 ++ g :: l2 ∧ updFirst p f l = l1 ++ f g :: l2 := by
  induction l with
  | nil => cases h
  | cons a l ih =>
    rw [List.find?_cons] at h
    cases e : p a with
    | true =>
      rw [e] at h
      simp only [Option.some.injEq] at h
      subst h
      exact ⟨[], l, rfl, by simp [updFirst, e]⟩
    | false =>
      rw [e] at h
      obtain ⟨l1, l2, h1, h2⟩ := ih h
      exact ⟨a :: l1, l2, by rw [h1]; rfl, by simp [updFirst, e, h2]⟩

theorem pw_mid {R : Seg → Seg → Prop} (sym : ∀ a b, R a b → R b a) {l1 l2 : List Seg} {g g' : Seg}
    (h : (l1 ++ g :: l2).Pairwise R) (hg : ∀ k, k ∈ l1 ∨ k ∈ l2 → R k g') : (l1 ++ g' :: l2).Pairwise R := by
  rw [List.pairwise_append, List.pairwise_cons] at h ⊢
  refine ⟨h.1, ⟨fun k hk => sym _ _ (hg k (.inr hk)), h.2.1.2⟩, ?_⟩
  intro a ha k hk
  rcases List.mem_cons.1 hk with rfl | hk
  · exact hg a (.inl ha)
  · exact h.2.2 a ha k (List.mem_cons_of_mem _ hk)

theorem pw_mid' {R : Seg → Seg → Prop} (sym : ∀ a b, R a b → R b a) {l1 l2 : List Seg} {g : Seg}
    (h : (l1 ++ g :: l2).Pairwise R) : ∀ k, k ∈ l1 ∨ k ∈ l2 → R k g := by
  rw [List.pairwise_append, List.pairwise_cons] at h
  rintro k (hk | hk)
  · exact h.2.2 k hk g (List.mem_cons_self ..)
  · exact sym _ _ (h.2.1.1 k hk)

section
variable {P : Nat} {s : Hp} {A : Chunks}

/-- The new chunks in front, up to `c`. -/
structure Front (s : Hp) (A : Chunks) (b n : Nat) (g : Seg) (c : Nat) (top : Bool) : Prop where
  cases : (c = g.base ∧ top = false ∧ ∀ w v, A c = some (w, v) → v.inuse = true) ∨
    ∃ z u, A g.base = some (z, u) ∧ u.inuse = false ∧ c = g.base + z ∧ top = decide (u = .top)

theorem Front.le {b n c : Nat} {g : Seg} {tp : Bool} (f : Front s A b n g c tp) : g.base ≤ c := by
  rcases f.cases with h | ⟨z, u, h⟩
  · omega
  · omega

theorem Front.no {b n c : Nat} {g : Seg} {tp : Bool} (t : Tags s.mem A) (f : Front s A b n g c tp) {q w : Nat} {v : Use}
    (hq : A q = some (w, v)) (h1 : g.base ≤ q) (h2 : q < c) : q = g.base ∧ v.inuse = false ∧ q + w = c := by
  rcases f.cases with h | ⟨z, u, h3, h4, h5, _⟩
  · omega
  · by_cases e : q = g.base
    · subst e; rw [h3] at hq; cases hq; exact ⟨rfl, h4, h5.symm⟩
    · rw [none_inside t h3 (by omega) (by omega)] at hq; cases hq

theorem Front.past {b n c : Nat} {g : Seg} {tp : Bool} (i : Inv P s A) (f : Front s A b n g c tp) (hg : g ∈ s.segs) :
    c + 72 ≤ g.base + g.size := by
  have hp := (i.segs.page g hg).2.2.2.1
  cases e : A g.base with
  | none => exact absurd e (i.segs.first g hg)
  | some y =>
    have h1 := i.segs.past _ _ _ (show A g.base = some (y.1, y.2) from e) g hg (Nat.le_refl _) (by omega)
    rcases f.cases with h | ⟨z, u, h3, h4, h5, _⟩
    · omega
    · have h2 := i.segs.past _ _ _ h3 g hg (Nat.le_refl _) (by omega)
      have := h2.2 (by rintro rfl; cases h4)
      omega

theorem Inv.prependSegs (i : Inv P s A) (hP : PageOk P) {l1 l2 : List Seg} {g : Seg} (hs : s.segs = l1 ++ g :: l2) {b n : Nat}
    (hb : P ∣ b) (hn : P ∣ n) (b0 : 0 < b) (n0 : 0 < n) (gb : g.base = b + n)
    (hf : ∀ x, b ≤ x → x < b + n → s.mapped x = false) {c : Nat} {tp : Bool} (fr : Front s A b n g c tp) {A' : Chunks}
    (out : ∀ p, p < b ∨ c ≤ p → A' p = A p) (ha' : A' b ≠ none)
    (inn : ∀ p z u, A' p = some (z, u) → b ≤ p → p < c → p + z ≤ c ∧ u ≠ .link) {top topsize : Nat}
    (ht : (tp = false ∧ top = s.top ∧ topsize = s.topsize) ∨
      (tp = true ∧ b ≤ top ∧ top + topsize = s.top + s.topsize)) :
    Segs P (l1 ++ { g with base := b, size := g.size + n } :: l2) (s.map b n).mapped top topsize
      (if b < s.least then b else s.least) A' := by
  have S := i.segs
  have hgm : g ∈ s.segs := by rw [hs]; simp
  have lec := fr.le
  have pc := fr.past i hgm
  have pg := S.page g hgm
  have mo : ∀ k, k ∈ l1 ∨ k ∈ l2 → k ∈ s.segs := by
    intro k hk; rw [hs]; simp only [List.mem_append, List.mem_cons]; tauto
  have mi : ∀ k, k ∈ l1 ++ { g with base := b, size := g.size + n } :: l2 →
      k = { g with base := b, size := g.size + n } ∨ (k ∈ l1 ∨ k ∈ l2) := by
    intro k hk; simp only [List.mem_append, List.mem_cons] at hk; tauto
  have ap : ∀ k, k ∈ l1 ∨ k ∈ l2 → k.base + k.size ≤ b ∨ g.base + g.size ≤ k.base := by
    intro k hk
    have h1 := i.apart n0 hf (mo k hk)
    have hd := S.disj
    rw [hs] at hd
    have h2 := pw_mid' (fun a b h => h.symm) hd k hk
    have h3 := (S.page k (mo k hk)).2.2.2.1
    omega
  have mp : ∀ x, s.mapped x = true → (s.map b n).mapped x = true := by
    intro x hx; simp [Hp.map, hx]
  have far : ∀ {p z u}, A p = some (z, u) → p + z + 32 ≤ b ∨ b + n ≤ p := fun h => i.apartC n0 hf h
  refine ⟨?_, ?_, ?_, ?_, ?_, ?_, ?_, ?_, ?_, by simp, ?_⟩
  · intro k hk
    rcases mi k hk with rfl | hk
    · exact ⟨hb, Nat.dvd_add pg.2.1 hn, b0, by dsimp only; omega, by dsimp only; omega⟩
    · exact S.page k (mo k hk)
  · have hd := S.disj
    rw [hs] at hd
    exact pw_mid (fun a b h => h.symm) hd (fun k hk => by have := ap k hk; dsimp only; omega)
  · intro k hk x h1 h2
    rcases mi k hk with rfl | hk
    · dsimp only at h1 h2
      by_cases c : x < b + n
      · simp [Hp.map, h1, c]
      · exact mp x (S.map g hgm x (by omega) (by omega))
    · exact mp x (S.map k (mo k hk) x h1 h2)
  · intro p z u h
    by_cases d : b ≤ p ∧ p < c
    · have := inn p z u h d.1 d.2
      exact ⟨{ g with base := b, size := g.size + n }, by simp, d.1, by dsimp only; omega⟩
    · rw [out p (by omega)] at h
      obtain ⟨k, hk, k1, k2⟩ := S.hold p z u h
      rw [hs, List.mem_append, List.mem_cons] at hk
      rcases hk with hk | rfl | hk
      · exact ⟨k, by simp [hk], k1, k2⟩
      · exact ⟨{ k with base := b, size := k.size + n }, by simp, by dsimp only; omega, by dsimp only; omega⟩
      · exact ⟨k, by simp [hk], k1, k2⟩
  · intro p z u h k hk k1 k2
    by_cases d : b ≤ p ∧ p < c
    · have := inn p z u h d.1 d.2
      rcases mi k hk with rfl | hk
      · dsimp only; exact ⟨by omega, fun _ => by omega⟩
      · have := ap k hk; omega
    · rw [out p (by omega)] at h
      rcases mi k hk with rfl | hk
      · dsimp only at k1 k2 ⊢
        have := S.past p z u h g hgm (by omega) (by omega)
        exact ⟨by omega, fun hu => by have := this.2 hu; omega⟩
      · exact S.past p z u h k (mo k hk) k1 k2
  · intro k hk
    rcases mi k hk with rfl | hk
    · exact ha'
    · have := ap k hk
      have := (S.page k (mo k hk)).2.2.2.1
      rw [out _ (by omega)]; exact S.first k (mo k hk)
  · intro k hk
    have key : ∀ k, k ∈ s.segs.tail → 16 < k.link ∧ A' (k.link - 16) = some (40, .link) ∧ k.base < k.link - 16 ∧
        k.link + 56 ≤ k.base + k.size ∧ k.base + k.size ≤ k.link + 88 := by
      intro k hk
      obtain ⟨h1, h2, h3, h4⟩ := S.link k hk
      refine ⟨h1, ?_, h3, h4⟩
      by_cases d : b ≤ k.link - 16 ∧ k.link - 16 < c
      · have := far h2
        have := (fr.no i.tags h2 (by omega) (by omega)).2.1
        cases this
      · rw [out _ (by omega)]; exact h2
    cases l1 with
    | nil =>
      exact key k (by rw [hs]; exact hk)
    | cons a l1 =>
      simp only [List.cons_append, List.tail_cons, List.mem_append, List.mem_cons] at hk
      have hst : s.segs.tail = l1 ++ g :: l2 := by rw [hs]; rfl
      rcases hk with hk | rfl | hk
      · exact key k (by rw [hst]; simp [hk])
      · have := key g (by rw [hst]; simp)
        exact ⟨this.1, this.2.1, by dsimp only; omega, by dsimp only; omega⟩
      · exact key k (by rw [hst]; simp [hk])
  · intro k hk
    cases l1 with
    | nil =>
      simp only [List.nil_append, List.head?_cons, Option.some.injEq] at hk
      subst hk
      obtain ⟨h1, h2, h3⟩ := S.head g (by rw [hs]; rfl)
      refine ⟨h1, ?_, ?_⟩
      · dsimp only; omega
      · dsimp only; omega
    | cons a l1 =>
      simp only [List.cons_append, List.head?_cons, Option.some.injEq] at hk
      subst hk
      obtain ⟨h1, h2, h3⟩ := S.head a (by rw [hs]; rfl)
      rcases ht with ⟨_, rfl, rfl⟩ | ⟨e, h4, h5⟩
      · exact ⟨h1, h2, h3⟩
      · exfalso
        rcases fr.cases with f | ⟨z, u, f1, f2, f3, f4⟩
        · rw [e] at f; simp at f
        · rw [e] at f4
          have : u = .top := by simpa using f4.symm
          subst this
          have := (i.top _ _).1 f1
          have h6 := ap a (.inl (by simp))
          have := (S.page a (mo a (.inl (by simp)))).2.2.2.1
          omega
  · intro p z u h
    by_cases d : b ≤ p ∧ p < c
    · split <;> omega
    · rw [out p (by omega)] at h
      have := S.least p z u h
      split <;> omega
  · intro p z h
    by_cases d : b ≤ p ∧ p < c
    · exact absurd rfl (inn p z _ h d.1 d.2).2
    · rw [out p (by omega)] at h
      obtain ⟨k, hk, e⟩ := S.own p z h
      cases l1 with
      | nil => exact ⟨k, by rw [hs] at hk; exact hk, e⟩
      | cons a l1 =>
        rw [hs] at hk
        simp only [List.cons_append, List.tail_cons, List.mem_append, List.mem_cons] at hk ⊢
        rcases hk with hk | rfl | hk
        · exact ⟨k, .inl hk, e⟩
        · exact ⟨_, .inr (.inl rfl), e⟩
        · exact ⟨k, .inr (.inr hk), e⟩

/-- New memory in front of a segment: the chunk handed out and what remains. -/
theorem Inv.prependDone (i : Inv P s A) (hP : PageOk P) {l1 l2 : List Seg} {g : Seg} (hs : s.segs = l1 ++ g :: l2) {b n : Nat}
    (hb : P ∣ b) (hn : P ∣ n) (b0 : 0 < b) (n0 : 0 < n) (gb : g.base = b + n)
    (hf : ∀ x, b ≤ x → x < b + n → s.mapped x = false) {c : Nat} {v : Use} (fr : Front s A b n g c (decide (v = .top)))
    {nb w : Nat} (h8 : 8 ∣ nb) (h32 : 32 ≤ nb) (hw : 32 ≤ w) (hc : b + nb + w = c) (hv : v.inuse = false)
    {m1 : Nat → Nat} (t1 : Tags m1 A) (g1 : ∀ p z, A p = some (z, .live) → ∀ x, p + 16 ≤ x → x < p + z + 8 → m1 x = s.mem x)
    {s' : Hp} (sg : s'.segs = l1 ++ { g with base := b, size := g.size + n } :: l2) (mp : s'.mapped = (s.map b n).mapped)
    (ls : s'.least = if b < s.least then b else s.least)
    (tp : if v = .top then s'.top = b + nb ∧ s'.topsize = w else s'.top = s.top ∧ s'.topsize = s.topsize)
    (ag : ∀ x, x < b + 8 ∨ c + 8 < x → s'.mem x = m1 x)
    (e1 : s'.mem (b + 8) = nb ||| 1 ||| 2) (e2 : s'.mem (b + nb + 8) = w ||| 1) (e3 : v.isFree = true → s'.mem c = w)
    (bh : Behind A s'.mem c v.isFree) (bn : s'.Bins (binF (two A b c nb .live w v)))
    (dv : DvOk s'.dv s'.dvsize (two A b c nb .live w v)) :
    Got P s A nb b s' (two A b c nb .live w v) := by
  obtain ⟨p1, p2, _⟩ := hP.facts
  have h8b : 8 ∣ b := Nat.dvd_trans (Nat.dvd_trans (by decide) p1) hb
  have h8n : 8 ∣ n := Nat.dvd_trans (Nat.dvd_trans (by decide) p1) hn
  have far : ∀ {p z u}, A p = some (z, u) → p + z + 32 ≤ b ∨ b + n ≤ p := fun h => i.apartC n0 hf h
  have t := i.tags
  have lec := fr.le
  have hgm : g ∈ s.segs := by rw [hs]; simp
  have hAb : A b = none := by
    cases e : A b with
    | none => rfl
    | some y => have := far (show A b = some (y.1, y.2) from e); have := (t.ok (show A b = some (y.1, y.2) from e)).min; omega
  have npf : ¬ PF A b := by
    rintro ⟨q, w, v, hq, _, e⟩
    have := far hq
    have := (t.ok hq).min
    omega
  have lt : b + nb < c := by omega
  have hw8 : 8 ∣ w := by
    rcases fr.cases with f | ⟨z, u, f1, f2, f3, f4⟩
    · omega
    · have := (t.ok f1).alz; omega
  have hnx : v ≠ .top → A c ≠ none := by
    intro hvt
    rcases fr.cases with f | ⟨z, u, f1, f2, f3, f4⟩
    · rw [f.1]; exact i.segs.first g hgm
    · have hut : u ≠ .top := by rintro rfl; simp [hvt] at f4
      rw [f3]
      exact (t.ok f1).next (by rintro rfl; cases f2) hut
  have out : ∀ p, p < b ∨ c ≤ p → two A b c nb .live w v p = A p := fun p hp => two_out hp lt
  refine ⟨⟨?_, bn, dv, ?_, ?_⟩, ⟨nb, two_a .., Nat.le_refl _, by omega⟩, ?_, ?_, ?_⟩
  · apply t1.two (u := .live)
    · refine ⟨b0, h8b, by omega, ?_, ?_, ?_⟩
      · intro p z u h hl; have := far h; omega
      · intro q w v hq h1 h2
        have := far hq
        have := (t.ok hq).min
        have := fr.no t hq (by omega) h2
        omega
      · intro p z u h e; have := far h; have := (t.ok h).min; omega
    · exact ag
    · exact h8
    · exact h32
    · simp
    · simp
    · exact hw8
    · omega
    · intro _; exact hw
    · omega
    · intro _ h; exact ⟨hc, hnx h⟩
    · rintro (h | h)
      · subst h; cases hv
      · subst h
        rcases fr.cases with f | ⟨z, u, f1, f2, f3, f4⟩
        · simp at f
        · have : u = .top := by simpa using f4.symm
          subst this
          rw [f3]; exact (t.ok f1).last (.inr rfl)
    · rw [e1, chunksize_three h8]
    · rw [e1, cinuse_three h8]; rfl
    · rw [e1, pinuse_three h8]; simp; exact npf
    · intro h; cases h
    · rw [e2, chunksize_one hw8]
    · rw [e2, cinuse_one hw8, hv]
    · rw [e2, pinuse_one hw8]; rfl
    · rw [hc]; exact e3
    · intro h; exact absurd h npf
    · intro h; cases h
    · exact bh
  · intro q w'
    rw [two_some (by omega) lt, sg]
    have hne : l1 ++ { g with base := b, size := g.size + n } :: l2 ≠ [] := by simp
    by_cases hvt : v = .top
    · rw [if_pos hvt] at tp
      rcases fr.cases with f | ⟨z, u, f1, f2, f3, f4⟩
      · simp [hvt] at f
      · have hu : u = .top := by simpa [hvt] using f4.symm
        subst hu
        constructor
        · rintro (h | h | h)
          · simp at h
          · exact ⟨by omega, by omega, hne⟩
          · have := (i.top q w').1 h.2
            have := (i.top _ _).1 f1
            have := (t.ok f1).min
            omega
        · rintro ⟨h1, h2, _⟩; exact .inr (.inl ⟨by omega, by omega, hvt.symm⟩)
    · rw [if_neg hvt] at tp
      rw [tp.1, tp.2]
      constructor
      · rintro (h | h | h)
        · simp at h
        · exact absurd h.2.2.symm hvt
        · have := (i.top q w').1 h.2
          exact ⟨this.1, this.2.1, hne⟩
      · rintro ⟨h1, h2, _⟩
        have h3 := (i.top q w').2 ⟨h1, h2, by rw [hs]; simp⟩
        refine .inr (.inr ⟨?_, h3⟩)
        have := far h3
        by_contra hcon
        have := (t.ok h3).min
        obtain ⟨h4, h5, h6⟩ := fr.no t h3 (by omega) (by omega)
        rcases fr.cases with f | ⟨z, u, f1, f2, f3, f4⟩
        · omega
        · rw [← h4, h3] at f1; cases f1; simp [hvt] at f4
  · rw [sg, mp, ls]
    refine i.prependSegs hP hs hb hn b0 n0 gb hf fr out (by rw [two_a]; simp) ?_ ?_
    · intro p z u h h1 h2
      rcases (two_some (by omega) lt).1 h with c | c | c
      · exact ⟨by omega, by simp [c.2.2]⟩
      · exact ⟨by omega, by rintro rfl; rw [← c.2.2] at hv; cases hv⟩
      · omega
    · by_cases hvt : v = .top
      · rw [if_pos hvt] at tp
        refine .inr ⟨by simp [hvt], by omega, ?_⟩
        rcases fr.cases with f | ⟨z, u, f1, f2, f3, f4⟩
        · simp [hvt] at f
        · have hu : u = .top := by simpa [hvt] using f4.symm
          subst hu
          have := (i.top _ _).1 f1
          omega
      · rw [if_neg hvt] at tp
        exact .inl ⟨by simp [hvt], tp⟩
  · intro z h; rw [hAb] at h; cases h
  · intro p z h
    have h1 := far h
    have hmin := (t.ok h).min
    have hnc : p < b ∨ c ≤ p := by
      by_contra hcon
      have := (fr.no t h (by omega) (by omega)).2.1
      cases this
    refine ⟨by rw [out p hnc]; exact h, fun x h2 h3 => ?_⟩
    rw [ag x (by omega)]
    exact g1 p z h x h2 h3
  · intro q w' hq
    rcases (two_some (by omega) lt).1 hq with c | c | c
    · exact .inl c.1
    · rw [← c.2.2] at hv; cases hv
    · exact .inr c.2

theorem binF_ext {A' : Chunks} {G : Nat → Option Nat} (h : ∀ q x, A' q = some (x, .free) ↔ G q = some x) (q : Nat) :
    binF A' q = G q := by
  apply Option.ext
  intro x
  rw [binF_some, h]

theorem Inv.linkRec (i : Inv P s A) {g : Seg} (hg : g ∈ s.segs) (hl : g.link ≠ 0) :
    16 < g.link ∧ A (g.link - 16) = some (40, .link) ∧ g.base < g.link - 16 ∧ g.link + 56 ≤ g.base + g.size ∧ g.base + g.size ≤ g.link + 88 := by
  cases hs : s.segs with
  | nil => rw [hs] at hg; cases hg
  | cons h t =>
    rw [hs] at hg
    rcases List.mem_cons.1 hg with rfl | hg
    · exact absurd (i.segs.head g (by rw [hs]; rfl)).1 hl
    · exact i.segs.link g (by rw [hs]; exact hg)

/-- The words of a segment's record. -/
theorem Inv.record (i : Inv P s A) {g : Seg} (hg : g ∈ s.segs) {s0 : Hp} (hm : s0.mem = s.mem)
    (mp : ∀ x, s.mapped x = true → s0.mapped x = true) (v1 v2 : Nat) :
    ∃ m1, ((do
      let s ← if g.link ≠ 0 then s0.set g.link v1 else .ok s0
      if g.link ≠ 0 then s.set (g.link + 8) v2 else .ok s) : R Hp) = .ok { s0 with mem := m1 } ∧ Tags m1 A ∧
      ∀ p z, A p = some (z, .live) → ∀ x, p + 16 ≤ x → x < p + z + 8 → m1 x = s.mem x := by
  by_cases hl : g.link = 0
  · refine ⟨s0.mem, ?_, by rw [hm]; exact i.tags, fun _ _ _ _ _ _ => by rw [hm]⟩
    simp [hl, bind, Except.bind]
  · obtain ⟨h1, h2, h3, h4⟩ := i.linkRec hg hl
    have a1 : s.mapped g.link = true := i.segs.map g hg _ (by omega) (by omega)
    have a2 : s.mapped (g.link + 8) = true := i.segs.map g hg _ (by omega) (by omega)
    refine ⟨upd (upd s.mem g.link v1) (g.link + 8) v2, ?_, ?_, ?_⟩
    · rw [if_pos hl, Hp.set_ok _ (mp _ a1)]
      simp only [bind, Except.bind]
      rw [if_pos hl, Hp.set_ok (s := { s0 with mem := upd s0.mem g.link v1 }) _ (mp _ a2), hm]
    · refine i.tags.body h2 rfl (fun x hx => ?_)
      rw [upd_ne (by omega), upd_ne (by omega)]
    · intro p z h x h5 h6
      have hne : p ≠ g.link - 16 := by rintro rfl; rw [h2] at h; simp at h
      rcases Nat.lt_or_ge p (g.link - 16) with c | c
      · have := i.tags.disj h h2 c
        rw [upd_ne (by omega), upd_ne (by omega)]
      · have := i.tags.disj h2 h (by omega)
        rw [upd_ne (by omega), upd_ne (by omega)]

/-- `prepend_alloc`. -/
theorem Inv.prepend (i : Inv P s A) (hP : PageOk P) {l1 l2 : List Seg} {g : Seg} (hs : s.segs = l1 ++ g :: l2) {b n : Nat}
    (hb : P ∣ b) (hn : P ∣ n) (b0 : 0 < b) (n0 : 0 < n) (gb : g.base = b + n)
    (hf : ∀ x, b ≤ x → x < b + n → s.mapped x = false) {nb : Nat} (h8 : 8 ∣ nb) (h32 : 32 ≤ nb) (hnb : nb + 74 ≤ n)
    {m1 : Nat → Nat} (t1 : Tags m1 A) (g1 : ∀ p z, A p = some (z, .live) → ∀ x, p + 16 ≤ x → x < p + z + 8 → m1 x = s.mem x)
    {s1 : Hp} (hs1 : s1 = { s.map b n with mem := m1, least := if b < s.least then b else s.least, segs := l1 ++ { g with base := b, size := g.size + n } :: l2 }) :
    ∃ s', prependAlloc s1 b g.base nb = .ok (b + 16, s') ∧ ∃ A', Got P s A nb b s' A' := by
  have t := i.tags
  have hgm : g ∈ s.segs := by rw [hs]; simp
  have pg := i.segs.page g hgm
  have far : ∀ {p z u}, A p = some (z, u) → p + z + 32 ≤ b ∨ b + n ≤ p := fun h => i.apartC n0 hf h
  have mpn : ∀ x, b ≤ x → x < b + n → s1.mapped x = true := by
    intro x h1 h2; simp [hs1, Hp.map, h1, h2]
  have mpo : ∀ x, s.mapped x = true → s1.mapped x = true := by
    intro x h1; simp [hs1, Hp.map, h1]
  have mpg : ∀ x, g.base ≤ x → x < g.base + g.size → s1.mapped x = true :=
    fun x h1 h2 => mpo x (i.segs.map g hgm x h1 h2)
  have es : s1.segs = l1 ++ { g with base := b, size := g.size + n } :: l2 := by rw [hs1]
  have em : s1.mapped = (s.map b n).mapped := by rw [hs1]
  have el : s1.least = if b < s.least then b else s.least := by rw [hs1]
  have emm : s1.mem = m1 := by rw [hs1]
  have et : s1.top = s.top ∧ s1.topsize = s.topsize := by rw [hs1]; exact ⟨rfl, rfl⟩
  have ed : s1.dv = s.dv ∧ s1.dvsize = s.dvsize := by rw [hs1]; exact ⟨rfl, rfl⟩
  have eb : s1.Bins (binF A) := by rw [hs1]; exact i.bins
  have eq1 : ∀ F, s1.Bins F ↔ s.Bins F := by intro F; rw [hs1]; exact Iff.rfl
  clear hs1
  have lsz : 72 ≤ g.size := by
    cases e : A g.base with
    | none => exact absurd e (i.segs.first g hgm)
    | some y =>
      have := i.segs.past _ _ _ (show A g.base = some (y.1, y.2) from e) g hgm (Nat.le_refl _) (by omega)
      omega
  have b8 : s1.mapped (b + 8) = true := mpn _ (by omega) (by omega)
  have bnb8 : s1.mapped (b + nb + 8) = true := mpn _ (by omega) (by omega)
  unfold prependAlloc
  rw [setSizeInuse_ok _ b8]
  simp only [bind, Except.bind, pure, Except.pure]
  rw [et.1, et.2, ed.1, ed.2]
  have qs : g.base - b - nb = n - nb := by omega
  by_cases ct : g.base = s.top
  · -- in front of the top
    rw [if_pos ct]
    have hA : A g.base = some (s.topsize, .top) := by
      rw [ct]; exact (i.top _ _).2 ⟨rfl, rfl, by rw [hs]; simp⟩
    have o := t.ok hA
    have hmin := o.min
    rw [Hp.set_ok]
    swap
    · exact bnb8
    refine ⟨_, rfl, two A b (g.base + s.topsize) nb .live (s.topsize + (g.base - b - nb)) .top, ?_⟩
    have lt : b + nb < g.base + s.topsize := by omega
    have nin : ∀ q w v, A q = some (w, v) → v ≠ .top → q < b ∨ g.base + s.topsize ≤ q := by
      intro q w v hq hv
      by_contra hcon
      have := far hq
      have := (t.ok hq).min
      by_cases e : q = g.base
      · subst e; rw [hA] at hq; cases hq; exact hv rfl
      · rw [none_inside t hA (by omega) (by omega)] at hq; cases hq
    refine i.prependDone hP hs hb hn b0 n0 gb hf (c := g.base + s.topsize) (v := .top)
      ⟨.inr ⟨_, _, hA, rfl, rfl, by simp⟩⟩ h8 h32 (by omega) (by omega) rfl t1 g1 es em el ?_ ?_ ?_ ?_ ?_ ?_ ?_ ?_
    · rw [if_pos rfl]; exact ⟨rfl, rfl⟩
    · intro x hx; dsimp only; rw [upd_ne (by omega), upd_ne (by omega), emm]
    · dsimp only; rw [upd_ne (by omega), upd_same]
    · dsimp only; rw [upd_same]
    · intro h; cases h
    · intro w v hwv
      have := o.last (.inr rfl)
      rw [this] at hwv; cases hwv
    · refine ((eq1 _).2 i.bins).congr (binF_ext fun q x => ?_)
      rw [two_some (by omega) lt, binF_some]
      constructor
      · rintro (h | h | h)
        · simp at h
        · simp at h
        · exact h.2
      · intro h; exact .inr (.inr ⟨nin _ _ _ h (by simp), h⟩)
    · refine ⟨?_, i.dv.zero⟩
      intro q w
      rw [two_some (by omega) lt]
      show _ ↔ q = s.dv ∧ w = s.dvsize ∧ s.dvsize ≠ 0
      rw [← i.dv.iff q w]
      constructor
      · rintro (h | h | h)
        · simp at h
        · simp at h
        · exact h.2
      · intro h; exact .inr (.inr ⟨nin _ _ _ h (by simp), h⟩)
  · rw [if_neg ct]
    by_cases cd : g.base = s.dv
    · -- in front of the designated victim
      rw [if_pos cd]
      have hd0 : s.dvsize ≠ 0 := by
        intro h0
        have := i.dv.zero h0
        omega
      have hA : A g.base = some (s.dvsize, .dv) := (i.dv.iff _ _).2 ⟨cd, rfl, hd0⟩
      have o := t.ok hA
      have hmin := o.min' (by simp)
      have hend := (i.segs.past _ _ _ hA g hgm (Nat.le_refl _) (by omega)).2 (by simp)
      rw [setSizeFree_ok]
      rotate_left
      · exact bnb8
      · exact mpg _ (by omega) (by omega)
      refine ⟨_, rfl, two A b (g.base + s.dvsize) nb .live (s.dvsize + (g.base - b - nb)) .dv, ?_⟩
      have lt : b + nb < g.base + s.dvsize := by omega
      have hc : b + nb + (s.dvsize + (g.base - b - nb)) = g.base + s.dvsize := by omega
      have nin : ∀ q w v, A q = some (w, v) → v ≠ .dv → q < b ∨ g.base + s.dvsize ≤ q := by
        intro q w v hq hv
        by_contra hcon
        have := far hq
        have := (t.ok hq).min
        by_cases e : q = g.base
        · subst e; rw [hA] at hq; cases hq; exact hv rfl
        · rw [none_inside t hA (by omega) (by omega)] at hq; cases hq
      refine i.prependDone hP hs hb hn b0 n0 gb hf (c := g.base + s.dvsize) (v := .dv)
        ⟨.inr ⟨_, _, hA, rfl, rfl, by simp⟩⟩ h8 h32 (by omega) hc rfl t1 g1 es em el ?_ ?_ ?_ ?_ ?_ ?_ ?_ ?_
      · rw [if_neg (by simp)]; exact ⟨rfl, rfl⟩
      · intro x hx; dsimp only; rw [upd_ne (by omega), upd_ne (by omega), upd_ne (by omega), emm]
      · dsimp only; rw [upd_ne (by omega), upd_ne (by omega), upd_same]
      · dsimp only; rw [upd_ne (by omega), upd_same]
      · intro _; dsimp only; rw [hc, upd_same]
      · intro w v hwv
        have o2 := t1.ok hwv
        have hpf : PF A (g.base + s.dvsize) := ⟨_, _, _, hA, rfl, rfl⟩
        dsimp only
        rw [upd_ne (by omega), upd_ne (by omega), upd_ne (by omega), emm]
        refine ⟨o2.size, o2.cin, ?_, fun _ => o.nofree rfl w v hwv⟩
        have := o2.pin
        cases e : pinuse (m1 (g.base + s.dvsize + 8)) with
        | false => rfl
        | true => exact absurd hpf (this.1 e)
      · refine ((eq1 _).2 i.bins).congr (binF_ext fun q x => ?_)
        rw [two_some (by omega) lt, binF_some]
        constructor
        · rintro (h | h | h)
          · simp at h
          · simp at h
          · exact h.2
        · intro h; exact .inr (.inr ⟨nin _ _ _ h (by simp), h⟩)
      · refine ⟨?_, fun h => ?_⟩
        swap
        · have h : s.dvsize + (g.base - b - nb) = 0 := h
          omega
        intro q w
        rw [two_some (by omega) lt]
        show _ ↔ q = b + nb ∧ w = s.dvsize + (g.base - b - nb) ∧ s.dvsize + (g.base - b - nb) ≠ 0
        constructor
        · rintro (h | h | h)
          · simp at h
          · exact ⟨h.1, h.2.1, by omega⟩
          · have := (i.dv.iff q w).1 h.2; omega
        · rintro ⟨h1, h2, h3⟩; exact .inr (.inl ⟨h1, h2, rfl⟩)
    · rw [if_neg cd]
      cases hA : A g.base with
      | none => exact absurd hA (i.segs.first g hgm)
      | some y =>
      obtain ⟨z, u⟩ := y
      have o := t.ok hA
      have o1 := t1.ok hA
      have hmin := o.min
      have ut : u ≠ .top := by rintro rfl; exact ct ((i.top _ _).1 hA).1
      have ud : u ≠ .dv := by rintro rfl; exact cd ((i.dv.iff _ _).1 hA).1
      have hm1 : upd s1.mem (b + 8) (nb ||| 1 ||| 2) (g.base + 8) = m1 (g.base + 8) := by rw [upd_ne (by omega), emm]
      rw [Hp.get_ok]
      swap
      · exact mpg _ (by omega) (by omega)
      simp only [hm1, o1.cin, o1.size]
      by_cases hu : u.inuse = true
      · -- the first chunk is in use
        rw [if_pos hu]
        simp only []
        have hw8 := o.min' ut
        rw [setFree_ok]
        rotate_left
        · exact bnb8
        · exact mpg _ (by omega) (by omega)
        · exact mpg _ (by omega) (by omega)
        refine ⟨_, rfl, two A b g.base nb .live (g.base - b - nb) .free, ?_⟩
        have lt : b + nb < g.base := by omega
        have hc : b + nb + (g.base - b - nb) = g.base := by omega
        have nin : ∀ q w v, A q = some (w, v) → q < b ∨ g.base ≤ q := by
          intro q w v hq
          have := far hq
          omega
        have e0 : A (b + nb) = none := by
          cases e : A (b + nb) with
          | none => rfl
          | some y => have := nin _ y.1 y.2 e; omega
        refine i.prependDone hP hs hb hn b0 n0 gb hf (c := g.base) (v := .free)
          ⟨.inl ⟨rfl, rfl, ?_⟩⟩ h8 h32 (by omega) hc rfl t1 g1
          (by rw [(insertChunk_same _ _ _).segs]; exact es) (by rw [(insertChunk_same _ _ _).mapped]; exact em)
          (by rw [(insertChunk_same _ _ _).least]; exact el) ?_ ?_ ?_ ?_ ?_ ?_ ?_ ?_
        · intro w v hwv; rw [hA] at hwv; cases hwv; exact hu
        · rw [if_neg (by simp), (insertChunk_same _ _ _).top, (insertChunk_same _ _ _).topsize]; exact ⟨rfl, rfl⟩
        · intro x hx; rw [insertChunk_mem]; dsimp only
          rw [upd_ne (by omega), upd_ne (by omega), upd_ne (by omega), upd_ne (by omega), emm]
        · rw [insertChunk_mem]; dsimp only
          rw [upd_ne (by omega), upd_ne (by omega), upd_ne (by omega), upd_same]
        · rw [insertChunk_mem]; dsimp only; rw [upd_ne (by omega), upd_same]
        · intro _; rw [insertChunk_mem]; dsimp only; rw [hc, upd_same]
        · intro w v hwv
          rw [hA] at hwv; cases hwv
          rw [insertChunk_mem]; dsimp only
          rw [upd_ne (by omega), upd_ne (by omega), upd_same, hm1, chunksize_clear, cinuse_clear, pinuse_clear]
          exact ⟨o1.size, o1.cin, rfl, fun _ => hu⟩
        · refine Bins.congr (F := addF (binF A) (b + nb) (g.base - b - nb)) ?_ (binF_ext fun q x => ?_)
          · apply Bins.insertChunk (F := binF A) _ (binF_none (by rw [e0]; simp)) (by have := i.lt64 hA; omega)
            on_goal 2 => exact (eq1 _).2 i.bins
            intro q w hq
            have hq := binF_some.1 hq
            have hqn := nin _ _ _ hq
            have hqg : q ≠ g.base := by rintro rfl; rw [hA] at hq; cases hq; cases hu
            dsimp only
            rw [upd_ne (by omega), upd_ne (by omega), upd_ne (by omega), upd_ne (by omega), emm]
            exact (t1.ok hq).size
          rw [two_some (by omega) lt, addF_some (binF_none (by rw [e0]; simp)), binF_some]
          constructor
          · rintro (h | h | h)
            · simp at h
            · exact .inl ⟨h.1, h.2.1⟩
            · exact .inr h.2
          · rintro (h | h)
            · exact .inr (.inl ⟨h.1, h.2, rfl⟩)
            · exact .inr (.inr ⟨nin _ _ _ h, h⟩)
        · rw [(insertChunk_same _ _ _).dv, (insertChunk_same _ _ _).dvsize]
          refine ⟨?_, i.dv.zero⟩
          intro q w
          rw [two_some (by omega) lt]
          show _ ↔ q = s.dv ∧ w = s.dvsize ∧ s.dvsize ≠ 0
          rw [← i.dv.iff q w]
          constructor
          · rintro (h | h | h)
            · simp at h
            · simp at h
            · exact h.2
          · intro h; exact .inr (.inr ⟨nin _ _ _ h, h⟩)
      · -- the first chunk is free
        rw [if_neg hu]
        simp only []
        have uf : u = .free := by cases u <;> simp_all [Use.inuse]
        subst uf
        have hend := (i.segs.past _ _ _ hA g hgm (Nat.le_refl _) (by omega)).2 (by simp)
        have hmin' := o.min' (by simp)
        rw [setFree_ok]
        rotate_left
        · rw [(unlinkChunk_same _ _ _).mapped]; exact bnb8
        · rw [(unlinkChunk_same _ _ _).mapped]; exact mpg _ (by omega) (by omega)
        · rw [(unlinkChunk_same _ _ _).mapped]; exact mpg _ (by omega) (by omega)
        refine ⟨_, rfl, two A b (g.base + z) nb .live (g.base - b - nb + z) .free, ?_⟩
        have lt : b + nb < g.base + z := by omega
        have hc : b + nb + (g.base - b - nb + z) = g.base + z := by omega
        have nin : ∀ q w v, A q = some (w, v) → q ≠ g.base → q < b ∨ g.base + z ≤ q := by
          intro q w v hq hv
          by_contra hcon
          have := far hq
          have := (t.ok hq).min
          rw [none_inside t hA (by omega) (by omega)] at hq; cases hq
        have e0 : ∀ z, A (b + nb) ≠ some (z, .free) := by
          intro w e; have := nin _ _ _ e (by omega); omega
        have bu := Bins.unlinkChunk (s := { s1 with mem := upd s1.mem (b + 8) (nb ||| 1 ||| 2), dv := s.dv, dvsize := s.dvsize, top := s.top, topsize := s.topsize })
          (F := binF A) ((eq1 _).2 i.bins) (binF_some.2 hA)
        have hnn : delF (binF A) g.base (b + nb) = none := by
          unfold delF; split
          · rfl
          · exact binF_none e0
        refine i.prependDone hP hs hb hn b0 n0 gb hf (c := g.base + z) (v := .free)
          ⟨.inr ⟨_, _, hA, rfl, rfl, by simp⟩⟩ h8 h32 (by omega) hc rfl t1 g1
          (by rw [(insertChunk_same _ _ _).segs]; dsimp only; rw [(unlinkChunk_same _ _ _).segs]; exact es)
          (by rw [(insertChunk_same _ _ _).mapped]; dsimp only; rw [(unlinkChunk_same _ _ _).mapped]; exact em)
          (by rw [(insertChunk_same _ _ _).least]; dsimp only; rw [(unlinkChunk_same _ _ _).least]; exact el) ?_ ?_ ?_ ?_ ?_ ?_ ?_ ?_
        · rw [if_neg (by simp), (insertChunk_same _ _ _).top, (insertChunk_same _ _ _).topsize]; dsimp only
          rw [(unlinkChunk_same _ _ _).top, (unlinkChunk_same _ _ _).topsize]; exact ⟨rfl, rfl⟩
        · intro x hx; rw [insertChunk_mem]; dsimp only
          rw [upd_ne (by omega), upd_ne (by omega), upd_ne (by omega), unlinkChunk_mem]; dsimp only
          rw [upd_ne (by omega), emm]
        · rw [insertChunk_mem]; dsimp only
          rw [upd_ne (by omega), upd_ne (by omega), upd_ne (by omega), unlinkChunk_mem]; dsimp only
          rw [upd_same]
        · rw [insertChunk_mem]; dsimp only; rw [upd_ne (by omega), upd_same]
        · intro _; rw [insertChunk_mem]; dsimp only; rw [hc, upd_same]
        · intro w v hwv
          have o2 := t1.ok hwv
          rw [insertChunk_mem]; dsimp only
          rw [upd_ne (by omega), upd_ne (by omega), upd_same, unlinkChunk_mem]; dsimp only
          rw [upd_ne (by omega), emm, chunksize_clear, cinuse_clear, pinuse_clear]
          exact ⟨o2.size, o2.cin, rfl, fun _ => o.nofree rfl w v hwv⟩
        · refine Bins.congr (F := addF (delF (binF A) g.base) (b + nb) (g.base - b - nb + z)) ?_ (binF_ext fun q x => ?_)
          · apply Bins.insertChunk (F := delF (binF A) g.base) _ hnn (by have := i.lt64 hA; omega)
            on_goal 2 => exact bu
            intro q w hq
            obtain ⟨q1, q2⟩ := delF_some.1 hq
            have hq := binF_some.1 q2
            have hqn := nin _ _ _ hq q1
            have hqz : q ≠ g.base + z := by
              rintro rfl
              have := o.nofree rfl _ _ hq
              cases this
            dsimp only
            rw [upd_ne (by omega), upd_ne (by omega), upd_ne (by omega), unlinkChunk_mem]; dsimp only
            rw [upd_ne (by omega), emm]
            exact (t1.ok hq).size
          rw [two_some (by omega) lt, addF_some hnn, delF_some, binF_some]
          constructor
          · rintro (h | h | h)
            · simp at h
            · exact .inl ⟨h.1, h.2.1⟩
            · exact .inr ⟨by omega, h.2⟩
          · rintro (h | h)
            · exact .inr (.inl ⟨h.1, h.2, rfl⟩)
            · exact .inr (.inr ⟨nin _ _ _ h.2 h.1, h.2⟩)
        · rw [(insertChunk_same _ _ _).dv, (insertChunk_same _ _ _).dvsize]
          dsimp only
          rw [(unlinkChunk_same _ _ _).dv, (unlinkChunk_same _ _ _).dvsize]
          refine ⟨?_, i.dv.zero⟩
          intro q w
          rw [two_some (by omega) lt]
          show _ ↔ q = s.dv ∧ w = s.dvsize ∧ s.dvsize ≠ 0
          rw [← i.dv.iff q w]
          constructor
          · rintro (h | h | h)
            · simp at h
            · simp at h
            · exact h.2
          · intro h
            refine .inr (.inr ⟨nin _ _ _ h ?_, h⟩)
            rintro rfl
            rw [hA] at h; cases h

end

end Verif.Dl
