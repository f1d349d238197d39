import Verif.Dl.Malloc

/-
Memory from the system: the first segment, more memory behind the top.
-/
namespace Verif.Dl
open Verif

/-- Chunks handed out stay, with the words of their blocks; there are no others. -/
structure Grow (s : Hp) (A : Chunks) (s' : Hp) (A' : Chunks) : Prop where
  keep : Keep s A s' A'
  only : ∀ q w, A' q = some (w, .live) → A q = some (w, .live)

theorem PageOk.facts {P : Nat} (h : PageOk P) : 4096 ∣ P ∧ 4096 ≤ P ∧ P ≤ 2 ^ 32 := by
  obtain ⟨k, h1, h2, rfl⟩ := h
  refine ⟨?_, ?_, Nat.pow_le_pow_right (by decide) h2⟩
  · have : (4096 : Nat) = 2 ^ 12 := rfl
    rw [this]; exact Nat.pow_dvd_pow 2 h1
  · have : (4096 : Nat) = 2 ^ 12 := rfl
    rw [this]; exact Nat.pow_le_pow_right (by decide) h1

theorem reqSize_ok {P : Nat} (hP : PageOk P) {e : Env} (he : e.page = P) {nb : Nat} (hn : nb < 2 ^ 64)
    (h : ¬ reqSize e nb ≤ nb) : P ∣ reqSize e nb ∧ nb + 74 ≤ reqSize e nb := by
  obtain ⟨_, h1, h2⟩ := hP.facts
  have key : ∀ x, x / P * P ≤ x ∧ x < x / P * P + P := by
    intro x
    have h3 := Nat.div_add_mod x P
    have h4 := Nat.mod_lt x (show 0 < P by omega)
    rw [Nat.mul_comm] at h3
    generalize x / P * P = y at *
    constructor <;> omega
  unfold reqSize foot at h ⊢
  rw [he] at h ⊢
  refine ⟨Nat.dvd_mul_left _ _, ?_⟩
  have := key (((nb + 72 + 1) % 2 ^ 64 + P) % 2 ^ 64)
  omega

/-- Words of the block of a chunk in use may change. -/
theorem Tags.body {mem mem' : Nat → Nat} {A : Chunks} (t : Tags mem A) {q w : Nat} {v : Use} (h : A q = some (w, v))
    (hv : v.inuse = true) (ag : ∀ x, ¬ (q + 16 ≤ x ∧ x < q + w + 8) → mem' x = mem x) : Tags mem' A := by
  apply t.other
  · intro p z u hp
    apply ag
    have := (t.ok hp).min
    rcases Nat.lt_trichotomy p q with c | c | c
    · have := t.disj hp h c; omega
    · subst c; omega
    · have := t.disj h hp c; omega
  · intro p z u hp hu
    apply ag
    have := (t.ok hp).min' (isFree_ne hu).2.1
    rcases Nat.lt_trichotomy p q with c | c | c
    · have := t.disj hp h c; omega
    · subst c; rw [h] at hp; cases hp; rw [isFree_inuse hu] at hv; cases hv
    · have := t.disj h hp c; omega

section
variable {P : Nat} {s : Hp} {A : Chunks}

/-- New memory is outside of all segments. -/
theorem Inv.apart (i : Inv P s A) {b n : Nat} (hn : 0 < n) (hf : ∀ x, b ≤ x → x < b + n → s.mapped x = false) {g : Seg}
    (hg : g ∈ s.segs) : g.base + g.size ≤ b ∨ b + n ≤ g.base := by
  by_contra hc
  have hs := (i.segs.page g hg).2.2.2.1
  by_cases h : b ≤ g.base
  · have h1 := i.segs.map g hg g.base (Nat.le_refl _) (by omega)
    rw [hf g.base h (by omega)] at h1; cases h1
  · have h1 := i.segs.map g hg b (by omega) (by omega)
    rw [hf b (Nat.le_refl _) (by omega)] at h1; cases h1

theorem Inv.apartC (i : Inv P s A) {b n : Nat} (hn : 0 < n) (hf : ∀ x, b ≤ x → x < b + n → s.mapped x = false) {p z : Nat}
    {u : Use} (h : A p = some (z, u)) : p + z + 32 ≤ b ∨ b + n ≤ p := by
  obtain ⟨g, hg, h1, h2⟩ := i.segs.hold _ _ _ h
  have := i.apart hn hf hg
  omega

theorem initTop_ok {s : Hp} {p z : Nat} (h1 : s.mapped (p + 8) = true) (h2 : s.mapped (p + z + 8) = true) :
    initTop s p z = .ok { s with mem := upd (upd s.mem (p + 8) (z ||| 1)) (p + z + 8) foot, top := p, topsize := z,
                                 trim := 2 * 1024 * 1024 } := by
  unfold initTop
  simp only []
  rw [Hp.set_ok (s := { s with top := p, topsize := z }) _ h1]
  simp only [bind, Except.bind, pure, Except.pure]
  rw [Hp.set_ok (s := { s with mem := upd s.mem (p + 8) (z ||| 1), top := p, topsize := z }) _ h2]

theorem Inv.top_ne (i : Inv P s A) (h : s.segs ≠ []) : s.top ≠ 0 := by
  have hA : A s.top = some (s.topsize, .top) := (i.top _ _).2 ⟨rfl, rfl, h⟩
  have := (i.tags.ok hA).pos
  omega

theorem Inv.empty (i : Inv P s A) (h : s.segs = []) (p : Nat) : A p = none := by
  cases e : A p with
  | none => rfl
  | some y =>
    obtain ⟨g, hg, _⟩ := i.segs.hold p y.1 y.2 e
    rw [h] at hg; cases hg

/-- The new top of fresh memory, as far as tags are concerned. -/
theorem Tags.newTop {mem mem' : Nat → Nat} (t : Tags mem A) {b n : Nat} (h8 : 8 ∣ b) (h8n : 8 ∣ n) (hb : 0 < b) (hn : 88 ≤ n)
    (far : ∀ p z u, A p = some (z, u) → p + z + 32 ≤ b ∨ b + n ≤ p)
    (ag : ∀ x, x < b + 8 ∨ b + n - 8 < x → mem' x = mem x) (m1 : mem' (b + 8) = (n - 72) ||| 1) :
    Tags mem' (Dl.one A b (b + n - 16) (n - 72) .top) := by
  have no : ∀ x, b ≤ x → x < b + n → A x = none := by
    intro x h1 h2
    cases e : A x with
    | none => rfl
    | some y => have := far x y.1 y.2 e; omega
  have hal : 8 ∣ n - 72 := by omega
  have npf : ¬ PF A b := by
    rintro ⟨q, w, v, hq, _, e⟩
    have := far q w v hq
    have := (t.ok hq).min
    omega
  apply t.one (u := .top)
  · refine ⟨hb, h8, by omega, ?_, ?_, ?_⟩
    · intro p z u hp hl; have := far p z u hp; omega
    · intro q w v hq h1 h2; rw [no q h1 (by omega)] at hq; cases hq
    · intro p z u hp e; have := far p z u hp; have := (t.ok hp).min; omega
  · intro x hx; exact ag x (by omega)
  · exact hal
  · omega
  · intro h; exact absurd rfl h
  · omega
  · intro _ h; exact absurd rfl h
  · intro _; exact no _ (by omega) (by omega)
  · rw [m1, chunksize_one hal]
  · rw [m1, cinuse_one hal]; rfl
  · rw [m1, pinuse_one hal]; simp; exact npf
  · intro h; cases h
  · intro h; exact absurd h npf
  · intro w v hw; rw [no _ (by omega) (by omega)] at hw; cases hw

/-- The first memory, src/dlmalloc.c:3550-3561. -/
theorem Inv.initHeap (hP : PageOk P) (i : Inv P s A) (h0 : s.segs = []) {b n : Nat} (hb : P ∣ b) (hn : P ∣ n) (b0 : 0 < b)
    (n0 : 0 < n) (h64 : b + n ≤ 2 ^ 64) :
    ∃ s', ((do
      let s := { s.map b n with segs := [⟨b, n, 0⟩], least := b }
      let s ← s.set (b + n - 8) 0
      let s := { s with small := fun _ => [] }
      initTop s b (n - foot)) : R Hp) = .ok s' ∧ ∃ A', Inv P s' A' ∧ Grow s A s' A' ∧ s'.topsize = n - 72 := by
  obtain ⟨p1, p2, _⟩ := hP.facts
  have n4 : P ≤ n := Nat.le_of_dvd n0 hn
  have h8b : 8 ∣ b := Nat.dvd_trans (Nat.dvd_trans (by decide) p1) hb
  have h8n : 8 ∣ n := Nat.dvd_trans (Nat.dvd_trans (by decide) p1) hn
  have mp : ∀ x, b ≤ x → x < b + n → (s.map b n).mapped x = true := by
    intro x h1 h2; simp [Hp.map, h1, h2]
  simp only []
  rw [Hp.set_ok (s := { s.map b n with segs := [⟨b, n, 0⟩], least := b }) _ (mp _ (by omega) (by omega))]
  simp only [bind, Except.bind]
  rw [initTop_ok (s := { s.map b n with mem := upd (s.map b n).mem (b + n - 8) 0, segs := [⟨b, n, 0⟩], least := b, small := fun _ => [] }) (mp _ (by omega) (by omega)) (mp _ (by unfold foot; omega) (by unfold foot; omega))]
  refine ⟨_, rfl, one A b (b + n - 16) (n - 72) .top, ⟨?_, ?_, ?_, ?_, ?_⟩, ?_, rfl⟩
  · apply i.tags.newTop h8b h8n b0 (by omega)
    · intro p z u h; rw [i.empty h0] at h; cases h
    · intro x hx
      simp only [foot]
      rw [upd_ne (by omega), upd_ne (by omega), upd_ne (by omega)]; rfl
    · simp only [foot]
      rw [upd_ne (by omega), upd_same]
  · have e : s.small = fun _ => [] := by
      funext j
      cases e : s.small j with
      | nil => rfl
      | cons a l =>
        obtain ⟨z, h, _⟩ := i.bins.smem.1 (show a ∈ s.small j by rw [e]; simp)
        have := binF_some.1 h
        rw [i.empty h0] at this; cases this
    have := i.bins
    unfold Hp.Bins at this
    rw [e] at this
    refine this.congr (fun q => ?_)
    unfold binF one
    split
    · rename_i h
      split at h
      · cases h
      · split at h
        · cases h
        · rw [h]
    · rw [i.empty h0]
  · refine ⟨?_, i.dv.zero⟩
    intro q w
    constructor
    · intro h
      rcases (one_some (by omega)).1 h with c | c
      · simp at c
      · rw [i.empty h0] at c; simp at c
    · rintro ⟨_, h1, h2⟩
      have h2' : s.dvsize ≠ 0 := h2
      have := (i.dv.iff s.dv s.dvsize).2 ⟨rfl, rfl, h2'⟩
      rw [i.empty h0] at this; cases this
  · intro q w
    rw [one_some (by omega)]
    constructor
    · rintro (c | c)
      · exact ⟨c.1, c.2.1, by simp⟩
      · rw [i.empty h0] at c; simp at c
    · rintro ⟨h1, h2, _⟩; exact .inl ⟨h1, h2, rfl⟩
  · refine ⟨?_, by simp, ?_, ?_, ?_, ?_, by simp, ?_, ?_, by simp, ?_⟩
    · intro g hg; rw [List.mem_singleton] at hg; subst hg; exact ⟨hb, hn, b0, n0, h64⟩
    · intro g hg x h1 h2; rw [List.mem_singleton] at hg; subst hg; exact mp x h1 h2
    · intro p z u h
      rcases (one_some (by omega)).1 h with c | c
      · refine ⟨_, List.mem_singleton.2 rfl, ?_, ?_⟩
        · dsimp only; omega
        · dsimp only; omega
      · rw [i.empty h0] at c; simp at c
    · intro p z u h g hg h1 h2
      rw [List.mem_singleton] at hg
      subst hg
      rcases (one_some (by omega)).1 h with c | c
      · dsimp only; exact ⟨by omega, fun _ => by omega⟩
      · rw [i.empty h0] at c; simp at c
    · intro g hg; rw [List.mem_singleton] at hg; subst hg; dsimp only; rw [one_a]; simp
    · intro g hg
      simp only [List.head?_cons, Option.some.injEq] at hg
      subst hg
      exact ⟨rfl, Nat.le_refl _, by dsimp only [foot]; omega⟩
    · intro p z u h
      rcases (one_some (by omega)).1 h with c | c
      · dsimp only; omega
      · rw [i.empty h0] at c; simp at c
    · intro p z h
      rcases (one_some (by omega)).1 h with c | c
      · simp at c
      · rw [i.empty h0] at c; simp at c
  · refine ⟨fun p z h => (by rw [i.empty h0] at h; cases h), fun q w h => ?_⟩
    rcases (one_some (by omega)).1 h with c | c
    · simp at c
    · exact c.2

/-- Memory behind the top, src/dlmalloc.c:3573-3580. -/
theorem Inv.append (i : Inv P s A) {g : Seg} {rest : List Seg} (hs : s.segs = g :: rest) {n : Nat}
    (hP : PageOk P) (hn : P ∣ n) (n0 : 0 < n) (h64 : g.base + g.size + n ≤ 2 ^ 64)
    (hf : ∀ x, g.base + g.size ≤ x → x < g.base + g.size + n → s.mapped x = false) :
    ∃ s', initTop { s.map (g.base + g.size) n with segs := { g with size := g.size + n } :: rest } s.top (s.topsize + n) = .ok s' ∧
      ∃ A', Inv P s' A' ∧ Grow s A s' A' ∧ s'.topsize = s.topsize + n := by
  obtain ⟨p1, p2, _⟩ := hP.facts
  have h8n : 8 ∣ n := Nat.dvd_trans (Nat.dvd_trans (by decide) p1) hn
  obtain ⟨g0, g1, g2⟩ := i.segs.head g (by rw [hs]; rfl)
  have hgm : g ∈ s.segs := by rw [hs]; simp
  obtain ⟨q1, q2, q3, q4, q5⟩ := i.segs.page g hgm
  have hA : A s.top = some (s.topsize, .top) := (i.top _ _).2 ⟨rfl, rfl, by rw [hs]; simp⟩
  have t := i.tags
  have o := t.ok hA
  have hal := o.alz
  have hmin := o.min
  have mp : ∀ x, g.base ≤ x → x < g.base + g.size + n → (s.map (g.base + g.size) n).mapped x = true := by
    intro x h1 h2
    by_cases c : x < g.base + g.size
    · have := i.segs.map g hgm x h1 c
      simp [Hp.map, this]
    · simp only [Hp.map, Bool.or_eq_true, decide_eq_true_eq]; left; omega
  have far : ∀ p z u, A p = some (z, u) → p + z + 32 ≤ g.base + g.size ∨ g.base + g.size + n ≤ p :=
    fun p z u h => i.apartC n0 hf h
  rw [initTop_ok (s := { s.map (g.base + g.size) n with segs := { g with size := g.size + n } :: rest }) (mp _ (by omega) (by omega)) (mp _ (by omega) (by omega))]
  have no : ∀ x, s.top < x → x < g.base + g.size + n → A x = none := by
    intro x h1 h2
    cases e : A x with
    | none => rfl
    | some y =>
      have := far x y.1 y.2 e
      have hd := t.disj hA (show A x = some (y.1, y.2) from e) h1
      obtain ⟨k, hk, k1, k2⟩ := i.segs.hold x y.1 y.2 e
      have hxk : k = g := pw_disj i.segs.disj hk hgm (x := x) k1 (by omega) (by omega) (by omega)
      subst hxk
      have := (i.segs.past x y.1 y.2 e k hk k1 (by omega)).1
      have hx : x = s.top + s.topsize := by omega
      have := o.last (.inr rfl)
      rw [← hx, e] at this; cases this
  have lt1 : s.top < s.top + (s.topsize + n) := by omega
  have ag : ∀ x, x < s.top + 8 ∨ s.top + (s.topsize + n) + 8 < x →
      upd (upd s.mem (s.top + 8) (s.topsize + n ||| 1)) (s.top + (s.topsize + n) + 8) foot x = s.mem x := by
    intro x hx; rw [upd_ne (by omega), upd_ne (by omega)]
  have hal' : 8 ∣ s.topsize + n := by omega
  have npf : ¬ PF A s.top := t.notPF hA rfl
  have outs : ∀ q w v, one A s.top (s.top + (s.topsize + n)) (s.topsize + n) .top q = some (w, v) →
      (q = s.top ∧ w = s.topsize + n ∧ v = .top) ∨ (q ≠ s.top ∧ A q = some (w, v)) := by
    intro q w v h
    rcases (one_some lt1).1 h with c | c
    · exact .inl c
    · exact .inr ⟨by omega, c.2⟩
  have outs' : ∀ q, q ≠ s.top → one A s.top (s.top + (s.topsize + n)) (s.topsize + n) .top q = A q := by
    intro q hq
    by_cases c : s.top < q ∧ q < s.top + (s.topsize + n)
    · rw [one_in c.1 c.2, no q c.1 (by omega)]
    · exact one_out (by omega) lt1
  have hg' : ∀ k ∈ rest, k.base + k.size ≤ g.base ∨ g.base + g.size + n ≤ k.base := by
    intro k hk
    have h1 := i.segs.disj
    rw [hs, List.pairwise_cons] at h1
    have h1 := h1.1 k hk
    have h2 := i.apart n0 hf (show k ∈ s.segs by rw [hs]; exact List.mem_cons_of_mem _ hk)
    have h3 := i.segs.page k (by rw [hs]; exact List.mem_cons_of_mem _ hk)
    omega
  refine ⟨_, rfl, one A s.top (s.top + (s.topsize + n)) (s.topsize + n) .top, ⟨?_, ?_, ?_, ?_, ?_⟩, ?_, rfl⟩
  · apply t.one (u := .top)
    · refine ⟨o.pos, o.al, lt1, fun p z u h hl => t.disj h hA hl, ?_, ?_⟩
      · intro q w v hq h1 h2
        by_cases c : q = s.top
        · subst c; rw [hA] at hq; cases hq; omega
        · rw [no q (by omega) (by omega)] at hq; cases hq
      · exact ((span1 hA).place t).1.alast
    · exact ag
    · exact hal'
    · omega
    · intro h; exact absurd rfl h
    · omega
    · intro _ h; exact absurd rfl h
    · intro _; exact no _ (by omega) (by omega)
    · dsimp only; rw [upd_ne (by omega), upd_same, chunksize_one hal']
    · dsimp only; rw [upd_ne (by omega), upd_same, cinuse_one hal']; rfl
    · dsimp only; rw [upd_ne (by omega), upd_same, pinuse_one hal']; simp; exact npf
    · intro h; cases h
    · intro h; exact absurd h npf
    · intro w v hw; rw [no _ (by omega) (by omega)] at hw; cases hw
  · refine i.bins.congr (fun q => ?_)
    by_cases c : q = s.top
    · subst c; simp [binF, one_a, hA]
    · simp only [binF, outs' q c]
  · refine ⟨?_, i.dv.zero⟩
    intro q w
    show _ ↔ q = s.dv ∧ w = s.dvsize ∧ s.dvsize ≠ 0
    rw [← i.dv.iff q w]
    by_cases c : q = s.top
    · subst c; rw [one_a, hA]; simp
    · rw [outs' q c]
  · intro q w
    show _ ↔ q = s.top ∧ w = s.topsize + n ∧ _
    constructor
    · intro h
      rcases outs _ _ _ h with c | c
      · exact ⟨c.1, c.2.1, by simp⟩
      · have := (i.top q w).1 c.2; exact absurd this.1 c.1
    · rintro ⟨rfl, rfl, _⟩; exact one_a ..
  · have S := i.segs
    have mem : ∀ k, k ∈ rest → k ∈ s.segs := fun k hk => by rw [hs]; exact List.mem_cons_of_mem _ hk
    refine ⟨?_, ?_, ?_, ?_, ?_, ?_, ?_, ?_, ?_, by simp, ?_⟩
    · intro k hk
      rcases List.mem_cons.1 hk with rfl | hk
      · exact ⟨q1, Nat.dvd_add q2 hn, q3, by dsimp only; omega, by dsimp only; omega⟩
      · exact S.page k (mem k hk)
    · have h1 := S.disj
      rw [hs, List.pairwise_cons] at h1
      rw [List.pairwise_cons]
      refine ⟨?_, h1.2⟩
      intro k hk
      have := hg' k hk
      dsimp only; omega
    · intro k hk x h1 h2
      rcases List.mem_cons.1 hk with rfl | hk
      · dsimp only at h1 h2; exact mp x h1 (by omega)
      · have := S.map k (mem k hk) x h1 h2
        simp [Hp.map, this]
    · intro p z u h
      rcases outs _ _ _ h with c | c
      · exact ⟨_, List.mem_cons_self .., by dsimp only; omega, by dsimp only; omega⟩
      · obtain ⟨k, hk, k1, k2⟩ := S.hold p z u c.2
        rw [hs] at hk
        rcases List.mem_cons.1 hk with rfl | hk
        · exact ⟨_, List.mem_cons_self .., k1, by dsimp only; omega⟩
        · exact ⟨k, List.mem_cons_of_mem _ hk, k1, k2⟩
    · intro p z u h k hk k1 k2
      rcases List.mem_cons.1 hk with rfl | hk
      · dsimp only at k1 k2 ⊢
        rcases outs _ _ _ h with c | c
        · exact ⟨by omega, fun _ => by omega⟩
        · have h1 := far p z u c.2
          have h2 := S.past p z u c.2 g hgm k1 (by omega)
          exact ⟨by omega, fun hu => by have := h2.2 hu; omega⟩
      · rcases outs _ _ _ h with c | c
        · have := hg' k hk; omega
        · exact S.past p z u c.2 k (mem k hk) k1 k2
    · intro k hk
      have : A k.base ≠ none := by
        rcases List.mem_cons.1 hk with rfl | hk
        · exact S.first g hgm
        · exact S.first k (mem k hk)
      by_cases c : k.base = s.top
      · rw [c, one_a]; simp
      · rw [outs' _ c]; exact this
    · intro k hk
      simp only [List.tail_cons] at hk
      obtain ⟨k1, k2, k3⟩ := S.link k (by rw [hs]; exact hk)
      refine ⟨k1, ?_, k3⟩
      rw [outs' _ (by intro c; rw [c, hA] at k2; simp at k2)]; exact k2
    · intro k hk
      simp only [List.head?_cons, Option.some.injEq] at hk
      subst hk
      exact ⟨g0, g1, by dsimp only; omega⟩
    · intro p z u h
      rcases outs _ _ _ h with c | c
      · rw [c.1]; exact S.least _ _ _ hA
      · exact S.least _ _ _ c.2
    · intro p z h
      rcases outs _ _ _ h with c | c
      · simp at c
      · have := S.own _ _ c.2; rwa [hs] at this
  · refine ⟨?_, fun q w h => ?_⟩
    swap
    · rcases outs _ _ _ h with c | c
      · simp at c
      · exact c.2
    intro p z h
    have hne : p ≠ s.top := by rintro rfl; rw [hA] at h; cases h
    refine ⟨by rw [outs' p hne]; exact h, fun x h1 h2 => ag x ?_⟩
    rcases Nat.lt_or_ge p s.top with c | c
    · have := t.disj h hA c; omega
    · have := no p (by omega)
      by_cases d : p < g.base + g.size + n
      · rw [this d] at h; cases h
      · omega

end

end Verif.Dl
