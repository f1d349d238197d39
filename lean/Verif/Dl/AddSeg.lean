import Verif.Dl.Prepend

/-
Memory from the system elsewhere: a new segment.
-/
namespace Verif.Dl
open Verif

theorem fences_ok {s : Hp} {p e : Nat} (k : Nat) (h1 : p + 16 ≤ e) (hk : e ≤ p + 8 * k + 8) (h8 : 8 ∣ p) (h8e : 8 ∣ e)
    (mp : ∀ x, p ≤ x → x < e → s.mapped x = true) :
    ∃ m, fences k s p e = .ok { s with mem := m } ∧ ∀ x, x < p + 8 ∨ e - 8 < x → m x = s.mem x := by
  induction k generalizing s p with
  | zero => omega
  | succ k ih =>
    unfold fences
    rw [Hp.set_ok _ (mp _ (by omega) (by omega))]
    simp only [bind, Except.bind]
    split
    · rename_i c
      obtain ⟨m, h2, h3⟩ := ih (s := { s with mem := upd s.mem (p + 8) 11 }) (p := p + 8) (by omega) (by omega) (by omega)
        (fun x a b => mp x (by omega) b)
      refine ⟨m, h2, fun x hx => ?_⟩
      rw [h3 x (by omega)]
      exact upd_ne (by omega)
    · exact ⟨_, rfl, fun x hx => upd_ne (by omega)⟩

section
variable {P : Nat} {s : Hp} {A : Chunks}

theorem Inv.headSeg (i : Inv P s A) {g : Seg} {rest : List Seg} (hs : s.segs = g :: rest) :
    g ∈ s.segs ∧ g.link = 0 ∧ g.base ≤ s.top ∧ s.top + s.topsize + 72 = g.base + g.size ∧
      A s.top = some (s.topsize, .top) := by
  have h := i.segs.head g (by rw [hs]; rfl)
  exact ⟨by rw [hs]; simp, h.1, h.2.1, h.2.2, (i.top _ _).2 ⟨rfl, rfl, by rw [hs]; simp⟩⟩

/-- Nothing begins behind the top. -/
theorem Inv.beyond (i : Inv P s A) {g : Seg} {rest : List Seg} (hs : s.segs = g :: rest) {x : Nat} (h1 : s.top < x)
    (h2 : x < g.base + g.size) : A x = none := by
  obtain ⟨hgm, _, g1, g2, hA⟩ := i.headSeg hs
  cases e : A x with
  | none => rfl
  | some y =>
    have hd := i.tags.disj hA (show A x = some (y.1, y.2) from e) h1
    have := (i.segs.past x y.1 y.2 e g hgm (by omega) h2).1
    have hx : x = s.top + s.topsize := by omega
    have := (i.tags.ok hA).last (.inr rfl)
    rw [← hx, e] at this; cases this

/-- The new segment, with the record of the old one in it, once the chunks are known. -/
theorem Inv.addSeg (i : Inv P s A) (hP : PageOk P) {g : Seg} {rest : List Seg} (hs : s.segs = g :: rest) {b n : Nat}
    (hb : P ∣ b) (hn : P ∣ n) (b0 : 0 < b) (n0 : 0 < n) (h64 : b + n ≤ 2 ^ 64)
    (hf : ∀ x, b ≤ x → x < b + n → s.mapped x = false) {csp : Nat} (hcsp : csp = s.top ∧ s.topsize < 32 ∨ (csp = s.top + s.topsize ∧ 32 ≤ s.topsize))
    {A1 : Chunks} (o1 : ∀ q, q ≠ s.top → q ≠ csp → A1 q = A q) (o2 : A1 csp = some (40, .link))
    (o3 : csp ≠ s.top → A1 s.top = some (s.topsize, .free)) {s' : Hp}
    (t' : Tags s'.mem (one A1 b (b + n - 16) (n - 72) .top))
    (sg : s'.segs = ⟨b, n, 0⟩ :: { g with link := csp + 16 } :: rest) (mp : s'.mapped = (s.map b n).mapped)
    (ls : s'.least = if b < s.least then b else s.least) (tp : s'.top = b) (tz : s'.topsize = n - 72)
    (ag : ∀ x, (x < b + 8 ∨ b + n - 8 < x) → (x < s.top + 8 ∨ g.base + g.size - 8 < x) → s'.mem x = s.mem x)
    (dv : s'.dv = s.dv ∧ s'.dvsize = s.dvsize)
    (bn : s'.Bins (if csp = s.top then binF A else addF (binF A) s.top s.topsize)) :
    Inv P s' (one A1 b (b + n - 16) (n - 72) .top) ∧ Grow s A s' (one A1 b (b + n - 16) (n - 72) .top) := by
  obtain ⟨hgm, g0, g1, g2, hA⟩ := i.headSeg hs
  obtain ⟨p1, p2, _⟩ := hP.facts
  have n4 : P ≤ n := Nat.le_of_dvd n0 hn
  have S := i.segs
  have t := i.tags
  have pg := S.page g hgm
  have far : ∀ {p z u}, A p = some (z, u) → p + z + 32 ≤ b ∨ b + n ≤ p := fun h => i.apartC n0 hf h
  have apg := i.apart n0 hf hgm
  have hcl : s.top ≤ csp ∧ csp ≤ s.top + s.topsize := by omega
  have hmin := (t.ok hA).min
  have hcA : ∀ w v, A csp = some (w, v) → csp = s.top := by
    intro w v h
    rcases hcsp with c | c
    · exact c.1
    · have := i.beyond hs (x := csp) (by omega) (by omega)
      rw [this] at h; cases h
  have rest_mem : ∀ k ∈ rest, k ∈ s.segs := fun k hk => by rw [hs]; exact List.mem_cons_of_mem _ hk
  have lt : b < b + n - 16 := by omega
  -- the chunks
  have ch : ∀ q w v, one A1 b (b + n - 16) (n - 72) .top q = some (w, v) ↔
      (q = b ∧ w = n - 72 ∧ v = .top) ∨ (q = csp ∧ w = 40 ∧ v = .link) ∨
      (q = s.top ∧ csp ≠ s.top ∧ w = s.topsize ∧ v = .free) ∨ (q ≠ s.top ∧ A q = some (w, v)) := by
    intro q w v
    rw [one_some lt]
    constructor
    · rintro (h | ⟨h, h'⟩)
      · exact .inl h
      · by_cases c : q = csp
        · subst c; rw [o2] at h'; cases h'; exact .inr (.inl ⟨rfl, rfl, rfl⟩)
        · by_cases d : q = s.top
          · subst d; rw [o3 (Ne.symm c)] at h'; cases h'; exact .inr (.inr (.inl ⟨rfl, Ne.symm c, rfl, rfl⟩))
          · rw [o1 q d c] at h'; exact .inr (.inr (.inr ⟨d, h'⟩))
    · rintro (h | ⟨h, h1, h2⟩ | ⟨h, h1, h2, h3⟩ | ⟨h, h1⟩)
      · exact .inl h
      · subst h h1 h2; exact .inr ⟨by omega, o2⟩
      · subst h h2 h3; exact .inr ⟨by omega, o3 h1⟩
      · have := far h1
        have hm := (t.ok h1).min
        refine .inr ⟨by omega, ?_⟩
        have hqc : q ≠ csp := by rintro rfl; exact h (hcA _ _ h1)
        rw [o1 q h hqc]; exact h1
  have tail : ∀ k ∈ rest, 16 < k.link ∧ A (k.link - 16) = some (40, .link) ∧ k.base < k.link - 16 ∧
      k.link + 56 ≤ k.base + k.size ∧ k.base + k.size ≤ k.link + 88 := fun k hk => S.link k (by rw [hs]; exact hk)
  have mapo : ∀ x, s.mapped x = true → s'.mapped x = true := by
    intro x hx; rw [mp]; simp [Hp.map, hx]
  refine ⟨⟨t', ?_, ?_, ?_, ?_⟩, ?_⟩
  · refine bn.congr (binF_ext fun q x => ?_)
    rw [ch]
    by_cases c : csp = s.top
    · rw [if_pos c, binF_some]
      constructor
      · rintro (h | h | h | h)
        · simp at h
        · simp at h
        · exact absurd c h.2.1
        · exact h.2
      · intro h
        refine .inr (.inr (.inr ⟨?_, h⟩))
        rintro rfl; rw [hA] at h; cases h
    · rw [if_neg c, addF_some (binF_none (by rw [hA]; simp)), binF_some]
      constructor
      · rintro (h | h | h | h)
        · simp at h
        · simp at h
        · exact .inl ⟨h.1, h.2.2.1⟩
        · exact .inr h.2
      · rintro (h | h)
        · exact .inr (.inr (.inl ⟨h.1, c, h.2, rfl⟩))
        · refine .inr (.inr (.inr ⟨?_, h⟩))
          rintro rfl; rw [hA] at h; cases h
  · rw [dv.1, dv.2]
    refine ⟨?_, i.dv.zero⟩
    intro q w
    rw [ch, ← i.dv.iff q w]
    constructor
    · rintro (h | h | h | h)
      · simp at h
      · simp at h
      · simp at h
      · exact h.2
    · intro h
      refine .inr (.inr (.inr ⟨?_, h⟩))
      rintro rfl; rw [hA] at h; cases h
  · intro q w
    rw [ch, sg, tp, tz]
    constructor
    · rintro (h | h | h | h)
      · exact ⟨h.1, h.2.1, by simp⟩
      · simp at h
      · simp at h
      · exact absurd ((i.top q w).1 h.2).1 h.1
    · rintro ⟨h1, h2, _⟩; exact .inl ⟨h1, h2, rfl⟩
  · rw [sg, tp, tz, ls]
    have dj := S.disj
    rw [hs, List.pairwise_cons] at dj
    have apr : ∀ k ∈ rest, k.base + k.size ≤ b ∨ b + n ≤ k.base := fun k hk => i.apart n0 hf (rest_mem k hk)
    refine ⟨?_, ?_, ?_, ?_, ?_, ?_, ?_, ?_, ?_, by simp, ?_⟩
    · intro k hk
      simp only [List.mem_cons] at hk
      rcases hk with rfl | rfl | hk
      · exact ⟨hb, hn, b0, n0, h64⟩
      · exact pg
      · exact S.page k (rest_mem k hk)
    · rw [List.pairwise_cons, List.pairwise_cons]
      refine ⟨?_, dj.1, dj.2⟩
      intro k hk
      rcases List.mem_cons.1 hk with rfl | hk
      · dsimp only; omega
      · have := apr k hk; dsimp only; omega
    · intro k hk x h1 h2
      simp only [List.mem_cons] at hk
      rcases hk with rfl | rfl | hk
      · dsimp only at h1 h2; rw [mp]; simp [Hp.map, h1, h2]
      · exact mapo x (S.map g hgm x h1 h2)
      · exact mapo x (S.map k (rest_mem k hk) x h1 h2)
    · intro p z u h
      rcases (ch _ _ _).1 h with c | c | c | c
      · exact ⟨⟨b, n, 0⟩, by simp, by dsimp only; omega, by dsimp only; omega⟩
      · exact ⟨{ g with link := csp + 16 }, by simp, by dsimp only; omega, by dsimp only; omega⟩
      · exact ⟨{ g with link := csp + 16 }, by simp, by dsimp only; omega, by dsimp only; omega⟩
      · obtain ⟨k, hk, k1, k2⟩ := S.hold p z u c.2
        rw [hs] at hk
        rcases List.mem_cons.1 hk with rfl | hk
        · exact ⟨{ k with link := csp + 16 }, by simp, k1, k2⟩
        · exact ⟨k, by simp [hk], k1, k2⟩
    · intro p z u h k hk k1 k2
      simp only [List.mem_cons] at hk
      rcases hk with rfl | rfl | hk
      · dsimp only at k1 k2 ⊢
        rcases (ch _ _ _).1 h with c | c | c | c
        · exact ⟨by omega, fun _ => by omega⟩
        · omega
        · omega
        · have := far c.2; have := (t.ok c.2).min; omega
      · dsimp only at k1 k2 ⊢
        rcases (ch _ _ _).1 h with c | c | c | c
        · omega
        · exact ⟨by omega, fun hu => absurd c.2.2 hu⟩
        · exact ⟨by omega, fun _ => by omega⟩
        · exact S.past p z u c.2 g hgm k1 k2
      · have hd := dj.1 k hk
        have ha := apr k hk
        rcases (ch _ _ _).1 h with c | c | c | c
        · omega
        · omega
        · omega
        · exact S.past p z u c.2 k (rest_mem k hk) k1 k2
    · intro k hk
      simp only [List.mem_cons] at hk
      have old : ∀ k ∈ s.segs, one A1 b (b + n - 16) (n - 72) .top k.base ≠ none := by
        intro k hk
        cases e : A k.base with
        | none => exact absurd e (S.first k hk)
        | some y =>
          by_cases c : k.base = s.top
          · by_cases d : csp = s.top
            · rw [(ch k.base 40 .link).2 (.inr (.inl ⟨by rw [c, d], rfl, rfl⟩))]; simp
            · rw [(ch k.base s.topsize .free).2 (.inr (.inr (.inl ⟨c, d, rfl, rfl⟩)))]; simp
          · rw [(ch k.base y.1 y.2).2 (.inr (.inr (.inr ⟨c, e⟩)))]; simp
      rcases hk with rfl | rfl | hk
      · dsimp only; rw [one_a]; simp
      · exact old g hgm
      · exact old k (rest_mem k hk)
    · intro k hk
      simp only [List.tail_cons, List.mem_cons] at hk
      rcases hk with rfl | hk
      · dsimp only
        have := (t.ok hA).pos
        have := Nat.le_of_dvd pg.2.2.2.1 pg.2.1
        refine ⟨by omega, ?_, by omega, by omega⟩
        rw [Nat.add_sub_cancel]
        exact (ch _ _ _).2 (.inr (.inl ⟨rfl, rfl, rfl⟩))
      · obtain ⟨h1, h2, h3⟩ := tail k hk
        refine ⟨h1, (ch _ _ _).2 (.inr (.inr (.inr ⟨?_, h2⟩))), h3⟩
        intro h; rw [h, hA] at h2; simp at h2
    · intro k hk
      simp only [List.head?_cons, Option.some.injEq] at hk
      subst hk
      exact ⟨rfl, Nat.le_refl _, by dsimp only; omega⟩
    · intro p z u h
      have h1 := S.least _ _ _ hA
      rcases (ch _ _ _).1 h with c | c | c | c
      · split <;> omega
      · split <;> omega
      · split <;> omega
      · have := S.least _ _ _ c.2
        split <;> omega
    · intro p z h
      rcases (ch _ _ _).1 h with c | c | c | c
      · simp at c
      · exact ⟨{ g with link := csp + 16 }, by simp, by dsimp only; omega⟩
      · simp at c
      · obtain ⟨k, hk, e⟩ := S.own _ _ c.2
        rw [hs] at hk
        exact ⟨k, List.mem_cons_of_mem _ hk, e⟩
  · refine ⟨?_, fun q w h => ?_⟩
    swap
    · rcases (ch _ _ _).1 h with c | c | c | c
      · simp at c
      · simp at c
      · simp at c
      · exact c.2
    intro p z h
    have hne : p ≠ s.top := by rintro rfl; rw [hA] at h; cases h
    refine ⟨(ch _ _ _).2 (.inr (.inr (.inr ⟨hne, h⟩))), fun x h1 h2 => ag x ?_ ?_⟩
    · have := far h; omega
    · rcases Nat.lt_or_ge p s.top with c | c
      · have := t.disj h hA c; omega
      · by_cases d : p < g.base + g.size
        · rw [i.beyond hs (by omega) d] at h; cases h
        · omega

/-- The tags after `add_segment`. -/
theorem Inv.addSegTags (i : Inv P s A) (hP : PageOk P) {g : Seg} {rest : List Seg} (hs : s.segs = g :: rest) {b n : Nat}
    (hb : P ∣ b) (hn : P ∣ n) (b0 : 0 < b) (n0 : 0 < n)
    (hf : ∀ x, b ≤ x → x < b + n → s.mapped x = false) {mem' : Nat → Nat}
    (ag : ∀ x, (x < b + 8 ∨ b + n - 8 < x) → (x < s.top + 8 ∨ g.base + g.size - 8 < x) → mem' x = s.mem x)
    (e1 : mem' (b + 8) = (n - 72) ||| 1) :
    (mem' (s.top + 8) = 43 → Tags mem' (one (one A s.top (g.base + g.size - 16) 40 .link) b (b + n - 16) (n - 72) .top)) ∧
    (32 ≤ s.topsize → mem' (s.top + s.topsize + 8) = 42 → mem' (s.top + 8) = s.topsize ||| 1 →
      mem' (s.top + s.topsize) = s.topsize →
      Tags mem' (one (two A s.top (g.base + g.size - 16) s.topsize .free 40 .link) b (b + n - 16) (n - 72) .top)) := by
  obtain ⟨hgm, g0, g1, g2, hA⟩ := i.headSeg hs
  obtain ⟨p1, p2, _⟩ := hP.facts
  have n4 : P ≤ n := Nat.le_of_dvd n0 hn
  have h8b : 8 ∣ b := Nat.dvd_trans (Nat.dvd_trans (by decide) p1) hb
  have h8n : 8 ∣ n := Nat.dvd_trans (Nat.dvd_trans (by decide) p1) hn
  have t := i.tags
  have o := t.ok hA
  have hmin := o.min
  have far : ∀ {p z u}, A p = some (z, u) → p + z + 32 ≤ b ∨ b + n ≤ p := fun h => i.apartC n0 hf h
  have apg := i.apart n0 hf hgm
  have pg := i.segs.page g hgm
  -- the memory without the words of the new segment
  have m1o : ∀ x, ¬ (b ≤ x ∧ x < b + n) → (if b ≤ x ∧ x < b + n then s.mem x else mem' x) = mem' x := fun x h => if_neg h
  have m1a : ∀ x, x < s.top + 8 ∨ g.base + g.size - 16 + 8 < x → (if b ≤ x ∧ x < b + n then s.mem x else mem' x) = s.mem x := by
    intro x hx
    split
    · rfl
    · exact ag x (by omega) (by omega)
  have m2a : ∀ x, x < b + 8 ∨ b + n - 8 < x → mem' x = (if b ≤ x ∧ x < b + n then s.mem x else mem' x) := by
    intro x hx
    split
    · exact ag x hx (by omega)
    · rfl
  have pl : Place A s.top (g.base + g.size - 16) := by
    refine ⟨o.pos, o.al, by omega, fun p z u h hl => t.disj h hA hl, ?_, ((span1 hA).place t).1.alast⟩
    intro q w v hq h1 h2
    by_cases c : q = s.top
    · subst c; rw [hA] at hq; cases hq; omega
    · rw [i.beyond hs (by omega) (by omega)] at hq; cases hq
  have npf := t.notPF hA rfl
  have Aend : A (g.base + g.size - 16) = none := i.beyond hs (by omega) (by omega)
  have bh : ∀ m pf, Behind A m (g.base + g.size - 16) pf := by
    intro m pf w v h; rw [Aend] at h; cases h
  have c43 : chunksize 43 = 40 ∧ cinuse 43 = true ∧ pinuse 43 = true := by decide
  have c42 : chunksize 42 = 40 ∧ cinuse 42 = true ∧ pinuse 42 = false := by decide
  constructor
  · intro f1
    have T1 : Tags (fun x => if b ≤ x ∧ x < b + n then s.mem x else mem' x) (one A s.top (g.base + g.size - 16) 40 .link) := by
      have fx : (if b ≤ s.top + 8 ∧ s.top + 8 < b + n then s.mem (s.top + 8) else mem' (s.top + 8)) = 43 := by
        rw [m1o _ (by omega)]; exact f1
      apply t.one pl m1a (by decide) (by decide) (fun _ => by decide) (by omega)
      · intro h; exact absurd rfl h
      · intro _; exact Aend
      · rw [fx]; exact c43.1
      · rw [fx]; exact c43.2.1
      · rw [fx]; simp only [c43.2.2, true_iff]; exact npf
      · intro h; cases h
      · intro _; rfl
      · exact bh _ _
    apply T1.newTop h8b h8n b0 (by omega) _ m2a e1
    intro p z u h
    rcases (one_some pl.lt).1 h with c | c
    · omega
    · exact far c.2
  · intro h32 f1 f2 f3
    have lt : s.top + s.topsize < g.base + g.size - 16 := by omega
    have T1 : Tags (fun x => if b ≤ x ∧ x < b + n then s.mem x else mem' x)
        (two A s.top (g.base + g.size - 16) s.topsize .free 40 .link) := by
      have fx : (if b ≤ s.top + 8 ∧ s.top + 8 < b + n then s.mem (s.top + 8) else mem' (s.top + 8)) = s.topsize ||| 1 := by
        rw [m1o _ (by omega)]; exact f2
      have fy : (if b ≤ s.top + s.topsize + 8 ∧ s.top + s.topsize + 8 < b + n then s.mem (s.top + s.topsize + 8)
          else mem' (s.top + s.topsize + 8)) = 42 := by
        rw [m1o _ (by omega)]; exact f1
      apply t.two pl m1a o.alz h32 (by simp) (by simp) (by decide) (by decide) (fun _ => by decide) (by omega)
      · intro h; exact absurd rfl h
      · intro _; exact Aend
      · rw [fx, chunksize_one o.alz]
      · rw [fx, cinuse_one o.alz]; rfl
      · rw [fx, pinuse_one o.alz]; simp; exact npf
      · intro _; rw [m1o _ (by omega)]; exact f3
      · rw [fy]; exact c42.1
      · rw [fy]; exact c42.2.1
      · rw [fy]; exact c42.2.2
      · intro h; cases h
      · intro h; exact absurd h npf
      · intro _; rfl
      · exact bh _ _
    apply T1.newTop h8b h8n b0 (by omega) _ m2a e1
    intro p z u h
    rcases (two_some (by omega) lt).1 h with c | c | c
    · omega
    · omega
    · exact far c.2

/-- `add_segment`. -/
theorem Inv.addSegment (i : Inv P s A) (hP : PageOk P) (hne : s.segs ≠ []) {b n : Nat}
    (hb : P ∣ b) (hn : P ∣ n) (b0 : 0 < b) (n0 : 0 < n) (h64 : b + n ≤ 2 ^ 64)
    (hf : ∀ x, b ≤ x → x < b + n → s.mapped x = false) (e : Env) :
    ∃ s', addSegment e { s.map b n with least := if b < s.least then b else s.least } b n = .ok s' ∧
      ∃ A', Inv P s' A' ∧ Grow s A s' A' ∧ s'.topsize = n - 72 := by
  cases hs : s.segs with
  | nil => exact absurd hs hne
  | cons g rest =>
  obtain ⟨hgm, g0, g1, g2, hA⟩ := i.headSeg hs
  obtain ⟨p1, p2, _⟩ := hP.facts
  have n4 : P ≤ n := Nat.le_of_dvd n0 hn
  have t := i.tags
  have o := t.ok hA
  have hmin := o.min
  have hal := o.al
  have halz := o.alz
  have pg := i.segs.page g hgm
  have apg := i.apart n0 hf hgm
  have h8b : 8 ∣ b := Nat.dvd_trans (Nat.dvd_trans (by decide) p1) hb
  have h8n : 8 ∣ n := Nat.dvd_trans (Nat.dvd_trans (by decide) p1) hn
  have mpn : ∀ x, b ≤ x → x < b + n → (s.map b n).mapped x = true := by
    intro x h1 h2; simp [Hp.map, h1, h2]
  have mpg : ∀ x, g.base ≤ x → x < g.base + g.size → (s.map b n).mapped x = true := by
    intro x h1 h2
    have := i.segs.map g hgm x h1 h2
    simp [Hp.map, this]
  have hold : segHolding s.segs s.top = some g := by
    unfold segHolding
    rw [hs, List.find?_cons]
    have : g.holds s.top = true := by simp [Seg.holds]; omega
    rw [this]
  generalize hc : (if g.base + g.size - foot < s.top + 32 then s.top else g.base + g.size - foot) = csp
  have hcsp : csp = s.top ∧ s.topsize < 32 ∨ (csp = s.top + s.topsize ∧ 32 ≤ s.topsize) := by
    unfold foot at hc
    split at hc <;> omega
  -- the writes common to both cases
  have comp : ∃ m5 : Nat → Nat, Dl.addSegment e { s.map b n with least := if b < s.least then b else s.least } b n =
      (let s5 : Hp := { s.map b n with mem := m5, least := if b < s.least then b else s.least, top := b, topsize := n - 72, trim := 2 * 1024 * 1024, segs := ⟨b, n, 0⟩ :: { g with link := csp + 16 } :: rest }
       if csp ≠ s.top then do
         let s6 ← setFree s5 s.top (csp - s.top) csp
         return insertChunk s6 s.top (csp - s.top)
       else .ok s5) ∧
      (∀ x, (x < b + 8 ∨ b + n - 8 < x) → (x < csp + 8 ∨ g.base + g.size - 8 < x) → m5 x = s.mem x) ∧
      m5 (b + 8) = (n - 72) ||| 1 ∧ m5 (csp + 8) = 43 := by
    unfold Dl.addSegment
    have hold' : segHolding ({ s.map b n with least := if b < s.least then b else s.least } : Hp).segs
        ({ s.map b n with least := if b < s.least then b else s.least } : Hp).top = some g := hold
    simp only [hold']
    have hc' : (if g.base + g.size - foot < ({ s.map b n with least := if b < s.least then b else s.least } : Hp).top + 32 then
        ({ s.map b n with least := if b < s.least then b else s.least } : Hp).top else g.base + g.size - foot) = csp := hc
    simp only [hc']
    rw [initTop_ok]
    rotate_left
    · exact mpn _ (by omega) (by omega)
    · exact mpn _ (by unfold foot; omega) (by unfold foot; omega)
    simp only [bind, Except.bind, pure, Except.pure]
    rw [setSizeInuse_ok]
    swap
    · exact mpg _ (by omega) (by omega)
    have hseg : (s.map b n).segs = g :: rest := hs
    simp only [hseg]
    rw [Hp.set_ok]
    swap
    · exact mpg _ (by omega) (by omega)
    simp only []
    rw [Hp.set_ok]
    swap
    · exact mpg _ (by omega) (by omega)
    simp only []
    rw [Hp.set_ok]
    swap
    · exact mpg _ (by omega) (by omega)
    simp only []
    rw [Hp.set_ok]
    swap
    · exact mpg _ (by omega) (by omega)
    simp only []
    rw [Hp.set_ok]
    swap
    · exact mpn _ (by omega) (by omega)
    simp only []
    have ff := fun (m : Nat → Nat) => fences_ok (s := { s.map b n with mem := m, least := if b < s.least then b else s.least, top := b, topsize := n - 72, trim := 2 * 1024 * 1024, segs := ⟨b, n, 0⟩ :: { g with link := csp + 16 } :: rest })
      (p := csp + 40) (e := g.base + g.size) 64 (by omega) (by omega) (by omega) (by omega)
      (fun x h1 h2 => mpg x (by omega) h2)
    obtain ⟨m5, h1, h2⟩ := ff _
    refine ⟨m5, ?_, ?_, ?_, ?_⟩
    · erw [h1]; rfl
    · intro x hx hy
      rw [h2 x (by omega)]
      dsimp only [foot]
      rw [upd_ne (by omega), upd_ne (by omega), upd_ne (by omega), upd_ne (by omega), upd_ne (by omega), upd_ne (by omega),
        upd_ne (by omega), upd_ne (by omega)]
      rfl
    · rw [h2 _ (by omega)]
      dsimp only [foot]
      rw [upd_ne (by omega), upd_ne (by omega), upd_ne (by omega), upd_ne (by omega), upd_ne (by omega), upd_ne (by omega),
        upd_ne (by omega), upd_same]
    · rw [h2 _ (by omega)]
      dsimp only [foot]
      rw [upd_ne (by omega), upd_ne (by omega), upd_ne (by omega), upd_ne (by omega), upd_ne (by omega), upd_same]
      rfl
  obtain ⟨m5, he, a5, b5, c5⟩ := comp
  rw [he]
  simp only []
  rcases hcsp with ⟨hc1, hc2⟩ | ⟨hc1, hc2⟩
  · rw [if_neg (by simp [hc1])]
    rw [hc1] at c5 a5
    refine ⟨_, rfl, one (one A s.top (g.base + g.size - 16) 40 .link) b (b + n - 16) (n - 72) .top, ?_⟩
    have T := (i.addSegTags hP hs hb hn b0 n0 hf a5 b5).1 c5
    have := i.addSeg hP hs hb hn b0 n0 h64 hf (csp := csp) (.inl ⟨hc1, hc2⟩) (A1 := one A s.top (g.base + g.size - 16) 40 .link)
      (s' := { s.map b n with mem := m5, least := if b < s.least then b else s.least, top := b, topsize := n - 72, trim := 2 * 1024 * 1024, segs := ⟨b, n, 0⟩ :: { g with link := csp + 16 } :: rest })
      (by
        intro q h1 h2
        by_cases c : s.top < q ∧ q < g.base + g.size - 16
        · rw [one_in c.1 c.2, i.beyond hs c.1 (by omega)]
        · rw [one_out (by omega) (by omega)])
      (by rw [hc1, one_a]) (fun h => absurd hc1 h) T rfl rfl rfl rfl rfl a5 ⟨rfl, rfl⟩ (by rw [if_pos hc1]; exact i.bins)
    exact ⟨this.1, this.2, rfl⟩
  · have hcne : csp ≠ s.top := by omega
    rw [if_pos hcne]
    have hsz : csp - s.top = s.topsize := by omega
    rw [hsz]
    have apg' : csp + 40 ≤ b ∨ b + n ≤ s.top := by omega
    rw [setFree_ok]
    rotate_left
    · exact mpg _ (by omega) (by omega)
    · exact mpg _ (by omega) (by omega)
    · exact mpg _ (by omega) (by omega)
    simp only [bind, Except.bind, pure, Except.pure]
    refine ⟨_, rfl, one (two A s.top (g.base + g.size - 16) s.topsize .free 40 .link) b (b + n - 16) (n - 72) .top, ?_⟩
    have sb := fun (s6 : Hp) => insertChunk_same s6 s.top s.topsize
    have a6 : ∀ x, (x < b + 8 ∨ b + n - 8 < x) → (x < s.top + 8 ∨ g.base + g.size - 8 < x) →
        upd (upd (upd m5 (csp + 8) (m5 (csp + 8) / 2 * 2)) (s.top + 8) (s.topsize ||| 1)) (s.top + s.topsize) s.topsize x = s.mem x := by
      intro x h1 h2
      rw [upd_ne (by omega), upd_ne (by omega), upd_ne (by omega), a5 x h1 (by omega)]
    have T := (i.addSegTags hP hs hb hn b0 n0 hf a6 (by
      rw [upd_ne (by omega), upd_ne (by omega), upd_ne (by omega), b5])).2 hc2
        (by rw [upd_ne (by omega), upd_ne (by omega), ← hc1, upd_same, c5])
        (by rw [upd_ne (by omega), upd_same]) (by rw [upd_same])
    have lt : s.top + s.topsize < g.base + g.size - 16 := by omega
    have := i.addSeg hP hs hb hn b0 n0 h64 hf (csp := csp) (.inr ⟨hc1, hc2⟩)
      (A1 := two A s.top (g.base + g.size - 16) s.topsize .free 40 .link)
      (s' := insertChunk { s.map b n with
        mem := upd (upd (upd m5 (csp + 8) (m5 (csp + 8) / 2 * 2)) (s.top + 8) (s.topsize ||| 1)) (s.top + s.topsize) s.topsize,
        least := if b < s.least then b else s.least, top := b, topsize := n - 72, trim := 2 * 1024 * 1024, segs := ⟨b, n, 0⟩ :: { g with link := csp + 16 } :: rest } s.top s.topsize)
      (by
        intro q h1 h2
        by_cases c : s.top < q ∧ q < g.base + g.size - 16
        · rw [two_in c.1 c.2 (by omega), i.beyond hs c.1 (by omega)]
        · rw [two_out (by omega) lt])
      (by rw [hc1, two_z (by omega)]) (fun _ => two_a ..)
      (by rw [insertChunk_mem]; exact T) (sb _).segs (sb _).mapped (sb _).least (sb _).top (sb _).topsize
      (by rw [insertChunk_mem]; exact a6) ⟨(sb _).dv, (sb _).dvsize⟩
      (by
        rw [if_neg hcne]
        apply Bins.insertChunk
        · exact i.bins
        · exact binF_none (by rw [hA]; simp)
        · have := i.lt64 hA; omega
        · intro q w hq
          have hq := binF_some.1 hq
          have ap := i.apartC n0 hf hq
          have : q < s.top ∨ g.base + g.size ≤ q := by
            by_contra c
            by_cases c1 : q = s.top
            · rw [c1, hA] at hq; cases hq
            · rw [i.beyond hs (by omega) (by omega)] at hq; cases hq
          have := a6 (q + 8) (by omega) (by omega)
          dsimp only
          rw [this]
          exact (i.tags.ok hq).size)
    exact ⟨this.1, this.2, (sb _).topsize⟩

theorem Got.after {s' s'' : Hp} {A' A'' : Chunks} {nb p : Nat} (i : Inv P s' A') (t : Tags s.mem A) (g : Grow s A s' A') (h : Got P s' A' nb p s'' A'') :
    Got P s A nb p s'' A'' :=
  ⟨h.inv, h.chunk, fun z hz => h.fresh z (g.keep p z hz).1, g.keep.trans h.keep, fun q w hq => by
    rcases h.only q w hq with c | c
    · exact .inl c
    · exact .inr (g.only q w c)⟩

/-- Use of the new memory. -/
theorem Inv.placeNew (i : Inv P s A) (hP : PageOk P) {b n : Nat}
    (hb : P ∣ b) (hn : P ∣ n) (b0 : 0 < b) (n0 : 0 < n) (h64 : b + n ≤ 2 ^ 64)
    (hf : ∀ x, b ≤ x → x < b + n → s.mapped x = false) (e : Env) {nb : Nat} (h8 : 8 ∣ nb) (h32 : 32 ≤ nb) (hnb : nb + 74 ≤ n) :
    (∃ s', placeNew e (s.map b n) nb b n = .ok (none, s') ∧ ∃ A', Inv P s' A' ∧ Grow s A s' A' ∧ nb < s'.topsize) ∨
    (∃ p s', placeNew e (s.map b n) nb b n = .ok (some (p + 16), s') ∧ ∃ A', Got P s A nb p s' A') := by
  have other : s.segs ≠ [] →
    (∃ s', placeNew.other e (s.map b n) nb b n = .ok (none, s') ∧ ∃ A', Inv P s' A' ∧ Grow s A s' A' ∧ nb < s'.topsize) ∨
    (∃ p s', placeNew.other e (s.map b n) nb b n = .ok (some (p + 16), s') ∧ ∃ A', Got P s A nb p s' A') := by
    intro hne
    unfold placeNew.other
    obtain ⟨s1, h1, A1, h2, h3, h4⟩ := i.addSegment hP hne hb hn b0 n0 h64 hf e
    have h1' : Dl.addSegment e { s.map b n with least := if b < (s.map b n).least then b else (s.map b n).least } b n = .ok s1 := h1
    simp only []
    have hseg : (s.map b n).segs = s.segs := rfl
    simp only [hseg]
    cases hfd : s.segs.find? fun g => g.base == b + n with
    | none =>
      simp only []
      erw [h1']
      exact .inl ⟨s1, rfl, A1, h2, h3, by omega⟩
    | some g =>
      simp only []
      by_cases c : e.prepend = true
      · rw [if_pos c]
        have gb : g.base = b + n := by
          have := List.find?_some hfd
          simpa using this
        obtain ⟨l1, l2, e1, e2⟩ := updFirst_split (fun g => { g with base := b, size := g.size + n }) hfd
        rw [e2]
        have hgm : g ∈ s.segs := by rw [e1]; simp
        obtain ⟨m1, r1, r2, r3⟩ := i.record hgm
          (s0 := { s.map b n with least := if b < (s.map b n).least then b else (s.map b n).least, segs := l1 ++ { g with base := b, size := g.size + n } :: l2 }) rfl
          (fun x hx => by simp [Hp.map, hx]) b (g.size + n)
        obtain ⟨s', p1, A', p2⟩ := i.prepend hP e1 hb hn b0 n0 gb hf h8 h32 hnb r2 r3 rfl
        refine .inr ⟨b, s', ?_, A', p2⟩
        by_cases hl : g.link ≠ 0
        · rw [if_pos hl] at r1 ⊢
          cases hx : Hp.set { s.map b n with least := if b < (s.map b n).least then b else (s.map b n).least, segs := l1 ++ { g with base := b, size := g.size + n } :: l2 } g.link b with
          | error err => rw [hx] at r1; simp [bind, Except.bind] at r1
          | ok s2 =>
            rw [hx] at r1
            simp only [bind, Except.bind, if_pos hl] at r1 ⊢
            rw [r1]
            simp only []
            erw [p1]; rfl
        · rw [if_neg hl] at r1 ⊢
          simp only [bind, Except.bind, if_neg hl] at r1 ⊢
          rw [Except.ok.inj r1]
          erw [p1]; rfl
      · rw [if_neg c]
        erw [h1']
        exact .inl ⟨s1, rfl, A1, h2, h3, by omega⟩
  unfold Dl.placeNew
  by_cases h0 : s.segs = []
  · have ht : (s.map b n).top = 0 := (i.segs.nil h0).1
    rw [if_pos ht]
    obtain ⟨s', h1, A', h2, h3, h4⟩ := i.initHeap hP h0 hb hn b0 n0 h64
    refine .inl ⟨s', ?_, A', h2, h3, by omega⟩
    simp only [bind, Except.bind, pure, Except.pure] at h1 ⊢
    cases hx : Hp.set { s.map b n with segs := [⟨b, n, 0⟩], least := b } (b + n - 8) 0 with
    | error err => rw [hx] at h1; simp at h1
    | ok s2 =>
      rw [hx] at h1
      simp only [] at h1 ⊢
      rw [h1]
  · have ht : (s.map b n).top ≠ 0 := i.top_ne h0
    rw [if_neg ht]
    have hseg : (s.map b n).segs = s.segs := rfl
    simp only [hseg]
    cases hfd : s.segs.find? fun g => b == g.base + g.size with
    | none => exact other h0
    | some g =>
      simp only []
      by_cases c : (e.append && g.holds (s.map b n).top) = true
      · rw [if_pos c]
        have gb : b = g.base + g.size := by
          have := List.find?_some hfd
          simpa using this
        obtain ⟨l1, l2, e1, e2⟩ := updFirst_split (fun g => { g with size := g.size + n }) hfd
        rw [e2]
        have hgm : g ∈ s.segs := by rw [e1]; simp
        have hh : g.base ≤ s.top ∧ s.top < g.base + g.size := by
          have : g.holds s.top = true := by
            rw [Bool.and_eq_true] at c; exact c.2
          simpa [Seg.holds] using this
        have hl1 : l1 = [] := by
          cases l1 with
          | nil => rfl
          | cons a l1 =>
            exfalso
            have hd := i.segs.disj
            obtain ⟨ham, _, a1, a2, _⟩ := i.headSeg (g := a) (rest := l1 ++ g :: l2) (by rw [e1]; rfl)
            have hag := pw_disj i.segs.disj ham hgm (x := s.top) (by omega) (by omega) (by omega) (by omega)
            subst hag
            rw [e1, List.cons_append, List.pairwise_cons] at hd
            have := hd.1 a (by simp)
            have := (i.segs.page a ham).2.2.2.1
            omega
        subst hl1
        subst gb
        obtain ⟨s', h1, A', h2, h3, h4⟩ := i.append (g := g) (rest := l2) e1 hP hn n0 h64 hf
        refine .inl ⟨s', ?_, A', h2, h3, by omega⟩
        simp only [List.nil_append]
        have h1' : initTop { s.map (g.base + g.size) n with segs := { g with size := g.size + n } :: l2 } (s.map (g.base + g.size) n).top ((s.map (g.base + g.size) n).topsize + n) = .ok s' := h1
        simp only [h1', bind, Except.bind, pure, Except.pure]
      · rw [if_neg c]; exact other h0

/-- `sys_alloc`: memory is refused only if the system refuses it or the request is beyond the
address space. -/
theorem Inv.sysAlloc (i : Inv P s A) (hP : PageOk P) {e : Env} (he : EnvOk P e s) {nb : Nat} (hn : nb < 2 ^ 64)
    (h8 : nb + 1 < 2 ^ 64 → 8 ∣ nb ∧ 32 ≤ nb) :
    (sysAlloc e s nb = .ok (none, s) ∧ (reqSize e nb ≤ nb ∨ e.mmap (reqSize e nb) = none)) ∨
    (∃ p s', sysAlloc e s nb = .ok (some (p + 16), s') ∧ ∃ A', Got P s A nb p s' A') := by
  unfold Dl.sysAlloc
  simp only []
  by_cases c : reqSize e nb ≤ nb
  · rw [if_pos c]; exact .inl ⟨rfl, .inl c⟩
  · rw [if_neg c]
    cases hm : e.mmap (reqSize e nb) with
    | none => exact .inl ⟨rfl, .inr rfl⟩
    | some b =>
      simp only []
      obtain ⟨r1, r2⟩ := reqSize_ok hP he.page hn c
      obtain ⟨f1, f2, f3, f4⟩ := he.fresh _ _ hm
      have : nb + 1 < 2 ^ 64 := by omega
      obtain ⟨k1, k2⟩ := h8 this
      right
      rcases i.placeNew hP f1 r1 f2 (by omega) f3 f4 e k1 k2 r2 with ⟨s', h1, A', h2, h3, h4⟩ | ⟨p, s', h1, A', h2⟩
      · obtain ⟨p, s'', A'', g1, g2⟩ := h2.splitTop h4 k1 k2
        refine ⟨p, s'', ?_, A'', Got.after h2 i.tags h3 g2⟩
        rw [h1]
        simp only [bind, Except.bind, pure, Except.pure, if_pos h4, g1]
      · refine ⟨p, s', ?_, A', h2⟩
        rw [h1]; rfl

end

end Verif.Dl
