import Verif.Dl.Top

/-
Memory goes back to the system: the end of the top, and segments without chunks in use.
-/
namespace Verif.Dl
open Verif

theorem Grow.refl (s : Hp) (A : Chunks) : Grow s A s A := ⟨.refl s A, fun _ _ h => h⟩

theorem Grow.trans {s s' s'' : Hp} {A A' A'' : Chunks} (h : Grow s A s' A') (h' : Grow s' A' s'' A'') : Grow s A s'' A'' :=
  ⟨h.keep.trans h'.keep, fun q w hq => h.only q w (h'.only q w hq)⟩

theorem drop_some {A : Chunks} {a b p : Nat} {x} : drop A a b p = some x ↔ (p < a ∨ b ≤ p) ∧ A p = some x := by
  unfold drop
  split
  · constructor
    · intro h; cases h
    · intro h; omega
  · constructor
    · intro h; exact ⟨by omega, h⟩
    · intro h; exact h.2

section
variable {P : Nat} {s : Hp} {A : Chunks}

/-- A segment with a free chunk that reaches the end has no other chunk but the record. -/
theorem Inv.lone (i : Inv P s A) {pre l : List Seg} {g : Seg} (hs : s.segs = pre ++ g :: l) (hpre : pre ≠ [])
    {z : Nat} {u : Use} (h : A g.base = some (z, u)) (hu : u.inuse = false) (hz : g.base + g.size - 72 ≤ g.base + z) :
    z + 72 = g.size ∧ u.isFree = true ∧ ∀ q w v, A q = some (w, v) → g.base ≤ q → q < g.base + g.size →
      (q = g.base) ∨ (q = g.base + z ∧ w = 40 ∧ v = .link) := by
  have t := i.tags
  have hg : g ∈ s.segs := by rw [hs]; simp
  have hgt : g ∈ s.segs.tail := by
    rw [hs]; cases pre with
    | nil => exact absurd rfl hpre
    | cons a pre => simp
  have hgs := (i.segs.page g hg).2.2.2.1
  have o := t.ok h
  have hul : u ≠ .link := by rintro rfl; cases hu
  have hulv : u ≠ .live := by rintro rfl; cases hu
  have p1 := (i.segs.past _ _ _ h g hg (Nat.le_refl _) (by omega)).2 hul
  have hzz : z + 72 = g.size := by omega
  have hut : u ≠ .top := by
    rintro rfl
    have h1 := (i.top _ _).1 h
    cases hd : s.segs with
    | nil => rw [hd] at hg; cases hg
    | cons k rest =>
      have h2 := i.segs.head k (by rw [hd]; rfl)
      have hk : k = g := pw_disj i.segs.disj (by rw [hd]; simp) hg (x := g.base) (by omega) (by omega) (Nat.le_refl _) (by omega)
      have := (i.segs.link g hgt).1
      rw [← hk] at this
      omega
  have huf : u.isFree = true := by cases u <;> simp_all [Use.isFree]
  obtain ⟨l1, l2, l3, l4⟩ := i.segs.link g hgt
  have e2 : g.link - 16 = g.base + z := by
    have hne : g.base ≠ g.link - 16 := by
      intro e; rw [← e, h] at l2; cases l2; exact absurd rfl hul
    have := t.disj h l2 (by omega)
    omega
  rw [e2] at l2
  refine ⟨hzz, huf, ?_⟩
  intro q w v hq h1 h2
  by_cases c1 : q = g.base
  · exact .inl c1
  · right
    have d1 := t.disj h hq (by omega)
    by_cases c2 : q = g.base + z
    · subst c2; rw [hq] at l2; cases l2; exact ⟨rfl, rfl, rfl⟩
    · have d2 := t.disj l2 hq (by omega)
      have := (i.segs.past _ _ _ hq g hg h1 h2).1
      omega

/-- A segment goes. -/
theorem Inv.dropSeg (i : Inv P s A) {pre l : List Seg} {g : Seg} (hs : s.segs = pre ++ g :: l) (hpre : pre ≠ [])
    {z : Nat} {u : Use} (h : A g.base = some (z, u)) (hu : u.inuse = false) (hz : g.base + g.size - 72 ≤ g.base + z)
    {s' : Hp} (bn : s'.Bins (delF (binF A) g.base))
    (dv : if u = .dv then s'.dv = 0 ∧ s'.dvsize = 0 else s'.dv = s.dv ∧ s'.dvsize = s.dvsize)
    (tp : s'.top = s.top ∧ s'.topsize = s.topsize) (ls : s'.least = s.least) (sg : s'.segs = pre ++ l)
    (mp : ∀ x, s'.mapped x = true ↔ s.mapped x = true ∧ ¬ (g.base ≤ x ∧ x < g.base + g.size))
    (mm : s'.mem = s.mem ∨ ∃ q v, A q = some (40, .link) ∧ (q < g.base ∨ g.base + g.size ≤ q) ∧ s'.mem = upd s.mem (q + 32) v) :
    Inv P s' (drop A g.base (g.base + g.size)) ∧ Grow s A s' (drop A g.base (g.base + g.size)) := by
  obtain ⟨z1, z2, z3⟩ := i.lone hs hpre h hu hz
  have t := i.tags
  have S := i.segs
  have hg : g ∈ s.segs := by rw [hs]; simp
  have hgs := (S.page g hg).2.2.2.1
  have o := t.ok h
  have ul := isFree_ne z2
  have sepS : ∀ k, k ∈ pre ∨ k ∈ l → k.base + k.size ≤ g.base ∨ g.base + g.size ≤ k.base := by
    have := S.disj
    rw [hs] at this
    exact pw_mid' (fun a b h => h.symm) this
  have sub : ∀ k, k ∈ pre ++ l → k ∈ s.segs := by
    intro k hk; rw [hs]; simp only [List.mem_append, List.mem_cons] at hk ⊢; tauto
  have sub' : ∀ k, k ∈ s.segs → k = g ∨ k ∈ pre ++ l := by
    intro k hk; rw [hs] at hk; simp only [List.mem_append, List.mem_cons] at hk ⊢; tauto
  have outside : ∀ q w v, A q = some (w, v) → (q + w + 32 ≤ g.base ∨ g.base + g.size ≤ q) ∨
      (g.base ≤ q ∧ q + w + 32 ≤ g.base + g.size) := by
    intro q w v hq
    obtain ⟨k, hk, k1, k2⟩ := S.hold _ _ _ hq
    rcases sub' k hk with rfl | hk'
    · exact .inr ⟨k1, k2⟩
    · have := sepS k (List.mem_append.1 hk'); left; omega
  have td : Tags s.mem (drop A g.base (g.base + g.size)) := by
    apply t.drop
    · intro p w v hp hl; have := outside p w v hp; omega
    · intro q w v hq h1 h2; have := outside q w v hq; omega
    · intro x _; rfl
  have tail : ∀ k, k ∈ (pre ++ l).tail → k ∈ s.segs.tail := by
    intro k hk
    rw [hs]
    cases pre with
    | nil => exact absurd rfl hpre
    | cons a pre => simp only [List.cons_append, List.tail_cons, List.mem_append, List.mem_cons] at hk ⊢; tauto
  have hhead : (pre ++ l).head? = s.segs.head? := by
    rw [hs]; cases pre with
    | nil => exact absurd rfl hpre
    | cons a pre => rfl
  have disj' : (pre ++ l).Pairwise fun g h => g.base + g.size ≤ h.base ∨ h.base + h.size ≤ g.base := by
    have h1 := S.disj
    rw [hs, List.pairwise_append, List.pairwise_cons] at h1
    rw [List.pairwise_append]
    exact ⟨h1.1, h1.2.1.2, fun a ha b hb => h1.2.2 a ha b (List.mem_cons_of_mem _ hb)⟩
  have tagm : Tags s'.mem (drop A g.base (g.base + g.size)) := by
    rcases mm with e | ⟨q, v, hq, hqo, e⟩
    · rw [e]; exact td
    · rw [e]
      exact td.body (drop_some.2 ⟨hqo, hq⟩) rfl (fun x hx => upd_ne (by omega))
  refine ⟨⟨tagm, ?_, ?_, ?_, ?_⟩, ⟨?_, ?_⟩⟩
  · refine Bins.congr bn (binF_ext fun q x => ?_)
    rw [drop_some, delF_some, binF_some]
    constructor
    · rintro ⟨h1, h2⟩; exact ⟨by omega, h2⟩
    · rintro ⟨h1, h2⟩
      refine ⟨?_, h2⟩
      by_contra hc
      rcases z3 q x _ h2 (by omega) (by omega) with c | c
      · exact h1 c
      · cases c.2.2
  · by_cases c : u = .dv
    · subst c
      rw [if_pos rfl] at dv
      rw [dv.1, dv.2]
      refine ⟨fun q w => ⟨fun hq => ?_, fun hq => absurd rfl hq.2.2⟩, fun _ => rfl⟩
      have hq := drop_some.1 hq
      have h1 := (i.dv.iff _ _).1 hq.2
      have h2 := (i.dv.iff _ _).1 h
      omega
    · rw [if_neg c] at dv
      rw [dv.1, dv.2]
      refine ⟨fun q w => ?_, i.dv.zero⟩
      rw [drop_some, ← i.dv.iff q w]
      constructor
      · intro hq; exact hq.2
      · intro hq
        refine ⟨?_, hq⟩
        by_contra hc
        rcases z3 q w _ hq (by omega) (by omega) with c' | c'
        · rw [c', h] at hq; cases hq; exact c rfl
        · cases c'.2.2
  · intro q w
    rw [drop_some, tp.1, tp.2, sg]
    have hne : pre ++ l ≠ [] := by simp [hpre]
    have hne' : s.segs ≠ [] := by rw [hs]; simp
    constructor
    · rintro ⟨_, h2⟩; have := (i.top q w).1 h2; exact ⟨this.1, this.2.1, hne⟩
    · rintro ⟨rfl, rfl, _⟩
      have hq := (i.top s.top s.topsize).2 ⟨rfl, rfl, hne'⟩
      refine ⟨?_, hq⟩
      by_contra hc
      rcases z3 _ _ _ hq (by omega) (by omega) with c | c
      · rw [c, h] at hq; cases hq; exact ul.2.1 rfl
      · cases c.2.2
  · rw [sg, tp.1, tp.2, ls]
    refine ⟨fun k hk => S.page k (sub k hk), disj', ?_, ?_, ?_, ?_, ?_, ?_, ?_, ?_, ?_⟩
    · intro k hk x h1 h2
      have := sepS k (List.mem_append.1 hk)
      exact (mp x).2 ⟨S.map k (sub k hk) x h1 h2, by omega⟩
    · intro p w v hp
      obtain ⟨hp1, hp2⟩ := drop_some.1 hp
      obtain ⟨k, hk, k1, k2⟩ := S.hold _ _ _ hp2
      rcases sub' k hk with rfl | hk'
      · omega
      · exact ⟨k, hk', k1, k2⟩
    · intro p w v hp k hk k1 k2
      exact S.past p w v (drop_some.1 hp).2 k (sub k hk) k1 k2
    · intro k hk
      have h1 := sepS k (List.mem_append.1 hk)
      have h2 := (S.page k (sub k hk)).2.2.2.1
      have := S.first k (sub k hk)
      unfold drop
      rw [if_neg (by omega)]; exact this
    · intro k hk
      obtain ⟨k1, k2, k3, k4⟩ := S.link k (tail k hk)
      have h1 := sepS k (List.mem_append.1 (List.mem_of_mem_tail hk))
      exact ⟨k1, drop_some.2 ⟨by omega, k2⟩, k3, k4⟩
    · intro k hk; exact S.head k (by rw [← hhead]; exact hk)
    · intro p w v hp; exact S.least p w v (drop_some.1 hp).2
    · intro e; simp [hpre] at e
    · intro p w hp
      obtain ⟨hp1, hp2⟩ := drop_some.1 hp
      obtain ⟨k, hk, e⟩ := S.own _ _ hp2
      refine ⟨k, ?_, e⟩
      have hl := S.link k hk
      rw [hs] at hk
      cases pre with
      | nil => exact absurd rfl hpre
      | cons a pre =>
        simp only [List.cons_append, List.tail_cons, List.mem_append, List.mem_cons] at hk ⊢
        rcases hk with hk | rfl | hk
        · exact .inl hk
        · omega
        · exact .inr hk
  · intro p w hp
    constructor
    · refine drop_some.2 ⟨?_, hp⟩
      by_contra hc
      rcases z3 p w _ hp (by omega) (by omega) with c | c
      · rw [c, h] at hp; cases hp; exact ul.2.2 rfl
      · cases c.2.2
    · intro x h1 h2
      rcases mm with e | ⟨q, v, hq, hqo, e⟩
      · rw [e]
      · rw [e, upd_ne]
        rcases Nat.lt_trichotomy p q with c | c | c
        · have := t.disj hp hq c; omega
        · subst c; rw [hq] at hp; cases hp
        · have := t.disj hq hp c; omega
  · intro q w hq; exact (drop_some.1 hq).2

/-- A free chunk stays free; it is in a bin now. -/
theorem Inv.intoBin (i : Inv P s A) {p z : Nat} {u : Use} (h : A p = some (z, u)) (hu : u.isFree = true)
    {s' : Hp} (bn : s'.Bins (addF (delF (binF A) p) p z))
    (dv : if u = .dv then s'.dv = 0 ∧ s'.dvsize = 0 else s'.dv = s.dv ∧ s'.dvsize = s.dvsize) (e : Same s s') :
    Inv P s' (one A p (p + z) z .free) ∧ Grow s A s' (one A p (p + z) z .free) := by
  have t := i.tags
  have o := t.ok h
  have hm := o.min
  have ul := isFree_ne hu
  have al := o.alz
  have npf := t.notPF h (isFree_inuse hu)
  have keep : Grow s A s' (one A p (p + z) z .free) := by
    refine ⟨fun q w hq => ⟨?_, fun _ _ _ => by rw [e.mem]⟩, fun q w hq => ?_⟩
    · rw [one_single t h _ _ (by rintro rfl; rw [h] at hq; cases hq; exact ul.2.2 rfl)]; exact hq
    · rcases (one_some (by omega)).1 hq with c | c
      · cases c.2.2
      · exact c.2
  refine ⟨⟨?_, ?_, ?_, ?_, ?_⟩, keep⟩
  · rw [e.mem]
    have hA : A (p + z) ≠ none := o.next ul.1 ul.2.1
    apply t.one ((span1 h).place t).1 (fun _ _ => rfl) al o.min (fun _ => o.min' ul.2.1) (Nat.le_refl _)
    · intro _ _; exact ⟨rfl, hA⟩
    · rintro (c | c) <;> cases c
    · exact o.size
    · rw [o.cin, isFree_inuse hu]; rfl
    · exact o.pin
    · intro _; exact o.foot hu
    · intro c; exact absurd c npf
    · intro w v hw
      have o' := t.ok hw
      refine ⟨o'.size, o'.cin, ?_, fun _ => o.nofree hu w v hw⟩
      have hpf := (PF.iff t h).2 hu
      have := o'.pin
      cases hp : pinuse (s.mem (p + z + 8)) with
      | false => rfl
      | true => exact absurd hpf (this.1 hp)
  · have hn : delF (binF A) p p = none := by simp [delF]
    refine Bins.congr bn (binF_ext fun q x => ?_)
    rw [one_some (by omega), addF_some hn, delF_some, binF_some]
    constructor
    · rintro (c | c)
      · exact .inl ⟨c.1, c.2.1⟩
      · exact .inr ⟨by omega, c.2⟩
    · rintro (c | c)
      · exact .inl ⟨c.1, c.2, rfl⟩
      · refine .inr ⟨?_, c.2⟩
        by_contra hc
        rw [none_inside t h (by omega) (by omega)] at c
        cases c.2
  · by_cases c : u = .dv
    · subst c
      rw [if_pos rfl] at dv
      rw [dv.1, dv.2]
      exact dvOk_none_one i h (by simp)
    · rw [if_neg c] at dv
      rw [dv.1, dv.2]
      exact dvOk_one i h c (by simp)
  · intro q w
    rw [e.top, e.topsize, e.segs, ← i.top q w]
    by_cases c : q = p
    · subst c; rw [one_a, h]
      constructor
      · intro c; cases c
      · intro c; cases c; exact absurd rfl ul.2.1
    · rw [one_single t h _ _ c]
  · rw [e.top, e.topsize, e.segs, e.mapped, e.least]
    refine Segs.repl i (span1 h) ?_ (fun q hq => one_out hq (by omega)) (by rw [one_a]; simp) ?_ (.inl ⟨rfl, rfl⟩)
    · intro y hy; simp at hy; subst hy; exact ul.1
    · intro q w v' hq h1 h2
      rcases (one_some (by omega)).1 hq with c | c
      · exact ⟨by omega, by simp [c.2.2]⟩
      · omega

/-- `release_unused_segments`. -/
theorem Inv.releaseLoop (hP : PageOk P) (e : Env) (l : List Seg) : ∀ (pre : List Seg) (s : Hp) (A : Chunks), pre ≠ [] →
    Inv P { s with segs := pre ++ l } A →
    ∃ n s', Dl.releaseLoop e pre l s = .ok (n, s') ∧ ∃ A', Inv P s' A' ∧ Grow s A s' A' := by
  induction l with
  | nil =>
    intro pre s A _ i
    rw [List.append_nil] at i
    exact ⟨_, _, rfl, A, i, ⟨Keep.refl s A, fun _ _ h => h⟩⟩
  | cons g l ih =>
    intro pre s A hpre i
    have hpre' : pre ++ [g] ≠ [] := by simp
    have next : ∀ (s1 : Hp) (A1 : Chunks), Inv P { s1 with segs := pre ++ g :: l } A1 → Grow s A s1 A1 →
        ∃ n s', Dl.releaseLoop e (pre ++ [g]) l s1 = .ok (n, s') ∧ ∃ A', Inv P s' A' ∧ Grow s A s' A' := by
      intro s1 A1 i1 g1
      obtain ⟨n, s', h1, A', h2, h3⟩ := ih (pre ++ [g]) s1 A1 hpre' (by rw [List.append_assoc]; exact i1)
      exact ⟨n, s', h1, A', h2, g1.trans h3⟩
    have S := i.segs
    have t := i.tags
    have hgm : g ∈ pre ++ g :: l := by simp
    obtain ⟨g1, g2, g3, g4, g5⟩ := S.page g hgm
    obtain ⟨p1, p2, _⟩ := hP.facts
    have gsz : 4096 ≤ g.size := Nat.le_of_dvd g4 (Nat.dvd_trans p1 g2)
    cases hA : A g.base with
    | none => exact absurd hA (S.first g hgm)
    | some y =>
      obtain ⟨z, u⟩ := y
      have o := t.ok hA
      have hmap : s.mapped (g.base + 8) = true := S.map g hgm _ (by omega) (by omega)
      have hsz : chunksize (s.mem (g.base + 8)) = z := o.size
      have hci : cinuse (s.mem (g.base + 8)) = u.inuse := o.cin
      unfold Dl.releaseLoop
      rw [Hp.get_ok hmap]
      simp only [bind, Except.bind, hsz, hci]
      split
      swap
      · exact next s A i (.refl _ _)
      rename_i hcond
      simp only [Bool.and_eq_true, Bool.not_eq_true', decide_eq_true_eq] at hcond
      obtain ⟨hu, hz⟩ := hcond
      have hz : g.base + g.size - 72 ≤ g.base + z := hz
      obtain ⟨z1, z2, z3⟩ := i.lone (pre := pre) (l := l) rfl hpre hA hu hz
      have ul := isFree_ne z2
      have hlarge : isSmall z = false := by simp [isSmall]; omega
      -- the chunk is in no bin now
      obtain ⟨s1, hs1, b1, d1, m1, mp1, t1, ts1, ls1⟩ : ∃ s1, s1 = (if g.base = s.dv then { s with dv := 0, dvsize := 0 }
          else unlinkLarge s g.base (treeIndex z)) ∧ s1.Bins (delF (binF A) g.base) ∧
          (if u = .dv then s1.dv = 0 ∧ s1.dvsize = 0 else s1.dv = s.dv ∧ s1.dvsize = s.dvsize) ∧
          s1.mem = s.mem ∧ s1.mapped = s.mapped ∧ s1.top = s.top ∧ s1.topsize = s.topsize ∧ s1.least = s.least := by
        refine ⟨_, rfl, ?_⟩
        by_cases c : u = .dv
        · subst c
          have h1 : g.base = s.dv := ((i.dv.iff _ _).1 hA).1
          rw [if_pos h1, if_pos rfl]
          refine ⟨?_, ⟨rfl, rfl⟩, rfl, rfl, rfl, rfl, rfl⟩
          refine Bins.congr i.bins fun q => ?_
          unfold delF
          split
          · rename_i hq; subst hq; rw [binF_none]; intro w hw; rw [hA] at hw; cases hw
          · rfl
        · have hf : u = .free := by cases u <;> simp_all [Use.isFree]
          subst hf
          have h1 : g.base ≠ s.dv := by
            intro e1
            have h0 : s.dvsize ≠ 0 := by
              intro h0
              have : s.dv = 0 := i.dv.zero h0
              omega
            have := (i.dv.iff s.dv s.dvsize).2 ⟨rfl, rfl, h0⟩
            rw [← e1, hA] at this; cases this
          rw [if_neg h1, if_neg (by simp)]
          refine ⟨?_, ⟨rfl, rfl⟩, rfl, rfl, rfl, rfl, rfl⟩
          exact Bins.unlinkLarge (s := s) i.bins (binF_some.2 hA) hlarge
      rw [← hs1]
      clear hs1
      cases hmu : e.munmap g.base g.size with
      | false =>
        have : s1.munmap e g.base g.size = (false, s1) := by simp [Hp.munmap, hmu]
        rw [this]
        simp only []
        have hb : (insertLarge s1 g.base z).Bins (addF (delF (binF A) g.base) g.base z) :=
          Bins.insertLarge b1 (by simp [delF]) hlarge (by have := i.lt64 hA; omega) (fun q w hq => by
            rw [m1]; exact (i.tags.ok (binF_some.1 (delF_some.1 hq).2)).size)
        obtain ⟨i2, k2⟩ := i.intoBin (s' := { insertLarge s1 g.base z with segs := pre ++ g :: l }) hA z2 hb d1
          ⟨m1, mp1, t1, ts1, ls1, rfl⟩
        exact next _ _ i2 ⟨k2.keep, k2.only⟩
      | true =>
        obtain ⟨s2, hs2, m2⟩ : ∃ s2 : Hp, s2 = { s1 with mapped := fun x => s1.mapped x && !decide (g.base ≤ x ∧ x < g.base + g.size) } ∧
            ∀ x, s2.mapped x = true ↔ s.mapped x = true ∧ ¬ (g.base ≤ x ∧ x < g.base + g.size) := by
          refine ⟨_, rfl, fun x => ?_⟩
          dsimp only
          rw [mp1, Bool.and_eq_true, Bool.not_eq_true', decide_eq_false_iff_not]
        have : s1.munmap e g.base g.size = (true, s2) := by simp [Hp.munmap, hmu, hs2]
        rw [this]
        simp only []
        have fin : ∀ s3 : Hp, s3.Bins (delF (binF A) g.base) →
            (if u = .dv then s3.dv = 0 ∧ s3.dvsize = 0 else s3.dv = s.dv ∧ s3.dvsize = s.dvsize) →
            s3.mapped = s2.mapped → s3.top = s.top → s3.topsize = s.topsize → s3.least = s.least →
            (s3.mem = s.mem ∨ ∃ q v, A q = some (40, .link) ∧ (q < g.base ∨ g.base + g.size ≤ q) ∧ s3.mem = upd s.mem (q + 32) v) →
            ∃ n s', Dl.releaseLoop e pre l s3 = .ok (n, s') ∧ ∃ A', Inv P s' A' ∧ Grow s A s' A' := by
          intro s3 h1 h2 h3 h4 h5 h6 h7
          obtain ⟨i3, k3⟩ := i.dropSeg (s' := { s3 with segs := pre ++ l }) rfl hpre hA hu hz h1 h2 ⟨h4, h5⟩ h6 rfl
            (fun x => by show s3.mapped x = true ↔ _; rw [h3]; exact m2 x) h7
          obtain ⟨n, s', r1, A', r2, r3⟩ := ih pre s3 _ hpre i3
          refine ⟨n, s', r1, A', r2, ?_⟩
          exact Grow.trans (s' := s3) ⟨k3.keep, k3.only⟩ r3
        have hb2 : s2.Bins (delF (binF A) g.base) := by rw [hs2]; exact b1
        have hd2 : (if u = .dv then s2.dv = 0 ∧ s2.dvsize = 0 else s2.dv = s.dv ∧ s2.dvsize = s.dvsize) := by
          rw [hs2]; exact d1
        obtain ⟨k, hk⟩ : ∃ k, pre.getLast? = some k := by
          cases hk : pre.getLast? with
          | none => rw [List.getLast?_eq_none_iff] at hk; exact absurd hk hpre
          | some k => exact ⟨k, rfl⟩
        rw [hk]
        simp only [Option.map_some, Option.getD_some]
        by_cases hr : k.link = 0
        · rw [if_neg (by simp [hr])]
          obtain ⟨n, s', r1, r2⟩ := fin s2 hb2 hd2 rfl (by rw [hs2]; exact t1) (by rw [hs2]; exact ts1) (by rw [hs2]; exact ls1) (.inl (by rw [hs2]; exact m1))
          exact ⟨n + g.size, s', by simp only [r1]; rfl, r2⟩
        · rw [if_pos hr]
          have hkp : k ∈ pre := List.mem_of_getLast? hk
          have hkt : k ∈ (pre ++ g :: l).tail := by
            cases pre with
            | nil => exact absurd rfl hpre
            | cons a pre =>
              simp only [List.cons_append, List.tail_cons, List.mem_append, List.mem_cons]
              rcases List.mem_cons.1 hkp with rfl | h'
              · exact absurd (S.head k rfl).1 hr
              · exact .inl h'
          obtain ⟨k1, k2, k3, k4⟩ := S.link k hkt
          have hsep := pw_mid' (fun a b h => h.symm) S.disj k (.inl hkp)
          have hm : s2.mapped (k.link + 16) = true :=
            (m2 _).2 ⟨S.map k (List.mem_of_mem_tail hkt) _ (by omega) (by omega), by omega⟩
          rw [Hp.set_ok _ hm]
          obtain ⟨n, s', r1, r2⟩ := fin { s2 with mem := upd s2.mem (k.link + 16) ((l.head?.map Seg.link).getD 0) } hb2 hd2 rfl
            (by show s2.top = _; rw [hs2]; exact t1) (by show s2.topsize = _; rw [hs2]; exact ts1)
            (by show s2.least = _; rw [hs2]; exact ls1)
            (.inr ⟨k.link - 16, (l.head?.map Seg.link).getD 0, k2, by omega, by
              show upd s2.mem _ _ = _
              rw [show k.link - 16 + 32 = k.link + 16 by omega, hs2]
              show upd s1.mem _ _ = _
              rw [m1]⟩)
          exact ⟨n + g.size, s', by simp only [r1]; rfl, r2⟩

theorem Inv.releaseUnused (i : Inv P s A) (hP : PageOk P) (e : Env) :
    ∃ n s', Dl.releaseUnused e s = .ok (n, s') ∧ ∃ A', Inv P s' A' ∧ Grow s A s' A' := by
  unfold Dl.releaseUnused
  cases hs : s.segs with
  | nil => exact ⟨0, s, rfl, A, i, .refl _ _⟩
  | cons g l =>
    apply Inv.releaseLoop hP e l [g] s A (by simp)
    have : ({ s with segs := [g] ++ l } : Hp) = s := by rw [List.singleton_append, ← hs]
    rw [this]; exact i

/-- The end of the top goes. -/
theorem Inv.shrinkTop (i : Inv P s A) {g : Seg} {rest : List Seg} (hs : s.segs = g :: rest) {n : Nat}
    (hP : PageOk P) (hn : P ∣ n) (hlt : n + 8 ≤ s.topsize) {mp : Nat → Bool}
    (hm : ∀ x, mp x = true ↔ s.mapped x = true ∧ ¬ (g.base + (g.size - n) ≤ x ∧ x < g.base + (g.size - n) + n)) :
    ∃ s', initTop { s with mapped := mp, segs := { g with size := g.size - n } :: rest } s.top (s.topsize - n) = .ok s' ∧
      ∃ A', Inv P s' A' ∧ Grow s A s' A' := by
  obtain ⟨hgm, g0, g1, g2, hA⟩ := i.headSeg hs
  have t := i.tags
  have S := i.segs
  have o := t.ok hA
  obtain ⟨p1, p2, _⟩ := hP.facts
  have h8n : 8 ∣ n := Nat.dvd_trans (Nat.dvd_trans (by decide) p1) hn
  obtain ⟨q1, q2, q3, q4, q5⟩ := S.page g hgm
  have hal := o.alz
  have hal' : 8 ∣ s.topsize - n := by omega
  have no := fun x => i.beyond hs (x := x)
  have mpg : ∀ x, g.base ≤ x → x < g.base + (g.size - n) → mp x = true := fun x h1 h2 =>
    (hm x).2 ⟨S.map g hgm x h1 (by omega), by omega⟩
  rw [initTop_ok (s := { s with mapped := mp, segs := { g with size := g.size - n } :: rest }) (mpg _ (by omega) (by omega))
    (mpg _ (by omega) (by omega))]
  have lt1 : s.top < s.top + s.topsize := by omega
  have npf : ¬ PF A s.top := t.notPF hA rfl
  have ag : ∀ x, x < s.top + 8 ∨ s.top + s.topsize + 8 < x →
      upd (upd s.mem (s.top + 8) (s.topsize - n ||| 1)) (s.top + (s.topsize - n) + 8) foot x = s.mem x := by
    intro x hx; rw [upd_ne (by omega), upd_ne (by omega)]
  have outs : ∀ q w v, one A s.top (s.top + s.topsize) (s.topsize - n) .top q = some (w, v) →
      (q = s.top ∧ w = s.topsize - n ∧ v = .top) ∨ (q ≠ s.top ∧ A q = some (w, v)) := by
    intro q w v h
    rcases (one_some lt1).1 h with c | c
    · exact .inl c
    · exact .inr ⟨by omega, c.2⟩
  have outs' : ∀ q, q ≠ s.top → one A s.top (s.top + s.topsize) (s.topsize - n) .top q = A q := by
    intro q hq
    by_cases c : s.top < q ∧ q < s.top + s.topsize
    · rw [one_in c.1 c.2, no q c.1 (by omega)]
    · exact one_out (by omega) lt1
  have mem : ∀ k, k ∈ rest → k ∈ s.segs := fun k hk => by rw [hs]; exact List.mem_cons_of_mem _ hk
  have hg' : ∀ k ∈ rest, k.base + k.size ≤ g.base ∨ g.base + g.size ≤ k.base := by
    intro k hk
    have h1 := S.disj
    rw [hs, List.pairwise_cons] at h1
    have h1 := h1.1 k hk
    omega
  -- chunks of the segment other than the top lie before it
  have bef : ∀ p z u, A p = some (z, u) → p ≠ s.top → g.base ≤ p → p < g.base + g.size → p + z ≤ s.top := by
    intro p z u h hne h1 h2
    have : p < s.top := by
      by_contra hc
      rw [no p (by omega) h2] at h; cases h
    exact t.disj h hA this
  refine ⟨_, rfl, one A s.top (s.top + s.topsize) (s.topsize - n) .top, ⟨?_, ?_, ?_, ?_, ?_⟩, ?_⟩
  · apply t.one (u := .top) ((span1 hA).place t).1 ag hal' (by omega)
    · intro h; exact absurd rfl h
    · omega
    · intro _ h; exact absurd rfl h
    · intro _; exact o.last (.inr rfl)
    · rw [upd_ne (by omega), upd_same, chunksize_one hal']
    · rw [upd_ne (by omega), upd_same, cinuse_one hal']; rfl
    · rw [upd_ne (by omega), upd_same, pinuse_one hal']; simp; exact npf
    · intro h; cases h
    · intro h; exact absurd h npf
    · intro w v hw; rw [o.last (.inr rfl)] at hw; cases hw
  · refine i.bins.congr (fun q => ?_)
    by_cases c : q = s.top
    · subst c; simp [binF, one_a, hA]
    · simp only [binF, outs' q c]
  · refine ⟨?_, i.dv.zero⟩
    intro q w
    show _ ↔ q = s.dv ∧ w = s.dvsize ∧ s.dvsize ≠ 0
    rw [← i.dv.iff q w]
    by_cases c : q = s.top
    · subst c; rw [one_a, hA]; simp
    · rw [outs' q c]
  · intro q w
    show _ ↔ q = s.top ∧ w = s.topsize - n ∧ _
    constructor
    · intro h
      rcases outs _ _ _ h with c | c
      · exact ⟨c.1, c.2.1, by simp⟩
      · have := (i.top q w).1 c.2; exact absurd this.1 c.1
    · rintro ⟨rfl, rfl, _⟩; exact one_a ..
  · refine ⟨?_, ?_, ?_, ?_, ?_, ?_, ?_, ?_, ?_, by simp, ?_⟩
    · intro k hk
      rcases List.mem_cons.1 hk with rfl | hk
      · exact ⟨q1, Nat.dvd_sub q2 hn, q3, by dsimp only; omega, by dsimp only; omega⟩
      · exact S.page k (mem k hk)
    · have h1 := S.disj
      rw [hs, List.pairwise_cons] at h1
      rw [List.pairwise_cons]
      refine ⟨?_, h1.2⟩
      intro k hk
      have := hg' k hk
      dsimp only; omega
    · intro k hk x h1 h2
      rcases List.mem_cons.1 hk with rfl | hk
      · dsimp only at h1 h2; exact mpg x h1 (by omega)
      · have h3 := S.map k (mem k hk) x h1 h2
        have h4 := hg' k hk
        exact (hm x).2 ⟨h3, by omega⟩
    · intro p z u h
      rcases outs _ _ _ h with c | c
      · exact ⟨_, List.mem_cons_self .., by dsimp only; omega, by dsimp only; omega⟩
      · obtain ⟨k, hk, k1, k2⟩ := S.hold p z u c.2
        rw [hs] at hk
        rcases List.mem_cons.1 hk with rfl | hk
        · have := bef p z u c.2 c.1 k1 (by omega)
          exact ⟨_, List.mem_cons_self .., k1, by dsimp only; omega⟩
        · exact ⟨k, List.mem_cons_of_mem _ hk, k1, k2⟩
    · intro p z u h k hk k1 k2
      rcases List.mem_cons.1 hk with rfl | hk
      · dsimp only at k1 k2 ⊢
        rcases outs _ _ _ h with c | c
        · exact ⟨by omega, fun _ => by omega⟩
        · have h1 := bef p z u c.2 c.1 k1 (by omega)
          exact ⟨by omega, fun hu => by omega⟩
      · rcases outs _ _ _ h with c | c
        · have := hg' k hk; omega
        · exact S.past p z u c.2 k (mem k hk) k1 k2
    · intro k hk
      have : A k.base ≠ none := by
        rcases List.mem_cons.1 hk with rfl | hk
        · exact S.first g hgm
        · exact S.first k (mem k hk)
      by_cases c : k.base = s.top
      · rw [c, one_a]; simp
      · rw [outs' _ c]; exact this
    · intro k hk
      simp only [List.tail_cons] at hk
      obtain ⟨k1, k2, k3⟩ := S.link k (by rw [hs]; exact hk)
      refine ⟨k1, ?_, k3⟩
      rw [outs' _ (by intro c; rw [c, hA] at k2; simp at k2)]; exact k2
    · intro k hk
      simp only [List.head?_cons, Option.some.injEq] at hk
      subst hk
      exact ⟨g0, g1, by dsimp only; omega⟩
    · intro p z u h
      rcases outs _ _ _ h with c | c
      · rw [c.1]; exact S.least _ _ _ hA
      · exact S.least _ _ _ c.2
    · intro p z h
      rcases outs _ _ _ h with c | c
      · simp at c
      · have := S.own _ _ c.2; rwa [hs] at this
  · refine ⟨?_, fun q w h => ?_⟩
    swap
    · rcases outs _ _ _ h with c | c
      · simp at c
      · exact c.2
    intro p z h
    have hne : p ≠ s.top := by rintro rfl; rw [hA] at h; cases h
    refine ⟨by rw [outs' p hne]; exact h, fun x h1 h2 => ag x ?_⟩
    rcases Nat.lt_or_ge p s.top with c | c
    · have := t.disj h hA c; omega
    · have := t.disj hA h (by omega); omega

/-- The first half of `sys_trim`. -/
theorem Inv.trimTop (i : Inv P s A) (hP : PageOk P) {e : Env} (he : e.page = P) :
    ∃ n s', Dl.trimTop e s = .ok (n, s') ∧ ∃ A', Inv P s' A' ∧ Grow s A s' A' := by
  unfold Dl.trimTop
  have stay : ∃ n s', (.ok (0, s) : R (Nat × Hp)) = .ok (n, s') ∧ ∃ A', Inv P s' A' ∧ Grow s A s' A' :=
    ⟨0, s, rfl, A, i, .refl _ _⟩
  have hf : foot = 72 := rfl
  split
  swap
  · exact stay
  rename_i hft
  rw [hf] at hft ⊢
  simp only []
  cases hs : s.segs with
  | nil => have := (i.segs.nil hs).2; omega
  | cons g rest =>
    obtain ⟨hgm, g0, g1, g2, hA⟩ := i.headSeg hs
    have hh : g.holds s.top = true := by simp [Seg.holds]; omega
    have hsh : segHolding (g :: rest) s.top = some g := by simp [segHolding, hh]
    rw [hsh]
    simp only []
    obtain ⟨p1, p2, _⟩ := hP.facts
    rw [he]
    obtain ⟨n, hn, hd, hle⟩ : ∃ n, n = ((s.topsize - 72 + (P - 1)) / P - 1) * P ∧ P ∣ n ∧ n + 72 ≤ s.topsize := by
      refine ⟨_, rfl, Nat.dvd_mul_left _ _, ?_⟩
      have h1 : (s.topsize - 72 + (P - 1)) / P * P ≤ s.topsize - 72 + (P - 1) := Nat.div_mul_le_self _ _
      rw [Nat.sub_mul, Nat.one_mul]
      generalize (s.topsize - 72 + (P - 1)) / P * P = y at h1 ⊢
      omega
    rw [← hn]
    clear hn
    split
    swap
    · exact stay
    rename_i hcond
    cases hmu : e.munmap (g.base + (g.size - n)) n with
    | false =>
      have : s.munmap e (g.base + (g.size - n)) n = (false, s) := by simp [Hp.munmap, hmu]
      rw [this]
      exact stay
    | true =>
      have : s.munmap e (g.base + (g.size - n)) n = (true, { s with mapped := fun x => s.mapped x && !decide (g.base + (g.size - n) ≤ x ∧ x < g.base + (g.size - n) + n) }) := by simp [Hp.munmap, hmu]
      rw [this]
      simp only []
      split
      · obtain ⟨s', h1, A', h2, h3⟩ := i.shrinkTop hs hP hd (by omega) (mp := fun x => s.mapped x &&
          !decide (g.base + (g.size - n) ≤ x ∧ x < g.base + (g.size - n) + n))
          (fun x => by rw [Bool.and_eq_true, Bool.not_eq_true', decide_eq_false_iff_not])
        refine ⟨n, s', ?_, A', h2, h3⟩
        have hu : updFirst (fun x => x.holds s.top) (fun g => { g with size := g.size - n }) s.segs = { g with size := g.size - n } :: rest := by
          rw [hs]; simp [updFirst, hh]
        simp only [hu, h1, bind, Except.bind]
        rfl
      · rename_i hn0
        have hn0 : n = 0 := by omega
        have : ({ s with mapped := fun x => s.mapped x && !decide (g.base + (g.size - n) ≤ x ∧ x < g.base + (g.size - n) + n) } : Hp) = s := by
          have : (fun x => s.mapped x && !decide (g.base + (g.size - n) ≤ x ∧ x < g.base + (g.size - n) + n)) = s.mapped := by
            funext x
            rw [decide_eq_false (by omega)]; simp
          rw [this]
        rw [this]; exact stay

/-- `sys_trim`. -/
theorem Inv.sysTrim (i : Inv P s A) (hP : PageOk P) {e : Env} (he : e.page = P) :
    ∃ s', Dl.sysTrim e s = .ok s' ∧ ∃ A', Inv P s' A' ∧ Grow s A s' A' := by
  obtain ⟨n, s1, h1, A1, i1, k1⟩ := i.trimTop hP he
  obtain ⟨m, s2, h2, A2, i2, k2⟩ := i1.releaseUnused hP e
  unfold Dl.sysTrim
  rw [h1]
  simp only [bind, Except.bind, h2]
  split
  · refine ⟨_, rfl, A2, ⟨i2.tags, i2.bins, i2.dv, i2.top, i2.segs⟩, ?_⟩
    have := k1.trans k2
    exact ⟨this.keep, this.only⟩
  · exact ⟨_, rfl, A2, i2, k1.trans k2⟩

end

end Verif.Dl
