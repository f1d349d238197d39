import Verif.Closures.HeapKeep
import Verif.Closures.SegLive
import Verif.Dl.Hist

/-
Memory given back: the segments of both models agree.
-/
namespace Verif.Heap
open Verif

variable {P : Nat} {s : Dl.Hp} {A : Dl.Chunks}

theorem extra_le (hP : Dl.PageOk P) (h : 72 < s.topsize) : extraOf P s + 73 ≤ s.topsize := by
  obtain ⟨_, h1, h2⟩ := hP.facts
  unfold extraOf
  have hf : Dl.foot = 72 := rfl
  rw [hf, Nat.sub_mul, Nat.one_mul]
  have := Nat.div_mul_le_self (s.topsize - 72 + (P - 1)) P
  omega

/-- `trimTop` when the head segment is trimmed. -/
def cut (s : Dl.Hp) (k : Dl.Seg) (rest : List Dl.Seg) (a x : Nat) : R (Nat × Dl.Hp) := do
  return (x, ← Dl.initTop { s with mapped := fun y => s.mapped y && !decide (a ≤ y ∧ y < a + x), segs := { k with size := k.size - x } :: rest }
    s.top (s.topsize - x))

theorem trimTop_eq {k : Dl.Seg} {rest : List Dl.Seg} (hs : s.segs = k :: rest) (hk : k.holds s.top = true) (ht : 72 < s.topsize) (e : Dl.Env) :
    Dl.trimTop e s = if (extraOf e.page s ≤ k.size ∧ !Dl.hasLink s.segs k) ∧
        (extraOf e.page s ≠ 0 ∧ e.munmap (k.base + (k.size - extraOf e.page s)) (extraOf e.page s) = true)
      then cut s k rest (k.base + (k.size - extraOf e.page s)) (extraOf e.page s) else .ok (0, s) := by
  have hf : Dl.segHolding s.segs s.top = some k := by
    unfold Dl.segHolding
    rw [hs, List.find?_cons, hk]
  unfold Dl.trimTop
  rw [if_pos (show Dl.foot < s.topsize from ht)]
  simp only [hf]
  rw [show ((s.topsize - Dl.foot + (e.page - 1)) / e.page - 1) * e.page = extraOf e.page s from rfl]
  generalize extraOf e.page s = x
  by_cases c1 : x ≤ k.size ∧ !Dl.hasLink s.segs k
  · rw [if_pos c1]
    unfold Dl.Hp.munmap
    by_cases c2 : e.munmap (k.base + (k.size - x)) x = true
    · rw [if_pos c2]
      by_cases c3 : x ≠ 0
      · rw [if_pos ⟨c1, c3, c2⟩]
        simp only [if_pos c3]
        rw [hs]
        unfold Dl.updFirst
        simp only [hk, if_true]
        rfl
      · rw [if_neg (fun h => c3 h.2.1)]
        simp only [if_neg c3]
        have : x = 0 := by omega
        subst this
        have : (fun y => s.mapped y && !decide (k.base + (k.size - 0) ≤ y ∧ y < k.base + (k.size - 0) + 0)) = s.mapped := by
          funext y
          rw [decide_eq_false (by omega)]; simp
        rw [this]
    · rw [if_neg c2, if_neg (fun h => c2 h.2.2)]
  · rw [if_neg c1, if_neg (fun h => c1 h.1)]

theorem cut_segs {k : Dl.Seg} {rest : List Dl.Seg} {a x n : Nat} {s1 : Dl.Hp} (h : cut s k rest a x = .ok (n, s1)) :
    s1.segs = { k with size := k.size - x } :: rest := by
  unfold cut at h
  obtain ⟨s2, h1, h2⟩ := bindOk h
  cases h2
  exact (initTop_segs h1).1

/-- Ranges apart. -/
def ApartR (t u : Nat × Nat) : Prop := t.1 + t.2 ≤ u.1 ∨ u.1 + u.2 ≤ t.1

theorem pw_ranges (i : Dl.Inv P s A) {l : List Dual.Seg} (hs : s.segs.map pr = l.map pr') : (l.map pr').Pairwise ApartR := by
  rw [← hs, List.pairwise_map]
  exact i.segs.disj

theorem trim_both (i : Dl.Inv P s A) {c : Dual.Cfg} {w : Dual.World} (hc : c.page = P) {g g1 : Dual.G} (hs : s.segs.map pr = g.segs.map pr')
    (ht : trimSegs c w s g = .ok g1) :
    (∀ l, l.Sublist g1.segs → l.head? = g1.segs.head? → Dl.trimTop (gone P l) s = Dl.trimTop (gone P g1.segs) s) ∧
    (∀ n s1, Dl.trimTop (gone P g1.segs) s = .ok (n, s1) → s1.segs.map pr = g1.segs.map pr') := by
  unfold trimSegs at ht
  by_cases c0 : Dl.foot < s.topsize
  swap
  · rw [if_neg c0] at ht
    cases ht
    have e : ∀ e, Dl.trimTop e s = .ok (0, s) := fun e => by unfold Dl.trimTop; rw [if_neg c0]
    refine ⟨fun l _ _ => by rw [e, e], fun n s1 h => ?_⟩
    rw [e] at h; cases h; exact hs
  · rw [if_pos c0] at ht
    cases hd : s.segs with
    | nil => have := (i.segs.nil hd).2; have : Dl.foot = 72 := rfl; omega
    | cons k rest =>
      obtain ⟨hkm, k0, k1, k2, k3⟩ := i.headSeg hd
      have hf : Dl.foot = 72 := rfl
      have hk : k.holds s.top = true := by unfold Dl.Seg.holds; simp; omega
      have hsh : Dl.segHolding s.segs s.top = some k := by unfold Dl.segHolding; rw [hd, List.find?_cons, hk]
      rw [hsh] at ht
      simp only at ht
      cases hg : g.segs with
      | nil => rw [hd, hg] at hs; simp at hs
      | cons k' rest' =>
      have hs' := hs
      rw [hd, hg, List.map_cons, List.map_cons, List.cons.injEq] at hs'
      obtain ⟨hp, hr⟩ := hs'
      have hb : k'.base = k.base ∧ k'.size = k.size := by
        have := Prod.mk.inj hp; exact ⟨this.1.symm, this.2.symm⟩
      have hk' : k'.holds s.top = true := by unfold Dual.Seg.holds; rw [hb.1, hb.2]; simp; omega
      have hsh' : Dual.segHolding g.segs s.top = some k' := by unfold Dual.segHolding; rw [hg, List.find?_cons, hk']
      have pw := pw_ranges i hs
      rw [hg, List.map_cons, List.pairwise_cons] at pw
      unfold Dual.sysTrim at ht
      rw [hsh'] at ht
      simp only at ht
      rw [hc, hb.1, hb.2] at ht
      have te := fun l => trimTop_eq hd hk c0 (gone P l)
      simp only [show ∀ l, (gone P l).page = P from fun _ => rfl] at te
      generalize hx : extraOf P s = x at *
      by_cases c1 : x ≤ k.size ∧ !Dl.hasLink s.segs k
      swap
      · rw [if_neg c1] at ht
        cases ht
        have e : ∀ l, Dl.trimTop (gone P l) s = .ok (0, s) := fun l => by rw [te]; exact if_neg (fun h => c1 h.1)
        refine ⟨fun l _ _ => by rw [e, e], fun n s1 h => ?_⟩
        rw [e] at h; cases h; exact hs
      · rw [if_pos c1] at ht
        rcases hm : Dual.dlmunmap w (k.base + (k.size - x)) x g with ⟨b, g'⟩
        rw [hm] at ht
        have hu := Dual.dlmunmap_spec hm
        cases b with
        | true =>
          simp only at ht
          cases ht
          have hsg : Dual.updFirst (·.holds s.top) (fun s => { s with size := s.size - x }) g'.segs = { k' with size := k'.size - x } :: rest' := by
            rw [hu.segs, hg]
            unfold Dual.updFirst
            simp only [hk', if_true]
          simp only [hsg]
          have nh : x ≠ 0 → ∀ l : List Dual.Seg, l.Sublist ({ k' with size := k'.size - x } :: rest') →
              (gone P l).munmap (k.base + (k.size - x)) x = true := by
            intro hx0 l hl
            unfold gone
            simp only [Bool.not_eq_true', List.any_eq_false]
            intro t htl
            rcases List.mem_cons.1 (hl.subset htl) with rfl | htr
            · unfold Dual.Seg.holds; simp; omega
            · have := pw.1 (pr' t) (List.mem_map_of_mem htr)
              unfold ApartR pr' at this
              unfold Dual.Seg.holds; simp; intro _; omega
          refine ⟨fun l hl _ => ?_, fun n s1 h => ?_⟩
          · rw [te, te]
            by_cases hx0 : x = 0
            · rw [if_neg (fun h => h.2.1 hx0), if_neg (fun h => h.2.1 hx0)]
            · rw [if_pos ⟨c1, hx0, nh hx0 l hl⟩, if_pos ⟨c1, hx0, nh hx0 _ (List.Sublist.refl _)⟩]
          · rw [te] at h
            by_cases hx0 : x = 0
            · rw [if_neg (fun h => h.2.1 hx0)] at h
              cases h
              rw [hs, hg, hx0]; rfl
            · rw [if_pos ⟨c1, hx0, nh hx0 _ (List.Sublist.refl _)⟩] at h
              rw [cut_segs h, List.map_cons, List.map_cons, hr]
              unfold pr pr'; simp only [hb.1, hb.2]
        | false =>
          simp only at ht
          cases ht
          have nh : x ≠ 0 → ∀ l : List Dual.Seg, l.head? = some k' → (gone P l).munmap (k.base + (k.size - x)) x = false := by
            intro hx0 l hl
            unfold gone
            simp only [Bool.not_eq_false', List.any_eq_true]
            refine ⟨k', List.mem_of_mem_head? hl, ?_⟩
            unfold Dual.Seg.holds; simp; omega
          have hsg : g1.segs = k' :: rest' := by rw [hu.segs, hg]
          have e : ∀ l : List Dual.Seg, l.head? = some k' → Dl.trimTop (gone P l) s = .ok (0, s) := by
            intro l hl
            rw [te]
            refine if_neg (fun h => ?_)
            rw [nh h.2.1 l hl] at h
            exact absurd h.2.2 (by simp)
          rw [hsg]
          refine ⟨fun l _ hl => by rw [e l hl, e _ rfl], fun n s1 h => ?_⟩
          rw [e _ rfl] at h
          cases h
          rw [hs, hg]

/-! ## Unused segments -/

def emptyAt (mem : Nat → Nat) (t : Nat × Nat) : Bool :=
  !Dl.cinuse (mem (t.1 + 8)) && decide (t.1 + t.2 - Dl.foot ≤ t.1 + Dl.chunksize (mem (t.1 + 8)))

theorem dl_release {e : Dl.Env} (mem : Nat → Nat) : ∀ (l pre : List Dl.Seg) (s s' : Dl.Hp) (n : Nat), Dl.releaseLoop e pre l s = .ok (n, s') →
    (∀ u ∈ pre ++ l, u.link ≠ 0 → u.base < u.link + 16 ∧ u.link + 16 < u.base + u.size) → (∀ t ∈ l, 8 < t.size) →
    (pre ++ l).Pairwise (fun g h => g.base + g.size ≤ h.base ∨ h.base + h.size ≤ g.base) →
    (∀ t ∈ l, s.mem (t.base + 8) = mem (t.base + 8)) →
    s'.segs = pre ++ l.filter fun t => !(emptyAt mem (pr t) && e.munmap t.base t.size)
  | [], pre, s, s', n, h, _, _, _, _ => by
    unfold Dl.releaseLoop at h
    cases h
    simp
  | g :: l, pre, s, s', n, h, hl, hz, hd, hm => by
    unfold Dl.releaseLoop at h
    obtain ⟨v, h1, h2⟩ := bindOk h
    have hv : v = mem (g.base + 8) := by
      unfold Dl.Hp.get at h1
      split at h1
      · cases h1; exact hm g (by simp)
      · cases h1
    have hl' : ∀ u ∈ (pre ++ [g]) ++ l, u.link ≠ 0 → u.base < u.link + 16 ∧ u.link + 16 < u.base + u.size := by
      intro u hu; exact hl u (by simpa using hu)
    have hz' : ∀ t ∈ l, 8 < t.size := fun t ht => hz t (by simp [ht])
    have hd' : ((pre ++ [g]) ++ l).Pairwise (fun g h => g.base + g.size ≤ h.base ∨ h.base + h.size ≤ g.base) := by simpa using hd
    have he : emptyAt mem (pr g) = (!Dl.cinuse v && decide (g.base + g.size - Dl.foot ≤ g.base + Dl.chunksize v)) := by rw [hv]; rfl
    rw [← he] at h2
    by_cases c1 : emptyAt mem (pr g) = true
    · rw [if_pos c1] at h2
      simp only [] at h2
      generalize hs1 : (if g.base = s.dv then { s with dv := 0, dvsize := 0 } else Dl.unlinkLarge s g.base (Dl.treeIndex (Dl.chunksize v))) = s1 at h2
      have m1 : s1.mem = s.mem := by
        rw [← hs1]
        split
        · rfl
        · exact (unlinkLarge_segs _ _ _).2.2
      by_cases c2 : e.munmap g.base g.size = true
      · have hmu : s1.munmap e g.base g.size = (true, { s1 with mapped := fun x => s1.mapped x && !decide (g.base ≤ x ∧ x < g.base + g.size) }) := by
          unfold Dl.Hp.munmap; rw [if_pos c2]
        rw [hmu] at h2
        simp only at h2
        rw [List.filter_cons, if_neg (by simp [c1, c2])]
        have hd2 : (pre ++ l).Pairwise (fun g h => g.base + g.size ≤ h.base ∨ h.base + h.size ≤ g.base) := by
          refine hd.sublist ?_
          exact List.Sublist.append_left (List.sublist_cons_self _ _) _
        have hl2 : ∀ u ∈ pre ++ l, u.link ≠ 0 → u.base < u.link + 16 ∧ u.link + 16 < u.base + u.size := by
          intro u hu; refine hl u ?_
          simp only [List.mem_append, List.mem_cons] at hu ⊢
          tauto
        generalize hr : (pre.getLast?.map Dl.Seg.link).getD 0 = r at h2
        by_cases c3 : r ≠ 0
        · rw [if_pos c3] at h2
          obtain ⟨s2, k1, k2⟩ := bindOk h2
          obtain ⟨⟨n3, s3⟩, k3, k4⟩ := bindOk k2
          cases k4
          refine dl_release mem l pre s2 _ n3 k3 hl2 hz' hd2 ?_
          intro t ht
          have hm2 : s2.mem = Dl.upd s1.mem (r + 16) ((l.head?.map Dl.Seg.link).getD 0) := by
            unfold Dl.Hp.set at k1
            split at k1
            · cases k1; rfl
            · cases k1
          rw [hm2]
          unfold Dl.upd
          rw [if_neg, m1]
          · exact hm t (by simp [ht])
          · cases hp : pre.getLast? with
            | none => rw [hp] at hr; simp at hr; omega
            | some u =>
              rw [hp] at hr
              simp only [Option.map_some, Option.getD_some] at hr
              have hu : u ∈ pre := List.mem_of_getLast? hp
              have := hl2 u (by simp [hu]) (by omega)
              have h8 := hz' t ht
              have := (List.pairwise_append.1 hd2).2.2 u hu t ht
              omega
        · rw [if_neg c3] at h2
          simp only [bind, Except.bind] at h2
          obtain ⟨⟨n3, s3⟩, k3, k4⟩ := bindOk h2
          cases k4
          refine dl_release mem l pre _ _ n3 k3 hl2 hz' hd2 ?_
          intro t ht
          show s1.mem _ = _
          rw [m1]; exact hm t (by simp [ht])
      · have hmu : s1.munmap e g.base g.size = (false, s1) := by
          unfold Dl.Hp.munmap; rw [if_neg c2]
        rw [hmu] at h2
        simp only at h2
        rw [List.filter_cons, if_pos (by simp [c2])]
        rw [dl_release mem l (pre ++ [g]) _ s' n h2 hl' hz' hd' ?_]
        · simp
        · intro t ht
          show s1.mem _ = _
          rw [m1]; exact hm t (by simp [ht])
    · rw [if_neg c1] at h2
      rw [List.filter_cons, if_pos (by simp [c1])]
      rw [dl_release mem l (pre ++ [g]) s s' n h2 hl' hz' hd' (fun t ht => hm t (by simp [ht]))]
      simp

theorem dual_release {w : Dual.World} {em : Dual.Seg → Bool} : ∀ (l pre : List Dual.Seg) (g : Dual.G),
    ∃ l', (Dual.releaseLoop w em pre l g).segs = pre ++ l' ∧ l'.Sublist l ∧ ∀ t ∈ l, em t = false → t ∈ l'
  | [], pre, g => ⟨[], by simp [Dual.releaseLoop], .refl _, by simp⟩
  | t :: l, pre, g => by
    have keep : ∀ g, ∃ l', (Dual.releaseLoop w em (pre ++ [t]) l g).segs = pre ++ l' ∧ l'.Sublist (t :: l) ∧ ∀ u ∈ t :: l, em u = false → u ∈ l' := by
      intro g
      obtain ⟨l', h1, h2, h3⟩ := dual_release l (pre ++ [t]) g (w := w) (em := em)
      refine ⟨t :: l', by rw [h1]; simp, h2.cons_cons t, ?_⟩
      intro u hu he
      rcases List.mem_cons.1 hu with rfl | hu
      · simp
      · exact List.mem_cons_of_mem _ (h3 u hu he)
    unfold Dual.releaseLoop
    split
    · rename_i c
      rcases hm : Dual.dlmunmap w t.base t.size { g with segs := pre ++ t :: l } with ⟨b, g1⟩
      cases b with
      | true =>
        obtain ⟨l', h1, h2, h3⟩ := dual_release l pre g1 (w := w) (em := em)
        refine ⟨l', h1, h2.cons t, ?_⟩
        intro u hu he
        rcases List.mem_cons.1 hu with rfl | hu
        · rw [c] at he; cases he
        · exact h3 u hu he
      | false => exact keep g1
    · exact keep g

/-- What remains of a list of ranges apart is recognised by its addresses. -/
theorem filter_holds : ∀ {l' l : List Dual.Seg}, l'.Sublist l → (l.map pr').Pairwise ApartR → (∀ t ∈ l, 0 < t.size) →
    l.filter (fun t => l'.any (·.holds t.base)) = l'
  | _, _, .slnil, _, _ => rfl
  | l', _, .cons (l₂ := l) t h, hd, hz => by
    rw [List.map_cons, List.pairwise_cons] at hd
    rw [List.filter_cons, if_neg]
    · exact filter_holds h hd.2 (fun t ht => hz t (by simp [ht]))
    · rw [List.any_eq_true]
      rintro ⟨u, hu, hh⟩
      have := hd.1 (pr' u) (List.mem_map_of_mem (h.subset hu))
      have := hz t (by simp)
      unfold ApartR pr' at *
      unfold Dual.Seg.holds at hh
      simp at hh
      omega
  | _, _, .cons_cons (l₁ := l') (l₂ := l) t h, hd, hz => by
    rw [List.map_cons, List.pairwise_cons] at hd
    have h0 := hz t (by simp)
    rw [List.filter_cons, if_pos]
    · congr 1
      refine Eq.trans (List.filter_congr ?_) (filter_holds h hd.2 (fun t ht => hz t (by simp [ht])))
      intro u hu
      rw [List.any_cons]
      have := hd.1 (pr' u) (List.mem_map_of_mem hu)
      have := hz u (by simp [hu])
      have : t.holds u.base = false := by
        unfold ApartR pr' at *
        unfold Dual.Seg.holds
        simp only [Bool.and_eq_false_iff, decide_eq_false_iff_not]
        omega
      rw [this, Bool.false_or]
    · rw [List.any_cons]
      have : t.holds t.base = true := by unfold Dual.Seg.holds; simp; omega
      rw [this]; rfl

theorem release_sub (w : Dual.World) (em : Dual.Seg → Bool) (g : Dual.G) :
    (Dual.releaseUnused w em g).segs.Sublist g.segs ∧ (Dual.releaseUnused w em g).segs.head? = g.segs.head? := by
  unfold Dual.releaseUnused
  cases hg : g.segs with
  | nil => rw [hg]; exact ⟨.refl _, rfl⟩
  | cons k l =>
    obtain ⟨l', h1, h2, _⟩ := dual_release l [k] g (w := w) (em := em)
    simp only
    rw [h1]
    exact ⟨h2.cons_cons k, rfl⟩

theorem release_both (i : Dl.Inv P s A) (hP : Dl.PageOk P) {w : Dual.World} {g : Dual.G} (hs : s.segs.map pr = g.segs.map pr')
    {n : Nat} {s2 : Dl.Hp} (h : Dl.releaseUnused (gone P (Dual.releaseUnused w (emptyOf s.mem) g).segs) s = .ok (n, s2)) :
    s2.segs.map pr = (Dual.releaseUnused w (emptyOf s.mem) g).segs.map pr' := by
  have pw := pw_ranges i hs
  unfold Dual.releaseUnused at h ⊢
  cases hg : g.segs with
  | nil =>
    rw [hg] at hs h
    have hn : s.segs = [] := by simpa using hs
    unfold Dl.releaseUnused at h
    rw [hn] at h
    cases h
    simp only
    rw [hn, hg]; rfl
  | cons k' rest' =>
    cases hd : s.segs with
    | nil => rw [hd, hg] at hs; simp at hs
    | cons k rest =>
      obtain ⟨l', h1, h2, h3⟩ := dual_release rest' [k'] g (w := w) (em := emptyOf s.mem)
      rw [hg] at h
      simp only at h ⊢
      rw [h1] at h ⊢
      unfold Dl.releaseUnused at h
      rw [hd] at h
      simp only at h
      have hs' := hs
      rw [hd, hg, List.map_cons, List.map_cons, List.cons.injEq] at hs'
      obtain ⟨hp, hr⟩ := hs'
      rw [hg, List.map_cons, List.pairwise_cons] at pw
      obtain ⟨_, P1, _⟩ := hP.facts
      have hsz : ∀ t ∈ s.segs, 8 < t.size := by
        intro t ht
        have := i.segs.page t ht
        have := Nat.le_of_dvd this.2.2.2.1 this.2.1
        omega
      have hz' : ∀ t ∈ rest', 0 < t.size := by
        intro t ht
        have : pr' t ∈ rest.map pr := by rw [hr]; exact List.mem_map_of_mem ht
        obtain ⟨u, hu, e⟩ := List.mem_map.1 this
        have h8 := hsz u (by rw [hd]; simp [hu])
        have := (Prod.mk.inj e).2
        omega
      have hsegs := dl_release s.mem rest [k] s s2 n h (by
        intro u hu hl
        have hu : u ∈ s.segs := by rw [hd]; simpa using hu
        rw [hd] at hu
        rcases List.mem_cons.1 hu with rfl | hu
        · exact absurd (i.headSeg hd).2.1 hl
        · have := i.segs.link u (by rw [hd]; exact hu)
          omega) (fun t ht => hsz t (by rw [hd]; simp [ht])) (by have := i.segs.disj; rw [hd] at this; exact this) (fun t _ => rfl)
      rw [hsegs, List.map_append, List.map_append, List.map_cons, List.map_cons, hp]
      simp only [List.map_nil]
      congr 1
      rw [show (fun t => !(emptyAt s.mem (pr t) && (gone P ([k'] ++ l')).munmap t.base t.size)) =
        (fun r : Nat × Nat => !(emptyAt s.mem r && !([k'] ++ l').any (·.holds r.1))) ∘ pr from rfl]
      rw [← List.filter_map, hr, List.filter_map]
      congr 1
      refine Eq.trans (List.filter_congr ?_) (filter_holds h2 pw.2 hz')
      intro t ht
      have hz := hz' t ht
      have hk : k'.holds t.base = false := by
        have := pw.1 (pr' t) (List.mem_map_of_mem ht)
        unfold ApartR pr' at this
        unfold Dual.Seg.holds
        simp only [Bool.and_eq_false_iff, decide_eq_false_iff_not]
        omega
      simp only [Function.comp, List.any_append, List.any_cons, List.any_nil, Bool.or_false]
      rw [show (pr' t).1 = t.base from rfl, hk, Bool.false_or]
      by_cases he : emptyOf s.mem t = true
      · rw [show emptyAt s.mem (pr' t) = true from he]; simp
      · have h4 := h3 t ht (by simpa using he)
        have : l'.any (·.holds t.base) = true := by
          rw [List.any_eq_true]
          exact ⟨t, h4, by unfold Dual.Seg.holds; simp; omega⟩
        rw [this, show emptyAt s.mem (pr' t) = false from (Bool.eq_false_iff.2 he : emptyOf s.mem t = false)]
        rfl

/-! ## Live blocks are elsewhere -/

/-- A live chunk is in one segment, apart from the others. -/
theorem live_off (i : Dl.Inv P s A) {l : List Dual.Seg} (hs : s.segs.map pr = l.map pr') {t : Dual.Seg} (ht : t ∈ l) {m n z : Nat} (hm : 16 < m)
    (ha : A (m - 16) = some (z, .live)) (hn : n + 8 ≤ z) :
    (t.base ≤ m - 16 ∧ m - 16 + z + 32 ≤ t.base + t.size ∧ ∃ u ∈ s.segs, pr u = pr' t) ∨ m + n ≤ t.base ∨ t.base + t.size ≤ m := by
  obtain ⟨u, hu, h1, h2⟩ := i.segs.hold _ _ _ ha
  have : pr' t ∈ s.segs.map pr := by rw [hs]; exact List.mem_map_of_mem ht
  obtain ⟨v, hv, e⟩ := List.mem_map.1 this
  obtain ⟨e1, e2⟩ := Prod.mk.inj e
  by_cases c : u = v
  · subst c; left; exact ⟨by omega, by omega, u, hu, e⟩
  · right
    have hz := i.segs.page v hv
    have hzu := i.segs.page u hu
    have d : u.base + u.size ≤ v.base ∨ v.base + v.size ≤ u.base := by
      by_contra hcon
      by_cases c2 : u.base ≤ v.base
      · exact c (Dl.pw_disj i.segs.disj hu hv (x := v.base) c2 (by omega) (Nat.le_refl _) (by omega))
      · exact c (Dl.pw_disj i.segs.disj hu hv (x := u.base) (Nat.le_refl _) (by omega) (by omega) (by omega))
    omega

theorem off_trim (i : Dl.Inv P s A) (hP : Dl.PageOk P) (h72 : 72 < s.topsize) {l : List Dual.Seg} (hs : s.segs.map pr = l.map pr') {t : Dual.Seg} (ht : t ∈ l)
    (hd : Dual.InData t s.top) {a : Dual.Live} {z : Nat} (hm : 16 < a.ptr) (ha : A (a.ptr - 16) = some (z, .live)) (hn : a.size + 8 ≤ z) :
    Dual.Off a t (t.size - extraOf P s) := by
  unfold Dual.Off
  have hx := extra_le hP h72
  rcases live_off i hs ht hm ha hn with ⟨h1, h2, u, hu, e⟩ | h | h
  · obtain ⟨e1, e2⟩ := Prod.mk.inj e
    unfold Dual.InData at hd
    cases hsg : s.segs with
    | nil => rw [hsg] at hu; cases hu
    | cons k rest =>
      obtain ⟨k0, k1, k2, k3, k4⟩ := i.headSeg hsg
      have : u = k := Dl.pw_disj i.segs.disj hu k0 (x := s.top) (by omega) (by omega) (by omega) (by omega)
      subst this
      rcases Nat.lt_trichotomy (a.ptr - 16) s.top with c | c | c
      · have := i.tags.disj ha k4 c; omega
      · rw [c, k4] at ha; cases ha
      · have := i.tags.disj k4 ha c
        have := (i.segs.past _ _ _ ha u hu (by omega) (by omega)).2 (by simp)
        omega
  · omega
  · omega

theorem off_empty (i : Dl.Inv P s A) {l : List Dual.Seg} (hs : s.segs.map pr = l.map pr') {t : Dual.Seg} (ht : t ∈ l)
    (he : emptyOf s.mem t = true) {a : Dual.Live} {z : Nat} (hm : 16 < a.ptr) (ha : A (a.ptr - 16) = some (z, .live)) (hn : a.size + 8 ≤ z) :
    Dual.Off a t 0 := by
  unfold Dual.Off
  rcases live_off i hs ht hm ha hn with ⟨h1, h2, u, hu, e⟩ | h | h
  · obtain ⟨e1, e2⟩ := Prod.mk.inj e
    cases hb : A u.base with
    | none => exact absurd hb (i.segs.first u hu)
    | some y =>
      obtain ⟨w, v⟩ := y
      have o := i.tags.ok hb
      unfold emptyOf at he
      rw [← e1, o.size, o.cin] at he
      simp only [Bool.and_eq_true, Bool.not_eq_true', decide_eq_true_eq] at he
      have hf : Dl.foot = 72 := rfl
      have p := (i.segs.past _ _ _ ha u hu (by omega) (by omega)).2 (by simp)
      rcases Nat.lt_trichotomy u.base (a.ptr - 16) with c | c | c
      · have := i.tags.disj hb ha c; omega
      · rw [← c, hb] at ha; cases ha; cases he.1
      · omega
  · omega
  · omega

end Verif.Heap
