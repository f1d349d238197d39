import Verif.Tramp.HistLemmas

namespace Verif.Tramp
open Verif

/-- Tables that survive keep array and code address. -/
theorem At.keep {other : Nat → Option Prot} {s s' : St} {T' : List Nat} {fr' : Nat → List Nat} {k' : Nat → Nat}
    (h' : HInv other s' T' fr' k') (hs : s'.size = s.size)
    (back : ∀ u y, u ∈ T' → s.tables u ≠ none → s'.tables u = some y →
      ∃ y', s.tables u = some y' ∧ y.array = y'.array ∧ y.code = y'.code)
    {q : TP} {c : Nat} (ha : At s q c) (hT : ∀ t x, s.tables t = some x → q.1 = x.array → t ∈ T') : At s' q c := by
  obtain ⟨t, x, h1, h2, h3⟩ := ha
  have ht := hT t x h1 h2
  obtain ⟨y, hy⟩ := Option.ne_none_iff_exists'.1 ((h'.dom t).2 ht)
  obtain ⟨y', e1, e2, e3⟩ := back t y ht (by rw [h1]; simp) hy
  rw [h1, Option.some.injEq] at e1
  subst e1
  exact ⟨t, y, hy, by rw [h2, e2], by rw [h3, e3, hs]⟩

/-- The allocation of an entry, once some table has one. -/
theorem take_inv {P : Plat} {other : Nat → Option Prot} {s : St} {fr : Nat → List Nat} {T gl : List Nat}
    (hst : s.status = .passed) (harch : P.arch = some (s.size, s.mapSize, s.text)) (hn : s.ntramp = s.mapSize / s.size)
    (h16 : 16 ≤ s.size) (h : HInv other s T fr (fun _ => s.ntramp)) (hl : LInv s gl) (hg : GInv s.ntramp T fr gl)
    (hne : gl ≠ []) :
    ∃ t x p s' fr', s.freeTables = some t ∧ s.tables t = some x ∧ x.free = some p ∧ trampDel p s = .ok s' ∧
      Active P other s' fr' ∧ s'.prot = s.prot ∧ s'.mem = s.mem ∧ s'.fd = s.fd ∧ SameC s s' ∧ ¬ Live s fr p ∧
      (∀ q, Live s' fr' q ↔ Live s fr q ∨ q = p) ∧ (∀ q c, At s q c → At s' q c) := by
  obtain ⟨t, gl', rfl⟩ := List.exists_cons_of_ne_nil hne
  have hhead := hl.seg.head_eq
  simp only [List.head?_cons] at hhead
  obtain ⟨htT, hfr⟩ := (hg.mem t).1 (by simp)
  obtain ⟨x, hx⟩ := Option.ne_none_iff_exists'.1 ((h.dom t).2 htT)
  obtain ⟨arr, harr, hb⟩ := h.body t x hx
  obtain ⟨i, rest, hfi⟩ := List.exists_cons_of_ne_nil hfr
  have hfree := free_head hb
  rw [hfi] at hfree
  simp only [List.head?_cons, Option.map_some] at hfree
  obtain ⟨s', c1, c2, ⟨gl2, c3, c4⟩, c5, c6, c7, c8, c9, c10⟩ := trampDel_inv h hl hg hx hfi
  obtain ⟨w1, w2, w3, w4⟩ := c9
  have hin : i < s.ntramp := hb.lt i (by rw [hfi]; simp)
  have hnd : i ∉ rest := (List.nodup_cons.1 (hfi ▸ hb.nodup)).1
  have keep : ∀ u y, s.tables u = some y → ∃ y', s'.tables u = some y' ∧ y'.array = y.array := by
    intro u y hy
    obtain ⟨z, hz⟩ := Option.ne_none_iff_exists'.1 ((c2.dom u).2 ((h.dom u).1 (by rw [hy]; simp)))
    obtain ⟨y', e1, e2, _⟩ := c10 u z hz
    rw [hy, Option.some.injEq] at e1
    subst e1
    exact ⟨z, hz, e2⟩
  refine ⟨t, x, (x.array, i), s', upd fr t rest, hhead, hx, hfree, c1, ?_, c5, c6, c7, ⟨w1, w2, w3, w4⟩, ?_, ?_, ?_⟩
  · refine ⟨c8.trans hst, by rw [w1, w2, w4]; exact harch, by rw [w1, w2, w3]; exact hn, by rw [w1]; exact h16,
      T, gl2, by rw [w3]; exact c2, c3, by rw [w3]; exact c4⟩
  · rintro ⟨u, y, hy, e1, e2, e3⟩
    have : t = u := h.inj t u x y hx hy e1
    subst this
    exact e3 (by rw [hfi]; simp)
  · intro q
    constructor
    · rintro ⟨u, y, hy, e1, e2, e3⟩
      obtain ⟨y', f1, f2, _⟩ := c10 u y hy
      rw [w3] at e2
      by_cases hu : u = t
      · subst hu
        rw [hx, Option.some.injEq] at f1
        subst f1
        rw [upd_same] at e3
        by_cases hqi : q.2 = i
        · right
          exact Prod.ext (e1.trans f2) hqi
        · left
          exact ⟨u, x, hx, e1.trans f2, e2, by rw [hfi]; simp [hqi, e3]⟩
      · left
        rw [upd_other _ _ hu] at e3
        exact ⟨u, y', f1, e1.trans f2, e2, e3⟩
    · rintro (⟨u, y, hy, e1, e2, e3⟩ | rfl)
      · obtain ⟨y', f1, f2⟩ := keep u y hy
        refine ⟨u, y', f1, e1.trans f2.symm, by rw [w3]; exact e2, ?_⟩
        by_cases hu : u = t
        · subst hu
          rw [upd_same]
          rw [hfi] at e3
          exact fun hc => e3 (by simp [hc])
        · rw [upd_other _ _ hu]; exact e3
      · obtain ⟨y', f1, f2⟩ := keep t x hx
        exact ⟨t, y', f1, f2.symm, by rw [w3]; exact hin, by rw [upd_same]; exact hnd⟩
  · intro q c hq
    refine At.keep c2 w1 (fun u y _ _ hy => c10 u y hy) hq ?_
    intro u y hy _
    exact (h.dom u).1 (by rw [hy]; simp)

/-- `ffi_tramp_alloc` after initialisation. -/
theorem alloc_active {P : Plat} {other : Nat → Option Prot} {s : St} {fr : Nat → List Nat} {v : Env} {f : Int}
    (hA : Active P other s fr) (he : EnvOk P s v) :
    ∃ s' r, alloc P v f s = .ok (s', r) ∧ (∀ a, s.prot a ≠ none → s'.mem a = s.mem a ∧ s'.prot a = s.prot a) ∧
      s'.fd = s.fd ∧ SameC s s' ∧
      ((r = none ∧ Active P other s' fr ∧ s'.tables = s.tables ∧ s'.arrays = s.arrays ∧ s'.prot = s.prot ∧
          s'.freeTables = s.freeTables ∧ s'.nfreeTables = s.nfreeTables ∧
          (f ≠ 0 ∨ ((∀ t x, s.tables t = some x → fr t = []) ∧
            (v.e3.table = none ∨ v.e3.array = none ∨ v.e3.map1 = none ∨ v.e3.map2 = false)))) ∨
       (∃ p fr', r = some p ∧ f = 0 ∧ Active P other s' fr' ∧ ¬ Live s fr p ∧
          (∀ q, Live s' fr' q ↔ Live s fr q ∨ q = p) ∧ (∀ q c, Live s fr q → At s q c → At s' q c) ∧
          ((∃ t x, s.tables t = some x ∧ fr t ≠ []) → ∀ v', alloc P v' f s = .ok (s', some p)))) := by
  obtain ⟨hst, harch, hn, h16, T, gl, h, hl, hg⟩ := hA
  have hinit : ∀ v, trampInit P v s = .ok (s, true) := by
    intro v; unfold trampInit; rw [if_pos hst]; rfl
  by_cases hf : f = 0
  · subst hf
    obtain ⟨_, _, o3⟩ := he _ _ _ harch
    obtain ⟨s1, b, g1, g2, g3, g4, g5, g6⟩ := tableAlloc_inv h hl hg o3
    have hfrgl : ∀ t x, s.tables t = some x → fr t ≠ [] → t ∈ gl := fun t x hx hne =>
      (hg.mem t).2 ⟨(h.dom t).1 (by rw [hx]; simp), hne⟩
    rcases g6 with ⟨c1, rfl, rfl⟩ | ⟨c1, rfl, c2, c3, c4, c5, c6, c7⟩ | ⟨c1, rfl, _, _, _, _, t, c2, c3, c4, c5, c6, c7⟩
    · obtain ⟨t, x, p, s', fr', d1, d2, d3, d4, d5, d6, d7, d8, d9, d10, d11, d12⟩ :=
        take_inv hst harch hn h16 h hl hg c1
      have hv : ∀ v', alloc P v' 0 s1 = .ok (s', some p) := by
        intro v'
        unfold alloc
        have : tableAlloc v'.e3 s1 = .ok (s1, true) := by
          unfold tableAlloc
          rw [if_pos]
          · rfl
          · rw [hl.count]
            have := List.length_pos_iff.2 c1
            omega
        simp only [hinit, bind, Except.bind, this, d1, St.getT, d2, d3, d4, pure, Except.pure]
        simp
      refine ⟨s', some p, hv v, fun a _ => ⟨by rw [d7], by rw [d6]⟩, d8, d9, .inr ⟨p, fr', rfl, rfl, d5, d10, d11, fun q c _ => d12 q c, fun _ => hv⟩⟩
    · refine ⟨s1, none, ?_, fun a ha => ⟨g2 a ha, by rw [c4]⟩, g3, g5, .inl ⟨rfl, ?_, c2, c3, c4, c5, c6, .inr ⟨?_, c7⟩⟩⟩
      · unfold alloc
        simp only [hinit, bind, Except.bind, g1, pure, Except.pure]
        simp
      · obtain ⟨w1, w2, w3, w4⟩ := g5
        refine ⟨g4.trans hst, by rw [w1, w2, w4]; exact harch, by rw [w1, w2, w3]; exact hn, by rw [w1]; exact h16,
          T, gl, ?_, ⟨by rw [c2, c5]; exact hl.seg, hl.nodup, by rw [c6]; exact hl.count⟩, by rw [w3]; exact hg⟩
        rw [w3]
        have mapped : ∀ u y o, s.tables u = some y → o < s.mapSize → s1.mem (y.code + o) = s.mem (y.code + o) := by
          intro u y o hy ho
          refine g2 _ ?_
          rw [(h.code u y o hy ho).1]; simp
        constructor
        · exact h.nodup
        · rw [c2]; exact h.dom
        · rw [c2, c3, w1, w2, w3]; exact h.body
        · rw [c2]; exact h.inj
        · rw [c2, c3]; exact h.arrDom
        · rw [c2, w2]; exact h.disj
        · rw [c2, w2, w4, c4]
          intro u y o hy ho
          rw [mapped u y o hy ho]
          exact h.code u y o hy ho
        · rw [c2, w2, c4]; exact h.data
        · rw [c2, w2, c4]; exact h.out
        · rw [c2, w2]; exact h.fresh
        · rw [w3]; exact h.npos
        · rw [w1, w2, w3]; exact h.fit
      · intro t x hx
        by_contra hne
        have := hfrgl t x hx hne
        rw [c1] at this
        simp at this
    · obtain ⟨w1, w2, w3, w4⟩ := g5
      have hk : upd (fun _ => s.ntramp) t s.ntramp = fun _ => s.ntramp := upd_self _ _ _ rfl
      rw [hk] at c3
      obtain ⟨t', x, p, s', fr', d1, d2, d3, d4, d5, d6, d7, d8, d9, d10, d11, d12⟩ :=
        take_inv (P := P) (g4.trans hst) (by rw [w1, w2, w4]; exact harch) (by rw [w1, w2, w3]; exact hn)
          (by rw [w1]; exact h16) (by rw [w3]; exact c3) c4 (by rw [w3]; exact c5) (by simp)
      have htn : s.tables t = none := by
        by_contra hne
        exact c2 ((h.dom t).1 hne)
      have live1 : ∀ q, Live s1 (upd fr t (List.range s.ntramp).reverse) q ↔ Live s fr q := by
        intro q
        constructor
        · rintro ⟨u, y, hy, e1, e2, e3⟩
          by_cases hu : u = t
          · subst hu
            rw [upd_same] at e3
            rw [w3] at e2
            exact absurd (by simp [e2]) e3
          · rw [upd_other _ _ hu] at e3
            obtain ⟨y', f1, f2, _⟩ := c6 u y hu hy
            exact ⟨u, y', f1, e1.trans f2, by rw [w3] at e2; exact e2, e3⟩
        · rintro ⟨u, y, hy, e1, e2, e3⟩
          have hu : u ≠ t := by
            intro e; subst e; rw [htn] at hy; simp at hy
          obtain ⟨z, hz⟩ := Option.ne_none_iff_exists'.1 ((c3.dom u).2
            (List.mem_cons_of_mem _ ((h.dom u).1 (by rw [hy]; simp))))
          obtain ⟨y', f1, f2, _⟩ := c6 u z hu hz
          rw [hy, Option.some.injEq] at f1
          subst f1
          exact ⟨u, z, hz, e1.trans f2.symm, by rw [w3]; exact e2, by rw [upd_other _ _ hu]; exact e3⟩
      obtain ⟨v1, v2, v3, v4⟩ := d9
      refine ⟨s', some p, ?_, fun a ha => ⟨by rw [d7]; exact g2 a ha, by rw [d6]; exact c7 a ha⟩, d8.trans g3,
        ⟨v1.trans w1, v2.trans w2, v3.trans w3, v4.trans w4⟩, .inr ⟨p, fr', rfl, rfl, d5, ?_, ?_, ?_, ?_⟩⟩
      · unfold alloc
        simp only [hinit, bind, Except.bind, g1, pure, Except.pure, d1, St.getT, d2, d3, d4]
        simp
      · rw [← live1]; exact d10
      · intro q; rw [d11, live1]
      · intro q c _ hc
        refine d12 q c (At.keep c3 w1 (fun u y _ hs hy => ?_) hc ?_)
        · refine c6 u y ?_ hy
          intro e; subst e; exact hs htn
        · intro u y hy _
          exact List.mem_cons_of_mem _ ((h.dom u).1 (by rw [hy]; simp))
      · rintro ⟨u, y, hy, hne⟩
        have := hfrgl u y hy hne
        rw [c1] at this
        simp at this
  · refine ⟨s, none, ?_, fun _ _ => ⟨rfl, rfl⟩, rfl, ⟨rfl, rfl, rfl, rfl⟩, .inl ⟨rfl, ⟨hst, harch, hn, h16, T, gl, h, hl, hg⟩, rfl, rfl, rfl, rfl, rfl, .inl hf⟩⟩
    unfold alloc
    simp only [hinit, bind, Except.bind, pure, Except.pure]
    simp [hf]

/-- `ffi_tramp_free` of a live trampoline. -/
theorem free_active {P : Plat} {other : Nat → Option Prot} {s : St} {fr : Nat → List Nat} {p : TP}
    (hA : Active P other s fr) (hp : Live s fr p) :
    ∃ s' fr', free p s = .ok s' ∧ Active P other s' fr' ∧ s'.mem = s.mem ∧ s'.fd = s.fd ∧ SameC s s' ∧
      (∀ q, Live s' fr' q ↔ Live s fr q ∧ q ≠ p) ∧ (∀ q c, Live s fr q → q ≠ p → At s q c → At s' q c) := by
  obtain ⟨hst, harch, hn, h16, T, gl, h, hl, hg⟩ := hA
  obtain ⟨t, x, hx, e1, e2, e3⟩ := hp
  obtain ⟨pa, i⟩ := p
  simp only at e1 e2 e3
  subst e1
  obtain ⟨s', c1, c2, c3, c4, c5, c6⟩ := trampAdd_inv h hl hg hx e2 e3
  have c5' := c5
  obtain ⟨w1, w2, w3, w4⟩ := c5
  rcases c6 with ⟨d1, ⟨gl', d2, d3, _⟩, d4, d5⟩ | ⟨d1, ⟨gl', d2, d3⟩, d4, _, d5, d6⟩
  · refine ⟨s', _, c1, ⟨c4.trans hst, by rw [w1, w2, w4]; exact harch, by rw [w1, w2, w3]; exact hn, by rw [w1]; exact h16,
      T, gl', by rw [w3]; exact d1, d2, by rw [w3]; exact d3⟩, c2, c3, c5', ?_, ?_⟩
    · intro q
      constructor
      · rintro ⟨u, y, hy, f1, f2, f3⟩
        obtain ⟨y', g1, g2, _⟩ := d5 u y hy
        rw [w3] at f2
        by_cases hu : u = t
        · subst hu
          rw [hx, Option.some.injEq] at g1
          subst g1
          rw [upd_same] at f3
          simp only [List.mem_cons, not_or] at f3
          exact ⟨⟨u, x, hx, f1.trans g2, f2, f3.2⟩, fun e => f3.1 (by rw [e])⟩
        · rw [upd_other _ _ hu] at f3
          refine ⟨⟨u, y', g1, f1.trans g2, f2, f3⟩, fun e => ?_⟩
          rw [e] at f1
          exact hu (h.inj u t y' x g1 hx (g2.symm.trans f1.symm))
      · rintro ⟨⟨u, y, hy, f1, f2, f3⟩, hne⟩
        obtain ⟨z, hz⟩ := Option.ne_none_iff_exists'.1 ((d1.dom u).2 ((h.dom u).1 (by rw [hy]; simp)))
        obtain ⟨y', g1, g2, _⟩ := d5 u z hz
        rw [hy, Option.some.injEq] at g1
        subst g1
        refine ⟨u, z, hz, f1.trans g2.symm, by rw [w3]; exact f2, ?_⟩
        by_cases hu : u = t
        · subst hu
          rw [hx, Option.some.injEq] at hy
          subst hy
          rw [upd_same]
          simp only [List.mem_cons, not_or]
          exact ⟨fun e => hne (Prod.ext f1 e), f3⟩
        · rw [upd_other _ _ hu]; exact f3
    · intro q c _ _ hc
      refine At.keep d1 w1 (fun u y _ _ hy => d5 u y hy) hc ?_
      intro u y hy _
      exact (h.dom u).1 (by rw [hy]; simp)
  · -- the table went away: no other trampoline in it was live
    obtain ⟨arr, _, hb⟩ := h.body t x hx
    have hall : ∀ j, j < s.ntramp → j = i ∨ j ∈ fr t := by
      intro j hj
      by_contra hc
      rw [not_or] at hc
      have hnd : (j :: i :: fr t).Nodup :=
        List.nodup_cons.2 ⟨by simp [hc.1, hc.2], List.nodup_cons.2 ⟨e3, hb.nodup⟩⟩
      have hsub : (j :: i :: fr t) ⊆ List.range s.ntramp := by
        intro l hl
        rw [List.mem_range]
        rcases List.mem_cons.1 hl with rfl | hl
        · exact hj
        · rcases List.mem_cons.1 hl with rfl | hl
          · exact e2
          · exact hb.lt l hl
      have := (List.subperm_of_subset hnd hsub).length_le
      simp at this
      omega
    refine ⟨s', _, c1, ⟨c4.trans hst, by rw [w1, w2, w4]; exact harch, by rw [w1, w2, w3]; exact hn, by rw [w1]; exact h16,
      T.erase t, gl', by rw [w3]; exact d1, d2, by rw [w3]; exact d3⟩, c2, c3, c5', ?_, ?_⟩
    · intro q
      constructor
      · rintro ⟨u, y, hy, f1, f2, f3⟩
        obtain ⟨y', g1, g2, _⟩ := d5 u y hy
        have hu : u ≠ t := by
          have := (d1.dom u).1 (by rw [hy]; simp)
          rw [List.Nodup.mem_erase_iff h.nodup] at this
          exact this.1
        refine ⟨⟨u, y', g1, f1.trans g2, by rw [w3] at f2; exact f2, f3⟩, fun e => ?_⟩
        rw [e] at f1
        exact hu (h.inj u t y' x g1 hx (g2.symm.trans f1.symm))
      · rintro ⟨⟨u, y, hy, f1, f2, f3⟩, hne⟩
        have hu : u ≠ t := by
          intro e; subst e
          rw [hx, Option.some.injEq] at hy
          subst hy
          rcases hall q.2 f2 with hc | hc
          · exact hne (Prod.ext f1 hc)
          · exact f3 hc
        obtain ⟨z, hz⟩ := Option.ne_none_iff_exists'.1 ((d1.dom u).2
          ((List.Nodup.mem_erase_iff h.nodup).2 ⟨hu, (h.dom u).1 (by rw [hy]; simp)⟩))
        obtain ⟨y', g1, g2, _⟩ := d5 u z hz
        rw [hy, Option.some.injEq] at g1
        subst g1
        exact ⟨u, z, hz, f1.trans g2.symm, by rw [w3]; exact f2, f3⟩
    · intro q c ⟨u, y, hy, f1, f2, f3⟩ hne hc
      refine At.keep d1 w1 (fun u y _ _ hy => d5 u y hy) hc ?_
      intro u' y' hy' f1'
      have : u = u' := h.inj u u' y y' hy hy' (f1.symm.trans f1')
      subst this
      rw [List.Nodup.mem_erase_iff h.nodup]
      refine ⟨?_, (h.dom u).1 (by rw [hy]; simp)⟩
      intro e; subst e
      rw [hx, Option.some.injEq] at hy
      subst hy
      rcases hall q.2 f2 with hc | hc
      · exact hne (Prod.ext f1 hc)
      · exact f3 hc

end Verif.Tramp
