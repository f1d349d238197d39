import Verif.Tramp.ActiveLemmas

namespace Verif.Tramp
open Verif

theorem At.unique {other : Nat → Option Prot} {s : St} {T : List Nat} {fr : Nat → List Nat} {k : Nat → Nat}
    (h : HInv other s T fr k) {p : TP} {c d : Nat} (h1 : At s p c) (h2 : At s p d) : c = d := by
  obtain ⟨t, x, a1, a2, a3⟩ := h1
  obtain ⟨u, y, b1, b2, b3⟩ := h2
  have : t = u := h.inj t u x y a1 b1 (a2.symm.trans b2)
  subst this
  rw [a1, Option.some.injEq] at b1
  subst b1
  rw [a3, b3]

/-- What the handle of a live trampoline points to. -/
theorem live_facts {P : Plat} {other : Nat → Option Prot} {s : St} {fr : Nat → List Nat} (hA : Active P other s fr)
    {p : TP} (hp : Live s fr p) :
    ∃ y, s.getR p = .ok y ∧ At s p y.code ∧ y.parm = y.code + s.mapSize ∧
      (∀ o, o < s.size → s.prot (y.code + o) = some .rx ∧ s.mem (y.code + o) = s.text (p.2 * s.size + o)) ∧
      (∀ o, o < s.size → s.prot (y.parm + o) = some .rw) ∧
      (∀ o, o < s.size → other (y.code + o) = none ∧ other (y.parm + o) = none) ∧ p.2 < s.ntramp := by
  obtain ⟨hst, harch, hn, h16, T, gl, h, hl, hg⟩ := hA
  obtain ⟨t, x, hx, e1, e2, e3⟩ := hp
  obtain ⟨arr, ha, hb⟩ := h.body t x hx
  obtain ⟨f1, f2, f3⟩ := hb.ent p.2 e2
  have hfit : (p.2 + 1) * s.size ≤ s.mapSize := (Nat.mul_le_mul_right _ e2).trans h.fit
  rw [Nat.add_mul, Nat.one_mul] at hfit
  refine ⟨arr p.2, ?_, ⟨t, x, hx, e1, f2⟩, ?_, ?_, ?_, ?_, e2⟩
  · simp only [St.getR, e1, ha, if_pos e2]
  · rw [f2, f3, hb.parm]; omega
  · intro o ho
    rw [f2, Nat.add_assoc]
    exact h.code t x _ hx (by omega)
  · intro o ho
    rw [f3, hb.parm, Nat.add_assoc]
    exact h.data t x _ hx (by omega)
  · intro o ho
    refine ⟨h.fresh t x _ hx ?_, h.fresh t x _ hx ?_⟩
    · unfold InReg; rw [f2]; omega
    · unfold InReg; rw [f3, hb.parm]; omega

/-- Different live trampolines. -/
theorem live_disjoint {P : Plat} {other : Nat → Option Prot} {s : St} {fr : Nat → List Nat} (hA : Active P other s fr)
    {p q : TP} (hp : Live s fr p) (hq : Live s fr q) (hne : p ≠ q) {c d : Nat} (hc : At s p c) (hd : At s q d) :
    (c + s.size ≤ d ∨ d + s.size ≤ c) ∧ (c + s.size ≤ d + s.mapSize ∨ d + s.mapSize + s.size ≤ c) ∧
      (d + s.size ≤ c + s.mapSize ∨ c + s.mapSize + s.size ≤ d) := by
  obtain ⟨hst, harch, hn, h16, T, gl, h, hl, hg⟩ := hA
  obtain ⟨t, x, hx, a1, rfl⟩ := hc
  obtain ⟨u, y, hy, b1, rfl⟩ := hd
  obtain ⟨t', x', hx', a1', a2, _⟩ := hp
  obtain ⟨u', y', hy', b1', b2, _⟩ := hq
  have hpf : (p.2 + 1) * s.size ≤ s.mapSize := (Nat.mul_le_mul_right _ a2).trans h.fit
  have hqf : (q.2 + 1) * s.size ≤ s.mapSize := (Nat.mul_le_mul_right _ b2).trans h.fit
  rw [Nat.add_mul, Nat.one_mul] at hpf hqf
  by_cases htu : t = u
  · subst htu
    rw [hx, Option.some.injEq] at hy
    subst hy
    have h2 : p.2 ≠ q.2 := fun e => hne (Prod.ext (a1.trans b1.symm) e)
    rcases Nat.lt_or_gt_of_ne h2 with hlt | hlt
    · have : (p.2 + 1) * s.size ≤ q.2 * s.size := Nat.mul_le_mul_right _ hlt
      rw [Nat.add_mul, Nat.one_mul] at this
      omega
    · have : (q.2 + 1) * s.size ≤ p.2 * s.size := Nat.mul_le_mul_right _ hlt
      rw [Nat.add_mul, Nat.one_mul] at this
      omega
  · have h1 : ¬ InReg s.mapSize x y.code := fun hr => htu (h.disj t u x y y.code hx hy hr (by unfold InReg; omega))
    have h2 : ¬ InReg s.mapSize y x.code := fun hr => htu (h.disj t u x y x.code hx hy (by unfold InReg; omega) hr)
    unfold InReg at h1 h2
    omega

/-- `ffi_tramp_set_parms` of a live trampoline. -/
theorem setParms_active {P : Plat} {other : Nat → Option Prot} {s : St} {fr : Nat → List Nat} {p : TP}
    (hA : Active P other s fr) (hp : Live s fr p) (target data : Nat) :
    ∃ s' y, setParms p target data s = .ok s' ∧ s.getR p = .ok y ∧
      s' = { s with mem := s.mem.wr y.parm (leBytes 8 data ++ leBytes 8 target) } ∧ Active P other s' fr := by
  obtain ⟨y, h1, h2, h3, h4, h5, h6, h7⟩ := live_facts hA hp
  have h16 := hA.sizeOk
  have hmem : (s.mem.wr (y.parm + 8) (leBytes 8 target)).wr y.parm (leBytes 8 data) =
      s.mem.wr y.parm (leBytes 8 data ++ leBytes 8 target) := by
    funext a
    have l1 : (leBytes 8 target).length = 8 := by simp
    have l2 : (leBytes 8 data).length = 8 := by simp
    unfold Mem.wr
    rw [List.length_append, l1, l2]
    by_cases c1 : y.parm ≤ a ∧ a < y.parm + 8
    · rw [if_pos c1, if_pos (by omega), List.getD_eq_getElem?_getD, List.getD_eq_getElem?_getD,
        List.getElem?_append_left (by omega)]
    · rw [if_neg c1]
      by_cases c2 : y.parm + 8 ≤ a ∧ a < y.parm + 8 + 8
      · rw [if_pos c2, if_pos (by omega), List.getD_eq_getElem?_getD, List.getD_eq_getElem?_getD,
          List.getElem?_append_right (by omega), l2]
        congr 2
      · rw [if_neg c2, if_neg (by omega)]
  refine ⟨_, y, ?_, h1, rfl, ?_⟩
  · unfold setParms
    simp only [h1, bind, Except.bind, pure, Except.pure]
    rw [if_pos]
    · simp only [hmem]
    · rw [List.all_eq_true]
      intro i hi
      rw [List.mem_range] at hi
      simpa using h5 i (by omega)
  · obtain ⟨hst, harch, hn, h16, T, gl, h, hl, hg⟩ := hA
    refine ⟨hst, harch, hn, h16, T, gl, ?_, ⟨hl.seg, hl.nodup, hl.count⟩, hg⟩
    refine ⟨h.nodup, h.dom, h.body, h.inj, h.arrDom, h.disj, ?_, h.data, h.out, h.fresh, h.npos, h.fit⟩
    intro u z o hz ho
    refine ⟨(h.code u z o hz ho).1, ?_⟩
    rw [← (h.code u z o hz ho).2]
    apply Mem.wr_out
    rw [List.length_append, leBytes_length, leBytes_length]
    by_contra hc
    have hrx := (h.code u z o hz ho).1
    have := h5 (z.code + o - y.parm) (by omega)
    rw [show y.parm + (z.code + o - y.parm) = z.code + o by omega, hrx] at this
    simp at this

/-- What the rest of the process does to its own memory. -/
theorem outside_active {P : Plat} {g : G} {fr : Nat → List Nat} {other' prot' : Nat → Option Prot} {mem' : Mem}
    (hA : Active P g.other g.s fr)
    (h1 : ∀ a, g.Own a → other' a = none ∧ prot' a = g.s.prot a ∧ mem' a = g.s.mem a)
    (h2 : ∀ a, ¬ g.Own a → prot' a = other' a) :
    Active P other' { g.s with prot := prot', mem := mem' } fr := by
  obtain ⟨hst, harch, hn, h16, T, gl, h, hl, hg⟩ := hA
  have own : ∀ t x a, g.s.tables t = some x → InReg g.s.mapSize x a → g.Own a := by
    intro t x a hx hr
    refine ⟨?_, h.fresh t x a hx hr⟩
    unfold InReg at hr
    by_cases hb : a < x.code + g.s.mapSize
    · have := (h.code t x (a - x.code) hx (by omega)).1
      rw [show x.code + (a - x.code) = a by omega] at this
      rw [this]; simp
    · have := h.data t x (a - x.code - g.s.mapSize) hx (by omega)
      rw [show x.code + g.s.mapSize + (a - x.code - g.s.mapSize) = a by omega] at this
      rw [this]; simp
  refine ⟨hst, harch, hn, h16, T, gl, ?_, ⟨hl.seg, hl.nodup, hl.count⟩, hg⟩
  refine ⟨h.nodup, h.dom, h.body, h.inj, h.arrDom, h.disj, ?_, ?_, ?_, ?_, h.npos, h.fit⟩
  · intro t x o hx ho
    obtain ⟨_, e2, e3⟩ := h1 (x.code + o) (own t x _ hx (by simp only at ho; unfold InReg; omega))
    simp only [e2, e3]
    exact h.code t x o hx ho
  · intro t x o hx ho
    obtain ⟨_, e2, e3⟩ := h1 (x.code + g.s.mapSize + o) (own t x _ hx (by simp only at ho; unfold InReg; omega))
    simp only [e2]
    exact h.data t x o hx ho
  · intro a hout
    apply h2
    intro ho
    have := h.out a hout
    rw [ho.2] at this
    exact ho.1 this
  · intro t x a hx hr
    exact (h1 a (own t x a hx hr)).1

/-- `ffi_tramp_alloc` as the first operation. -/
theorem alloc_idle {P : Plat} {other : Nat → Option Prot} {s : St} {v : Env} {f : Int} (hP : PlatOk P)
    (hI : Idle other s) (he : EnvOk P s v) :
    ∃ s' r, alloc P v f s = .ok (s', r) ∧ (∀ a, s.prot a ≠ none → s'.mem a = s.mem a) ∧
      ((r = none ∧ Idle other s' ∧
          (s.status = .failed ∨ P.arch = none ∨ (∃ size ms text p, P.arch = some (size, ms, text) ∧ P.page = some p ∧ ms < p) ∨
            ((v.libffi = false ∨ v.e1.table = none ∨ v.e1.array = none ∨ v.e1.map1 = none ∨ v.e1.map2 = false) ∧
             (v.temp = false ∨ v.e2.table = none ∨ v.e2.array = none ∨ v.e2.map1 = none ∨ v.e2.map2 = false)))) ∨
       (r = none ∧ f ≠ 0 ∧ ∃ fr, Active P other s' fr ∧ ∀ p, ¬ Live s' fr p) ∨
       (∃ p fr, r = some p ∧ f = 0 ∧ Active P other s' fr ∧ ∀ q, Live s' fr q ↔ q = p)) := by
  obtain ⟨s1, b, h1, h2, h3⟩ := trampInit_idle hP hI he
  rcases h3 with ⟨rfl, c1, c2⟩ | ⟨rfl, c1, c1', fr, c2, c3, c4⟩
  · refine ⟨s1, none, ?_, h2, .inl ⟨rfl, c1, c2⟩⟩
    unfold alloc
    simp only [h1, bind, Except.bind, pure, Except.pure]
  · let v0 : Env := ⟨false, false, ⟨none, none, none, false⟩, ⟨none, none, none, false⟩, ⟨none, none, none, false⟩⟩
    have hv0 : EnvOk P s1 v0 := by
      intro _ _ _ _
      refine ⟨⟨?_, ?_, ?_⟩, ⟨?_, ?_, ?_⟩, ⟨?_, ?_, ?_⟩⟩ <;> simp [v0]
    have hsame : alloc P v f s = alloc P v f s1 := by
      have : trampInit P v s1 = .ok (s1, true) := by
        unfold trampInit; rw [if_pos c2.status]; rfl
      unfold alloc
      simp only [h1, this, bind, Except.bind]
    obtain ⟨s', r, d1, d2, d3, d4, d5⟩ := alloc_active (f := f) c2 hv0
    have other_of : ∀ a, s.prot a ≠ none → s1.prot a ≠ none := by
      intro a ha
      obtain ⟨_, _, _, _, T, gl, h, _, _⟩ := c2
      rw [hI.prot] at ha
      rw [h.out a fun t x hx hr => ha (h.fresh t x a hx hr)]
      exact ha
    have hmem : ∀ a, s.prot a ≠ none → s'.mem a = s.mem a := fun a ha =>
      ((d2 a (other_of a ha)).1).trans (h2 a ha)
    rcases d5 with ⟨rfl, e1, _, _, _, _, _, e2⟩ | ⟨p, fr', rfl, e1, e2, e3, e4, e5, e6⟩
    · have hf : f ≠ 0 := by
        rcases e2 with e2 | ⟨e2, _⟩
        · exact e2
        · obtain ⟨t, x, hx, hne⟩ := c4
          exact absurd (e2 t x hx) hne
      refine ⟨s1, none, ?_, h2, .inr (.inl ⟨rfl, hf, fr, c2, c3⟩)⟩
      rw [hsame]
      have : trampInit P v s1 = .ok (s1, true) := by
        unfold trampInit; rw [if_pos c2.status]; rfl
      unfold alloc
      simp only [this, bind, Except.bind, pure, Except.pure]
      simp [hf]
    · refine ⟨s', some p, by rw [hsame]; exact e6 c4 v, hmem, .inr (.inr ⟨p, fr', rfl, e1, e2, ?_⟩)⟩
      intro q
      rw [e4]
      simp [c3 q]

/-- The invariant of all histories. -/
def Inv (P : Plat) (g : G) : Prop :=
  (Idle g.other g.s ∧ g.live = []) ∨
  ∃ fr, Active P g.other g.s fr ∧ g.live.Nodup ∧ (∀ p, p ∈ g.live ↔ Live g.s fr p) ∧
    ∀ p ∈ g.live, ∀ tg d c, g.vals p = some (tg, d) → At g.s p c →
      g.s.mem.rd (c + g.s.mapSize) 16 = leBytes 8 d ++ leBytes 8 tg

theorem leBytes_pair_length (d tg : Nat) : (leBytes 8 d ++ leBytes 8 tg).length = 16 := by simp

theorem inv_step {P : Plat} (hP : PlatOk P) {g g' : G} (hi : Inv P g) (hs : Step P g g') : Inv P g' := by
  -- parameter blocks survive a change of memory outside mapped bytes
  have keepv : ∀ {fr} {s' : St} {q c}, Active P g.other g.s fr → Live g.s fr q → At g.s q c → SameC g.s s' →
      (∀ a, g.s.prot a ≠ none → s'.mem a = g.s.mem a) →
      s'.mem.rd (c + s'.mapSize) 16 = g.s.mem.rd (c + g.s.mapSize) 16 := by
    intro fr s' q c hA hq hc hsame hm
    obtain ⟨y, _, f2, f3, _, f5, _, _⟩ := live_facts hA hq
    have : c = y.code := by
      obtain ⟨_, _, _, _, T, gl, h, _, _⟩ := hA
      exact At.unique h hc f2
    subst this
    rw [hsame.2.1]
    apply Mem.rd_congr
    intro i hi
    apply hm
    rw [← f3, f5 i (by have := hA.sizeOk; omega)]
    simp
  cases hs with
  | @supported v s' b he hr =>
    rcases hi with ⟨hI, hl⟩ | ⟨fr, hA, h1, h2, h3⟩
    · obtain ⟨s1, b', e1, e2, e3⟩ := trampInit_idle hP hI he
      have : (s1, b') = (s', b) := by
        have hr' : trampInit P v g.s = .ok (s', b) := hr
        rw [e1] at hr'
        exact Except.ok.inj hr'
      obtain ⟨rfl, rfl⟩ := Prod.mk.inj this
      rcases e3 with ⟨_, f1, _⟩ | ⟨_, _, _, fr, f1, f2, _⟩
      · exact .inl ⟨f1, hl⟩
      · refine .inr ⟨fr, f1, by simp [hl], ?_, by simp [hl]⟩
        intro p
        simp [hl, f2 p]
    · have : s' = g.s := by
        have hr' : trampInit P v g.s = .ok (s', b) := hr
        unfold trampInit at hr'
        rw [if_pos hA.status] at hr'
        simp only [pure, Except.pure, Except.ok.injEq, Prod.mk.injEq] at hr'
        exact hr'.1.symm
      subst this
      exact .inr ⟨fr, hA, h1, h2, h3⟩
  | @allocFail v f s' he hr =>
    rcases hi with ⟨hI, hl⟩ | ⟨fr, hA, h1, h2, h3⟩
    · obtain ⟨s1, r, e1, e2, e3⟩ := alloc_idle (f := f) hP hI he
      rw [hr] at e1
      obtain ⟨rfl, rfl⟩ := Prod.mk.inj (Except.ok.inj e1)
      rcases e3 with ⟨_, f1, _⟩ | ⟨_, _, fr, f1, f2⟩ | ⟨p, fr, f1, _⟩
      · exact .inl ⟨f1, hl⟩
      · refine .inr ⟨fr, f1, by simp [hl], ?_, by simp [hl]⟩
        intro p
        simp [hl, f2 p]
      · simp at f1
    · obtain ⟨s1, r, e1, e2, e3, e4, e5⟩ := alloc_active (f := f) hA he
      rw [hr] at e1
      obtain ⟨rfl, rfl⟩ := Prod.mk.inj (Except.ok.inj e1)
      rcases e5 with ⟨_, f1, f2, f3, f4, _⟩ | ⟨p, fr', f1, _⟩
      · have hlive : ∀ p, Live s' fr p ↔ Live g.s fr p := by
          intro p; unfold Live; rw [f2, e4.2.2.1]
        have hat : ∀ p c, At s' p c ↔ At g.s p c := by
          intro p c; unfold At; rw [f2, e4.1]
        refine .inr ⟨fr, f1, h1, fun p => (h2 p).trans (hlive p).symm, ?_⟩
        intro p hp tg d c hv hc
        have hc' := (hat p c).1 hc
        exact (keepv hA ((h2 p).1 hp) hc' e4 fun a ha => (e2 a ha).1).trans (h3 p hp tg d c hv hc')
      · simp at f1
  | @alloc v f s' p he hr =>
    rcases hi with ⟨hI, hl⟩ | ⟨fr, hA, h1, h2, h3⟩
    · obtain ⟨s1, r, e1, e2, e3⟩ := alloc_idle (f := f) hP hI he
      rw [hr] at e1
      obtain ⟨rfl, rfl⟩ := Prod.mk.inj (Except.ok.inj e1)
      rcases e3 with ⟨f1, _⟩ | ⟨f1, _⟩ | ⟨p', fr, f1, _, f2, f3⟩
      · simp at f1
      · simp at f1
      · rw [Option.some.injEq] at f1
        subst f1
        refine .inr ⟨fr, f2, by simp [hl], ?_, ?_⟩
        · intro q; simp [hl, f3 q]
        · intro q hq tg d c hv
          simp only [hl, List.mem_singleton] at hq
          subst hq
          simp at hv
    · obtain ⟨s1, r, e1, e2, e3, e4, e5⟩ := alloc_active (f := f) hA he
      rw [hr] at e1
      obtain ⟨rfl, rfl⟩ := Prod.mk.inj (Except.ok.inj e1)
      rcases e5 with ⟨f1, _⟩ | ⟨p', fr', f1, _, f2, f3, f4, f5, _⟩
      · simp at f1
      · rw [Option.some.injEq] at f1
        subst f1
        have hnp : p ∉ g.live := fun hc => f3 ((h2 p).1 hc)
        refine .inr ⟨fr', f2, List.nodup_cons.2 ⟨hnp, h1⟩, ?_, ?_⟩
        · intro q
          rw [List.mem_cons, f4, h2 q, or_comm]
        · intro q hq tg d c hv hc
          rcases List.mem_cons.1 hq with rfl | hq
          · simp at hv
          · have hne : q ≠ p := fun e => hnp (e ▸ hq)
            simp only [upd_other _ _ hne] at hv
            have hql := (h2 q).1 hq
            obtain ⟨y, _, g2, _⟩ := live_facts hA hql
            have : c = y.code := by
              obtain ⟨_, _, _, _, T, gl, h, _, _⟩ := f2
              exact At.unique h hc (f5 q _ hql g2)
            subst this
            exact (keepv hA hql g2 e4 fun a ha => (e2 a ha).1).trans (h3 q hq tg d _ hv g2)
  | @setParms p target data s' hp hr =>
    rcases hi with ⟨hI, hl⟩ | ⟨fr, hA, h1, h2, h3⟩
    · rw [hl] at hp; simp at hp
    · have hpl := (h2 p).1 hp
      obtain ⟨s1, y, e1, e2, e3, e4⟩ := setParms_active hA hpl target data
      rw [hr] at e1
      obtain rfl := Except.ok.inj e1
      obtain ⟨y', g1, g2, g3, _, _, _, _⟩ := live_facts hA hpl
      rw [e2] at g1
      obtain rfl := Except.ok.inj g1
      have hat : ∀ q c, At s' q c ↔ At g.s q c := by
        intro q c; rw [e3]; exact Iff.rfl
      refine .inr ⟨fr, e4, h1, ?_, ?_⟩
      · intro q
        rw [h2 q, e3]; exact Iff.rfl
      · intro q hq tg d c hv hc
        have hc' := (hat q c).1 hc
        simp only at hq
        have hql := (h2 q).1 hq
        by_cases hqp : q = p
        · subst hqp
          simp only [upd_same, Option.some.injEq, Prod.mk.injEq] at hv
          obtain ⟨rfl, rfl⟩ := hv
          have : c = y.code := by
            obtain ⟨_, _, _, _, T, gl, h, _, _⟩ := hA
            exact At.unique h hc' g2
          subst this
          simp only [e3]
          rw [g3, ← leBytes_pair_length data target, Mem.rd_wr_same]
        · simp only [upd_other _ _ hqp] at hv
          rw [← h3 q hq tg d c hv hc']
          simp only [e3]
          apply Mem.rd_wr_disj
          rw [leBytes_pair_length, g3]
          have hd := (live_disjoint hA hql hpl hqp hc' g2).1
          have := hA.sizeOk
          omega
  | @free p s' hp hr =>
    rcases hi with ⟨hI, hl⟩ | ⟨fr, hA, h1, h2, h3⟩
    · rw [hl] at hp; simp at hp
    · obtain ⟨s1, fr', e1, e2, e3, e4, e5, e6, e7⟩ := free_active hA ((h2 p).1 hp)
      rw [hr] at e1
      obtain rfl := Except.ok.inj e1
      refine .inr ⟨fr', e2, h1.erase p, ?_, ?_⟩
      · intro q
        rw [e6, ← h2 q]
        simp only [List.Nodup.mem_erase_iff h1]
        exact and_comm
      · intro q hq tg d c hv hc
        simp only [List.Nodup.mem_erase_iff h1] at hq
        have hql := (h2 q).1 hq.2
        obtain ⟨y, _, g2, _⟩ := live_facts hA hql
        have : c = y.code := by
          obtain ⟨_, _, _, _, T, gl, h, _, _⟩ := e2
          exact At.unique h hc (e7 q _ hql hq.1 g2)
        subst this
        exact (keepv hA hql g2 e5 fun a _ => by rw [e3]).trans (h3 q hq.2 tg d _ hv g2)
  | @outside other' prot' mem' ho1 ho2 =>
    rcases hi with ⟨hI, hl⟩ | ⟨fr, hA, h1, h2, h3⟩
    · refine .inl ⟨⟨hI.status, hI.tables, hI.arrays, ?_, hI.fd⟩, hl⟩
      funext a
      apply ho2
      intro ho
      have := hI.prot
      exact ho.1 ((congrFun this a).trans ho.2)
    · refine .inr ⟨fr, outside_active hA ho1 ho2, h1, h2, ?_⟩
      intro q hq tg d c hv hc
      rw [← h3 q hq tg d c hv hc]
      have hql := (h2 q).1 hq
      obtain ⟨y, _, g2, g3, _, g5, g6, _⟩ := live_facts hA hql
      have : c = y.code := by
        obtain ⟨_, _, _, _, T, gl, h, _, _⟩ := hA
        exact At.unique h hc g2
      subst this
      have := hA.sizeOk
      apply Mem.rd_congr
      intro i hi
      simp only
      rw [← g3]
      refine (ho1 _ ⟨?_, (g6 i (by omega)).2⟩).2.2
      rw [g5 i (by omega)]
      simp

theorem inv_reach {P : Plat} (hP : PlatOk P) {g : G} (hr : Reach P g) : Inv P g := by
  induction hr with
  | init mem prot => exact .inl ⟨⟨by simp [St.init], fun _ => rfl, fun _ => rfl, rfl, rfl⟩, rfl⟩
  | step _ hs ih => exact inv_step hP ih hs

end Verif.Tramp
