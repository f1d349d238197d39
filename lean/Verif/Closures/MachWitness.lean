import Verif.Closures.MachReach
import Mathlib.Data.List.Perm.Subperm

/-
A history of allocations and frees that makes `ffi_trampoline_table_free` write to a table
that was freed, for every number of trampolines per page from 2 on.
-/
namespace Verif.Mach
open Verif

/-! ## Fresh blocks exist -/

/-- Everything in use lies below `N`. -/
def Bdd (N : Nat) (s : St) : Prop :=
  ∀ n, N ≤ n → s.closures n = none ∧ s.tables n = none ∧ s.pools n = none ∧ s.prot n = none

def Bd (s : St) : Prop := ∃ N, Bdd N s

theorem Bd.setT {s s' : St} {t f} (h : Bd s) (e : s.setT t f = .ok s') : Bd s' := by
  obtain ⟨N, h⟩ := h
  unfold St.setT at e
  split at e
  · rename_i x hx
    obtain rfl := Except.ok.inj e
    refine ⟨N, fun n hn => ⟨(h n hn).1, ?_, (h n hn).2.2⟩⟩
    show upd _ _ _ _ = none
    rw [upd_ne _ _ (by rintro rfl; rw [(h n hn).2.1] at hx; simp at hx)]
    exact (h n hn).2.1
  · simp at e

theorem Bd.setT? {s s' : St} {t f} (h : Bd s) (e : s.setT? t f = .ok s') : Bd s' := by
  cases t with
  | none => obtain rfl := Except.ok.inj e; exact h
  | some t => exact h.setT e

theorem Bd.setE {m : Nat} {s s' : St} {t f} (h : Bd s) (e : s.setE m t f = .ok s') : Bd s' := by
  obtain ⟨N, h⟩ := h
  unfold St.setE at e
  split at e
  · rename_i x hx
    split at e
    · obtain rfl := Except.ok.inj e
      refine ⟨N, fun n hn => ⟨(h n hn).1, (h n hn).2.1, ?_, (h n hn).2.2.2⟩⟩
      show upd _ _ _ _ = none
      rw [upd_ne _ _ (by rintro rfl; rw [(h _ hn).2.2.1] at hx; simp at hx)]
      exact (h n hn).2.2.1
    · simp at e
  · simp at e

theorem Bd.setProt {s : St} {a n p} (h : Bd s) : Bd (s.setProt a n p) := by
  obtain ⟨N, h⟩ := h
  refine ⟨max N (a + n), fun k hk => ⟨(h k (by omega)).1, (h k (by omega)).2.1, (h k (by omega)).2.2.1, ?_⟩⟩
  simp only [St.setProt]
  rw [if_neg (by omega)]
  exact (h k (by omega)).2.2.2

theorem Bd.closure {s : St} {a x} (h : Bd s) : Bd { s with closures := upd s.closures a x } := by
  obtain ⟨N, h⟩ := h
  refine ⟨max N (a + 1), fun k hk => ⟨?_, (h k (by omega)).2⟩⟩
  show upd _ _ _ _ = none
  rw [upd_ne _ _ (by omega)]
  exact (h k (by omega)).1

theorem Bd.table {s : St} {a x} (h : Bd s) : Bd { s with tables := upd s.tables a x } := by
  obtain ⟨N, h⟩ := h
  refine ⟨max N (a + 1), fun k hk => ⟨(h k (by omega)).1, ?_, (h k (by omega)).2.2⟩⟩
  show upd _ _ _ _ = none
  rw [upd_ne _ _ (by omega)]
  exact (h k (by omega)).2.1

theorem Bd.pool {s : St} {a x} (h : Bd s) : Bd { s with pools := upd s.pools a x } := by
  obtain ⟨N, h⟩ := h
  refine ⟨max N (a + 1), fun k hk => ⟨(h k (by omega)).1, (h k (by omega)).2.1, ?_, (h k (by omega)).2.2.2⟩⟩
  show upd _ _ _ _ = none
  rw [upd_ne _ _ (by omega)]
  exact (h k (by omega)).2.2.1

theorem Bd.head {s : St} {x} (h : Bd s) : Bd { s with head := x } := h

theorem Bd.fillPool {c : Cfg} {p page : Nat} : ∀ {k i : Nat} {s s' : St}, Bd s →
    fillPool c p page k i s = .ok s' → Bd s'
  | 0, _, _, _, h, e => by obtain rfl := Except.ok.inj e; exact h
  | k + 1, i, s, s', h, e => by
    simp only [Mach.fillPool, bind, Except.bind] at e
    split at e
    · simp at e
    · rename_i s1 e1
      have h1 := h.setE e1
      split at e
      · split at e
        · simp at e
        · rename_i s2 e2
          exact Bd.fillPool (h1.setE e2) e
      · exact Bd.fillPool h1 e

theorem Bd.tableAlloc {c : Cfg} {v : Env} {s s' : St} {r} (h : Bd s) (e : tableAlloc c v s = .ok (s', r)) : Bd s' := by
  unfold Mach.tableAlloc at e
  split at e
  · simp only [pure, Except.pure, Except.ok.injEq, Prod.mk.injEq] at e
    rw [← e.1]; exact h
  · rename_i m _
    split at e
    · simp only [pure, Except.pure, Except.ok.injEq, Prod.mk.injEq] at e
      rw [← e.1]; exact h.setProt.setProt
    · split at e
      · simp only [pure, Except.pure, Except.ok.injEq, Prod.mk.injEq] at e
        rw [← e.1]; exact h.setProt.setProt
      · split at e
        · simp at e
        · split at e
          · simp at e
          · simp only [bind, Except.bind] at e
            split at e
            · simp at e
            · rename_i s1 e1
              split at e
              · simp at e
              · rename_i s2 e2
                split at e
                · simp at e
                · rename_i s3 e3
                  simp only [pure, Except.pure, Except.ok.injEq, Prod.mk.injEq] at e
                  rw [← e.1]
                  have h0 := ((h.setProt (a := m) (n := 2 * c.page) (p := some .rw)).setProt (a := m + c.page) (n := c.page) (p := some .rx))
                  exact (Bd.fillPool ((h0.table.pool).setT e1) e2).setT e3

theorem Bd.claim {c : Cfg} {cl t : Nat} {s s' : St} {r} (h : Bd s) (e : claim c cl t s = .ok (s', r)) : Bd s' := by
  unfold Mach.claim at e
  split at e
  · simp at e
  · simp only [bind, Except.bind] at e
    split at e
    · simp at e
    · split at e
      · simp at e
      · split at e
        · simp at e
        · split at e
          · simp at e
          · rename_i s1 e1
            split at e
            · simp at e
            · rename_i s2 e2
              split at e
              · simp at e
              · rename_i s3 e3
                simp only [pure, Except.pure, Except.ok.injEq, Prod.mk.injEq] at e
                rw [← e.1]
                exact (((h.setT e1).setT e2).setE e3).closure

theorem Bd.alloc {c : Cfg} {v : Env} {s s' : St} {r} (h : Bd s) (e : alloc c v s = .ok (s', r)) : Bd s' := by
  unfold Mach.alloc at e
  split at e
  · simp only [pure, Except.pure, Except.ok.injEq, Prod.mk.injEq] at e
    rw [← e.1]; exact h
  · rename_i cl junk _
    have h0 := h.closure (a := cl) (x := some junk)
    simp only [bind, Except.bind] at e
    split at e
    · simp at e
    · split at e
      · split at e
        · simp at e
        · rename_i w hw
          obtain ⟨s1, r1⟩ := w
          have h1 := h0.tableAlloc hw
          cases r1 with
          | none =>
            simp only [pure, Except.pure, Except.ok.injEq, Prod.mk.injEq] at e
            rw [← e.1]; exact h1.closure
          | some t =>
            simp only at e
            split at e
            · simp at e
            · rename_i s2 e2
              split at e
              · simp at e
              · rename_i s3 e3
                exact ((h1.setT e2).setT? e3).head.claim e
      · split at e
        · simp at e
        · exact h0.claim e

theorem Bd.tableFree {c : Cfg} {t : Nat} {s s' : St} (h : Bd s) (e : tableFree c t s = .ok s') : Bd s' := by
  unfold Mach.tableFree at e
  simp only [bind, Except.bind] at e
  split at e
  · simp at e
  · split at e
    · simp at e
    · rename_i s1 e1
      split at e
      · simp at e
      · split at e
        · simp at e
        · rename_i s2 e2
          split at e
          · simp at e
          · split at e
            · simp at e
            · obtain rfl := Except.ok.inj e
              exact ((((h.setT? e1).setT? e2).setProt)).pool.table

theorem Bd.free {c : Cfg} {cl : Nat} {s s' : St} (h : Bd s) (e : free c cl s = .ok s') : Bd s' := by
  unfold Mach.free at e
  split at e
  · simp at e
  · simp only [bind, Except.bind] at e
    split at e
    · simp at e
    · split at e
      · simp at e
      · rename_i s1 e1
        split at e
        · simp at e
        · rename_i s2 e2
          split at e
          · simp at e
          · rename_i s3 e3
            have h3 := ((h.setE e1).setT e2).setT e3
            split at e
            · simp at e
            · split at e
              · split at e
                · simp at e
                · rename_i s4 e4
                  simp only [pure, Except.pure, Except.ok.injEq] at e
                  rw [← e]; exact (h3.tableFree e4).closure
              · split at e
                · split at e
                  · simp at e
                  · rename_i s4 e4
                    split at e
                    · simp at e
                    · rename_i s5 e5
                      split at e
                      · simp at e
                      · rename_i s6 e6
                        simp only [pure, Except.pure, Except.ok.injEq] at e
                        rw [← e]; exact (((h3.setT e4).setT e5).setT? e6).head.closure
                · simp only [pure, Except.pure, Except.ok.injEq] at e
                  rw [← e]; exact h3.closure

/-- Platform results that satisfy `EnvOk` and make the allocation succeed. -/
theorem Bd.env {s : St} (h : Bd s) (c : Cfg) : ∃ v, EnvOk c s v ∧ ¬ (v.closure = none ∨ VmFails v) := by
  obtain ⟨N, h⟩ := h
  refine ⟨⟨some (N, ⟨0, (0, 0)⟩), some N, some true, true, some N, some N⟩, ⟨?_, ?_, ?_, ?_⟩, ?_⟩
  · intro a j e
    simp only [Option.some.injEq, Prod.mk.injEq] at e
    obtain ⟨rfl, _⟩ := e
    exact (h _ le_rfl).1
  · intro m e o _
    simp only [Option.some.injEq] at e
    subst e
    exact (h _ (by omega)).2.2.2
  · exact ⟨N, rfl, (h _ le_rfl).2.1⟩
  · exact ⟨N, rfl, (h _ le_rfl).2.2.1⟩
  · simp [VmFails]

abbrev Links := Nat → Option (Option Nat × Option Nat)

/-- A reachable state with its first table, its links and the number of free entries of each
table. -/
def W (c : Cfg) (g : G) (hd : Option Nat) (L : Links) (n : Nat → Nat) : Prop :=
  Reach c g ∧ Bd g.s ∧ g.s.head = hd ∧ (∀ t, links g.s t = L t) ∧ ∃ fl, Inv c g fl ∧ ∀ t, (fl t).length = n t

theorem upd_len {fl : Nat → List Nat} {n : Nat → Nat} (h : ∀ t, (fl t).length = n t) (t : Nat) (l : List Nat) (k : Nat)
    (hl : l.length = k) : ∀ t', (upd fl t l t').length = upd n t k t' := by
  intro t'
  by_cases e : t' = t
  · subst e; simp [hl]
  · simp [upd_ne _ _ e, h]

theorem W.init (c : Cfg) : W c ⟨St.init fun _ => none, [], fun _ => none⟩ none (fun _ => none) fun _ => 0 :=
  ⟨.init _, ⟨0, fun _ _ => ⟨rfl, rfl, rfl, rfl⟩⟩, rfl, fun _ => rfl, _, inv_init c _, fun _ => rfl⟩

theorem W.allocSame {c : Cfg} (hc : CfgOk c) {g hd L n} (h : W c g (some hd) L n) (hn : 0 < n hd) :
    ∃ g', W c g' (some hd) L (upd n hd (n hd - 1)) := by
  obtain ⟨hr, hb, hh, hl, fl, hI, hlen⟩ := h
  obtain ⟨v, hv, hnf⟩ := hb.env c
  rcases alloc_inv hc hI hv with ⟨_, h1⟩ | ⟨s', p, t, i, l, e, hh', hp, ⟨k1, k2, k3, x, x', k4, k5, k6, k7⟩ | ⟨_, k2, _⟩⟩
  · exact absurd h1 hnf
  · rw [hh] at k1
    obtain rfl := Option.some.inj k1
    refine ⟨_, hr.step (.alloc hv e), hb.alloc e, hh', ?_, _, k3, upd_len hlen _ _ _ ?_⟩
    · intro t
      rw [← hl t]
      show Option.map _ (s'.tables t) = _
      rw [k7]
      by_cases e : t = hd
      · subst e; simp [links, k4, k5, k6]
      · simp [links, upd_ne _ _ e]
    · rw [← hlen hd, k2]; simp
  · rw [← hlen hd, k2 hd hh] at hn
    simp at hn

theorem W.fill {c : Cfg} (hc : CfgOk c) {hd L} : ∀ (k : Nat) {g n}, W c g (some hd) L n → n hd = k →
    ∃ g', W c g' (some hd) L (upd n hd 0)
  | 0, g, n, h, e => ⟨g, by
      have : upd n hd 0 = n := by
        funext x
        by_cases e' : x = hd
        · subst e'; simp [e]
        · simp [upd_ne _ _ e']
      rw [this]; exact h⟩
  | k + 1, g, n, h, e => by
      obtain ⟨g', h'⟩ := h.allocSame hc (by omega)
      obtain ⟨g'', h''⟩ := W.fill hc k h' (by simp [e])
      rw [upd_upd] at h''
      exact ⟨g'', h''⟩

theorem W.allocNew {c : Cfg} (hc : CfgOk c) {g hd L n} (h : W c g hd L n) (hn : ∀ h0, hd = some h0 → n h0 = 0) :
    ∃ g' t, L t = none ∧ W c g' (some t) (fun t' => if t' = t then some (none, hd) else
      if hd = some t' then (L t').map (fun l => (some t, l.2)) else L t') (upd n t (c.count - 1)) := by
  obtain ⟨hr, hb, hh, hl, fl, hI, hlen⟩ := h
  obtain ⟨v, hv, hnf⟩ := hb.env c
  rcases alloc_inv hc hI hv with ⟨_, h1⟩ | ⟨s', p, t, i, l, e, hh', hp, ⟨k1, k2, _⟩ | ⟨k1, k2, k3, k4, x', k5, k6, k7⟩⟩
  · exact absurd h1 hnf
  · have := hn t (by rw [← hh, k1])
    rw [← hlen t, k2] at this
    simp at this
  · refine ⟨_, t, by rw [← hl t, links_none]; exact k1, hr.step (.alloc hv e), hb.alloc e, hh', ?_, _, k4, upd_len hlen _ _ _ ?_⟩
    · intro t'
      show Option.map _ (s'.tables t') = _
      rw [k7 t', hh]
      beta_reduce
      by_cases e1 : t' = t
      · rw [if_pos e1, if_pos e1]; simp [k5, k6, hh]
      · rw [if_neg e1, if_neg e1, ← hl t']
        split
        · simp [links, Option.map_map, Function.comp_def]
        · rfl
    · have := congrArg List.length k3
      simp at this
      omega

/-- Some closure of table `t`. -/
theorem Inv.pick {c : Cfg} {g : G} {fl} (h : Inv c g fl) {t : Nat} (ht : g.s.tables t ≠ none) (hlen : (fl t).length < c.count) :
    ∃ p ∈ g.live, ∃ i, At c g p t i := by
  have : ∃ i, i < c.count ∧ i ∉ fl t := by
    by_contra hcon
    have hsub : List.range c.count ⊆ fl t := fun i hi => by
      by_contra hn
      exact hcon ⟨i, by simpa using hi, hn⟩
    have := (List.subperm_of_subset List.nodup_range hsub).length_le
    simp at this
    omega
  obtain ⟨i, hi, hni⟩ := this
  obtain ⟨p, hp, hat⟩ := h.used t i ht hi hni
  exact ⟨p, hp, i, hat⟩

theorem W.tab {c : Cfg} {g hd L n} (h : W c g hd L n) {t} (hL : L t ≠ none) : g.s.tables t ≠ none := by
  intro e
  exact hL (by rw [← h.2.2.2.1 t, links_none]; exact e)

theorem W.freeHead {c : Cfg} (hc : CfgOk c) {g hd L n} (h : W c g (some hd) L n) (hL : L hd ≠ none) (hn : n hd < c.count) :
    ∃ g', W c g' (some hd) L (upd n hd (n hd + 1)) := by
  have ht := h.tab hL
  obtain ⟨hr, hb, hh, hl, fl, hI, hlen⟩ := h
  obtain ⟨p, hp, i, hat⟩ := hI.pick ht (by rw [hlen]; exact hn)
  obtain ⟨s', e, hI', hh', hl'⟩ := free_head hc hI hp hat hh
  exact ⟨_, hr.step (.free hp e), hb.free e, hh', fun t => (hl' t).trans (hl t), _, hI', upd_len hlen _ _ _ (by simp [hlen])⟩

theorem W.drain {c : Cfg} (hc : CfgOk c) {hd L} (hL : L hd ≠ none) : ∀ (k : Nat) {g n}, W c g (some hd) L n → n hd + k ≤ c.count →
    ∃ g', W c g' (some hd) L (upd n hd (n hd + k))
  | 0, g, n, h, _ => ⟨g, by
      have : upd n hd (n hd + 0) = n := by
        funext x
        by_cases e' : x = hd
        · subst e'; simp
        · simp [upd_ne _ _ e']
      rw [this]; exact h⟩
  | k + 1, g, n, h, e => by
      obtain ⟨g', h'⟩ := h.freeHead hc hL (by omega)
      obtain ⟨g'', h''⟩ := W.drain hc hL k h' (by simp; omega)
      rw [upd_upd, upd_same] at h''
      exact ⟨g'', by rw [Nat.add_right_comm] at h''; exact h''⟩

theorem W.bump {c : Cfg} (hc : CfgOk c) {g hd L n} (h : W c g hd L n) {t} (hL : L t ≠ none) (hd' : hd ≠ some t)
    (hn : n t + 1 < c.count) :
    ∃ g', W c g' (some t) (fun t' => if t' = t then some (none, hd) else
      if hd = some t' then (L t').map (fun l => (some t, l.2)) else L t') (upd n t (n t + 1)) := by
  have ht := h.tab hL
  obtain ⟨hr, hb, hh, hl, fl, hI, hlen⟩ := h
  obtain ⟨p, hp, i, hat⟩ := hI.pick ht (by rw [hlen]; omega)
  obtain ⟨s', e, hI', hh', hl'⟩ := free_bump hc hI hp hat (by rw [hh]; exact hd') (by rw [hlen]; omega)
  exact ⟨_, hr.step (.free hp e), hb.free e, hh', fun t => by rw [hl' t, hh, hl t], _, hI', upd_len hlen _ _ _ (by simp [hlen])⟩

theorem W.release {c : Cfg} (hc : CfgOk c) {g hd L n} (h : W c g hd L n) {t pv nx} (hL : L t = some (pv, nx)) (hd' : hd ≠ some t)
    (hn : n t + 1 = c.count) (h1 : ∀ q, pv = some q → L q ≠ none) (h2 : ∀ q, nx = some q → L q ≠ none) :
    ∃ g', W c g' hd (fun t' => if t' = t then none
        else if nx = some t' then (L t').map (fun l => (pv, if pv = some t' then nx else l.2))
        else (L t').map (fun l => (l.1, if pv = some t' then nx else l.2))) (upd n t (n t + 1)) := by
  have ht := h.tab (t := t) (by rw [hL]; simp)
  have hnd : ¬ Dangling g.s t := by
    rintro ⟨x, hx, hq⟩
    have := h.2.2.2.1 t
    simp only [links, hx, hL, Option.map_some, Option.some.injEq, Prod.mk.injEq] at this
    rw [this.1, this.2] at hq
    rcases hq with ⟨q, e, hq⟩ | ⟨q, e, hq⟩
    · exact h.tab (h1 q e) hq
    · exact h.tab (h2 q e) hq
  obtain ⟨hr, hb, hh, hl, fl, hI, hlen⟩ := h
  obtain ⟨p, hp, i, hat⟩ := hI.pick ht (by rw [hlen]; omega)
  obtain ⟨s', e, hI', hh', hl'⟩ := free_release hc hI hp hat (by rw [hh]; exact hd') (by rw [hlen]; omega) hnd
  exact ⟨_, hr.step (.free hp e), hb.free e, hh'.trans hh, fun t' => by rw [hl' pv nx (by rw [hl t, hL]) t', hl t'], _, hI', upd_len hlen _ _ _ (by simp [hlen])⟩

theorem W.fault {c : Cfg} (hc : CfgOk c) {g hd L n} (h : W c g hd L n) {t pv nx} (hL : L t = some (pv, nx)) (hd' : hd ≠ some t)
    (hn : n t + 1 = c.count) (h1 : ∃ q, nx = some q ∧ L q = none) :
    ∃ p ∈ g.live, free c p.1 g.s = .error .fault := by
  have ht := h.tab (t := t) (by rw [hL]; simp)
  obtain ⟨hr, hb, hh, hl, fl, hI, hlen⟩ := h
  obtain ⟨p, hp, i, hat⟩ := hI.pick ht (by rw [hlen]; omega)
  refine ⟨p, hp, free_fault hc hI hp hat (by rw [hh]; exact hd') (by rw [hlen]; omega) ?_⟩
  obtain ⟨x, hx⟩ := Option.ne_none_iff_exists'.1 ht
  refine ⟨x, hx, .inr ?_⟩
  have := hl t
  simp only [links, hx, hL, Option.map_some, Option.some.injEq, Prod.mk.injEq] at this
  obtain ⟨q, e, hq⟩ := h1
  exact ⟨q, by rw [this.2, e], by rw [← links_none, hl q, hq]⟩

/-- Three tables; the middle one is moved to the front, a second one is moved before it, and
then it is released: the third still points to it. -/
theorem use_after_free {c : Cfg} (hc : CfgOk c) (h2 : 2 ≤ c.count) :
    ∃ g, Reach c g ∧ ∃ p ∈ g.live, free c p.1 g.s = .error .fault := by
  obtain ⟨_, A, _, w⟩ := (W.init c).allocNew hc (by simp)
  obtain ⟨_, w⟩ := w.fill hc _ rfl
  obtain ⟨_, B, hB, w⟩ := w.allocNew hc (by simp)
  have hBA : B ≠ A := by rintro rfl; simp at hB
  have hAB := hBA.symm
  obtain ⟨_, w⟩ := w.fill hc _ rfl
  obtain ⟨_, C, hC, w⟩ := w.allocNew hc (by simp)
  have hCB : C ≠ B := by rintro rfl; simp at hC
  have hCA : C ≠ A := by rintro rfl; simp [hAB] at hC
  have hBC := hCB.symm
  have hAC := hCA.symm
  obtain ⟨_, w⟩ := w.bump hc (t := B) (by simp [hBC]) (by simp [hCB]) (by simp [upd_ne, hBC, hBA]; omega)
  obtain ⟨_, w⟩ := w.drain hc (by simp) (c.count - 2) (by simp [upd_ne, hBC, hBA]; omega)
  obtain ⟨_, w⟩ := w.bump hc (t := A) (by simp [hAC, hAB, hBC, hCB, hBA, hCA]) (by simp [hBA])
    (by simp [upd_ne, hAC, hAB]; omega)
  obtain ⟨_, w⟩ := w.release hc (t := B) (pv := some A) (nx := some C)
    (by simp [hAC, hAB, hBC, hCB, hBA, hCA]) (by simp [hAB])
    (by simp [upd_ne, hAC, hAB, hBC, hCB, hBA, hCA]; omega)
    (by rintro q e; obtain rfl := Option.some.inj e; simp)
    (by rintro q e; obtain rfl := Option.some.inj e; simp [hAC, hAB, hBC, hCB, hBA, hCA])
  obtain ⟨p, hp, e⟩ := w.fault hc (t := C) (pv := some A) (nx := some B)
    (by simp [hAC, hAB, hBC, hCB, hBA, hCA]) (by simp [hAC])
    (by simp [upd_ne, hAC, hAB, hBC, hCB, hBA, hCA]; omega) ⟨B, rfl, by simp⟩
  exact ⟨_, w.1, p, hp, e⟩

/-! ## Leak -/

/-- `l` are tables without an entry in use; no table has one. -/
def Empty (c : Cfg) (L : Links) (n : Nat → Nat) (l : List Nat) : Prop :=
  l.Nodup ∧ (∀ t ∈ l, L t ≠ none) ∧ ∀ t, L t ≠ none → n t = c.count

theorem leak {c : Cfg} (hc : CfgOk c) (h2 : 2 ≤ c.count) : ∀ k, ∃ g A L n l, W c g (some A) L n ∧ l.length = k ∧ Empty c L n (A :: l)
  | 0 => by
    obtain ⟨_, A, _, w⟩ := (W.init c).allocNew hc (by simp)
    obtain ⟨g, w⟩ := w.drain hc (by simp) 1 (by simp; omega)
    refine ⟨g, A, _, _, [], w, rfl, by simp, by simp, ?_⟩
    intro t ht
    by_cases e : t = A
    · subst e; simp; omega
    · simp [e] at ht
  | k + 1 => by
    obtain ⟨g, A, L, n, l, w, hl, hnd, hex, hn⟩ := leak hc h2 k
    have hA := hex A (by simp)
    obtain ⟨_, w⟩ := w.fill hc _ rfl
    obtain ⟨_, C, hC, w⟩ := w.allocNew hc (by simp)
    have hCl : C ∉ A :: l := fun e => hex C e hC
    have hCA : C ≠ A := fun e => hCl (by simp [e])
    have hAC := hCA.symm
    obtain ⟨_, w⟩ := w.drain hc (by simp) 1 (by simp; omega)
    obtain ⟨_, w⟩ := w.bump hc (t := A) (by simp [hAC, hA]) (by simp [hCA]) (by simp [upd_ne, hAC]; omega)
    obtain ⟨g', w⟩ := w.drain hc (by simp) (c.count - 1) (by simp [upd_ne, hAC]; omega)
    refine ⟨g', A, _, _, C :: l, w, by simp [hl], ?_, ?_, ?_⟩
    · rw [List.nodup_cons] at hnd ⊢
      rw [List.nodup_cons]
      simp only [List.mem_cons, not_or] at hCl ⊢
      exact ⟨⟨hAC, hnd.1⟩, hCl.2, hnd.2⟩
    · intro t ht
      by_cases e : t = A
      · simp [e]
      · by_cases e2 : t = C
        · subst e2; simp [e]
        · have : L t ≠ none := hex t (by simpa [e, e2] using ht)
          simp [e, e2, Ne.symm e, Ne.symm e2, this]
    · intro t ht
      by_cases e : t = A
      · subst e; simp [upd_ne, hAC]; omega
      · by_cases e2 : t = C
        · subst e2; simp [upd_ne _ _ e]; omega
        · have : L t ≠ none := by simpa [e, e2, Ne.symm e, Ne.symm e2] using ht
          simp [upd_ne _ _ e, upd_ne _ _ e2, hn t this]

/-- Nothing is live if no table has an entry in use. -/
theorem W.live_nil {c : Cfg} {g hd L n} (h : W c g hd L n) (hn : ∀ t, L t ≠ none → n t = c.count) : g.live = [] := by
  obtain ⟨hr, hb, hh, hl, fl, hI, hlen⟩ := h
  rw [List.eq_nil_iff_forall_not_mem]
  intro p hp
  obtain ⟨t, i, ⟨x, hx, _, hi, _⟩, hni⟩ := hI.live p hp
  have ht := hI.tab t x hx
  refine hni (mem_of_full ht.nodup ht.lt ?_ hi)
  rw [hlen, hn t]
  rw [← hl t]; simp [links, hx]

/-! ## One table -/

theorem Inv.count_le {c : Cfg} {g : G} {fl} (h : Inv c g fl) {t : Nat} (ht : g.s.tables t ≠ none) (hf : fl t = []) :
    c.count ≤ g.live.length := by
  have hsub : List.range c.count ⊆ g.live.map fun p => ((g.s.closures p.1).map (·.entry.2)).getD 0 := by
    intro i hi
    obtain ⟨p, hp, x, _, h2, _⟩ := h.used t i ht (by simpa using hi) (by simp [hf])
    exact List.mem_map.2 ⟨p, hp, by simp [h2]⟩
  have := (List.subperm_of_subset List.nodup_range hsub).length_le
  simpa using this

/-- At most one table, the first. -/
def Single (s : St) : Prop := ∀ t, s.tables t ≠ none → s.head = some t

theorem single_step {c : Cfg} (hc : CfgOk c) {g g' : G} (hs : Step c g g') (hl : g'.live.length ≤ c.count) {fl} (h : Inv c g fl)
    (h1 : Single g.s) : Single g'.s := by
  cases hs with
  | allocFail he e =>
    rcases alloc_inv hc h he with ⟨e1, _⟩ | ⟨s', p, hd, i, l, e1, _⟩
    · rw [e1] at e
      simp only [Except.ok.injEq, Prod.mk.injEq, and_true] at e
      subst e
      exact h1
    · rw [e1] at e
      simp at e
  | alloc he e =>
    rcases alloc_inv hc h he with ⟨e1, _⟩ | ⟨s', p, hd, i, l, e1, h2, h3, h4⟩
    · rw [e1] at e
      simp at e
    · rw [e1] at e
      simp only [Except.ok.injEq, Prod.mk.injEq, Option.some.injEq] at e
      obtain ⟨rfl, rfl⟩ := e
      rcases h4 with ⟨k1, _, _, x, x', k4, k5, k6, k7⟩ | ⟨k1, k2, _, _, x', _, _, k7⟩
      · intro t ht
        show s'.head = _
        have ht : s'.tables t ≠ none := ht
        rw [h2, Option.some.injEq]
        by_contra e
        rw [k7, upd_ne _ _ (Ne.symm e)] at ht
        rw [h1 t ht, Option.some.injEq] at k1
        exact e k1.symm
      · intro t ht
        show s'.head = _
        have ht : s'.tables t ≠ none := ht
        rw [h2, Option.some.injEq]
        by_contra e
        rw [k7, if_neg (Ne.symm e)] at ht
        have ht : g.s.tables t ≠ none := by
          split at ht
          · simpa using ht
          · exact ht
        have := h.count_le ht (k2 t (h1 t ht))
        simp only [List.length_cons] at hl
        omega
  | @free p s' hp e =>
    obtain ⟨t, i, hat, hni⟩ := h.live p hp
    obtain ⟨x, hx⟩ : ∃ x, g.s.tables t = some x := ⟨_, hat.choose_spec.1⟩
    obtain ⟨s1, e1, hI, hh, hlk⟩ := free_head hc h hp hat (h1 t (by rw [hx]; simp))
    rw [e1] at e
    obtain rfl := Except.ok.inj e
    intro t' ht'
    show s1.head = _
    have ht' : s1.tables t' ≠ none := ht'
    have : g.s.tables t' ≠ none := by
      intro hn
      exact ht' (by rw [← links_none, hlk t', links_none]; exact hn)
    rw [hh, ← h1 t (by rw [hx]; simp), h1 t' this]
  | outside _ _ => exact h1

theorem ReachLe.reach {c : Cfg} {n : Nat} {g : G} (h : ReachLe c n g) : Reach c g := by
  induction h with
  | init prot => exact .init prot
  | step _ hs _ ih => exact ih.step hs

theorem single_reach {c : Cfg} (hc : CfgOk c) {g : G} (h : ReachLe c c.count g) : Single g.s := by
  induction h with
  | init prot => exact fun t ht => absurd rfl ht
  | step hr hs hl ih =>
    obtain ⟨fl, hI⟩ := inv_reach hc hr.reach
    exact single_step hc hs hl hI ih

end Verif.Mach
