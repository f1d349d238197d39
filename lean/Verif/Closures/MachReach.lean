import Verif.Closures.MachFree

/-
`ffi_closure_free` in full, the links of the tables, and reachable states.
-/
namespace Verif.Mach
open Verif

/-- The `prev` and `next` links of table `t`; `none` if there is no such table. -/
def links (s : St) (t : Nat) : Option (Option Nat × Option Nat) := (s.tables t).map fun x => (x.prev, x.next)

theorem links_none {s : St} {t : Nat} : links s t = none ↔ s.tables t = none := by simp [links]

theorem tableFree_eq {c : Cfg} {s : St} {t : Nat} {x : Table} (hx : s.tables t = some x)
    (h1 : ∀ q, x.prev = some q → s.tables q ≠ none) (h2 : ∀ q, x.next = some q → s.tables q ≠ none)
    (hp : s.pools x.pool ≠ none) :
    ∃ s2 x2, tableFree c t s = .ok { (s2.setProt x.config (2 * c.page) none) with pools := upd s2.pools x.pool none, tables := upd s2.tables t none } ∧
      Sim s s2 ∧ s2.head = s.head ∧ s2.tables t = some x2 ∧ x2.core = x.core ∧
      ∀ t', s2.tables t' = if x.next = some t' then
          (if x.prev = some t' then (s.tables t').map ({ · with next := x.next }) else s.tables t').map ({ · with prev := x.prev })
        else (if x.prev = some t' then (s.tables t').map ({ · with next := x.next }) else s.tables t') := by
  obtain ⟨s1, e1, S1, hh1, ht1⟩ := setT?_sim s x.prev (f := fun y => { y with next := x.next }) h1 (fun _ => rfl)
  have hx1 : ∃ x1, s1.tables t = some x1 ∧ x1.next = x.next ∧ x1.prev = x.prev ∧ x1.core = x.core := by
    rw [ht1 t, hx]
    split
    · exact ⟨{ x with next := x.next }, rfl, rfl, rfl, rfl⟩
    · exact ⟨x, rfl, rfl, rfl, rfl⟩
  obtain ⟨x1, hx1, n1, p1, c1⟩ := hx1
  have h2' : ∀ q, x.next = some q → s1.tables q ≠ none := by
    intro q hq
    rw [ht1 q]
    split
    · simpa using h2 q hq
    · exact h2 q hq
  obtain ⟨s2, e2, S2, hh2, ht2⟩ := setT?_sim s1 x.next (f := fun y => { y with prev := x.prev }) h2' (fun _ => rfl)
  have hx2 : ∃ x2, s2.tables t = some x2 ∧ x2.core = x.core := by
    rw [ht2 t, hx1]
    split
    · exact ⟨_, rfl, by rw [← c1]; rfl⟩
    · exact ⟨x1, rfl, c1⟩
  obtain ⟨x2, hx2, c2⟩ := hx2
  refine ⟨s2, x2, ?_, S1.trans S2, hh2.trans hh1, hx2, c2, fun t' => by rw [ht2 t', ht1 t']⟩
  unfold tableFree
  simp only [St.getT, hx, bind, Except.bind, e1, hx1, n1, p1, e2, hx2, pure, Except.pure]
  obtain ⟨k1, _, _, k4⟩ := core_eq c2
  rw [k1, k4]
  have hp2 : (s2.setProt x.config (2 * c.page) none).pools x.pool = s.pools x.pool := by
    show s2.pools x.pool = _
    rw [S2.pools, S1.pools]
  obtain ⟨a, ha⟩ := Option.ne_none_iff_exists'.1 hp
  rw [hp2, ha]
  rfl

/-- Linked to a table that does not exist any more. -/
def Dangling (s : St) (t : Nat) : Prop :=
  ∃ x, s.tables t = some x ∧ ((∃ q, x.prev = some q ∧ s.tables q = none) ∨ (∃ q, x.next = some q ∧ s.tables q = none))

theorem tableFree_fault {c : Cfg} {s : St} {t : Nat} (h : Dangling s t) : tableFree c t s = .error .fault := by
  obtain ⟨x, hx, h⟩ := h
  unfold tableFree
  simp only [St.getT, hx, bind, Except.bind]
  by_cases h1 : ∃ q, x.prev = some q ∧ s.tables q = none
  · obtain ⟨q, e, hq⟩ := h1
    simp only [St.setT?, e, St.setT, hq]
  · obtain ⟨q, e, hq⟩ := h.resolve_left h1
    have h1' : ∀ q, x.prev = some q → s.tables q ≠ none := fun q e hq => h1 ⟨q, e, hq⟩
    obtain ⟨s1, e1, S1, hh1, ht1⟩ := setT?_sim s x.prev (f := fun y => { y with next := x.next }) h1' (fun _ => rfl)
    have hx1 : ∃ x1, s1.tables t = some x1 ∧ x1.next = x.next := by
      rw [ht1 t, hx]
      split
      · exact ⟨{ x with next := x.next }, rfl, rfl⟩
      · exact ⟨x, rfl, rfl⟩
    obtain ⟨x1, hx1, n1⟩ := hx1
    have hq1 : s1.tables q = none := by
      rw [ht1 q, hq]; split <;> rfl
    have e4 : s1.setT? x1.next (fun y => { y with prev := x1.prev }) = .error .fault := by
      simp only [n1, e, St.setT?, St.setT, hq1]
    simp only [e1, hx1, e4]

/-- `Sim` is kept when the same closures are dropped. -/
theorem Sim.closures' {s s' : St} (h : Sim s s') (f : Nat → Option Closure) :
    Sim { s with closures := f } { s' with closures := f } := ⟨h.tables, h.pools, rfl, h.prot⟩

theorem Inv.closure_at {c : Cfg} {g : G} {fl} (h : Inv c g fl) {p : Nat × Nat} (hp : p ∈ g.live) :
    ∃ t i x a, g.s.tables t = some x ∧ g.s.pools x.pool = some a ∧ g.s.closures p.1 = some ⟨t, (x.pool, i)⟩ ∧
      i < c.count ∧ i ∉ fl t ∧ p.2 = x.config + c.page + i * c.size := by
  obtain ⟨t, i, ⟨x, a1, a2, a3, a4⟩, hni⟩ := h.live p hp
  obtain ⟨⟨a, ha, _⟩, _⟩ := h.tab t x a1
  exact ⟨t, i, x, a, a1, ha, a2, a3, hni, a4⟩

/-- Freeing an entry of the first table. -/
theorem free_head {c : Cfg} (hc : CfgOk c) {g : G} {fl} (h : Inv c g fl) {p : Nat × Nat} (hp : p ∈ g.live)
    {t i : Nat} (hat : At c g p t i) (hh : g.s.head = some t) :
    ∃ s', free c p.1 g.s = .ok s' ∧ Inv c { g with s := s', live := g.live.erase p } (upd fl t (i :: fl t)) ∧
      s'.head = some t ∧ ∀ t', links s' t' = links g.s t' := by
  obtain ⟨x, hx, hcl, hi, hcode⟩ := hat
  obtain ⟨⟨a, ha, _⟩, _⟩ := h.tab t x hx
  obtain ⟨hI, hle, _⟩ := return_inv hc h hp hx ha hcl
  refine ⟨_, ?_, hI, hh, ?_⟩
  · unfold free
    simp only [hcl, St.getT, hx, bind, Except.bind, St.setE, ha, hi, if_true, St.setT, upd_same, upd_upd, hh,
      ne_eq, not_true_eq_false, and_false, if_false, pure, Except.pure]
  · intro t'
    by_cases e : t' = t
    · subst e; simp [links, hx]
    · simp [links, upd_ne _ _ e]

/-- Freeing an entry of another table that still has entries in use: the table is moved to
the front. -/
theorem free_bump {c : Cfg} (hc : CfgOk c) {g : G} {fl} (h : Inv c g fl) {p : Nat × Nat} (hp : p ∈ g.live)
    {t i : Nat} (hat : At c g p t i) (hh : g.s.head ≠ some t) (hlen : (fl t).length + 1 ≠ c.count) :
    ∃ s', free c p.1 g.s = .ok s' ∧ Inv c { g with s := s', live := g.live.erase p } (upd fl t (i :: fl t)) ∧
      s'.head = some t ∧ ∀ t', links s' t' = if t' = t then some (none, g.s.head)
        else if g.s.head = some t' then (links g.s t').map (fun l => (some t, l.2)) else links g.s t' := by
  obtain ⟨x, hx, hcl, hi, hcode⟩ := hat
  have ht := h.tab t x hx
  obtain ⟨a, ha, _⟩ := ht.pool
  obtain ⟨hI, hle, _⟩ := return_inv hc h hp hx ha hcl
  have hcc := hc.count
  have hcnt := ht.cnt
  have hne : (x.freeCount + 1) % 2 ^ 16 ≠ c.count := by omega
  -- the state after returning the entry
  generalize hs1 : ({ g.s with
      tables := upd g.s.tables t (some { x with freeList := some (x.pool, i), freeCount := (x.freeCount + 1) % 2 ^ 16 })
      pools := upd g.s.pools x.pool (some (upd a i { a i with next := x.freeList })) } : St) = s1
  have hx1 : s1.tables t = some { x with freeList := some (x.pool, i), freeCount := (x.freeCount + 1) % 2 ^ 16 } := by
    rw [← hs1]; simp
  have hh1 : s1.head = g.s.head := by rw [← hs1]
  obtain ⟨e1, S1⟩ := sim_setT (f := fun y => { y with prev := none }) hx1 (fun _ => rfl)
  have hx2 : ({ s1 with tables := upd s1.tables t (some { x with freeList := some (x.pool, i), freeCount := (x.freeCount + 1) % 2 ^ 16, prev := none }) } : St).tables t = some { x with freeList := some (x.pool, i), freeCount := (x.freeCount + 1) % 2 ^ 16, prev := none } := by simp
  obtain ⟨e2, S2⟩ := sim_setT (f := fun y => { y with next := g.s.head }) hx2 (fun _ => rfl)
  have htab1 : ∀ t', t' ≠ t → s1.tables t' = g.s.tables t' := by
    intro t' e
    rw [← hs1]
    exact upd_ne _ _ e
  obtain ⟨s3, e3, S3, hh3, ht3⟩ := setT?_sim
    ({ s1 with tables := upd (upd s1.tables t (some { x with freeList := some (x.pool, i), freeCount := (x.freeCount + 1) % 2 ^ 16, prev := none })) t (some { x with freeList := some (x.pool, i), freeCount := (x.freeCount + 1) % 2 ^ 16, prev := none, next := g.s.head }) } : St)
    g.s.head (f := fun y => { y with prev := some t }) (by
      intro q hq
      have hqt : q ≠ t := by rintro rfl; exact hh hq
      show upd (upd _ _ _) _ _ _ ≠ none
      rw [upd_ne _ _ hqt, upd_ne _ _ hqt, htab1 q hqt]
      exact h.head q hq) (fun _ => rfl)
  refine ⟨{ { s3 with head := some t } with closures := upd s3.closures p.1 none }, ?_, ?_, rfl, ?_⟩
  · unfold free
    simp only [hcl, St.getT, hx, bind, Except.bind, St.setE, ha, hi, if_true, St.setT, upd_same, upd_upd, ne_eq,
      pure, Except.pure, hs1]
    simp only [hh1] at *
    simp only [hx1, upd_upd, upd_same] at e3 ⊢
    rw [e3, if_neg (fun hc' => hne hc'.1), if_pos hh]
  · have hS : Sim s1 { s3 with head := some t } := by
      have := (S1.trans S2).trans S3
      exact ⟨this.tables, this.pools, this.closures, this.prot⟩
    have hI' : Inv c { g with s := { s1 with closures := upd g.s.closures p.1 none }, live := g.live.erase p } (upd fl t (i :: fl t)) := by
      rw [← hs1]; exact hI
    have hclo : s3.closures = g.s.closures := by rw [S3.closures]; rw [← hs1]
    rw [hclo]
    refine hI'.sim (s' := { { s3 with head := some t } with closures := upd g.s.closures p.1 none })
      (hS.closures' _) ?_
    intro t' ht'
    simp only [Option.some.injEq] at ht'
    subst ht'
    show s1.tables t ≠ none
    rw [hx1]; simp
  · intro t'
    show Option.map _ (s3.tables t') = _
    rw [ht3 t']
    by_cases e : t' = t
    · subst e
      rw [if_neg hh, if_pos rfl]
      simp
    · rw [if_neg e]
      show Option.map _ (if _ then Option.map _ (upd (upd _ _ _) _ _ _) else upd (upd _ _ _) _ _ _) = _
      rw [upd_ne _ _ e, upd_ne _ _ e, htab1 t' e]
      split
      · simp [links, Option.map_map, Function.comp_def]
      · rfl

/-- Freeing the last entry in use of another table: the table is released. -/
theorem free_release {c : Cfg} (hc : CfgOk c) {g : G} {fl} (h : Inv c g fl) {p : Nat × Nat} (hp : p ∈ g.live)
    {t i : Nat} (hat : At c g p t i) (hh : g.s.head ≠ some t) (hlen : (fl t).length + 1 = c.count)
    (hd : ¬ Dangling g.s t) :
    ∃ s', free c p.1 g.s = .ok s' ∧ Inv c { g with s := s', live := g.live.erase p } (upd fl t (i :: fl t)) ∧
      s'.head = g.s.head ∧ ∀ pv nx, links g.s t = some (pv, nx) → ∀ t', links s' t' = if t' = t then none
        else if nx = some t' then (links g.s t').map (fun l => (pv, if pv = some t' then nx else l.2))
        else (links g.s t').map (fun l => (l.1, if pv = some t' then nx else l.2)) := by
  obtain ⟨x, hx, hcl, hi, hcode⟩ := hat
  have ht := h.tab t x hx
  obtain ⟨a, ha, _⟩ := ht.pool
  obtain ⟨hI, hle, _⟩ := return_inv hc h hp hx ha hcl
  have hcc := hc.count
  have hcnt := ht.cnt
  have heq : (x.freeCount + 1) % 2 ^ 16 = c.count := by omega
  generalize hs1 : ({ g.s with
      tables := upd g.s.tables t (some { x with freeList := some (x.pool, i), freeCount := (x.freeCount + 1) % 2 ^ 16 })
      pools := upd g.s.pools x.pool (some (upd a i { a i with next := x.freeList })) } : St) = s1
  have hx1 : s1.tables t = some { x with freeList := some (x.pool, i), freeCount := (x.freeCount + 1) % 2 ^ 16 } := by
    rw [← hs1]; simp
  have hh1 : s1.head = g.s.head := by rw [← hs1]
  have htab1 : ∀ t', t' ≠ t → s1.tables t' = g.s.tables t' := by
    intro t' e
    rw [← hs1]
    exact upd_ne _ _ e
  have hex : ∀ q, s1.tables q = none → g.s.tables q = none := by
    intro q hq
    by_cases e : q = t
    · subst e; rw [hx1] at hq; simp at hq
    · rw [← htab1 q e]; exact hq
  obtain ⟨s2, x2, e2, S2, hh2, hx2, c2, ht2⟩ := tableFree_eq (c := c) hx1
    (fun q hq hn => hd ⟨x, hx, .inl ⟨q, hq, hex q hn⟩⟩) (fun q hq hn => hd ⟨x, hx, .inr ⟨q, hq, hex q hn⟩⟩)
    (by rw [← hs1]; simp)
  refine ⟨{ { (s2.setProt x.config (2 * c.page) none) with pools := upd s2.pools x.pool none, tables := upd s2.tables t none } with closures := upd s2.closures p.1 none }, ?_, ?_, ?_, ?_⟩
  · unfold free
    simp only [hcl, St.getT, hx, bind, Except.bind, St.setE, ha, hi, if_true, St.setT, upd_same, upd_upd, hh,
      ne_eq, not_false_eq_true, and_true, heq, pure, Except.pure]
    simp only [heq] at hs1
    simp only [hs1, e2]
    rfl
  · have hI' : Inv c { g with s := { s1 with closures := upd g.s.closures p.1 none }, live := g.live.erase p } (upd fl t (i :: fl t)) := by
      rw [← hs1]; exact hI
    have hclo : s2.closures = g.s.closures := by rw [S2.closures]; rw [← hs1]
    have hS : Sim { s1 with closures := upd g.s.closures p.1 none } { s2 with closures := upd g.s.closures p.1 none } :=
      S2.closures' _
    have hI2 := hI'.sim (s' := { s2 with closures := upd g.s.closures p.1 none }) hS (by
      intro t' ht'
      show s1.tables t' ≠ none
      have ht' : g.s.head = some t' := by rw [← hh1, ← hh2]; exact ht'
      intro hn
      exact h.head t' ht' (hex t' hn))
    obtain ⟨k1, k2, k3, k4⟩ := core_eq c2
    have hI3 := release_inv hI2 (t := t) (x := x2) hx2 (by rw [k2]; exact heq) (by
      show s2.head ≠ _
      rw [hh2, hh1]; exact hh)
    rw [hclo]
    rw [k1, k4] at hI3
    exact hI3
  · show s2.head = _
    rw [hh2, hh1]
  · intro pv nx hl t'
    simp only [links, hx, Option.map_some, Option.some.injEq, Prod.mk.injEq] at hl
    obtain ⟨rfl, rfl⟩ := hl
    show Option.map _ (upd s2.tables t none t') = _
    by_cases e : t' = t
    · subst e; simp
    · rw [upd_ne _ _ e, if_neg e, ht2 t', htab1 t' e]
      simp only [links]
      by_cases e1 : x.next = some t' <;> by_cases e2 : x.prev = some t' <;>
        simp [e1, e2, Option.map_map, Function.comp_def]

/-- The same with links to a released table: a fault. -/
theorem free_fault {c : Cfg} (hc : CfgOk c) {g : G} {fl} (h : Inv c g fl) {p : Nat × Nat} (hp : p ∈ g.live)
    {t i : Nat} (hat : At c g p t i) (hh : g.s.head ≠ some t) (hlen : (fl t).length + 1 = c.count)
    (hd : Dangling g.s t) : free c p.1 g.s = .error .fault := by
  obtain ⟨x, hx, hcl, hi, hcode⟩ := hat
  have ht := h.tab t x hx
  obtain ⟨a, ha, _⟩ := ht.pool
  obtain ⟨hI, hle, _⟩ := return_inv hc h hp hx ha hcl
  have hcc := hc.count
  have hcnt := ht.cnt
  have heq : (x.freeCount + 1) % 2 ^ 16 = c.count := by omega
  have hf : tableFree c t ({ g.s with
      tables := upd g.s.tables t (some { x with freeList := some (x.pool, i), freeCount := c.count })
      pools := upd g.s.pools x.pool (some (upd a i { a i with next := x.freeList })) } : St) = .error .fault := by
    apply tableFree_fault
    obtain ⟨x', hx', hd⟩ := hd
    rw [hx] at hx'
    obtain rfl := Option.some.inj hx'
    have key : ∀ q, g.s.tables q = none → upd g.s.tables t (some { x with freeList := some (x.pool, i), freeCount := c.count }) q = none := by
      intro q hq
      rw [upd_ne _ _ (by rintro rfl; rw [hx] at hq; simp at hq)]; exact hq
    refine ⟨_, upd_same _ _ _, ?_⟩
    rcases hd with ⟨q, e, hq⟩ | ⟨q, e, hq⟩
    · exact .inl ⟨q, e, key q hq⟩
    · exact .inr ⟨q, e, key q hq⟩
  unfold free
  simp only [hcl, St.getT, hx, bind, Except.bind, St.setE, ha, hi, if_true, St.setT, upd_same, upd_upd, hh,
      ne_eq, not_false_eq_true, and_true, heq, hf]

/-! ## Reachable states -/

theorem inv_init (c : Cfg) (prot : Nat → Option Prot) : Inv c ⟨St.init prot, [], prot⟩ fun _ => [] := by
  refine ⟨?_, ?_, ?_, ?_, ?_, ?_, ?_, ?_, ?_⟩ <;> simp [St.init]

theorem inv_step {c : Cfg} (hc : CfgOk c) {g g' : G} (hs : Step c g g') {fl} (h : Inv c g fl) : ∃ fl', Inv c g' fl' := by
  cases hs with
  | allocFail he e =>
    rcases alloc_inv hc h he with ⟨h1, _⟩ | ⟨s', p, hd, i, l, h1, _⟩
    · rw [h1] at e
      simp only [Except.ok.injEq, Prod.mk.injEq, and_true] at e
      subst e
      exact ⟨fl, h⟩
    · rw [h1] at e
      simp at e
  | alloc he e =>
    rcases alloc_inv hc h he with ⟨h1, _⟩ | ⟨s', p, hd, i, l, h1, h2, h3, h4⟩
    · rw [h1] at e
      simp at e
    · rw [h1] at e
      simp only [Except.ok.injEq, Prod.mk.injEq, Option.some.injEq] at e
      obtain ⟨rfl, rfl⟩ := e
      rcases h4 with ⟨_, _, hI, _⟩ | ⟨_, _, _, hI, _⟩ <;> exact ⟨_, hI⟩
  | @free p s' hp e =>
    obtain ⟨t, i, hat, hni⟩ := h.live p hp
    by_cases hh : g.s.head = some t
    · obtain ⟨s1, e1, hI, _⟩ := free_head hc h hp hat hh
      rw [e1] at e
      obtain rfl := Except.ok.inj e
      exact ⟨_, hI⟩
    · by_cases hlen : (fl t).length + 1 = c.count
      · by_cases hd : Dangling g.s t
        · rw [free_fault hc h hp hat hh hlen hd] at e
          simp at e
        · obtain ⟨s1, e1, hI, _⟩ := free_release hc h hp hat hh hlen hd
          rw [e1] at e
          obtain rfl := Except.ok.inj e
          exact ⟨_, hI⟩
      · obtain ⟨s1, e1, hI, _⟩ := free_bump hc h hp hat hh hlen
        rw [e1] at e
        obtain rfl := Except.ok.inj e
        exact ⟨_, hI⟩
  | @outside other' prot' h1 h2 =>
    refine ⟨fl, h.head, ?_, h.pools, h.disj, h.live, h.keys, h.inj, h.used, ?_⟩
    · intro t x hx
      obtain ⟨k0, k1, k2, k3, k4, k5⟩ := h.tab t x hx
      refine ⟨k0, k1, k2, k3, fun o ho => ?_, fun o ho ho' => ?_⟩
      · obtain ⟨a1, a2⟩ := k4 o ho
        obtain ⟨b1, b2⟩ := h1 _ ⟨by rw [a1]; simp, a2⟩
        exact ⟨b2.trans a1, b1⟩
      · obtain ⟨a1, a2⟩ := k5 o ho ho'
        obtain ⟨b1, b2⟩ := h1 _ ⟨by rw [a1]; simp, a2⟩
        exact ⟨b2.trans a1, b1⟩
    · intro b hb
      by_cases ho : g.Own b
      · exact absurd (h1 b ho).1 hb
      · exact h2 b ho

theorem inv_reach {c : Cfg} (hc : CfgOk c) {g : G} (h : Reach c g) : ∃ fl, Inv c g fl := by
  induction h with
  | init prot => exact ⟨_, inv_init c prot⟩
  | step _ hs ih =>
    obtain ⟨fl, hI⟩ := ih
    exact inv_step hc hs hI

end Verif.Mach
