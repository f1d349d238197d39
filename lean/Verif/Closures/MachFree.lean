import Verif.Closures.MachOps

/-
`ffi_closure_alloc` and `ffi_closure_free` of src/closures.c:302-386 on states satisfying
the invariant.
-/
namespace Verif.Mach
open Verif

theorem Inv.not_live {c : Cfg} {g : G} {fl} (h : Inv c g fl) {cl : Nat} (hn : g.s.closures cl = none) :
    ∀ p ∈ g.live, p.1 ≠ cl := by
  intro p hp e
  obtain ⟨t, i, ⟨x, _, h2, _⟩, _⟩ := h.live p hp
  rw [e, hn] at h2
  simp at h2

theorem upd_none_self {β : Type} (f : Nat → Option β) {a : Nat} (h : f a = none) (b : Option β) :
    upd (upd f a b) a none = f := by
  funext x
  by_cases e : x = a
  · subst e; simp [h]
  · simp [upd_ne _ _ e]

/-- A store to a link of a table that exists. -/
theorem setT?_sim (s : St) (o : Option Nat) {f : Table → Table} (h : ∀ t, o = some t → s.tables t ≠ none)
    (hf : ∀ y, (f y).core = y.core) : ∃ s', s.setT? o f = .ok s' ∧ Sim s s' ∧ s'.head = s.head ∧
      ∀ t, s'.tables t = if o = some t then (s.tables t).map f else s.tables t := by
  cases o with
  | none => exact ⟨s, rfl, Sim.refl s, rfl, fun t => by simp⟩
  | some t =>
    obtain ⟨x, hx⟩ := Option.ne_none_iff_exists'.1 (h t rfl)
    obtain ⟨k1, k2⟩ := sim_setT (f := f) hx hf
    refine ⟨_, k1, k2, rfl, fun t' => ?_⟩
    by_cases e : t' = t
    · subst e; simp [hx]
    · rw [if_neg (by simpa using Ne.symm e)]; exact upd_ne _ _ e

/-- `ffi_closure_alloc` does not fault and preserves the invariant. -/
theorem alloc_inv {c : Cfg} (hc : CfgOk c) {g : G} {fl} (h : Inv c g fl) {v : Env} (he : EnvOk c g.s v) :
    (alloc c v g.s = .ok (g.s, none) ∧ (v.closure = none ∨ VmFails v)) ∨
    ∃ s' p hd i l, alloc c v g.s = .ok (s', some p) ∧ s'.head = some hd ∧ (∀ q ∈ g.live, q.1 ≠ p.1) ∧
      ((g.s.head = some hd ∧ fl hd = i :: l ∧ Inv c { g with s := s', live := p :: g.live } (upd fl hd l) ∧
          (∃ x x', g.s.tables hd = some x ∧ x'.prev = x.prev ∧ x'.next = x.next ∧
            s'.tables = upd g.s.tables hd (some x'))) ∨
        (g.s.tables hd = none ∧ (∀ h0, g.s.head = some h0 → fl h0 = []) ∧
          i :: l = List.range c.count ∧ Inv c { g with s := s', live := p :: g.live } (upd fl hd l) ∧
          (∃ x', x'.prev = none ∧ x'.next = g.s.head ∧ ∀ t, s'.tables t =
            if t = hd then some x' else if g.s.head = some t then (g.s.tables t).map ({ · with prev := some hd })
            else g.s.tables t))) := by
  unfold alloc
  cases hv : v.closure with
  | none => exact .inl ⟨rfl, .inl rfl⟩
  | some cj =>
    obtain ⟨cl, j⟩ := cj
    have hcl0 := he.closure cl j hv
    have hnl := h.not_live hcl0
    have hJ : Inv c { g with s := { g.s with closures := upd g.s.closures cl (some j) } } fl := h.junk hnl
    -- is a new table needed?
    by_cases hneed : ∀ h0, g.s.head = some h0 → fl h0 = []
    · have hn : needTable { g.s with closures := upd g.s.closures cl (some j) } = .ok true := by
        unfold needTable
        cases hh : g.s.head with
        | none => rfl
        | some h0 =>
          obtain ⟨x, hx⟩ := Option.ne_none_iff_exists'.1 (h.head h0 hh)
          obtain ⟨⟨a, ha, hfl, _⟩, _⟩ := h.tab h0 x hx
          rw [hneed h0 hh] at hfl
          have hfl : x.freeList = none := hfl
          simp [St.getT, hx, bind, Except.bind, hfl, pure, Except.pure]
      simp only [hn, bind, Except.bind, if_true]
      -- table allocation does not look at the closures
      have hE : ∀ (v' : Env), v'.closure = none → v'.vmAlloc = v.vmAlloc → v'.vmRemap = v.vmRemap →
          v'.vmProtect = v.vmProtect → v'.table = v.table → v'.pool = v.pool →
          tableAlloc c v' { g.s with closures := upd g.s.closures cl (some j) } =
            tableAlloc c v { g.s with closures := upd g.s.closures cl (some j) } := by
        intro v' _ e2 e3 e4 e5 e6
        simp only [tableAlloc, e2, e3, e4, e5, e6]
      let v' : Env := { v with closure := none }
      have he' : EnvOk c { g.s with closures := upd g.s.closures cl (some j) } v' :=
        ⟨fun a j h => by simp [v'] at h, he.map, he.table, he.pool⟩
      rw [← hE v' rfl rfl rfl rfl rfl rfl]
      rcases tableAlloc_inv hc hJ he' with ⟨h1, hf⟩ | ⟨t, s1, x, h1, ht0, hhd, hcls, htab, hxp, hxn, hI⟩
      · left
        refine ⟨?_, .inr hf⟩
        simp only [h1, pure, Except.pure]
        rw [upd_none_self _ hcl0]
      · right
        simp only [h1]
        -- linking in front
        have hx1 : s1.tables t = some x := by rw [htab]; simp
        obtain ⟨e1, S1⟩ := sim_setT (f := fun x => { x with next := s1.head }) hx1 (fun _ => rfl)
        simp only [e1]
        obtain ⟨s3, e3, S3, hT3, hh3⟩ : ∃ s3, St.setT? { s1 with tables := upd s1.tables t (some { x with next := s1.head }) }
            s1.head (fun x => { x with prev := some t }) = .ok s3 ∧
            Sim { s1 with tables := upd s1.tables t (some { x with next := s1.head }) } s3 ∧
            (∀ t', s3.tables t' = if t' = t then some { x with next := g.s.head }
              else if g.s.head = some t' then (g.s.tables t').map ({ · with prev := some t }) else g.s.tables t') ∧
            s3.head = s1.head := by
          obtain ⟨s3, k1, k2, k3, k4⟩ := setT?_sim
            { s1 with tables := upd s1.tables t (some { x with next := s1.head }) } s1.head
            (f := fun x => { x with prev := some t }) (by
              intro h0 hh0
              have hh0' : g.s.head = some h0 := by rw [← hh0]; exact hhd.symm
              have hne : h0 ≠ t := by
                rintro rfl
                exact h.head h0 hh0' ht0
              show upd _ _ _ _ ≠ none
              rw [upd_ne _ _ hne, htab, upd_ne _ _ hne]
              exact h.head h0 hh0') (fun _ => rfl)
          refine ⟨s3, k1, k2, fun t' => ?_, k3⟩
          rw [k4 t', show s1.head = g.s.head from hhd]
          show (if g.s.head = some t' then Option.map _ (upd s1.tables t _ t') else upd s1.tables t _ t') = _
          by_cases e : t' = t
          · subst e
            rw [if_neg (fun hh => h.head t' hh ht0)]
            simp
          · rw [upd_ne _ _ e, htab, upd_ne _ _ e, if_neg e]
        simp only [e3]
        have S : Sim s1 { s3 with head := some t } := by
          have := S1.trans S3
          exact ⟨this.tables, this.pools, this.closures, this.prot⟩
        have hI3 := hI.sim (s' := { s3 with head := some t }) S (by
          intro t' ht'
          simp only [Option.some.injEq] at ht'
          subst ht'
          show s1.tables t ≠ none
          rw [hx1]; simp)
        have hcount : 0 < c.count := Nat.div_pos hc.fits hc.pos
        obtain ⟨i, l, hil⟩ : ∃ i l, List.range c.count = i :: l := by
          cases e : List.range c.count with
          | nil => simp at e; omega
          | cons i l => exact ⟨i, l, rfl⟩
        obtain ⟨s', y, code, q1, q2, q3, q4, ⟨y', q5, q6, q7⟩, q8, q9⟩ := claim_inv hc hI3 (cl := cl) (hd := t) (i := i)
          (l := l) rfl (by rw [upd_same]; exact hil) hnl
        refine ⟨s', (cl, code), t, i, l, q3, ?_, hnl, .inr ⟨ht0, hneed, hil.symm, ?_, ?_⟩⟩
        · rw [q4]
        · rw [upd_upd] at q9
          exact q9
        · have q1 : s3.tables t = some y := q1
          have q7 : s'.tables = upd s3.tables t (some y') := q7
          have hyx : y = { x with next := g.s.head } := by
            rw [hT3 t, if_pos rfl] at q1
            exact (Option.some.inj q1).symm
          refine ⟨y', by rw [q5, hyx]; exact hxp, by rw [q6, hyx], fun t' => ?_⟩
          rw [q7]
          by_cases e : t' = t
          · subst e; simp
          · rw [upd_ne _ _ e, hT3 t', if_neg e, if_neg e]
    · rw [not_forall] at hneed
      obtain ⟨h0, hneed⟩ := hneed
      rw [Classical.not_imp] at hneed
      obtain ⟨hh, hfl0⟩ := hneed
      obtain ⟨i, l, hil⟩ : ∃ i l, fl h0 = i :: l := by
        cases e : fl h0 with
        | nil => exact absurd e hfl0
        | cons i l => exact ⟨i, l, rfl⟩
      obtain ⟨x, hx⟩ := Option.ne_none_iff_exists'.1 (h.head h0 hh)
      have hn : needTable { g.s with closures := upd g.s.closures cl (some j) } = .ok false := by
        unfold needTable
        obtain ⟨⟨a, ha, hfl, _⟩, _⟩ := h.tab h0 x hx
        rw [hil] at hfl
        simp [hh, St.getT, hx, bind, Except.bind, hfl.1, pure, Except.pure]
      right
      simp only [hn, bind, Except.bind]
      obtain ⟨s', y, code, q1, q2, q3, q4, ⟨y', q5, q6, q7⟩, q8, q9⟩ := claim_inv hc hJ (cl := cl) (hd := h0) (i := i)
        (l := l) hh hil hnl
      refine ⟨s', (cl, code), h0, i, l, ?_, ?_, hnl, 
        .inl ⟨hh, hil, q9, y, y', q1, q5, q6, q7⟩⟩
      · simpa [hh] using q3
      · rw [q4]; exact hh


/-! ## Freeing -/

/-- Returning the entry of `p` to its table and dropping the closure. -/
theorem return_inv {c : Cfg} (hc : CfgOk c) {g : G} {fl} (h : Inv c g fl) {p : Nat × Nat} (hp : p ∈ g.live)
    {t i : Nat} {x : Table} {a : Nat → Entry} (hx : g.s.tables t = some x) (ha : g.s.pools x.pool = some a)
    (hcl : g.s.closures p.1 = some ⟨t, (x.pool, i)⟩) :
    Inv c { g with
      s := { g.s with tables := upd g.s.tables t (some { x with freeList := some (x.pool, i), freeCount := (x.freeCount + 1) % 2 ^ 16 })
                      pools := upd g.s.pools x.pool (some (upd a i { a i with next := x.freeList }))
                      closures := upd g.s.closures p.1 none }
      live := g.live.erase p } (upd fl t (i :: fl t)) ∧ x.freeCount + 1 ≤ c.count ∧ i < c.count := by
  obtain ⟨t0, i0, ⟨x0, a1, a2, a3, a4⟩, hni⟩ := h.live p hp
  rw [hcl] at a2
  simp only [Option.some.injEq, Closure.mk.injEq, Prod.mk.injEq] at a2
  obtain ⟨rfl, -, rfl⟩ := a2
  rw [hx] at a1
  obtain rfl := Option.some.inj a1
  obtain ⟨⟨b, hb, hfl, htr⟩, hnd, hlt, hcnt, hrw, hrx⟩ := h.tab t x hx
  rw [ha] at hb
  obtain rfl := Option.some.inj hb
  have hnd' : (i :: fl t).Nodup := List.nodup_cons.2 ⟨hni, hnd⟩
  have hlt' : ∀ j ∈ i :: fl t, j < c.count := by
    intro j hj
    rcases List.mem_cons.1 hj with rfl | hj
    exacts [a3, hlt j hj]
  have hlen := length_le_of_lt hnd' hlt'
  simp only [List.length_cons] at hlen
  have hcc := hc.count
  refine ⟨?_, by omega, a3⟩
  have hkeys : ∀ q ∈ g.live.erase p, q ∈ g.live ∧ q.1 ≠ p.1 := by
    intro q hq
    have hnd : g.live.Nodup := h.keys.of_map
    have hq' := (List.Nodup.mem_erase_iff hnd).1 hq
    refine ⟨hq'.2, fun e => hq'.1 ?_⟩
    exact List.inj_on_of_nodup_map h.keys hq'.2 hp e
  have htab : ∀ t' y, upd g.s.tables t (some { x with freeList := some (x.pool, i), freeCount := (x.freeCount + 1) % 2 ^ 16 }) t' = some y →
      ∃ y', g.s.tables t' = some y' ∧ y'.pool = y.pool ∧ y'.config = y.config := by
    intro t' y hy
    by_cases e : t' = t
    · subst e
      simp only [upd_same, Option.some.injEq] at hy
      exact ⟨x, hx, by rw [← hy], by rw [← hy]⟩
    · rw [upd_ne _ _ e] at hy
      exact ⟨y, hy, rfl, rfl⟩
  have hat : ∀ q : Nat × Nat, q.1 ≠ p.1 → ∀ t' k, (At c { g with
      s := { g.s with tables := upd g.s.tables t (some { x with freeList := some (x.pool, i), freeCount := (x.freeCount + 1) % 2 ^ 16 })
                      pools := upd g.s.pools x.pool (some (upd a i { a i with next := x.freeList }))
                      closures := upd g.s.closures p.1 none }
      live := g.live.erase p } q t' k ↔ At c g q t' k) := by
    intro q hq t' k
    have hcl' : upd g.s.closures p.1 none q.1 = g.s.closures q.1 := upd_ne _ _ hq
    constructor
    · rintro ⟨y, h1, h2, h3, h4⟩
      obtain ⟨y', k1, k2, k3⟩ := htab t' y h1
      exact ⟨y', k1, by rw [k2, ← h2]; exact hcl'.symm, h3, by rw [k3]; exact h4⟩
    · rintro ⟨y, h1, h2, h3, h4⟩
      by_cases e : t' = t
      · subst e
        rw [hx] at h1
        obtain rfl := Option.some.inj h1
        exact ⟨_, upd_same _ _ _, by rw [← hcl'] at h2; exact h2, h3, h4⟩
      · exact ⟨y, by rw [← h1]; exact upd_ne _ _ e, by rw [← hcl'] at h2; exact h2, h3, h4⟩
  refine ⟨?_, ?_, ?_, ?_, ?_, ?_, ?_, ?_, h.mapped⟩
  · intro t' ht'
    have := h.head t' ht'
    by_cases e : t' = t
    · subst e; simp
    · show upd _ _ _ _ ≠ none; rw [upd_ne _ _ e]; exact this
  · intro t' y hy
    by_cases e : t' = t
    · subst e
      rw [upd_same]
      simp only [upd_same, Option.some.injEq] at hy
      subst hy
      refine ⟨⟨_, upd_same _ _ _, ⟨rfl, ?_⟩, ?_⟩, hnd', hlt', ?_, hrw, hrx⟩
      · rw [upd_same]
        refine hfl.congr fun j hj => ?_
        rw [upd_ne _ _ (show j ≠ i from fun e => hni (e ▸ hj))]
      · intro j hj
        by_cases e : j = i
        · subst e; rw [upd_same]; exact htr j hj
        · rw [upd_ne _ _ e]; exact htr j hj
      · simp only [List.length_cons]
        omega
    · rw [upd_ne _ _ e]
      have hy' : g.s.tables t' = some y := by rw [← hy]; exact (upd_ne _ _ e).symm
      obtain ⟨⟨b, hb, hb'⟩, k1, k2, k3, k4, k5⟩ := h.tab t' y hy'
      refine ⟨⟨b, ?_, hb'⟩, k1, k2, k3, k4, k5⟩
      rw [← hb]
      exact upd_ne _ _ fun e' => e (h.pools t' t y x hy' hx e')
  · intro t1 t2 y y' hy hy' hpp
    obtain ⟨z, k1, k2, _⟩ := htab t1 y hy
    obtain ⟨z', k1', k2', _⟩ := htab t2 y' hy'
    exact h.pools t1 t2 z z' k1 k1' (by rw [k2, k2', hpp])
  · intro t1 t2 y y' hy hy' hne
    obtain ⟨z, k1, _, k2⟩ := htab t1 y hy
    obtain ⟨z', k1', _, k2'⟩ := htab t2 y' hy'
    rw [← k2, ← k2']
    exact h.disj t1 t2 z z' k1 k1' hne
  · intro q hq
    obtain ⟨hq1, hq2⟩ := hkeys q hq
    obtain ⟨t', k, k1, k2⟩ := h.live q hq1
    refine ⟨t', k, (hat q hq2 t' k).2 k1, ?_⟩
    by_cases e : t' = t
    · subst e
      rw [upd_same]
      intro hm
      rcases List.mem_cons.1 hm with rfl | hm
      · have := h.inj q hq1 p hp t' k k1 ⟨x, hx, hcl, a3, a4⟩
        exact hq2 (by rw [this])
      · exact k2 hm
    · rw [upd_ne _ _ e]; exact k2
  · exact h.keys.sublist (List.erase_sublist.map _)
  · intro q hq r hr t' k k1 k2
    obtain ⟨hq1, hq2⟩ := hkeys q hq
    obtain ⟨hr1, hr2⟩ := hkeys r hr
    exact h.inj q hq1 r hr1 t' k ((hat q hq2 t' k).1 k1) ((hat r hr2 t' k).1 k2)
  · intro t' k hne hk hnk
    have hne' : g.s.tables t' ≠ none := by
      by_cases e' : t' = t
      · subst e'; rw [hx]; simp
      · rw [← show upd g.s.tables t _ t' = g.s.tables t' from upd_ne _ (some { x with freeList := some (x.pool, i), freeCount := (x.freeCount + 1) % 2 ^ 16 }) e']; exact hne
    have hnk' : k ∉ fl t' ∧ ¬ (t' = t ∧ k = i) := by
      by_cases e' : t' = t
      · subst e'; rw [upd_same] at hnk
        exact ⟨fun hh => hnk (by simp [hh]), fun hh => hnk (by simp [hh.2])⟩
      · rw [upd_ne _ _ e'] at hnk; exact ⟨hnk, fun hh => e' hh.1⟩
    obtain ⟨q, hq, k1⟩ := h.used t' k hne' hk hnk'.1
    have hqp : q ≠ p := by
      rintro rfl
      obtain ⟨z, _, z2, _⟩ := k1
      rw [hcl] at z2
      simp only [Option.some.injEq, Closure.mk.injEq, Prod.mk.injEq] at z2
      exact hnk'.2 ⟨z2.1.symm, z2.2.2.symm⟩
    have hqm : q ∈ g.live.erase p := (List.mem_erase_of_ne hqp).2 hq
    exact ⟨q, hqm, (hat q (hkeys q hqm).2 t' k).2 k1⟩

/-- Releasing a table all of whose entries are free. -/
theorem release_inv {c : Cfg} {g : G} {fl} (h : Inv c g fl) {t : Nat} {x : Table}
    (hx : g.s.tables t = some x) (hfull : x.freeCount = c.count) (hh : g.s.head ≠ some t) :
    Inv c { g with s := { (g.s.setProt x.config (2 * c.page) none) with pools := upd g.s.pools x.pool none, tables := upd g.s.tables t none } } fl := by
  have ht := h.tab t x hx
  have hall : ∀ i, i < c.count → i ∈ fl t := fun i hi => mem_of_full ht.nodup ht.lt (by rw [← ht.cnt, hfull]) hi
  have htab : ∀ t' y, upd g.s.tables t none t' = some y → t' ≠ t ∧ g.s.tables t' = some y := by
    intro t' y hy
    by_cases e : t' = t
    · subst e; simp at hy
    · rw [upd_ne _ _ e] at hy; exact ⟨e, hy⟩
  have hat : ∀ q t' k, k ∉ fl t' → (At c { g with s := { (g.s.setProt x.config (2 * c.page) none) with pools := upd g.s.pools x.pool none, tables := upd g.s.tables t none } } q t' k ↔ At c g q t' k) := by
    intro q t' k hnk
    constructor
    · rintro ⟨y, h1, h2, h3, h4⟩
      exact ⟨y, (htab t' y h1).2, h2, h3, h4⟩
    · rintro ⟨y, h1, h2, h3, h4⟩
      have : t' ≠ t := by rintro rfl; exact hnk (hall k h3)
      exact ⟨y, by rw [← h1]; exact upd_ne _ _ this, h2, h3, h4⟩
  have hat1 : ∀ q t' k, At c { g with s := { (g.s.setProt x.config (2 * c.page) none) with pools := upd g.s.pools x.pool none, tables := upd g.s.tables t none } } q t' k → At c g q t' k := by
    rintro q t' k ⟨y, h1, h2, h3, h4⟩
    exact ⟨y, (htab t' y h1).2, h2, h3, h4⟩
  have hprot : ∀ b, (∀ o, o < 2 * c.page → x.config + o ≠ b) →
      (g.s.setProt x.config (2 * c.page) none).prot b = g.s.prot b := by
    intro b hb
    simp only [St.setProt]
    rw [if_neg]
    rintro ⟨h1, h2⟩
    exact hb (b - x.config) (by omega) (by omega)
  refine ⟨?_, ?_, ?_, ?_, ?_, h.keys, ?_, ?_, ?_⟩
  · intro t' ht'
    have hne : t' ≠ t := by rintro rfl; exact hh ht'
    show upd _ _ _ _ ≠ none
    rw [upd_ne _ _ hne]; exact h.head t' ht'
  · intro t' y hy
    obtain ⟨hne, hy'⟩ := htab t' y hy
    obtain ⟨⟨b, hb, hb'⟩, k1, k2, k3, k4, k5⟩ := h.tab t' y hy'
    refine ⟨⟨b, ?_, hb'⟩, k1, k2, k3, ?_, ?_⟩
    · rw [← hb]
      exact upd_ne _ _ fun e' => hne (h.pools t' t y x hy' hx e')
    · intro o ho
      show (g.s.setProt x.config (2 * c.page) none).prot _ = _ ∧ _
      rw [hprot _ (fun o' ho' => h.disj t t' x y hx hy' (Ne.symm hne) o' o ho' (by omega))]
      exact k4 o ho
    · intro o ho ho2
      show (g.s.setProt x.config (2 * c.page) none).prot _ = _ ∧ _
      rw [hprot _ (fun o' ho' => h.disj t t' x y hx hy' (Ne.symm hne) o' o ho' (by omega))]
      exact k5 o ho ho2
  · intro t1 t2 y y' hy hy'
    exact h.pools t1 t2 y y' (htab t1 y hy).2 (htab t2 y' hy').2
  · intro t1 t2 y y' hy hy'
    exact h.disj t1 t2 y y' (htab t1 y hy).2 (htab t2 y' hy').2
  · intro q hq
    obtain ⟨t', k, k1, k2⟩ := h.live q hq
    exact ⟨t', k, (hat q t' k k2).2 k1, k2⟩
  · intro q hq r hr t' k k1 k2
    exact h.inj q hq r hr t' k (hat1 q t' k k1) (hat1 r t' k k2)
  · intro t' k hne hk hnk
    have : g.s.tables t' ≠ none := by
      obtain ⟨y, hy⟩ := Option.ne_none_iff_exists'.1 hne
      rw [(htab t' y hy).2]; simp
    obtain ⟨q, hq, k1⟩ := h.used t' k this hk hnk
    exact ⟨q, hq, (hat q t' k hnk).2 k1⟩
  · intro b hb
    show (g.s.setProt x.config (2 * c.page) none).prot b = _
    rw [hprot, h.mapped b hb]
    rintro o ho rfl
    by_cases hlt : o < c.page
    · exact hb (ht.rw o hlt).2
    · exact hb (ht.rx o (by omega) ho).2

end Verif.Mach
