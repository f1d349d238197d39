import Verif.Tramp.ReachLemmas
import Verif.X64.TrampLemmas

/-
Properties of the static trampoline allocator (src/tramp.c), over all histories
(`Reach`, Verif/Spec/Tramp.lean).
-/
namespace Verif.Props
open Verif Verif.Tramp

/-! ## A platform and histories for the examples -/

/-- Three 16-byte trampolines per table. -/
def exPlat : Plat := ⟨some (16, 48, fun o => BitVec.ofNat 8 o), some 48⟩

def exTab (t a m : Nat) : TabEnv :=
  ⟨some (t, ⟨none, none, 0, 0, 0, none, 0⟩), some (a, fun _ => ⟨none, none, 0, 0, 0⟩), some m, true⟩

def noTab : TabEnv := ⟨none, none, none, false⟩

/-- The first table comes from the second attempt. -/
def exEnv : Env := ⟨true, true, { exTab 7 8 1000 with map2 := false }, exTab 7 8 1000, exTab 9 10 2000⟩

def noEnv : Env := ⟨false, false, noTab, noTab, noTab⟩

theorem exPlat_ok : PlatOk exPlat := by
  intro size ms text h
  simp only [exPlat, Option.some.injEq, Prod.mk.injEq] at h
  omega

theorem noEnv_ok (P : Plat) (s : St) : EnvOk P s noEnv := by
  intro _ _ _ _
  refine ⟨⟨?_, ?_, ?_⟩, ⟨?_, ?_, ?_⟩, ⟨?_, ?_, ?_⟩⟩ <;> simp [noEnv, noTab]

/-! ## C29 — exclusivity -/

/-- C29: in every state of every history, two live trampolines have disjoint code slots
and disjoint parameter blocks, and no code slot overlaps a parameter block. -/
theorem C29_exclusive {P : Plat} (hP : PlatOk P) {g : G} (h : Reach P g) :
    g.live.Nodup ∧ ∀ p ∈ g.live, ∀ q ∈ g.live, p ≠ q →
      ∃ y z, g.s.getR p = .ok y ∧ g.s.getR q = .ok z ∧ 16 ≤ g.s.size ∧
        (y.code + g.s.size ≤ z.code ∨ z.code + g.s.size ≤ y.code) ∧
        (y.parm + g.s.size ≤ z.parm ∨ z.parm + g.s.size ≤ y.parm) ∧
        (y.code + g.s.size ≤ z.parm ∨ z.parm + g.s.size ≤ y.code) ∧
        (z.code + g.s.size ≤ y.parm ∨ y.parm + g.s.size ≤ z.code) := by
  rcases inv_reach hP h with ⟨_, hl⟩ | ⟨fr, hA, h1, h2, _⟩
  · rw [hl]; simp
  · refine ⟨h1, fun p hp q hq hne => ?_⟩
    obtain ⟨y, a1, a2, a3, _⟩ := live_facts hA ((h2 p).1 hp)
    obtain ⟨z, b1, b2, b3, _⟩ := live_facts hA ((h2 q).1 hq)
    obtain ⟨d1, d2, d3⟩ := live_disjoint hA ((h2 p).1 hp) ((h2 q).1 hq) hne a2 b2
    exact ⟨y, z, a1, b1, hA.sizeOk, d1, by omega, by omega, by omega⟩

/-- C29: allocation never returns a live trampoline. -/
theorem C29_fresh {P : Plat} (hP : PlatOk P) {g : G} (h : Reach P g) {v : Env} (he : EnvOk P g.s v) {f : Int}
    {s' : St} {p : TP} (hr : alloc P v f g.s = .ok (s', some p)) : p ∉ g.live := by
  have := (C29_exclusive hP (Reach.step h (Step.alloc he hr))).1
  exact (List.nodup_cons.1 this).1

/-- C29: a trampoline keeps its address and parameter block as long as it is live. -/
theorem C29_stable {P : Plat} (hP : PlatOk P) {g g' : G} (h : Reach P g) (hs : Step P g g') {p : TP}
    (hp : p ∈ g.live) (hp' : p ∈ g'.live) :
    ∃ y z, g.s.getR p = .ok y ∧ g'.s.getR p = .ok z ∧ z.code = y.code ∧ z.parm = y.parm := by
  have fin : ∀ {fr fr'}, Active P g.other g.s fr → Active P g'.other g'.s fr' → Live g.s fr p → Live g'.s fr' p →
      (∀ c, At g.s p c → At g'.s p c) → g'.s.mapSize = g.s.mapSize →
      ∃ y z, g.s.getR p = .ok y ∧ g'.s.getR p = .ok z ∧ z.code = y.code ∧ z.parm = y.parm := by
    intro fr fr' hA hA' hl hl' hat hm
    obtain ⟨y, a1, a2, a3, _⟩ := live_facts hA hl
    obtain ⟨z, b1, b2, b3, _⟩ := live_facts hA' hl'
    have : z.code = y.code := by
      obtain ⟨_, _, _, _, T, gl, hh, _, _⟩ := hA'
      exact At.unique hh b2 (hat _ a2)
    exact ⟨y, z, a1, b1, this, by rw [a3, b3, this, hm]⟩
  have hi' := inv_reach hP (Reach.step h hs)
  rcases inv_reach hP h with ⟨_, hl⟩ | ⟨fr, hA, h1, h2, _⟩
  · rw [hl] at hp; simp at hp
  · rcases hi' with ⟨_, hl'⟩ | ⟨fr2, hA2, _, h2', _⟩
    · rw [hl'] at hp'; simp at hp'
    have hpl := (h2 p).1 hp
    have hpl' := (h2' p).1 hp'
    cases hs with
    | @supported v s' b he hr =>
      have : s' = g.s := by
        have hr' : trampInit P v g.s = .ok (s', b) := hr
        unfold trampInit at hr'
        rw [if_pos hA.status] at hr'
        simp only [pure, Except.pure, Except.ok.injEq, Prod.mk.injEq] at hr'
        exact hr'.1.symm
      subst this
      exact fin hA hA2 hpl hpl' (fun _ h => h) rfl
    | @allocFail v f s' he hr =>
      obtain ⟨s1, r, e1, e2, e3, e4, e5⟩ := alloc_active (f := f) hA he
      rw [hr] at e1
      obtain ⟨rfl, rfl⟩ := Prod.mk.inj (Except.ok.inj e1)
      rcases e5 with ⟨_, f1, f2, _⟩ | ⟨p, fr', f1, _⟩
      · exact fin hA hA2 hpl hpl' (fun c => by unfold At; rw [f2, e4.1]; exact id) e4.2.1
      · simp at f1
    | @alloc v f s' q he hr =>
      obtain ⟨s1, r, e1, e2, e3, e4, e5⟩ := alloc_active (f := f) hA he
      rw [hr] at e1
      obtain ⟨rfl, rfl⟩ := Prod.mk.inj (Except.ok.inj e1)
      rcases e5 with ⟨f1, _⟩ | ⟨p', fr', f1, _, f2, f3, f4, f5, _⟩
      · simp at f1
      · exact fin hA hA2 hpl hpl' (fun c => f5 p c hpl) e4.2.1
    | @setParms q target data s' hq hr =>
      obtain ⟨s1, y, e1, e2, e3, e4⟩ := setParms_active hA ((h2 q).1 hq) target data
      rw [hr] at e1
      obtain rfl := Except.ok.inj e1
      exact fin hA hA2 hpl hpl' (fun c => by rw [e3]; exact id) (by rw [e3])
    | @free q s' hq hr =>
      obtain ⟨s1, fr', e1, e2, e3, e4, e5, e6, e7⟩ := free_active hA ((h2 q).1 hq)
      rw [hr] at e1
      obtain rfl := Except.ok.inj e1
      simp only [List.Nodup.mem_erase_iff h1] at hp'
      exact fin hA hA2 hpl hpl' (fun c => e7 p c hpl hp'.1) e5.2.1
    | @outside other' prot' mem' ho1 ho2 =>
      exact fin hA hA2 hpl hpl' (fun _ h => h) rfl

/-! ## C30 — live trampolines stay mapped -/

/-- C30: no operation of any history touches a freed or unallocated block or an unmapped
address (that would be a `fault`), whatever the platform does. -/
theorem C30_no_fault {P : Plat} (hP : PlatOk P) {g : G} (h : Reach P g) :
    (∀ v, EnvOk P g.s v → ∃ r, isSupported P v g.s = .ok r) ∧
    (∀ v f, EnvOk P g.s v → ∃ r, alloc P v f g.s = .ok r) ∧
    ∀ p ∈ g.live, (∃ s', free p g.s = .ok s') ∧ (∃ a, getAddr p g.s = .ok a) ∧
      ∀ target data, ∃ s', setParms p target data g.s = .ok s' := by
  rcases inv_reach hP h with ⟨hI, hl⟩ | ⟨fr, hA, h1, h2, _⟩
  · refine ⟨fun v he => ?_, fun v f he => ?_, by rw [hl]; simp⟩
    · obtain ⟨s', b, e, _⟩ := trampInit_idle hP hI he
      exact ⟨_, e⟩
    · obtain ⟨s', b, e, _⟩ := alloc_idle (f := f) hP hI he
      exact ⟨_, e⟩
  · refine ⟨fun v he => ?_, fun v f he => ?_, fun p hp => ⟨?_, ?_, fun target data => ?_⟩⟩
    · unfold isSupported trampInit
      rw [if_pos hA.status]
      exact ⟨_, rfl⟩
    · obtain ⟨s', b, e, _⟩ := alloc_active (f := f) hA he
      exact ⟨_, e⟩
    · obtain ⟨s', fr', e, _⟩ := free_active hA ((h2 p).1 hp)
      exact ⟨_, e⟩
    · obtain ⟨y, e, _⟩ := live_facts hA ((h2 p).1 hp)
      refine ⟨y.code, ?_⟩
      unfold getAddr
      rw [e]
      rfl
    · obtain ⟨s', y, e, _⟩ := setParms_active hA ((h2 p).1 hp) target data
      exact ⟨_, e⟩

/-- C30: a live trampoline's slot is mapped executable and holds the trampoline code, its
parameter block is mapped writable. -/
theorem C30_mapped {P : Plat} (hP : PlatOk P) {g : G} (h : Reach P g) {p : TP} (hp : p ∈ g.live) :
    ∃ y size ms text, P.arch = some (size, ms, text) ∧ g.s.getR p = .ok y ∧ getAddr p g.s = .ok y.code ∧
      p.2 < ms / size ∧ y.parm = y.code + ms ∧
      ∀ o, o < size → g.s.prot (y.code + o) = some .rx ∧ g.s.mem (y.code + o) = text (p.2 * size + o) ∧
        g.s.prot (y.parm + o) = some .rw := by
  rcases inv_reach hP h with ⟨_, hl⟩ | ⟨fr, hA, h1, h2, _⟩
  · rw [hl] at hp; simp at hp
  · obtain ⟨y, a1, a2, a3, a4, a5, _, a7⟩ := live_facts hA ((h2 p).1 hp)
    refine ⟨y, _, _, _, hA.arch, a1, ?_, by rw [← hA.n]; exact a7, a3, fun o ho => ⟨(a4 o ho).1, (a4 o ho).2, a5 o ho⟩⟩
    unfold getAddr
    rw [a1]
    rfl

/-- C30: the library never unmaps or remaps memory of the rest of the process; in
particular no table is unmapped twice. -/
theorem C30_others {P : Plat} (hP : PlatOk P) {g : G} (h : Reach P g) {a : Nat} (ha : g.other a ≠ none) :
    g.s.prot a = g.other a := by
  rcases inv_reach hP h with ⟨hI, _⟩ | ⟨fr, ⟨_, _, _, _, T, gl, hh, _, _⟩, _⟩
  · rw [hI.prot]
  · exact hh.out a fun t x hx hr => ha (hh.fresh t x a hx hr)

/-! ## C31 — memory is returned -/

/-- Some trampoline of the table is live. -/
def HasLive (g : G) (x : Table) : Prop := ∃ p ∈ g.live, p.1 = x.array

/-- C31: at every moment at most one table has no live trampoline; there are no more
tables than live trampolines plus one. -/
theorem C31_bound {P : Plat} (hP : PlatOk P) {g : G} (h : Reach P g) :
    (∀ t t' x x', g.s.tables t = some x → g.s.tables t' = some x' → ¬ HasLive g x → ¬ HasLive g x' → t = t') ∧
    ∃ T : List Nat, T.Nodup ∧ (∀ t, g.s.tables t ≠ none ↔ t ∈ T) ∧ T.length ≤ g.live.length + 1 := by
  rcases inv_reach hP h with ⟨hI, _⟩ | ⟨fr, hA, h1, h2, _⟩
  · refine ⟨fun t t' x x' hx => ?_, [], List.nodup_nil, fun t => ?_, by simp⟩
    · rw [hI.tables t] at hx; simp at hx
    · simp [hI.tables t]
  · obtain ⟨_, _, _, _, T, gl, hh, _, hg⟩ := hA
    have full : ∀ t x, g.s.tables t = some x → ¬ HasLive g x → (fr t).length = g.s.ntramp := by
      intro t x hx hno
      obtain ⟨arr, _, hb⟩ := hh.body t x hx
      have hall : ∀ j, j < g.s.ntramp → j ∈ fr t := by
        intro j hj
        by_contra hc
        exact hno ⟨(x.array, j), (h2 _).2 ⟨t, x, hx, rfl, hj, hc⟩, rfl⟩
      have l1 := (List.subperm_of_subset List.nodup_range (fun j hj => hall j (List.mem_range.1 hj))).length_le
      have l2 := (List.subperm_of_subset hb.nodup (fun j hj => List.mem_range.2 (hb.lt j hj))).length_le
      simp at l1 l2
      omega
    have one : ∀ t t' x x', g.s.tables t = some x → g.s.tables t' = some x' → ¬ HasLive g x → ¬ HasLive g x' → t = t' := by
      intro t t' x x' hx hx' hn hn'
      exact hg.full t ((hh.dom t).1 (by rw [hx]; simp)) t' ((hh.dom t').1 (by rw [hx']; simp)) (full t x hx hn)
        (full t' x' hx' hn')
    refine ⟨one, T, hh.nodup, hh.dom, ?_⟩
    classical
    -- a live trampoline for every table but one
    let arrOf : Nat → Nat := fun t => ((g.s.tables t).map Table.array).getD 0
    let hl : Nat → Bool := fun t => decide (∃ p ∈ g.live, p.1 = arrOf t)
    have harr : ∀ t x, g.s.tables t = some x → arrOf t = x.array := by
      intro t x hx; simp [arrOf, hx]
    have htab : ∀ t ∈ T, ∃ x, g.s.tables t = some x := fun t ht => Option.ne_none_iff_exists'.1 ((hh.dom t).2 ht)
    have hsplit : T.length = (T.filter hl).length + (T.filter fun t => !hl t).length := by
      have := List.length_eq_length_filter_add (l := T) hl
      simpa using this
    have hle1 : (T.filter hl).length ≤ g.live.length := by
      have hnd : ((T.filter hl).map arrOf).Nodup := by
        refine List.Nodup.map_on ?_ (hh.nodup.filter _)
        intro t ht t' ht' e
        obtain ⟨x, hx⟩ := htab t (List.mem_of_mem_filter ht)
        obtain ⟨x', hx'⟩ := htab t' (List.mem_of_mem_filter ht')
        rw [harr t x hx, harr t' x' hx'] at e
        exact hh.inj t t' x x' hx hx' e
      have hsub : ((T.filter hl).map arrOf) ⊆ g.live.map Prod.fst := by
        intro a ha
        obtain ⟨t, ht, rfl⟩ := List.mem_map.1 ha
        have := (List.mem_filter.1 ht).2
        simp only [hl, decide_eq_true_eq] at this
        obtain ⟨p, hp, e⟩ := this
        exact List.mem_map.2 ⟨p, hp, e⟩
      have := (List.subperm_of_subset hnd hsub).length_le
      simpa using this
    have hle2 : (T.filter fun t => !hl t).length ≤ 1 := by
      have hnd : (T.filter fun t => !hl t).Nodup := hh.nodup.filter _
      have hsame : ∀ t ∈ (T.filter fun t => !hl t), ∀ t' ∈ (T.filter fun t => !hl t), t = t' := by
        intro t ht t' ht'
        obtain ⟨m1, m2⟩ := List.mem_filter.1 ht
        obtain ⟨m1', m2'⟩ := List.mem_filter.1 ht'
        obtain ⟨x, hx⟩ := htab t m1
        obtain ⟨x', hx'⟩ := htab t' m1'
        simp only [hl, harr t x hx, harr t' x' hx', Bool.not_eq_true', decide_eq_false_iff_not] at m2 m2'
        exact one t t' x x' hx hx' m2 m2'
      cases hc : (T.filter fun t => !hl t) with
      | nil => simp
      | cons t ts =>
        cases ts with
        | nil => simp
        | cons t' ts =>
          rw [hc] at hnd hsame
          have := hsame t (by simp) t' (by simp)
          subst this
          simp at hnd
    omega

/-- C31: nothing else is held: every array and every mapped byte of the library belongs
to a table; when no trampoline is live there is at most one table. -/
theorem C31_no_leak {P : Plat} (hP : PlatOk P) {g : G} (h : Reach P g) :
    (∀ a, g.s.arrays a ≠ none → ∃ t x, g.s.tables t = some x ∧ x.array = a) ∧
    (∀ a, g.Own a → ∃ t x, g.s.tables t = some x ∧ x.code ≤ a ∧ a < x.code + 2 * g.s.mapSize) ∧
    (g.live = [] → ∀ t t', g.s.tables t ≠ none → g.s.tables t' ≠ none → t = t') := by
  refine ⟨?_, ?_, ?_⟩
  · rcases inv_reach hP h with ⟨hI, _⟩ | ⟨fr, ⟨_, _, _, _, T, gl, hh, _, _⟩, _⟩
    · intro a ha; exact absurd (hI.arrays a) ha
    · exact hh.arrDom
  · rcases inv_reach hP h with ⟨hI, _⟩ | ⟨fr, ⟨_, _, _, _, T, gl, hh, _, _⟩, _⟩
    · intro a ha; exact absurd ((congrFun hI.prot a).trans ha.2) ha.1
    · intro a ha
      by_contra hc
      push Not at hc
      refine ha.1 ((hh.out a fun t x hx hr => ?_).trans ha.2)
      have := hc t x hx hr.1
      have := hr.2
      omega
  · intro hl t t' ht ht'
    obtain ⟨x, hx⟩ := Option.ne_none_iff_exists'.1 ht
    obtain ⟨x', hx'⟩ := Option.ne_none_iff_exists'.1 ht'
    refine (C31_bound hP h).1 t t' x x' hx hx' ?_ ?_ <;> rintro ⟨p, hp, _⟩ <;> rw [hl] at hp <;> simp at hp

/-! ## C32 — failure is clean -/

/-- The platform calls of one table allocation did not all succeed. -/
def TabFails (e : TabEnv) : Prop := e.table = none ∨ e.array = none ∨ e.map1 = none ∨ e.map2 = false

/-- C32: allocation (with valid flags) fails only if the platform has no trampolines, or
could not supply a table — at this call or at initialisation — and then no table has a
free slot; and a failed allocation changes no table, array, mapping or mapped byte, no
live trampoline and no free list, and leaks no descriptor. -/
theorem C32_failure {P : Plat} (hP : PlatOk P) {g : G} (h : Reach P g) {v : Env} (he : EnvOk P g.s v) {s' : St}
    (hr : alloc P v 0 g.s = .ok (s', none)) :
    (s'.tables = g.s.tables ∧ s'.arrays = g.s.arrays ∧ s'.prot = g.s.prot ∧ s'.fd = g.s.fd ∧
      (∀ a, g.s.prot a ≠ none → s'.mem a = g.s.mem a) ∧
      (g.s.status = .passed → s'.freeTables = g.s.freeTables ∧ s'.nfreeTables = g.s.nfreeTables)) ∧
    (g.s.status = .failed ∨ P.arch = none ∨
      (∃ size ms text page, P.arch = some (size, ms, text) ∧ P.page = some page ∧ ms < page) ∨
      (g.s.status = .uninit ∧ (v.libffi = false ∨ TabFails v.e1) ∧ (v.temp = false ∨ TabFails v.e2)) ∨
      (g.s.status = .passed ∧ TabFails v.e3 ∧
        ∀ t x i, g.s.tables t = some x → i < g.s.ntramp → (x.array, i) ∈ g.live)) := by
  rcases inv_reach hP h with ⟨hI, hl⟩ | ⟨fr, hA, h1, h2, _⟩
  · obtain ⟨s1, r, e1, e2, e3⟩ := alloc_idle (f := 0) hP hI he
    rw [hr] at e1
    obtain ⟨rfl, rfl⟩ := Prod.mk.inj (Except.ok.inj e1)
    rcases e3 with ⟨_, f1, f2⟩ | ⟨_, f1, _⟩ | ⟨p, fr, f1, _⟩
    · refine ⟨⟨?_, ?_, ?_, ?_, e2, fun hc => absurd hc hI.status⟩, ?_⟩
      · funext t; rw [f1.tables, hI.tables]
      · funext t; rw [f1.arrays, hI.arrays]
      · rw [f1.prot, hI.prot]
      · rw [f1.fd, hI.fd]
      · rcases f2 with f2 | f2 | f2 | f2
        · exact .inl f2
        · exact .inr (.inl f2)
        · exact .inr (.inr (.inl f2))
        · by_cases hu : g.s.status = .failed
          · exact .inl hu
          · refine .inr (.inr (.inr (.inl ⟨?_, f2⟩)))
            have := hI.status
            cases hst : g.s.status <;> simp_all
    · simp at f1
    · simp at f1
  · obtain ⟨s1, r, e1, e2, e3, e4, e5⟩ := alloc_active (f := 0) hA he
    rw [hr] at e1
    obtain ⟨rfl, rfl⟩ := Prod.mk.inj (Except.ok.inj e1)
    rcases e5 with ⟨_, f1, f2, f3, f4, f5, f6, f7⟩ | ⟨p, fr', f1, _⟩
    · refine ⟨⟨f2, f3, f4, e3, fun a ha => (e2 a ha).1, fun _ => ⟨f5, f6⟩⟩, ?_⟩
      rcases f7 with f7 | ⟨f7, f8⟩
      · simp at f7
      · refine .inr (.inr (.inr (.inr ⟨hA.status, f8, fun t x i hx hi => ?_⟩)))
        exact (h2 _).2 ⟨t, x, hx, rfl, hi, by rw [f7 t x hx]; simp⟩
    · simp at f1

/-- C32: when some table has a free slot, allocation succeeds, and its outcome does not
depend on the platform. -/
theorem C32_free_slot {P : Plat} (hP : PlatOk P) {g : G} (h : Reach P g) (hst : g.s.status = .passed) {t i : Nat}
    {x : Table} (hx : g.s.tables t = some x) (hi : i < g.s.ntramp) (hfree : (x.array, i) ∉ g.live) :
    ∃ s' p, ∀ v, alloc P v 0 g.s = .ok (s', some p) := by
  rcases inv_reach hP h with ⟨hI, _⟩ | ⟨fr, hA, h1, h2, _⟩
  · exact absurd hst hI.status
  · have hne : fr t ≠ [] := by
      intro e
      exact hfree ((h2 _).2 ⟨t, x, hx, rfl, hi, by rw [e]; simp⟩)
    obtain ⟨s1, r, e1, e2, e3, e4, e5⟩ := alloc_active (f := 0) hA (noEnv_ok P g.s)
    rcases e5 with ⟨_, _, _, _, _, _, _, f7⟩ | ⟨p, fr', f1, _, _, _, _, _, f2⟩
    · rcases f7 with f7 | ⟨f7, _⟩
      · simp at f7
      · exact absurd (f7 t x hx) hne
    · exact ⟨s1, p, f2 ⟨t, x, hx, hne⟩⟩

/-! ## C33 — parameters -/

/-- C33: in every state, the parameter block of a live trampoline holds the target and
data it was given last, whatever was done to others. -/
theorem C33_parms {P : Plat} (hP : PlatOk P) {g : G} (h : Reach P g) {p : TP} (hp : p ∈ g.live) {target data : Nat}
    (hv : g.vals p = some (target, data)) :
    ∃ y, g.s.getR p = .ok y ∧ g.s.mem.rd y.parm 16 = leBytes 8 data ++ leBytes 8 target := by
  rcases inv_reach hP h with ⟨_, hl⟩ | ⟨fr, hA, h1, h2, h3⟩
  · rw [hl] at hp; simp at hp
  · obtain ⟨y, a1, a2, a3, _⟩ := live_facts hA ((h2 p).1 hp)
    refine ⟨y, a1, ?_⟩
    rw [a3]
    exact h3 p hp target data _ hv a2

/-- C33: setting the parameters changes the 16 bytes of that trampoline's block and
nothing else. -/
theorem C33_frame {P : Plat} (hP : PlatOk P) {g : G} (h : Reach P g) {p : TP} (hp : p ∈ g.live) {target data : Nat}
    {s' : St} (hr : setParms p target data g.s = .ok s') :
    ∃ y, g.s.getR p = .ok y ∧ (∀ a, a < y.parm ∨ y.parm + 16 ≤ a → s'.mem a = g.s.mem a) ∧
      s' = { g.s with mem := s'.mem } := by
  rcases inv_reach hP h with ⟨_, hl⟩ | ⟨fr, hA, h1, h2, h3⟩
  · rw [hl] at hp; simp at hp
  · obtain ⟨s1, y, e1, e2, e3, _⟩ := setParms_active hA ((h2 p).1 hp) target data
    rw [hr] at e1
    obtain rfl := Except.ok.inj e1
    refine ⟨y, e2, fun a ha => ?_, by rw [e3]⟩
    rw [e3]
    simp only
    apply Mem.wr_out
    simpa using ha

open Verif.X64 in
/-- C33 with C21: on x86-64, in every state of every history, jumping to the address of a
live trampoline reaches the target it was given last with the data it was given last,
whatever other trampolines were allocated, freed or changed meanwhile. -/
theorem C33_jump {P : Plat} {endbr : Bool} {text : Nat → Byte}
    (harch : P.arch = some (trampSize endbr, trampMapSize, text))
    (htext : ∀ i, i < trampMapSize / trampSize endbr → ∀ k, k < (staticTramp endbr).length →
      text (i * trampSize endbr + k) = (staticTramp endbr).getD k 0)
    {g : G} (h : Reach P g) {p : TP} (hp : p ∈ g.live) {target data : Nat} (hv : g.vals p = some (target, data))
    (ht : target < 2 ^ 64) (hd : data < 2 ^ 64) {addr : Nat} (ha : getAddr p g.s = .ok addr)
    (haddr : addr + trampMapSize + 16 ≤ 2 ^ 64) {r sp : Nat} (hr : r < 2 ^ 64) (hsp : 16 ≤ sp) (hsp' : sp < 2 ^ 64)
    (hstk : sp ≤ addr ∨ addr + trampMapSize + 16 ≤ sp - 16) :
    ∃ z, steps (if endbr then 7 else 6) ⟨addr, r, sp, g.s.mem⟩ = some z ∧ z.rip = target ∧
      (altEntry z).r10 = data ∧ (altEntry z).rsp = sp ∧
      ∀ x, x < 2 ^ 64 → x < sp - 16 ∨ sp ≤ x → z.mem x = g.s.mem x := by
  have hts : 16 ≤ trampSize endbr := by cases endbr <;> simp [trampSize]
  have hts' : trampSize endbr ≤ trampMapSize := by cases endbr <;> simp [trampSize, trampMapSize]
  have hms : trampMapSize = 4096 := rfl
  have hlen : (staticTramp endbr).length ≤ trampSize endbr := by cases endbr <;> decide
  have hP : PlatOk P := by
    intro size ms tx e
    rw [harch] at e
    simp only [Option.some.injEq, Prod.mk.injEq] at e
    omega
  obtain ⟨y, size, ms, tx, e0, e1, e2, e3, e4, e5⟩ := C30_mapped hP h hp
  rw [harch] at e0
  simp only [Option.some.injEq, Prod.mk.injEq] at e0
  obtain ⟨rfl, rfl, rfl⟩ := e0
  rw [ha] at e2
  obtain rfl := Except.ok.inj e2
  obtain ⟨y', f1, f2⟩ := C33_parms hP h hp hv
  rw [e1] at f1
  obtain rfl := Except.ok.inj f1
  have hcode : Holds g.s.mem y.code (staticTramp endbr) := by
    intro k hk
    rw [w64_of_lt (by omega), (e5 k (by omega)).2.1]
    exact htext p.2 e3 k hk
  have hparm : Holds g.s.mem (y.code + 4096) (leBytes 8 data ++ leBytes 8 target) := by
    intro k hk
    rw [leBytes_pair_length] at hk
    rw [w64_of_lt (by omega), ← f2, Mem.rd_getD _ _ _ _ hk, e4, hms]
  refine ⟨_, static_run hd ht (by omega) hcode hparm hsp hsp' (by omega) (by omega), rfl, ?_, ?_, ?_⟩
  · simp only [altEntry]
    rw [show sp - 16 + 8 = sp - 8 by omega, w64_of_lt (by omega), load_store64 (by omega) hd]
  · simp only [altEntry]
    rw [show sp - 16 + 16 = sp by omega, w64_of_lt hsp']
  · intro x hx hx'
    simp only
    rw [store64_other (by omega) hx (by omega), store64_other (by omega) hx (by omega)]

/-! ## Cases meeting the hypotheses -/

/-- A process that allocated two trampolines and set the parameters of both; the first
attempt to get a table failed at the second `mmap`. -/
theorem ex_history : ∃ g p q, Reach exPlat g ∧ p ∈ g.live ∧ q ∈ g.live ∧ p ≠ q ∧ g.s.status = .passed ∧
    g.vals p = some (1, 2) ∧ g.vals q = some (3, 4) := by
  have hR0 := Reach.init (P := exPlat) (fun _ => 0) (fun _ => none)
  have he0 : EnvOk exPlat (St.init (fun _ => 0) fun _ => none) exEnv := by
    intro _ _ _ _
    refine ⟨⟨?_, ?_, ?_⟩, ⟨?_, ?_, ?_⟩, ⟨?_, ?_, ?_⟩⟩ <;> intros <;> rfl
  obtain ⟨⟨s1, r1⟩, hr1⟩ := (C30_no_fault exPlat_ok hR0).2.1 exEnv 0 he0
  cases r1 with
  | none =>
    have := (C32_failure exPlat_ok hR0 he0 hr1).2
    simp [exPlat, exEnv, TabFails, exTab, St.init] at this
  | some p =>
    have hR1 := Reach.step hR0 (Step.alloc he0 hr1)
    rcases inv_reach exPlat_ok hR1 with ⟨_, hl⟩ | ⟨fr, hA, h1, h2, _⟩
    · simp at hl
    · obtain ⟨t, x, hx, e1, e2, e3⟩ := (h2 p).1 (by simp)
      have hn : s1.ntramp = 3 := by
        have := hA.n
        have ha := hA.arch
        simp only [exPlat, Option.some.injEq, Prod.mk.injEq] at ha
        simp only [← ha.1, ← ha.2.1] at this
        exact this
      -- some other slot of the same table
      have hslot : ∃ i, i < s1.ntramp ∧ (x.array, i) ∉ [p] := by
        rw [hn]
        by_cases h0 : p.2 = 0
        · exact ⟨1, by omega, by intro hc; simp at hc; rw [← hc] at h0; simp at h0⟩
        · exact ⟨0, by omega, by intro hc; simp at hc; rw [← hc] at h0; simp at h0⟩
      obtain ⟨i, hi, hni⟩ := hslot
      obtain ⟨s2, q, hr2⟩ := C32_free_slot exPlat_ok hR1 hA.status hx hi hni
      have hq := C29_fresh exPlat_ok hR1 (noEnv_ok _ _) (hr2 noEnv)
      have hR2 := Reach.step hR1 (Step.alloc (noEnv_ok _ _) (hr2 noEnv))
      obtain ⟨s3, hr3⟩ := ((C30_no_fault exPlat_ok hR2).2.2 p (by simp)).2.2 1 2
      have hR3 := Reach.step hR2 (Step.setParms (by simp) hr3)
      obtain ⟨s4, hr4⟩ := ((C30_no_fault exPlat_ok hR3).2.2 q (by simp)).2.2 3 4
      have hR4 := Reach.step hR3 (Step.setParms (by simp) hr4)
      have hpq : p ≠ q := fun e => hq (by simp [e])
      refine ⟨_, p, q, hR4, by simp, by simp, hpq, ?_, ?_, by simp⟩
      · rcases inv_reach exPlat_ok hR4 with ⟨_, hl⟩ | ⟨fr, hA, _⟩
        · simp at hl
        · exact hA.status
      · simp [upd_other _ _ hpq]

example : ∃ g p q y z, Reach exPlat g ∧ p ∈ g.live ∧ q ∈ g.live ∧ g.s.getR p = .ok y ∧ g.s.getR q = .ok z ∧
    g.s.mem.rd y.parm 16 = [2, 0, 0, 0, 0, 0, 0, 0, 1, 0, 0, 0, 0, 0, 0, 0] ∧
    g.s.mem.rd z.parm 16 = [4, 0, 0, 0, 0, 0, 0, 0, 3, 0, 0, 0, 0, 0, 0, 0] := by
  obtain ⟨g, p, q, h1, h2, h3, _, _, h4, h5⟩ := ex_history
  obtain ⟨y, a1, a2⟩ := C33_parms exPlat_ok h1 h2 h4
  obtain ⟨z, b1, b2⟩ := C33_parms exPlat_ok h1 h3 h5
  exact ⟨g, p, q, y, z, h1, h2, h3, a1, b1, a2, b2⟩

/-- A failing allocation: no descriptor for the library, no temporary file. -/
example : EnvOk exPlat (St.init (fun _ => 0) fun _ => none) noEnv ∧
    ∃ s', alloc exPlat noEnv 0 (St.init (fun _ => 0) fun _ => none) = .ok (s', none) :=
  ⟨noEnv_ok _ _, _, rfl⟩

open Verif.X64 in
/-- The x86-64 platform. -/
def x64Plat (endbr : Bool) : Plat :=
  ⟨some (trampSize endbr, trampMapSize, fun o => (staticTramp endbr).getD (o % trampSize endbr) 0), some 4096⟩

open Verif.X64 in
example (endbr : Bool) : ∀ i, i < trampMapSize / trampSize endbr → ∀ k, k < (staticTramp endbr).length →
    (fun o => (staticTramp endbr).getD (o % trampSize endbr) 0) (i * trampSize endbr + k) =
      (staticTramp endbr).getD k 0 := by
  intro i _ k hk
  have hlen : (staticTramp endbr).length ≤ trampSize endbr := by cases endbr <;> decide
  simp only
  rw [Nat.add_comm, Nat.add_mul_mod_self_right, Nat.mod_eq_of_lt (by omega)]

end Verif.Props
