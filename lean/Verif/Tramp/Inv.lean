import Verif.Tramp.Model
import Verif.Base.Dll

/-
Invariant of the trampoline tables: shape of both lists, contents of the heap blocks and
of the address space.
-/
namespace Verif.Tramp
open Verif

@[simp] theorem upd_same {α β : Type} [DecidableEq α] (f : α → β) (a : α) (b : β) : upd f a b a = b := by
  simp [upd]

theorem upd_other {α β : Type} [DecidableEq α] (f : α → β) {a x : α} (b : β) (h : x ≠ a) : upd f a b x = f x := by
  simp [upd, h]

/-- `a` lies in the `2 * mapSize` bytes mapped for table `x`. -/
def InReg (ms : Nat) (x : Table) (a : Nat) : Prop := x.code ≤ a ∧ a < x.code + 2 * ms

/-- Contents of table `t` (structure `x`, array `arr`): `fr` are the free trampolines in
list order, entries below `k` are initialised. -/
structure Body (size ms n : Nat) (t : Nat) (x : Table) (arr : Nat → Tramp) (fr : List Nat) (k : Nat) : Prop where
  seg : Seg (fun p : TP => (arr p.2).next) (fun p => (arr p.2).prev) none (fr.map (Prod.mk x.array)) x.free
  nodup : fr.Nodup
  lt : ∀ i ∈ fr, i < k
  kn : k ≤ n
  nfree : x.nfree = fr.length
  parm : x.parm = x.code + ms
  ent : ∀ i, i < k → (arr i).table = t ∧ (arr i).code = x.code + i * size ∧ (arr i).parm = x.parm + i * size

/-- Heap and address space: `T` are the allocated tables, `prot0` the mappings of the
rest of the process. -/
structure HInv (prot0 : Nat → Option Prot) (s : St) (T : List Nat) (fr : Nat → List Nat) (k : Nat → Nat) : Prop where
  nodup : T.Nodup
  dom : ∀ t, s.tables t ≠ none ↔ t ∈ T
  body : ∀ t x, s.tables t = some x → ∃ arr, s.arrays x.array = some arr ∧
    Body s.size s.mapSize s.ntramp t x arr (fr t) (k t)
  inj : ∀ t t' x x', s.tables t = some x → s.tables t' = some x' → x.array = x'.array → t = t'
  arrDom : ∀ a, s.arrays a ≠ none → ∃ t x, s.tables t = some x ∧ x.array = a
  disj : ∀ t t' x x' a, s.tables t = some x → s.tables t' = some x' → InReg s.mapSize x a → InReg s.mapSize x' a → t = t'
  code : ∀ t x o, s.tables t = some x → o < s.mapSize → s.prot (x.code + o) = some .rx ∧ s.mem (x.code + o) = s.text o
  data : ∀ t x o, s.tables t = some x → o < s.mapSize → s.prot (x.code + s.mapSize + o) = some .rw
  out : ∀ a, (∀ t x, s.tables t = some x → ¬ InReg s.mapSize x a) → s.prot a = prot0 a
  fresh : ∀ t x a, s.tables t = some x → InReg s.mapSize x a → prot0 a = none
  npos : 0 < s.ntramp
  fit : s.ntramp * s.size ≤ s.mapSize

/-- The list of tables with free trampolines. -/
structure LInv (s : St) (gl : List Nat) : Prop where
  seg : Seg (fun t => (s.tables t).bind Table.next) (fun t => (s.tables t).bind Table.prev) none gl s.freeTables
  nodup : gl.Nodup
  count : s.nfreeTables = gl.length

/-- How the lists are related. -/
structure GInv (n : Nat) (T : List Nat) (fr : Nat → List Nat) (gl : List Nat) : Prop where
  mem : ∀ t, t ∈ gl ↔ t ∈ T ∧ fr t ≠ []
  full : ∀ t ∈ T, ∀ t' ∈ T, (fr t).length = n → (fr t').length = n → t = t'

/-- Everything but the links of the table list. -/
def Table.core (x : Table) : Nat × Nat × Nat × Option TP × Int := (x.code, x.parm, x.array, x.free, x.nfree)

theorem Body.congr {size ms n t : Nat} {x x' : Table} {arr : Nat → Tramp} {fr : List Nat} {k : Nat}
    (h : Body size ms n t x arr fr k) (hc : x'.core = x.core) : Body size ms n t x' arr fr k := by
  simp only [Table.core, Prod.mk.injEq] at hc
  obtain ⟨h1, h2, h3, h4, h5⟩ := hc
  exact ⟨by rw [h3, h4]; exact h.seg, h.nodup, h.lt, h.kn, h5.trans h.nfree, by rw [h1, h2]; exact h.parm,
    by rw [h1, h2]; exact h.ent⟩

/-- Changing links of tables does not matter. -/
theorem HInv.links {prot0 : Nat → Option Prot} {s s' : St} {T : List Nat} {fr : Nat → List Nat} {k : Nat → Nat}
    (h : HInv prot0 s T fr k)
    (ht : ∀ u, (s'.tables u).map Table.core = (s.tables u).map Table.core)
    (ha : s'.arrays = s.arrays) (hp : s'.prot = s.prot) (hm : s'.mem = s.mem)
    (hs : s'.size = s.size ∧ s'.mapSize = s.mapSize ∧ s'.ntramp = s.ntramp ∧ s'.text = s.text) :
    HInv prot0 s' T fr k := by
  obtain ⟨s1, s2, s3, s4⟩ := hs
  have back : ∀ t x', s'.tables t = some x' → ∃ x, s.tables t = some x ∧ x'.core = x.core := by
    intro t x' hx
    have := ht t
    rw [hx] at this
    cases hx2 : s.tables t with
    | none => rw [hx2] at this; simp at this
    | some x => rw [hx2] at this; exact ⟨x, rfl, by simpa using this⟩
  have fwd : ∀ t x, s.tables t = some x → ∃ x', s'.tables t = some x' ∧ x'.core = x.core := by
    intro t x hx
    have := ht t
    rw [hx] at this
    cases hx2 : s'.tables t with
    | none => rw [hx2] at this; simp at this
    | some x' => rw [hx2] at this; exact ⟨x', rfl, by simpa using this⟩
  have creg : ∀ {x x' : Table} {a : Nat}, x'.core = x.core → (InReg s.mapSize x' a ↔ InReg s.mapSize x a) := by
    intro x x' a hc
    simp only [Table.core, Prod.mk.injEq] at hc
    unfold InReg; rw [hc.1]
  have carr : ∀ {x x' : Table}, x'.core = x.core → x'.array = x.array := by
    intro x x' hc
    simp only [Table.core, Prod.mk.injEq] at hc
    exact hc.2.2.1
  have ccode : ∀ {x x' : Table}, x'.core = x.core → x'.code = x.code := by
    intro x x' hc
    simp only [Table.core, Prod.mk.injEq] at hc
    exact hc.1
  constructor
  · exact h.nodup
  · intro t
    rw [← h.dom t]
    have := ht t
    cases h1 : s'.tables t <;> cases h2 : s.tables t <;> simp_all
  · intro t x' hx
    obtain ⟨x, h1, h2⟩ := back t x' hx
    obtain ⟨arr, h3, h4⟩ := h.body t x h1
    rw [ha, s1, s2, s3, carr h2]
    exact ⟨arr, h3, h4.congr h2⟩
  · intro t t' x x' h1 h2 h3
    obtain ⟨y, e1, e2⟩ := back t x h1
    obtain ⟨y', e1', e2'⟩ := back t' x' h2
    exact h.inj t t' y y' e1 e1' (by rw [← carr e2, ← carr e2', h3])
  · intro a hx
    rw [ha] at hx
    obtain ⟨t, x, e1, e2⟩ := h.arrDom a hx
    obtain ⟨x', e3, e4⟩ := fwd t x e1
    exact ⟨t, x', e3, (carr e4).trans e2⟩
  · intro t t' x x' a h1 h2 h3 h4
    obtain ⟨y, e1, e2⟩ := back t x h1
    obtain ⟨y', e1', e2'⟩ := back t' x' h2
    rw [s2] at h3 h4
    exact h.disj t t' y y' a e1 e1' ((creg e2).1 h3) ((creg e2').1 h4)
  · intro t x o h1 h2
    obtain ⟨y, e1, e2⟩ := back t x h1
    rw [s2] at h2
    rw [hp, hm, s4, ccode e2]
    exact h.code t y o e1 h2
  · intro t x o h1 h2
    obtain ⟨y, e1, e2⟩ := back t x h1
    rw [s2] at h2
    rw [hp, s2, ccode e2]
    exact h.data t y o e1 h2
  · intro a hout
    rw [hp]
    refine h.out a fun t x h1 h2 => ?_
    obtain ⟨x', e3, e4⟩ := fwd t x h1
    have := hout t x' e3
    rw [s2] at this
    exact this ((creg e4).2 h2)
  · intro t x a h1 h2
    obtain ⟨y, e1, e2⟩ := back t x h1
    rw [s2] at h2
    exact h.fresh t y a e1 ((creg e2).1 h2)
  · rw [s3]; exact h.npos
  · rw [s1, s2, s3]; exact h.fit

/-! ## Table list operations -/

theorem tableAdd_eq {t : Nat} {s : St} {x : Table} (hx : s.tables t = some x)
    (hh : ∀ u, s.freeTables = some u → u ≠ t ∧ s.tables u ≠ none) :
    tableAdd t s = .ok { s with
      tables := fun u => (s.tables u).map fun y =>
        if u = t then { y with next := s.freeTables, prev := none }
        else if s.freeTables = some u then { y with prev := some t } else y
      freeTables := some t
      nfreeTables := s.nfreeTables + 1 } := by
  unfold tableAdd
  simp only [St.setT, hx, bind, Except.bind, upd_same, pure, Except.pure]
  cases hf : s.freeTables with
  | none =>
    simp only [St.setT?, Except.ok.injEq, reduceCtorEq, if_false]
    congr 1
    funext u
    by_cases hu : u = t
    · subst hu; simp [hx]
    · rw [upd_other _ _ hu, upd_other _ _ hu]
      cases s.tables u <;> simp [hu]
  | some w =>
    obtain ⟨h1, h2⟩ := hh w hf
    obtain ⟨y, hy⟩ := Option.ne_none_iff_exists'.1 h2
    simp only [St.setT?, St.setT, upd_other _ _ h1, hy, Except.ok.injEq]
    congr 1
    funext u
    by_cases hu : u = w
    · subst hu; simp [h1, hy]
    · rw [upd_other _ _ hu]
      by_cases hu' : u = t
      · subst hu'; simp [hx]
      · rw [upd_other _ _ hu', upd_other _ _ hu']
        have : ¬ w = u := fun h => hu h.symm
        cases s.tables u <;> simp [hu', this]

theorem tableDel_eq {t : Nat} {s : St} {x : Table} (hx : s.tables t = some x)
    (hp : ∀ u, x.prev = some u → u ≠ t ∧ s.tables u ≠ none)
    (hn : ∀ u, x.next = some u → u ≠ t ∧ s.tables u ≠ none) :
    tableDel t s = .ok { s with
      tables := fun u => (s.tables u).map fun y =>
        { y with next := if x.prev = some u then x.next else y.next
                 prev := if x.next = some u then x.prev else y.prev }
      freeTables := if s.freeTables = some t then x.next else s.freeTables
      nfreeTables := s.nfreeTables - 1 } := by
  unfold tableDel
  have e1 : St.setT? { s with nfreeTables := s.nfreeTables - 1 } x.prev (fun y => { y with next := x.next }) =
      .ok { s with
        nfreeTables := s.nfreeTables - 1
        tables := fun u => (s.tables u).map fun y => { y with next := if x.prev = some u then x.next else y.next } } := by
    cases hq : x.prev with
    | none =>
      simp only [St.setT?, Except.ok.injEq, reduceCtorEq, if_false]
      congr 1
      funext u
      cases s.tables u <;> rfl
    | some w =>
      obtain ⟨y, hy⟩ := Option.ne_none_iff_exists'.1 (hp w hq).2
      simp only [St.setT?, St.setT, hy, Except.ok.injEq]
      congr 1
      funext u
      by_cases hu : u = w
      · subst hu; simp [hy]
      · rw [upd_other _ _ hu]
        have : ¬ w = u := fun h => hu h.symm
        cases s.tables u <;> simp [this]
  have hpt : ¬ x.prev = some t := fun h => (hp t h).1 rfl
  have hnt : ¬ x.next = some t := fun h => (hn t h).1 rfl
  simp only [St.getT, hx, bind, Except.bind, e1, Option.map_some, hpt, if_false, pure, Except.pure]
  have e2 : St.setT? { s with
        nfreeTables := s.nfreeTables - 1
        tables := fun u => (s.tables u).map fun y => { y with next := if x.prev = some u then x.next else y.next } }
        x.next (fun y => { y with prev := x.prev }) =
      .ok { s with
        nfreeTables := s.nfreeTables - 1
        tables := fun u => (s.tables u).map fun y =>
          { y with next := if x.prev = some u then x.next else y.next
                   prev := if x.next = some u then x.prev else y.prev } } := by
    cases hq : x.next with
    | none =>
      simp only [St.setT?, Except.ok.injEq, reduceCtorEq, if_false]
    | some w =>
      obtain ⟨y, hy⟩ := Option.ne_none_iff_exists'.1 (hn w hq).2
      simp only [St.setT?, St.setT, hy, Option.map_some, Except.ok.injEq]
      congr 1
      funext u
      by_cases hu : u = w
      · subst hu; simp [hy]
      · rw [upd_other _ _ hu]
        have : ¬ w = u := fun h => hu h.symm
        cases s.tables u <;> simp [this]
  simp only [e2, hx, Option.map_some, hpt, hnt, if_false]
  split_ifs <;> rfl

theorem core_map {α : Type} (o : Option Table) (f : Table → Table) (h : ∀ y, (f y).core = y.core) :
    (o.map f).map Table.core = o.map Table.core := by
  cases o <;> simp [h]

/-- Adding a table to the list. -/
theorem tableAdd_inv {prot0 : Nat → Option Prot} {s : St} {T : List Nat} {fr : Nat → List Nat} {k : Nat → Nat}
    {gl : List Nat} {t : Nat} (h : HInv prot0 s T fr k) (hl : LInv s gl) (hgl : ∀ u ∈ gl, u ∈ T) (ht : t ∈ T)
    (hnt : t ∉ gl) :
    ∃ s', tableAdd t s = .ok s' ∧ HInv prot0 s' T fr k ∧ LInv s' (t :: gl) ∧
      s'.arrays = s.arrays ∧ s'.prot = s.prot ∧ s'.mem = s.mem ∧ s'.fd = s.fd ∧ s'.status = s.status ∧
      (s'.size = s.size ∧ s'.mapSize = s.mapSize ∧ s'.ntramp = s.ntramp ∧ s'.text = s.text) ∧
      ∀ u, (s'.tables u).map Table.core = (s.tables u).map Table.core := by
  obtain ⟨x, hx⟩ := Option.ne_none_iff_exists'.1 ((h.dom t).2 ht)
  have hh : ∀ u, s.freeTables = some u → u ≠ t ∧ s.tables u ≠ none := by
    intro u hu
    have hm : u ∈ gl := by
      have := hl.seg.head_eq
      rw [hu] at this
      exact List.mem_of_mem_head? this.symm
    exact ⟨fun e => hnt (e ▸ hm), (h.dom u).2 (hgl u hm)⟩
  have hc : ∀ u, ((s.tables u).map fun y =>
        if u = t then { y with next := s.freeTables, prev := none }
        else if s.freeTables = some u then { y with prev := some t } else y).map Table.core =
        (s.tables u).map Table.core := by
    intro u
    apply core_map (α := Unit)
    intro y
    split_ifs <;> rfl
  refine ⟨_, tableAdd_eq hx hh, h.links hc rfl rfl rfl ⟨rfl, rfl, rfl, rfl⟩, ⟨?_, ?_, ?_⟩, rfl, rfl, rfl, rfl, rfl, ⟨rfl, rfl, rfl, rfl⟩, hc⟩
  · apply hl.seg.push hnt hl.nodup
    · simp [hx]
    · simp [hx]
    · intro y hy
      have hyt : y ≠ t := fun e => hnt (e ▸ hy)
      simp only [hyt, if_false]
      cases hy2 : s.tables y with
      | none => exact absurd hy2 ((h.dom y).2 (hgl y hy))
      | some z =>
        simp only [Option.map_some, Option.bind_some]
        constructor <;> split_ifs <;> rfl
  · exact List.nodup_cons.2 ⟨hnt, hl.nodup⟩
  · simp only [hl.count, List.length_cons]
    push_cast
    rfl

/-- Removing a table from the list. -/
theorem tableDel_inv {prot0 : Nat → Option Prot} {s : St} {T : List Nat} {fr : Nat → List Nat} {k : Nat → Nat}
    {gl : List Nat} {t : Nat} (h : HInv prot0 s T fr k) (hl : LInv s gl) (hgl : ∀ u ∈ gl, u ∈ T) (ht : t ∈ gl) :
    ∃ s', tableDel t s = .ok s' ∧ HInv prot0 s' T fr k ∧ LInv s' (gl.erase t) ∧
      s'.arrays = s.arrays ∧ s'.prot = s.prot ∧ s'.mem = s.mem ∧ s'.fd = s.fd ∧ s'.status = s.status ∧
      (s'.size = s.size ∧ s'.mapSize = s.mapSize ∧ s'.ntramp = s.ntramp ∧ s'.text = s.text) ∧
      ∀ u, (s'.tables u).map Table.core = (s.tables u).map Table.core := by
  obtain ⟨x, hx⟩ := Option.ne_none_iff_exists'.1 ((h.dom t).2 (hgl t ht))
  have epv : (s.tables t).bind Table.prev = x.prev := by rw [hx]; rfl
  have enx : (s.tables t).bind Table.next = x.next := by rw [hx]; rfl
  have hp : ∀ u, x.prev = some u → u ≠ t ∧ s.tables u ≠ none := by
    intro u hu
    refine ⟨fun e => ?_, ?_⟩
    · subst e
      exact hl.seg.pv_ne hl.nodup ht (epv.trans hu)
    · rcases hl.seg.pv_mem ht with ⟨_, b⟩ | ⟨y, hy, a, b⟩
      · rw [epv, hu] at b; exact absurd b (by simp)
      · rw [epv, hu, Option.some.injEq] at a
        subst a
        exact (h.dom _).2 (hgl _ hy)
  have hn : ∀ u, x.next = some u → u ≠ t ∧ s.tables u ≠ none := by
    intro u hu
    refine ⟨fun e => ?_, ?_⟩
    · subst e
      exact hl.seg.nx_ne hl.nodup ht (enx.trans hu)
    · rcases hl.seg.nx_mem ht with b | ⟨y, hy, a⟩
      · rw [enx, hu] at b; exact absurd b (by simp)
      · rw [enx, hu, Option.some.injEq] at a
        subst a
        exact (h.dom _).2 (hgl _ (List.mem_of_mem_tail hy))
  have hc : ∀ u, ((s.tables u).map fun y =>
        { y with next := if x.prev = some u then x.next else y.next
                 prev := if x.next = some u then x.prev else y.prev }).map Table.core =
        (s.tables u).map Table.core := by
    intro u
    apply core_map (α := Unit)
    intro y
    rfl
  refine ⟨_, tableDel_eq hx hp hn, h.links hc rfl rfl rfl ⟨rfl, rfl, rfl, rfl⟩, ⟨?_, ?_, ?_⟩, rfl, rfl, rfl, rfl, rfl, ⟨rfl, rfl, rfl, rfl⟩, hc⟩
  · have := hl.seg.unlink (t := t)
      (nx' := fun u => ((s.tables u).map fun y =>
        { y with next := if x.prev = some u then x.next else y.next
                 prev := if x.next = some u then x.prev else y.prev }).bind Table.next)
      (pv' := fun u => ((s.tables u).map fun y =>
        { y with next := if x.prev = some u then x.next else y.next
                 prev := if x.next = some u then x.prev else y.prev }).bind Table.prev)
      ht hl.nodup (by simp) ?_ ?_
    · rw [enx] at this
      exact this
    · intro y hy
      rw [epv, enx]
      cases hy2 : s.tables y with
      | none => exact absurd hy2 ((h.dom y).2 (hgl y hy))
      | some z => rfl
    · intro y hy
      rw [epv, enx]
      cases hy2 : s.tables y with
      | none => exact absurd hy2 ((h.dom y).2 (hgl y hy))
      | some z => rfl
  · exact hl.nodup.erase t
  · simp only [hl.count, List.length_erase_of_mem ht]
    have := List.length_pos_of_mem ht
    omega

end Verif.Tramp
