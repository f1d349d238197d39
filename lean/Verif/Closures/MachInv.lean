import Verif.Spec.Mach

/-
Invariant of the Mach trampoline tables.  Nothing is claimed about the `prev` and `next`
links.
-/
namespace Verif.Mach
open Verif

@[simp] theorem upd_same {β : Type} (f : Nat → β) (a : Nat) (b : β) : upd f a b a = b := by simp [upd]

theorem upd_ne {β : Type} (f : Nat → β) {a x : Nat} (b : β) (h : x ≠ a) : upd f a b x = f x := by simp [upd, h]

theorem upd_upd {β : Type} (f : Nat → β) (a : Nat) (b b' : β) : upd (upd f a b) a b' = upd f a b' := by
  funext x; simp only [upd]; split <;> rfl

/-- The entries reachable from `h` in pool `p` with contents `a` have the indices `l`. -/
def FL (a : Nat → Entry) (p : Nat) : Option EP → List Nat → Prop
  | h, [] => h = none
  | h, i :: l => h = some (p, i) ∧ FL a p (a i).next l

theorem FL.congr {a a' : Nat → Entry} {p : Nat} : ∀ {l : List Nat} {h}, FL a p h l →
    (∀ i ∈ l, (a' i).next = (a i).next) → FL a' p h l
  | [], _, h, _ => h
  | i :: l, _, ⟨h1, h2⟩, hc => ⟨h1, by
      rw [hc i (by simp)]
      exact FL.congr h2 fun j hj => hc j (by simp [hj])⟩

/-- A table without its links. -/
def Table.core (x : Table) : Nat × Nat × Option EP × Nat := (x.config, x.freeCount, x.freeList, x.pool)

/-- Table `t` with contents `x` is sound and its free entries are `l`. -/
structure TOk (c : Cfg) (g : G) (x : Table) (l : List Nat) : Prop where
  pool : ∃ a, g.s.pools x.pool = some a ∧ FL a x.pool x.freeList l ∧
    ∀ i, i < c.count → (a i).tramp = x.config + c.page + i * c.size
  nodup : l.Nodup
  lt : ∀ i ∈ l, i < c.count
  cnt : x.freeCount = l.length
  rw : ∀ o, o < c.page → g.s.prot (x.config + o) = some .rw ∧ g.other (x.config + o) = none
  rx : ∀ o, c.page ≤ o → o < 2 * c.page → g.s.prot (x.config + o) = some .rx ∧ g.other (x.config + o) = none

/-- Closure `p` is entry `i` of table `t`. -/
def At (c : Cfg) (g : G) (p : Nat × Nat) (t i : Nat) : Prop :=
  ∃ x, g.s.tables t = some x ∧ g.s.closures p.1 = some ⟨t, (x.pool, i)⟩ ∧ i < c.count ∧
    p.2 = x.config + c.page + i * c.size

structure Inv (c : Cfg) (g : G) (fl : Nat → List Nat) : Prop where
  head : ∀ h, g.s.head = some h → g.s.tables h ≠ none
  tab : ∀ t x, g.s.tables t = some x → TOk c g x (fl t)
  pools : ∀ t t' x x', g.s.tables t = some x → g.s.tables t' = some x' → x.pool = x'.pool → t = t'
  disj : ∀ t t' x x', g.s.tables t = some x → g.s.tables t' = some x' → t ≠ t' →
    ∀ o o', o < 2 * c.page → o' < 2 * c.page → x.config + o ≠ x'.config + o'
  live : ∀ p ∈ g.live, ∃ t i, At c g p t i ∧ i ∉ fl t
  keys : (g.live.map (·.1)).Nodup
  inj : ∀ p ∈ g.live, ∀ q ∈ g.live, ∀ t i, At c g p t i → At c g q t i → p = q
  used : ∀ t i, g.s.tables t ≠ none → i < c.count → i ∉ fl t → ∃ p ∈ g.live, At c g p t i
  mapped : ∀ a, g.other a ≠ none → g.s.prot a = g.other a

theorem core_eq {x y : Table} (h : x.core = y.core) :
    x.config = y.config ∧ x.freeCount = y.freeCount ∧ x.freeList = y.freeList ∧ x.pool = y.pool := by
  simpa [Table.core] using h

/-- Same state up to the links. -/
structure Sim (s s' : St) : Prop where
  tables : ∀ t, (s'.tables t).map Table.core = (s.tables t).map Table.core
  pools : s'.pools = s.pools
  closures : s'.closures = s.closures
  prot : s'.prot = s.prot

theorem Sim.fwd {s s' : St} (h : Sim s s') {t x} (hx : s.tables t = some x) :
    ∃ x', s'.tables t = some x' ∧ x'.core = x.core := by
  have := h.tables t
  rw [hx] at this
  cases e : s'.tables t with
  | none => rw [e] at this; simp at this
  | some x' => rw [e] at this; exact ⟨x', rfl, by simpa using this⟩

theorem Sim.symm {s s' : St} (h : Sim s s') : Sim s' s :=
  ⟨fun t => (h.tables t).symm, h.pools.symm, h.closures.symm, h.prot.symm⟩

theorem Sim.trans {a b d : St} (h : Sim a b) (k : Sim b d) : Sim a d :=
  ⟨fun t => (k.tables t).trans (h.tables t), k.pools.trans h.pools, k.closures.trans h.closures,
    k.prot.trans h.prot⟩

theorem Sim.refl (s : St) : Sim s s := ⟨fun _ => rfl, rfl, rfl, rfl⟩

theorem Sim.at {c : Cfg} {g : G} {s' : St} (h : Sim g.s s') {p t i} :
    At c { g with s := s' } p t i ↔ At c g p t i := by
  constructor
  · rintro ⟨x, h1, h2, h3, h4⟩
    obtain ⟨y, hy, e⟩ := h.symm.fwd h1
    obtain ⟨e1, _, _, e4⟩ := core_eq e
    exact ⟨y, hy, by rw [e4, ← h2, h.closures], h3, by rw [e1, h4]⟩
  · rintro ⟨x, h1, h2, h3, h4⟩
    obtain ⟨y, hy, e⟩ := h.fwd h1
    obtain ⟨e1, _, _, e4⟩ := core_eq e
    exact ⟨y, hy, by show s'.closures p.1 = _; rw [e4, ← h2, h.closures], h3, by rw [e1, h4]⟩

theorem Inv.sim {c : Cfg} {g : G} {fl} (h : Inv c g fl) {s' : St} (hs : Sim g.s s')
    (hh : ∀ t, s'.head = some t → g.s.tables t ≠ none) : Inv c { g with s := s' } fl where
  head := by
    intro t ht
    obtain ⟨x, hx⟩ := Option.ne_none_iff_exists'.1 (hh t ht)
    obtain ⟨y, hy, _⟩ := hs.fwd hx
    rw [hy]; simp
  tab := by
    intro t x hx
    obtain ⟨y, hy, e⟩ := hs.symm.fwd hx
    obtain ⟨e1, e2, e3, e4⟩ := core_eq e
    obtain ⟨p, a, b, d, r, q⟩ := h.tab t y hy
    refine ⟨?_, a, b, by rw [← e2]; exact d, ?_, ?_⟩
    · show ∃ a, s'.pools x.pool = some a ∧ _
      rw [hs.pools, ← e1, ← e3, ← e4]; exact p
    · intro o ho
      show s'.prot _ = _ ∧ _
      rw [hs.prot, ← e1]; exact r o ho
    · intro o ho ho'
      show s'.prot _ = _ ∧ _
      rw [hs.prot, ← e1]; exact q o ho ho'
  pools := by
    intro t t' x x' hx hx' hp
    obtain ⟨y, hy, e⟩ := hs.symm.fwd hx
    obtain ⟨y', hy', e'⟩ := hs.symm.fwd hx'
    exact h.pools t t' y y' hy hy' (by rw [(core_eq e).2.2.2, (core_eq e').2.2.2, hp])
  disj := by
    intro t t' x x' hx hx' hne
    obtain ⟨y, hy, e⟩ := hs.symm.fwd hx
    obtain ⟨y', hy', e'⟩ := hs.symm.fwd hx'
    have := h.disj t t' y y' hy hy' hne
    rw [(core_eq e).1, (core_eq e').1] at this
    exact this
  live := fun p hp => by
    obtain ⟨t, i, a, b⟩ := h.live p hp
    exact ⟨t, i, hs.at.2 a, b⟩
  keys := h.keys
  inj := fun p hp q hq t i a b => h.inj p hp q hq t i (hs.at.1 a) (hs.at.1 b)
  used := fun t i ht hi hn => by
    obtain ⟨x, hx⟩ := Option.ne_none_iff_exists'.1 ht
    obtain ⟨y, hy, _⟩ := hs.symm.fwd hx
    obtain ⟨p, hp, a⟩ := h.used t i (by rw [hy]; simp) hi hn
    exact ⟨p, hp, hs.at.2 a⟩
  mapped := fun a ha => by
    show s'.prot a = _
    rw [hs.prot]; exact h.mapped a ha

/-- Changing links gives the same state up to links. -/
theorem sim_setT {s : St} {t : Nat} {x : Table} {f : Table → Table} (hx : s.tables t = some x)
    (hf : ∀ y, (f y).core = y.core) : s.setT t f = .ok { s with tables := upd s.tables t (some (f x)) } ∧
    Sim s { s with tables := upd s.tables t (some (f x)) } := by
  refine ⟨by simp [St.setT, hx], ⟨fun t' => ?_, rfl, rfl, rfl⟩⟩
  by_cases e : t' = t
  · subst e; simp [hx, hf]
  · simp [upd_ne _ _ e]

end Verif.Mach
