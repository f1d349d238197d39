import Verif.Closures.Mach

/-
Histories of a process using closures on Mach, src/closures.c:161-386.
-/
namespace Verif.Mach
open Verif

/-- At least one trampoline per page, and the counter `free_count` can hold their number. -/
structure CfgOk (c : Cfg) : Prop where
  pos : 0 < c.size
  fits : c.size ≤ c.page
  count : c.count < 2 ^ 16

/-- The platform hands out blocks and regions that are not in use, and `calloc` succeeds. -/
structure EnvOk (c : Cfg) (s : St) (v : Env) : Prop where
  closure : ∀ a j, v.closure = some (a, j) → s.closures a = none
  map : ∀ m, v.vmAlloc = some m → ∀ o, o < 2 * c.page → s.prot (m + o) = none
  table : ∃ t, v.table = some t ∧ s.tables t = none
  pool : ∃ p, v.pool = some p ∧ s.pools p = none

/-- State of a process: the library's, the closures handed out and not yet freed with their
code addresses, and the mappings not made by the library. -/
structure G where
  s : St
  live : List (Nat × Nat)
  other : Nat → Option Prot

/-- Bytes mapped by the library. -/
def G.Own (g : G) (a : Nat) : Prop := g.s.prot a ≠ none ∧ g.other a = none

/-- One event: an API call (the lists are changed under the lock only), or anything the rest
of the process does to its own mappings. -/
inductive Step (c : Cfg) : G → G → Prop
  | allocFail {g : G} {v : Env} {s' : St} : EnvOk c g.s v → alloc c v g.s = .ok (s', none) →
      Step c g { g with s := s' }
  | alloc {g : G} {v : Env} {s' : St} {p : Nat × Nat} : EnvOk c g.s v → alloc c v g.s = .ok (s', some p) →
      Step c g { g with s := s', live := p :: g.live }
  | free {g : G} {p : Nat × Nat} {s' : St} : p ∈ g.live → free c p.1 g.s = .ok s' →
      Step c g { g with s := s', live := g.live.erase p }
  | outside {g : G} {other' : Nat → Option Prot} {prot' : Nat → Option Prot} :
      (∀ a, g.Own a → other' a = none ∧ prot' a = g.s.prot a) →
      (∀ a, ¬ g.Own a → prot' a = other' a) →
      Step c g { g with s := { g.s with prot := prot' }, other := other' }

/-- The states a process can get into. -/
inductive Reach (c : Cfg) : G → Prop
  | init (prot : Nat → Option Prot) : Reach c ⟨St.init prot, [], prot⟩
  | step {g g' : G} : Reach c g → Step c g g' → Reach c g'

/-- The states a process can get into that never holds more than `n` closures. -/
inductive ReachLe (c : Cfg) (n : Nat) : G → Prop
  | init (prot : Nat → Option Prot) : ReachLe c n ⟨St.init prot, [], prot⟩
  | step {g g' : G} : ReachLe c n g → Step c g g' → g'.live.length ≤ n → ReachLe c n g'

end Verif.Mach
