import Verif.Tramp.Model

/-
What a client of the trampoline API does, and what the platform may do: histories.
-/
namespace Verif.Tramp
open Verif

/-- The platform hands out blocks and addresses that are not in use: `malloc` blocks not
allocated, `mmap` regions not mapped. -/
structure TabEnvOk (ms : Nat) (s : St) (e : TabEnv) : Prop where
  table : ∀ t x, e.table = some (t, x) → s.tables t = none
  array : ∀ a j, e.array = some (a, j) → s.arrays a = none
  map : ∀ m, e.map1 = some m → ∀ o, o < 2 * ms → s.prot (m + o) = none

/-- The same for all platform calls of one operation. -/
def EnvOk (P : Plat) (s : St) (v : Env) : Prop :=
  ∀ size ms text, P.arch = some (size, ms, text) →
    TabEnvOk ms s v.e1 ∧ TabEnvOk ms s v.e2 ∧ TabEnvOk ms s v.e3

/-- What `ffi_tramp_arch` must return: slots big enough for a parameter block, at least
one slot per table. -/
def PlatOk (P : Plat) : Prop :=
  ∀ size ms text, P.arch = some (size, ms, text) → 16 ≤ size ∧ size ≤ ms

/-- State of a process: the library's state, the trampolines handed out and not yet
freed, the last parameters given to each, and the mappings not made by the library. -/
structure G where
  s : St
  live : List TP
  vals : TP → Option (Nat × Nat)
  other : Nat → Option Prot

/-- Bytes mapped by the library. -/
def G.Own (g : G) (a : Nat) : Prop := g.s.prot a ≠ none ∧ g.other a = none

/-- One event: an API call by some thread (each runs under the lock from beginning to
end, src/tramp.c:598-680), with arbitrary behaviour of the platform, or anything the rest
of the process does to its own memory and mappings. -/
inductive Step (P : Plat) : G → G → Prop
  | supported {g : G} {v : Env} {s' : St} {b : Bool} : EnvOk P g.s v → isSupported P v g.s = .ok (s', b) →
      Step P g { g with s := s' }
  | allocFail {g : G} {v : Env} {f : Int} {s' : St} : EnvOk P g.s v → alloc P v f g.s = .ok (s', none) →
      Step P g { g with s := s' }
  | alloc {g : G} {v : Env} {f : Int} {s' : St} {p : TP} : EnvOk P g.s v → alloc P v f g.s = .ok (s', some p) →
      Step P g { g with s := s', live := p :: g.live, vals := upd g.vals p none }
  | setParms {g : G} {p : TP} {target data : Nat} {s' : St} : p ∈ g.live → setParms p target data g.s = .ok s' →
      Step P g { g with s := s', vals := upd g.vals p (some (target, data)) }
  | free {g : G} {p : TP} {s' : St} : p ∈ g.live → free p g.s = .ok s' →
      Step P g { g with s := s', live := g.live.erase p }
  | outside {g : G} {other' : Nat → Option Prot} {prot' : Nat → Option Prot} {mem' : Mem} :
      (∀ a, g.Own a → other' a = none ∧ prot' a = g.s.prot a ∧ mem' a = g.s.mem a) →
      (∀ a, ¬ g.Own a → prot' a = other' a) →
      Step P g { g with s := { g.s with prot := prot', mem := mem' }, other := other' }

/-- The states a process can get into. -/
inductive Reach (P : Plat) : G → Prop
  | init (mem : Mem) (prot : Nat → Option Prot) : Reach P ⟨St.init mem prot, [], fun _ => none, prot⟩
  | step {g g' : G} : Reach P g → Step P g g' → Reach P g'

end Verif.Tramp
