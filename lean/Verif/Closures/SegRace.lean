import Verif.Closures.Seg

/-
`segment_holding` called by `ffi_closure_alloc` without dlmalloc's lock (src/closures.c:1002)
while another thread is in `add_segment` (src/dlmalloc.c:3376-3428), at the granularity of
single loads and stores of the fields of the segment records, sequentially consistent.
Simplification: the copy `*ss = m->seg` is one step.
-/
namespace Verif.Dual.Race
open Verif

/-- `struct malloc_segment`, src/dlmalloc.c:1945-1990. -/
structure Rec where
  base : Nat
  size : Nat
  off : Int
  next : Option Nat
  deriving DecidableEq, Repr

/-- Records by address; `m->seg` is at 0. -/
abbrev Recs := Nat → Rec

def upd (m : Recs) (a : Nat) (r : Rec) : Recs := fun b => if b = a then r else m b

/-- The stores of `add_segment`, src/dlmalloc.c:3401-3405. -/
inductive Store where
  | copy (ss : Nat)
  | base (tb : Nat)
  | size (len : Nat)
  | off (o : Int)
  | next (ss : Nat)

def Store.run (m : Recs) : Store → Recs
  | .copy ss => upd m ss (m 0)
  | .base tb => upd m 0 { m 0 with base := tb }
  | .size len => upd m 0 { m 0 with size := len }
  | .off o => upd m 0 { m 0 with off := o }
  | .next ss => upd m 0 { m 0 with next := some ss }

def addStores (ss tb len : Nat) (o : Int) : List Store := [.copy ss, .base tb, .size len, .off o, .next ss]

/-- `segment_holding (gm, addr)`, src/dlmalloc.c:2164-2172: at a record, after the test of the
base, after the whole test failed, or finished. -/
inductive Rd where
  | atRec (sp : Nat)
  | based (sp : Nat)
  | miss (sp : Nat)
  | done (r : Option Nat)
  deriving DecidableEq, Repr

/-- One step of the reader. -/
def Rd.step (m : Recs) (a : Nat) : Rd → Rd
  | .atRec sp => if (m sp).base ≤ a then .based sp else .miss sp
  | .based sp => if a < (m sp).base + (m sp).size then .done (some sp) else .miss sp
  | .miss sp => match (m sp).next with
    | none => .done none
    | some n => .atRec n
  | .done r => .done r

/-- Both threads; in the schedule `true` is a step of the writer. -/
def run (a : Nat) : List Bool → Recs → List Store → Rd → Recs × List Store × Rd
  | [], m, ws, r => (m, ws, r)
  | true :: l, m, [], r => run a l m [] r
  | true :: l, m, s :: ws, r => run a l (s.run m) ws r
  | false :: l, m, ws, r => run a l m ws (r.step m a)

/-- What `ffi_closure_alloc` does with the result: NULL is dereferenced. -/
def useSeg (m : Recs) (a : Nat) : Option Nat → R Int
  | none => .error .fault
  | some sp => .ok (a + (m sp).off)

end Verif.Dual.Race
