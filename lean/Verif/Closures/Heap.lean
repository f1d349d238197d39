import Verif.Closures.Seg
import Verif.Spec.Dl

/-
The heap of closures as a whole: dlmalloc's chunks (Verif/Dl/Model.lean) in segments that
`dlmmap` and `dlmunmap` map twice (Verif/Closures/Seg.lean).  Both models run side by side: the
one of the segments supplies what the system answers to the one of the chunks, which supplies the
decisions that depend on chunks.  In the chunk model an address is mapped if it is in the page
tables.
-/
namespace Verif.Heap
open Verif

abbrev R := Except Abn

/-- The size of the chunk for a request, src/dlmalloc.c:4165-4166, 4214-4217. -/
def nbOf (n : Nat) : Nat := if n < 23 then 32 else if 2 ^ 64 - 128 ≤ n then 2 ^ 64 - 1 else Dl.padRequest n

/-- No system. -/
def refuse (page : Nat) : Dl.Env := ⟨page, fun _ => none, false, false, 0, fun _ _ => false⟩

def isTrue : R Bool → Bool
  | .ok b => b
  | .error _ => false

/-- The answers during a call of `sys_alloc` for `len` bytes: those of `dlmmap`, and
`check_segment_merge` with the segment that ends or begins there. -/
def answers (c : Dual.Cfg) (w : Dual.World) (y : Dual.Sys) (k len : Nat) (g : Dual.G) : Dl.Env where
  page := c.page
  mmap := fun n => if n = len then
      match Dual.dlmmap c w y k len g.s with
      | .ok (r, _) => r
      | .error _ => none
    else none
  append := match Dual.dlmmap c w y k len g.s with
    | .ok (some tb, st) =>
      match g.segs.find? fun s => tb == s.base + s.size with
      | some t => isTrue (Dual.mergeable c t tb len st)
      | none => false
    | _ => false
  prepend := match Dual.dlmmap c w y k len g.s with
    | .ok (some tb, st) =>
      match g.segs.find? fun s => s.base == tb + len with
      | some t => isTrue (Dual.mergeable c t tb len st)
      | none => false
    | _ => false
  off := 0
  munmap := fun _ _ => false

/-- What is mapped. -/
def mapOf (g : Dual.G) : Nat → Bool := fun x => (g.s.vm x).isSome

/-- `dlmalloc`, src/dlmalloc.c:4134-4264: the system is asked if it cannot do without. -/
def malloc (c : Dual.Cfg) (w : Dual.World) (y : Dual.Sys) (k n : Nat) (s : Dl.Hp) (g : Dual.G) : R (Option Nat × Dl.Hp × Dual.G) :=
  match Dl.dlmalloc (refuse c.page) n s with
  | .error e => .error e
  | .ok (some m, s') => .ok (some m, { s' with mapped := mapOf g }, g)
  | .ok (none, _) =>
    if Dl.reqSize (refuse c.page) (nbOf n) ≤ nbOf n then .ok (none, s, g)
    else do
      let (_, g') ← Dual.sysAlloc c w y (fun t => t.holds s.top) k (nbOf n) g
      let (r, s') ← Dl.dlmalloc (answers c w y k (Dual.reqSize c y (nbOf n)) g) n s
      return (r, { s' with mapped := mapOf g' }, g')

/-- What `sys_trim` gives back of the top, src/dlmalloc.c:3677-3680. -/
def extraOf (page : Nat) (s : Dl.Hp) : Nat := ((s.topsize - Dl.foot + (page - 1)) / page - 1) * page

/-- The test of `release_unused_segments`, src/dlmalloc.c:3637-3640: the first chunk is free and
extends to the end of the segment. -/
def emptyOf (mem : Nat → Nat) (t : Dual.Seg) : Bool :=
  !Dl.cinuse (mem (t.base + 8)) && decide (t.base + t.size - Dl.foot ≤ t.base + Dl.chunksize (mem (t.base + 8)))

/-- `munmap` has succeeded where there is no segment any more. -/
def gone (page : Nat) (l : List Dual.Seg) : Dl.Env := ⟨page, fun _ => none, false, false, 0, fun a _ => !l.any (·.holds a)⟩

/-- The segments' side of `sys_trim`, src/dlmalloc.c:3666-3728, first half. -/
def trimSegs (c : Dual.Cfg) (w : Dual.World) (s : Dl.Hp) (g : Dual.G) : R Dual.G :=
  if Dl.foot < s.topsize then
    match Dl.segHolding s.segs s.top with
    | none => .error .fault
    | some t => Dual.sysTrim w s.top (extraOf c.page s) (Dl.hasLink s.segs t) g
  else .ok g

/-- `sys_trim (m, 0)`. -/
def trim (c : Dual.Cfg) (w : Dual.World) (s : Dl.Hp) (g : Dual.G) : R (Dl.Hp × Dual.G) := do
  let g1 ← trimSegs c w s g
  let (n, s1) ← Dl.trimTop (gone c.page g1.segs) s
  let g2 := Dual.releaseUnused w (emptyOf s1.mem) g1
  let (k, s2) ← Dl.releaseUnused (gone c.page g2.segs) s1
  return (if n + k = 0 then { s2 with trim := 2 ^ 64 - 1 } else s2, g2)

/-- `dlfree`, src/dlmalloc.c:4266-4364.  Direct mappings do not exist: `abort` is what the model
would do. -/
def free (c : Dual.Cfg) (w : Dual.World) (m : Nat) (s : Dl.Hp) (g : Dual.G) : R (Dl.Hp × Dual.G) := do
  match ← Dl.freeChunk m s with
  | (s, .stop) => return ({ s with mapped := mapOf g }, g)
  | (s, .trim) => do
    let (s, g) ← trim c w s g
    return ({ s with mapped := mapOf g }, g)
  | (_, .unmap _ _) => .error .abort

/-- `ffi_closure_alloc`, src/closures.c:985-1014, without static trampolines: the closure and its
code address. -/
def closureAlloc (c : Dual.Cfg) (w : Dual.World) (y : Dual.Sys) (k n : Nat) (s : Dl.Hp) (g : Dual.G) :
    R (Option (Nat × Int) × Dl.Hp × Dual.G) := do
  match ← malloc c w y k n s g with
  | (none, s, g) => return (none, s, g)
  | (some m, s, g) => return (some (m, ← Dual.closureCode g.segs m), s, g)

/-- `ffi_closure_free`, src/closures.c:1038-1057, with FFI_CLOSURE_FREE_CODE: the argument may be
the closure or its code address. -/
def closureFree (c : Dual.Cfg) (w : Dual.World) (a : Nat) (s : Dl.Hp) (g : Dual.G) : R (Dl.Hp × Dual.G) :=
  free c w (Dual.freeArg true g.segs a).toNat s g

end Verif.Heap
