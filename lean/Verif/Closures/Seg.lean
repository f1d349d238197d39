import Verif.Closures.Temp

/-
Model of dlmalloc's segments over the double mapping: src/closures.c:891-1057 and the parts of
src/dlmalloc.c that create, merge, shrink and release segments (`FFI_MMAP_EXEC_WRIT`).

Not modelled: chunks inside the segments.  Where dlmalloc decides by chunks (does the segment hold
the top chunk, is a segment empty, how much of the top can be trimmed) the decision is a
parameter.  All writes to chunk headers are left to the step `other` of Verif/Spec/Seg.lean,
except those that precede the reading of the offset word of a new segment.  Sizes do not wrap
around (dlmalloc fails then).
-/
namespace Verif.Dual
open Verif

/-- What does not change in a process: the results of `ffi_tramp_is_supported`,
`is_mprotect_enabled`, `is_emutramp_enabled` (false without FFI_MMAP_EXEC_EMUTRAMP_PAX) and
`is_selinux_enabled`, and TOP_FOOT_SIZE (src/dlmalloc.c:2197). -/
structure Sys where
  tramp : Bool
  mprotect : Bool
  emutramp : Bool
  selinux : Bool
  foot : Nat

/-- `struct malloc_segment`, src/dlmalloc.c:1945-1990, without the link. -/
structure Seg where
  base : Nat
  size : Nat
  off : Int
  deriving DecidableEq, Repr

/-- The process: `segs` is the list starting at `m->seg`; empty before `is_initialized`.  `half`
is not in the source: it records that a `munmap` of data failed after that of the code. -/
structure G where
  s : St
  segs : List Seg
  half : Bool

/-- `mmap` of anonymous memory, which reads as zero. -/
def St.mmapAnon (w : World) (len : Nat) (x : Bool) (st : St) : Option Nat × St :=
  let (r, st') := st.mmap w len fun o => ⟨.anon st.clock o, true, x⟩
  (r, { st' with words := fun p => match p with
        | .anon t o => if t = st.clock then 0 else st.words (.anon t o)
        | p => st.words p })

/-- `dlmmap`, src/closures.c:893-944. -/
def dlmmap (c : Cfg) (w : World) (y : Sys) (k len : Nat) (st : St) : R (Option Nat × St) :=
  if st.execfd = none ∧ y.tramp then .ok (st.mmapAnon w len false)
  else if st.execfd = none ∧ y.mprotect then
    if y.emutramp then .ok (st.mmapAnon w len false) else dlmmapLocked c w k len st
  else if st.execfd = none ∧ !y.selinux then
    match st.mmapAnon w len true with
    | (some a, st) => .ok (some a, st)
    | (none, st') => if w.denied st.clock then dlmmapLocked c w k len st' else .ok (none, st')
  else dlmmapLocked c w k len st

/-- `segment_holds`, src/dlmalloc.c:2160. -/
def Seg.holds (s : Seg) (a : Nat) : Bool := decide (s.base ≤ a) && decide (a < s.base + s.size)

/-- `segment_holding`, src/dlmalloc.c:2164. -/
def segHolding (l : List Seg) (a : Nat) : Option Seg := l.find? (·.holds a)

/-- `segment_holding_code`, src/closures.c:971-983. -/
def segHoldingCode (l : List Seg) (a : Nat) : Option Seg :=
  l.find? fun s => decide ((s.base : Int) + s.off ≤ a) && decide ((a : Int) < s.base + s.off + s.size)

/-- `dlmunmap`, src/closures.c:948-967: true on success. -/
def dlmunmap (w : World) (a len : Nat) (g : G) : Bool × G :=
  match segHolding g.segs a with
  | some s =>
    if s.off ≠ 0 then
      match g.s.munmap w ((a : Int) + s.off).toNat len with
      | (false, st) => (false, { g with s := st })
      | (true, st) => let (b, st) := st.munmap w a len; (b, { g with s := st, half := g.half || !b })
    else let (b, st) := g.s.munmap w a len; (b, { g with s := st })
  | none => let (b, st) := g.s.munmap w a len; (b, { g with s := st })

/-- Access through an integer address. -/
def St.getWI (st : St) (a : Int) : R Int := if a < 0 then .error .fault else st.getW a.toNat

/-- `set_segment_flags (S, IS_MMAPPED_BIT)`, src/dlmalloc.c:1966-1973: gives the segment. -/
def setFlags (c : Cfg) (base size : Nat) (st : St) : R (Seg × St) := do
  let off ← st.getW (base + size - c.word)
  let o2 ← st.getWI ((base : Int) + off + size - c.word)
  if o2 ≠ off then .error .abort
  else
    let st ← st.setW (base + size - c.word) 0
    return (⟨base, size, off⟩, st)

/-- The stores of `init_top`, src/dlmalloc.c:3289-3301, for a page aligned start. -/
def initTop (c : Cfg) (y : Sys) (base size : Nat) (st : St) : R St := do
  let st ← st.setW (base + c.word) ((size - y.foot : Nat) + 1)
  st.setW (base + size - y.foot + c.word) y.foot

/-- `check_segment_merge`, src/dlmalloc.c:1957. -/
def mergeable (c : Cfg) (s : Seg) (base size : Nat) (st : St) : R Bool := do
  return decide ((← st.getW (base + size - c.word)) = s.off)

/-- First segment with a property, changed. -/
def updFirst (p : Seg → Bool) (f : Seg → Seg) : List Seg → List Seg
  | [] => []
  | s :: l => if p s then f s :: l else s :: updFirst p f l

/-- `granularity_align (nb + TOP_FOOT_SIZE + SIZE_T_ONE)`, src/dlmalloc.c:2152, 3511. -/
def reqSize (c : Cfg) (y : Sys) (nb : Nat) : Nat := (nb + y.foot + 1 + c.page) / c.page * c.page

/-- `add_segment`, src/dlmalloc.c:3376-3428. -/
def addSegment (c : Cfg) (y : Sys) (tb len : Nat) (g : G) : R G := do
  let st ← initTop c y tb len g.s
  let (s, st) ← setFlags c tb len st
  return { g with s := st, segs := s :: g.segs }

/-- Prepend to a segment, or add one, src/dlmalloc.c:3588-3604. -/
def prependOrAdd (c : Cfg) (y : Sys) (tb len : Nat) (g : G) : R G := do
  match g.segs.find? fun s => s.base == tb + len with
  | some s =>
    if ← mergeable c s tb len g.s then
      return { g with segs := updFirst (fun s => s.base == tb + len) (fun s => { s with base := tb, size := s.size + len }) g.segs }
    else addSegment c y tb len g
  | none => addSegment c y tb len g

/-- Use of new memory, src/dlmalloc.c:3551-3605.  `top` tells whether a segment holds the top
chunk. -/
def placeNew (c : Cfg) (y : Sys) (top : Seg → Bool) (tb len : Nat) (g : G) : R G := do
  match g.segs with
  | [] =>
    let (s, st) ← setFlags c tb len g.s
    let st ← initTop c y tb len st
    return { g with s := st, segs := [s] }
  | _ =>
    match g.segs.find? fun s => tb == s.base + s.size with
    | some s =>
      if (← mergeable c s tb len g.s) && top s then
        return { g with segs := updFirst (fun s => tb == s.base + s.size) (fun s => { s with size := s.size + len }) g.segs }
      else prependOrAdd c y tb len g
    | none => prependOrAdd c y tb len g

/-- `sys_alloc`, src/dlmalloc.c:3432-3620, up to the use of the top chunk: true if memory was
obtained. -/
def sysAlloc (c : Cfg) (w : World) (y : Sys) (top : Seg → Bool) (k nb : Nat) (g : G) : R (Bool × G) := do
  let len := reqSize c y nb
  match ← dlmmap c w y k len g.s with
  | (none, st) => return (false, { g with s := st })
  | (some tb, st) => return (true, ← placeNew c y top tb len { g with s := st })

/-- The loop of `release_unused_segments`, src/dlmalloc.c:3626-3664: `pre` are the segments
passed (first the head, which is not released), `empty` tells which segments hold no chunk. -/
def releaseLoop (w : World) (empty : Seg → Bool) : List Seg → List Seg → G → G
  | pre, [], g => { g with segs := pre }
  | pre, s :: l, g =>
    if empty s then
      match dlmunmap w s.base s.size { g with segs := pre ++ s :: l } with
      | (true, g) => releaseLoop w empty pre l g
      | (false, g) => releaseLoop w empty (pre ++ [s]) l g
    else releaseLoop w empty (pre ++ [s]) l g

def releaseUnused (w : World) (empty : Seg → Bool) (g : G) : G :=
  match g.segs with
  | [] => g
  | s :: l => releaseLoop w empty [s] l g

/-- `sys_trim`, src/dlmalloc.c:3666-3708: `a` is the top chunk, `extra` what can be given back;
`pinned` is `has_segment_link`.  Releasing the unused segments is `releaseUnused`. -/
def sysTrim (w : World) (a extra : Nat) (pinned : Bool) (g : G) : R G :=
  match segHolding g.segs a with
  | none => .error .fault
  | some s =>
    if extra ≤ s.size ∧ !pinned then
      match dlmunmap w (s.base + (s.size - extra)) extra g with
      | (true, g) => .ok { g with segs := updFirst (·.holds a) (fun s => { s with size := s.size - extra }) g.segs }
      | (false, g) => .ok g
    else .ok g

/-- The code address that `ffi_closure_alloc` stores, src/closures.c:1002-1005, without static
trampolines: the segment is used without a check. -/
def closureCode (l : List Seg) (ptr : Nat) : R Int :=
  match segHolding l ptr with
  | none => .error .fault
  | some s => .ok (ptr + s.off)

/-- `ffi_data_to_code_pointer`, src/closures.c:1020-1036, without static trampolines. -/
def dataToCode (l : List Seg) (data : Nat) : Int :=
  match segHolding l data with
  | some s => data + s.off
  | none => data

/-- The address that `ffi_closure_free` gives to `dlfree`, src/closures.c:1042-1054: `freeCode`
is FFI_CLOSURE_FREE_CODE. -/
def freeArg (freeCode : Bool) (l : List Seg) (ptr : Nat) : Int :=
  if freeCode then
    match segHoldingCode l ptr with
    | some s => ptr - s.off
    | none => ptr
  else ptr

end Verif.Dual
