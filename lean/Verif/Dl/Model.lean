import Verif.Closures.Temp

/-
Model of the chunks of src/dlmalloc.c as src/closures.c uses it (`dlmalloc` and `dlfree`;
64-bit `size_t`, MALLOC_ALIGNMENT 8, no MORECORE, no mremap, no footers, assertions off,
`mmap_threshold` the largest number, so that every chunk is part of a segment).

Memory is a function from addresses to words; all accesses are to multiples of eight.
Head and foot words of chunks are read and written in it.  The links of free chunks (fd,
bk, child, parent, index) are modelled by lists and trees: a small bin is the list of its
chunks in the order of `fd`; a node of a tree bin is the chunk linked into the tree, its
ring of chunks of the same size in the order of `fd`, and the two children.  The segment
list is a list; the words of the records in memory are written, never read.

An access to unmapped memory is `fault`, ABORT is `abort`.
-/
namespace Verif.Dl
open Verif

abbrev R := Except Abn

/-- A tree bin, src/dlmalloc.c:1851-1861: chunk, ring, children. -/
inductive T
  | nil
  | node (a : Nat) (ring : List Nat) (l r : T)
  deriving DecidableEq, Repr

/-- `struct malloc_segment`, src/dlmalloc.c:1945-1985; `link` is the address of the record, 0 for
the one in `malloc_state`. -/
structure Seg where
  base : Nat
  size : Nat
  link : Nat
  deriving DecidableEq, Repr

/-- `struct malloc_state`, src/dlmalloc.c:2079-2098, memory, and what is mapped.  Before
`is_initialized` all of it is zero. -/
structure Hp where
  mem : Nat → Nat
  mapped : Nat → Bool
  smallmap : Nat
  treemap : Nat
  small : Nat → List Nat
  tree : Nat → T
  dv : Nat
  dvsize : Nat
  top : Nat
  topsize : Nat
  least : Nat
  trim : Nat
  segs : List Seg

/-- Answers of the system during one call: the address of new memory of a size; whether its offset between
data and code is that of the segment before or behind it (`check_segment_merge`); the offset word
of a record; the result of `munmap`; granularity (the page size). -/
structure Env where
  page : Nat
  mmap : Nat → Option Nat
  append : Bool
  prepend : Bool
  off : Nat
  munmap : Nat → Nat → Bool

/-! ## Words -/

def Hp.get (s : Hp) (a : Nat) : R Nat := if s.mapped a then .ok (s.mem a) else .error .fault

def upd (m : Nat → Nat) (a v : Nat) : Nat → Nat := fun x => if x = a then v else m x

def Hp.set (s : Hp) (a v : Nat) : R Hp :=
  if s.mapped a then .ok { s with mem := upd s.mem a v } else .error .fault

/-- `size_t` subtraction. -/
def sub64 (a b : Nat) : Nat := (a + 2 ^ 64 - b) % 2 ^ 64

/-- src/dlmalloc.c:1732-1737. -/
def pinuse (h : Nat) : Bool := h &&& 1 != 0
def cinuse (h : Nat) : Bool := h &&& 2 != 0
/-- `head & ~INUSE_BITS`, src/dlmalloc.c:1734. -/
def chunksize (h : Nat) : Nat := h / 4 * 4

/-- TOP_FOOT_SIZE, src/dlmalloc.c:2197. -/
def foot : Nat := 72

/-- `pad_request`, src/dlmalloc.c:1708. -/
def padRequest (n : Nat) : Nat := (n + 8 + 7) / 8 * 8

/-- `set_inuse_and_pinuse`, src/dlmalloc.c:2482-2484. -/
def setInuse (s : Hp) (p z : Nat) : R Hp := do
  let s ← s.set (p + 8) (z ||| 1 ||| 2)
  let h ← s.get (p + z + 8)
  s.set (p + z + 8) (h ||| 1)

/-- `set_size_and_pinuse_of_inuse_chunk`, src/dlmalloc.c:2487. -/
def setSizeInuse (s : Hp) (p z : Nat) : R Hp := s.set (p + 8) (z ||| 1 ||| 2)

/-- `set_size_and_pinuse_of_free_chunk`, src/dlmalloc.c:1757. -/
def setSizeFree (s : Hp) (p z : Nat) : R Hp := do
  let s ← s.set (p + 8) (z ||| 1)
  s.set (p + z) z

/-- `set_free_with_pinuse`, src/dlmalloc.c:1761. -/
def setFree (s : Hp) (p z n : Nat) : R Hp := do
  let h ← s.get (n + 8)
  let s ← s.set (n + 8) (h / 2 * 2)
  setSizeFree s p z

/-! ## Bins -/

/-- `compute_tree_index`, src/dlmalloc.c:2318-2334 (unsigned int has 32 bits). -/
def treeIndex (S : Nat) : Nat :=
  let X := S / 2 ^ 8
  if X = 0 then 0
  else if 0xffff < X then 31
  else
    let N := (X + 2 ^ 32 - 0x100) % 2 ^ 32 / 2 ^ 16 &&& 8
    let Y := X <<< N % 2 ^ 32
    let K := (Y + 2 ^ 32 - 0x1000) % 2 ^ 32 / 2 ^ 16 &&& 4
    let N := N + K
    let Y := Y <<< K % 2 ^ 32
    let K := (Y + 2 ^ 32 - 0x4000) % 2 ^ 32 / 2 ^ 16 &&& 2
    let N := N + K
    let Y := Y <<< K % 2 ^ 32
    let K := 14 - N + Y / 2 ^ 15
    2 * K + (S >>> (K + 7) &&& 1)

/-- `leftshift_for_tree_index`, src/dlmalloc.c:2342-2344. -/
def leftshift (i : Nat) : Nat := if i = 31 then 0 else 63 - (i / 2 + 8 - 2)

/-- Bit maps, src/dlmalloc.c:2355-2364. -/
def mark (m i : Nat) : Nat := m ||| 1 <<< i
def clear (m i : Nat) : Nat := if m.testBit i then m ^^^ 1 <<< i else m

/-- `least_bit`, src/dlmalloc.c:2396 (32 bits). -/
def leastBit (x : Nat) : Nat := x &&& (2 ^ 32 - x) % 2 ^ 32

/-- `left_bits`, src/dlmalloc.c:2399. -/
def leftBits (x : Nat) : Nat := (2 * x % 2 ^ 32) ||| (2 ^ 32 - 2 * x % 2 ^ 32) % 2 ^ 32

/-- `__builtin_ffs (x) - 1`: the number of the lowest bit that is set. -/
def ffs : Nat → Nat → Nat
  | 0, _ => 0
  | n + 1, x => if x % 2 = 1 then 0 else ffs n (x / 2) + 1

/-- `compute_bit2idx`, src/dlmalloc.c:2378. -/
def bit2idx (x : Nat) : Nat := ffs 32 x

def updL {α : Type} (f : Nat → α) (i : Nat) (v : α) : Nat → α := fun j => if j = i then v else f j

/-- `insert_small_chunk`, src/dlmalloc.c:2971-2990. -/
def insertSmall (s : Hp) (p z : Nat) : Hp :=
  { s with smallmap := mark s.smallmap (z / 8), small := updL s.small (z / 8) (p :: s.small (z / 8)) }

/-- `unlink_small_chunk` and `unlink_first_small_chunk`, src/dlmalloc.c:2993-3027: the map is
cleared if no other chunk is in the bin. -/
def unlinkSmall (s : Hp) (p i : Nat) : Hp :=
  let l := (s.small i).erase p
  { s with smallmap := if l = [] then clear s.smallmap i else s.smallmap, small := updL s.small i l }

/-- The loop of `insert_large_chunk`, src/dlmalloc.c:3062-3092; `sz` gives the size of a chunk,
`k` is `K`. -/
def T.insert (sz : Nat → Nat) (x S : Nat) : T → Nat → T
  | .nil, _ => .node x [] .nil .nil
  | .node a ring l r, k =>
    if sz a ≠ S then
      if k / 2 ^ 63 % 2 = 1 then .node a ring l (r.insert sz x S (2 * k % 2 ^ 64))
      else .node a ring (l.insert sz x S (2 * k % 2 ^ 64)) r
    else .node a (x :: ring) l r

/-- `insert_large_chunk`, src/dlmalloc.c:3045-3094. -/
def insertLarge (s : Hp) (x S : Nat) : Hp :=
  let i := treeIndex S
  { s with
    treemap := mark s.treemap i
    tree := updL s.tree i ((s.tree i).insert (fun a => chunksize (s.mem (a + 8))) x S (S <<< leftshift i % 2 ^ 64)) }

/-- The descent to the replacement, src/dlmalloc.c:3128-3141: the rightmost leaf, preferring
child[1], with what remains. -/
def T.popLeaf : T → Option ((Nat × List Nat) × T)
  | .nil => none
  | .node a ring l r =>
    match r.popLeaf with
    | some (x, r') => some (x, .node a ring l r')
    | none =>
      match l.popLeaf with
      | some (x, l') => some (x, .node a ring l' r)
      | none => some ((a, ring), .nil)

/-- `unlink_large_chunk`, src/dlmalloc.c:3113-3183, of the root: a chunk of the ring takes its
place (`X->bk`, the last of the ring), else the leaf. -/
def T.dropRoot : T → T
  | .nil => .nil
  | .node _ (c :: ring) l r => .node ((c :: ring).getLast (by simp)) ((c :: ring).dropLast) l r
  | .node _ [] l r =>
    match r.popLeaf with
    | some ((b, ring), r') => .node b ring l r'
    | none =>
      match l.popLeaf with
      | some ((b, ring), l') => .node b ring l' r
      | none => .nil

/-- `unlink_large_chunk`, wherever the chunk is in the tree. -/
def T.remove (x : Nat) : T → T
  | .nil => .nil
  | .node a ring l r =>
    if a = x then T.dropRoot (.node a ring l r)
    else if x ∈ ring then .node a (ring.erase x) l r
    else .node a ring (l.remove x) (r.remove x)

/-- `unlink_large_chunk`, src/dlmalloc.c:3113-3183; `X->index` is `i`. -/
def unlinkLarge (s : Hp) (x i : Nat) : Hp :=
  let t := (s.tree i).remove x
  { s with treemap := if t = .nil then clear s.treemap i else s.treemap, tree := updL s.tree i t }

/-- `is_small`, src/dlmalloc.c:2294. -/
def isSmall (z : Nat) : Bool := decide (z / 8 < 32)

/-- `insert_chunk`, `unlink_chunk`, src/dlmalloc.c:3187-3193. -/
def insertChunk (s : Hp) (p z : Nat) : Hp := if isSmall z then insertSmall s p z else insertLarge s p z
def unlinkChunk (s : Hp) (p z : Nat) : Hp :=
  if isSmall z then unlinkSmall s p (z / 8) else unlinkLarge s p (treeIndex z)

/-- `replace_dv`, src/dlmalloc.c:3031-3040. -/
def replaceDv (s : Hp) (p z : Nat) : Hp :=
  let s := if s.dvsize ≠ 0 then insertSmall s s.dv s.dvsize else s
  { s with dvsize := z, dv := p }

/-! ## Memory from the system -/

/-- `init_top`, src/dlmalloc.c:3289-3301; `offset` is zero for multiples of eight. -/
def initTop (s : Hp) (p z : Nat) : R Hp := do
  let s := { s with top := p, topsize := z }
  let s ← s.set (p + 8) (z ||| 1)
  let s ← s.set (p + z + 8) foot
  return { s with trim := 2 * 1024 * 1024 }

/-- `segment_holds`, src/dlmalloc.c:2160. -/
def Seg.holds (g : Seg) (a : Nat) : Bool := decide (g.base ≤ a) && decide (a < g.base + g.size)

/-- `segment_holding`, src/dlmalloc.c:2164-2172. -/
def segHolding (l : List Seg) (a : Nat) : Option Seg := l.find? (·.holds a)

/-- First segment with a property, changed. -/
def updFirst (p : Seg → Bool) (f : Seg → Seg) : List Seg → List Seg
  | [] => []
  | s :: l => if p s then f s :: l else s :: updFirst p f l

/-- `has_segment_link`, src/dlmalloc.c:2175-2183; `malloc_state` is in no segment. -/
def hasLink (l : List Seg) (g : Seg) : Bool := l.any fun r => r.link != 0 && g.holds r.link

/-- `prepend_alloc`, src/dlmalloc.c:3333-3372. -/
def prependAlloc (s : Hp) (newbase oldbase nb : Nat) : R (Nat × Hp) := do
  let q := newbase + nb
  let qsize := oldbase - newbase - nb
  let s ← setSizeInuse s newbase nb
  if oldbase = s.top then
    let tsize := s.topsize + qsize
    let s := { s with topsize := tsize, top := q }
    let s ← s.set (q + 8) (tsize ||| 1)
    return (newbase + 16, s)
  else if oldbase = s.dv then
    let dsize := s.dvsize + qsize
    let s := { s with dvsize := dsize, dv := q }
    let s ← setSizeFree s q dsize
    return (newbase + 16, s)
  else
    let h ← s.get (oldbase + 8)
    let (s, first, qsize) :=
      if cinuse h then (s, oldbase, qsize)
      else (unlinkChunk s oldbase (chunksize h), oldbase + chunksize h, qsize + chunksize h)
    let s ← setFree s q qsize first
    return (newbase + 16, insertChunk s q qsize)

/-- The fenceposts, src/dlmalloc.c:3408-3417; FENCEPOST_HEAD is 11.  The first argument bounds
the number of rounds. -/
def fences : Nat → Hp → Nat → Nat → R Hp
  | 0, _, _, _ => .error .fuel
  | k + 1, s, p, e => do
    let s ← s.set (p + 8) 11
    if p + 16 < e then fences k s (p + 8) e else return s

/-- `add_segment`, src/dlmalloc.c:3376-3428. -/
def addSegment (e : Env) (s : Hp) (tbase tsize : Nat) : R Hp := do
  let oldTop := s.top
  match segHolding s.segs oldTop with
  | none => .error .fault
  | some oldsp =>
    let oldEnd := oldsp.base + oldsp.size
    let asp := oldEnd - foot
    let csp := if asp < oldTop + 32 then oldTop else asp
    let ss := csp + 16
    let s ← initTop s tbase (tsize - foot)
    let s ← setSizeInuse s csp 40
    match s.segs with
    | [] => .error .fault
    | g :: rest =>
      let s ← s.set ss g.base
      let s ← s.set (ss + 8) g.size
      let s ← s.set (ss + 16) ((rest.head?.map Seg.link).getD 0)
      let s ← s.set (ss + 24) e.off
      let s ← s.set (tbase + tsize - 8) 0
      let s := { s with segs := ⟨tbase, tsize, 0⟩ :: { g with link := ss } :: rest }
      let s ← fences 64 s (csp + 40) oldEnd
      if csp ≠ oldTop then
        let s ← setFree s oldTop (csp - oldTop) csp
        return insertChunk s oldTop (csp - oldTop)
      else return s

/-- Splits the top chunk, src/dlmalloc.c:3607-3616 and 4247-4257. -/
def splitTop (s : Hp) (nb : Nat) : R (Nat × Hp) := do
  let p := s.top
  let s := { s with topsize := s.topsize - nb, top := p + nb }
  let s ← s.set (p + nb + 8) (s.topsize ||| 1)
  let s ← setSizeInuse s p nb
  return (p + 16, s)

/-- Memory is mapped. -/
def Hp.map (s : Hp) (a n : Nat) : Hp := { s with mapped := fun x => decide (a ≤ x ∧ x < a + n) || s.mapped x }

/-- `granularity_align (nb + TOP_FOOT_SIZE + SIZE_T_ONE)`, src/dlmalloc.c:2152, 3514-3515. -/
def reqSize (e : Env) (nb : Nat) : Nat := ((nb + foot + 1) % 2 ^ 64 + e.page) % 2 ^ 64 / e.page * e.page

/-- Use of new memory, src/dlmalloc.c:3550-3605: the allocated address if `prepend_alloc` was
called. -/
def placeNew (e : Env) (s : Hp) (nb tbase tsize : Nat) : R (Option Nat × Hp) := do
  if s.top = 0 then
    let s := { s with segs := [⟨tbase, tsize, 0⟩], least := tbase }
    let s ← s.set (tbase + tsize - 8) 0
    let s := { s with small := fun _ => [] }
    return (none, ← initTop s tbase (tsize - foot))
  else
    match s.segs.find? fun g => tbase == g.base + g.size with
    | some g =>
      if e.append && g.holds s.top then
        let s := { s with segs := updFirst (fun g => tbase == g.base + g.size) (fun g => { g with size := g.size + tsize }) s.segs }
        return (none, ← initTop s s.top (s.topsize + tsize))
      else other e s nb tbase tsize
    | none => other e s nb tbase tsize
where
  /-- src/dlmalloc.c:3584-3604. -/
  other (e : Env) (s : Hp) (nb tbase tsize : Nat) : R (Option Nat × Hp) := do
    let s := { s with least := if tbase < s.least then tbase else s.least }
    match s.segs.find? fun g => g.base == tbase + tsize with
    | some g =>
      if e.prepend then
        let s := { s with segs := updFirst (fun g => g.base == tbase + tsize) (fun g => { g with base := tbase, size := g.size + tsize }) s.segs }
        let s ← if g.link ≠ 0 then s.set g.link tbase else .ok s
        let s ← if g.link ≠ 0 then s.set (g.link + 8) (g.size + tsize) else .ok s
        let (p, s) ← prependAlloc s tbase g.base nb
        return (some p, s)
      else return (none, ← addSegment e s tbase tsize)
    | none => return (none, ← addSegment e s tbase tsize)

/-- `sys_alloc`, src/dlmalloc.c:3432-3621. -/
def sysAlloc (e : Env) (s : Hp) (nb : Nat) : R (Option Nat × Hp) := do
  let tsize := reqSize e nb
  if tsize ≤ nb then return (none, s)
  else
    match e.mmap tsize with
    | none => return (none, s)
    | some tbase =>
      match ← placeNew e (s.map tbase tsize) nb tbase tsize with
      | (some p, s) => return (some p, s)
      | (none, s) =>
        if nb < s.topsize then
          let (p, s) ← splitTop s nb
          return (some p, s)
        else return (none, s)

/-! ## Memory to the system -/

/-- `munmap`: true on success. -/
def Hp.munmap (e : Env) (s : Hp) (a n : Nat) : Bool × Hp :=
  if e.munmap a n then (true, { s with mapped := fun x => s.mapped x && !decide (a ≤ x ∧ x < a + n) })
  else (false, s)

/-- The loop of `release_unused_segments`, src/dlmalloc.c:3626-3664: `pre` are the segments passed
(in order), the last of which is `pred`; the number of bytes released. -/
def releaseLoop (e : Env) : List Seg → List Seg → Hp → R (Nat × Hp)
  | pre, [], s => .ok (0, { s with segs := pre })
  | pre, g :: l, s => do
    let h ← s.get (g.base + 8)
    if !cinuse h && decide (g.base + g.size - foot ≤ g.base + chunksize h) then
      let s1 := if g.base = s.dv then { s with dv := 0, dvsize := 0 } else unlinkLarge s g.base (treeIndex (chunksize h))
      match s1.munmap e g.base g.size with
      | (true, s2) =>
        let r := (pre.getLast?.map Seg.link).getD 0
        let s2 ← if r ≠ 0 then s2.set (r + 16) ((l.head?.map Seg.link).getD 0) else .ok s2
        let (n, s) ← releaseLoop e pre l s2
        return (n + g.size, s)
      | (false, s2) => releaseLoop e (pre ++ [g]) l (insertLarge s2 g.base (chunksize h))
    else releaseLoop e (pre ++ [g]) l s

/-- `release_unused_segments`. -/
def releaseUnused (e : Env) (s : Hp) : R (Nat × Hp) :=
  match s.segs with
  | [] => .ok (0, s)
  | g :: l => releaseLoop e [g] l s

/-- The first half of `sys_trim (m, 0)`, src/dlmalloc.c:3668-3718: bytes released. -/
def trimTop (e : Env) (s : Hp) : R (Nat × Hp) :=
  if foot < s.topsize then
    let extra := ((s.topsize - foot + (e.page - 1)) / e.page - 1) * e.page
    match segHolding s.segs s.top with
    | none => .error .fault
    | some g =>
      if extra ≤ g.size ∧ !hasLink s.segs g then
        match s.munmap e (g.base + (g.size - extra)) extra with
        | (true, s) =>
          if extra ≠ 0 then do
            let s := { s with segs := updFirst (·.holds s.top) (fun g => { g with size := g.size - extra }) s.segs }
            return (extra, ← initTop s s.top (s.topsize - extra))
          else .ok (0, s)
        | (false, s) => .ok (0, s)
      else .ok (0, s)
  else .ok (0, s)

/-- `sys_trim (m, 0)`, src/dlmalloc.c:3666-3728. -/
def sysTrim (e : Env) (s : Hp) : R Hp := do
  let (n, s) ← trimTop e s
  let (k, s) ← releaseUnused e s
  return if n + k = 0 then { s with trim := 2 ^ 64 - 1 } else s

/-! ## dlmalloc -/

/-- `leftmost_child`, src/dlmalloc.c:1867, and the loop that looks for the smallest chunk along it,
src/dlmalloc.c:3773-3780: best chunk so far, and its remainder. -/
def T.least (sz : Nat → Nat) (nb : Nat) : T → Option Nat × Nat → Option Nat × Nat
  | .nil, v => v
  | .node a _ l r, (v, rs) =>
    let v := if sub64 (sz a) nb < rs then (some a, sub64 (sz a) nb) else (v, rs)
    match l with
    | .nil => r.least sz nb v
    | .node .. => l.least sz nb v

/-- The loop over the tree of the bin, src/dlmalloc.c:3741-3761: the tree to search for the
smallest chunk, the best chunk so far, and its remainder. -/
def T.search (sz : Nat → Nat) (nb : Nat) : T → Nat → T → Option Nat × Nat → T × Option Nat × Nat
  | .nil, _, rst, v => (rst, v)
  | .node a ring l r, k, rst, (v, rs) =>
    let trem := sub64 (sz a) nb
    if trem < rs ∧ trem = 0 then (.node a ring l r, some a, 0)
    else
      let v := if trem < rs then (some a, trem) else (v, rs)
      if k / 2 ^ 63 % 2 = 1 then r.search sz nb (2 * k % 2 ^ 64) rst v
      else l.search sz nb (2 * k % 2 ^ 64) (if r ≠ .nil then r else rst) v

/-- The choice of `tmalloc_large`, src/dlmalloc.c:3732-3780. -/
def chooseLarge (s : Hp) (nb : Nat) : Option Nat × Nat :=
  let sz := fun a => chunksize (s.mem (a + 8))
  let idx := treeIndex nb
  let (t, v, rs) := match s.tree idx with
    | .nil => (T.nil, none, sub64 0 nb)
    | t => t.search sz nb (nb <<< leftshift idx % 2 ^ 64) .nil (none, sub64 0 nb)
  let t :=
    if t = .nil ∧ v = none then
      let b := leftBits (1 <<< idx) &&& s.treemap
      if b ≠ 0 then s.tree (bit2idx (leastBit b)) else .nil
    else t
  t.least sz nb (v, rs)

/-- `tmalloc_large`, src/dlmalloc.c:3732-3801. -/
def tmallocLarge (s : Hp) (nb : Nat) : R (Option Nat × Hp) :=
  match chooseLarge s nb with
  | (none, _) => .ok (none, s)
  | (some v, rs) =>
    if rs < sub64 s.dvsize nb then
      if s.least ≤ v ∧ v < v + nb then do
        let h ← s.get (v + 8)
        let s := unlinkLarge s v (treeIndex (chunksize h))
        if rs < 32 then
          let s ← setInuse s v (rs + nb)
          return (some (v + 16), s)
        else
          let s ← setSizeInuse s v nb
          let s ← setSizeFree s (v + nb) rs
          return (some (v + 16), insertChunk s (v + nb) rs)
      else .error .abort
    else .ok (none, s)

/-- The choice of `tmalloc_small`, src/dlmalloc.c:3806-3823; `v` is the root at first. -/
def chooseSmall (s : Hp) (nb : Nat) : Option Nat × Nat :=
  let sz := fun a => chunksize (s.mem (a + 8))
  match s.tree (bit2idx (leastBit s.treemap)) with
  | .nil => (none, 0)
  | .node a _ l r => (if l = .nil then r else l).least sz nb (some a, sub64 (sz a) nb)

/-- `tmalloc_small`, src/dlmalloc.c:3804-3841. -/
def tmallocSmall (s : Hp) (nb : Nat) : R (Nat × Hp) :=
  match chooseSmall s nb with
  | (none, _) => .error .fault
  | (some v, rs) =>
    if s.least ≤ v ∧ v < v + nb then do
      let h ← s.get (v + 8)
      let s := unlinkLarge s v (treeIndex (chunksize h))
      if rs < 32 then
        let s ← setInuse s v (rs + nb)
        return (v + 16, s)
      else
        let s ← setSizeInuse s v nb
        let s ← setSizeFree s (v + nb) rs
        return (v + 16, replaceDv s (v + nb) rs)
    else .error .abort

/-- dv, top or the system, src/dlmalloc.c:4226-4259. -/
def dvTopSys (e : Env) (s : Hp) (nb : Nat) : R (Option Nat × Hp) := do
  if nb ≤ s.dvsize then
    let rsize := s.dvsize - nb
    let p := s.dv
    if 32 ≤ rsize then
      let s := { s with dv := p + nb, dvsize := rsize }
      let s ← setSizeFree s (p + nb) rsize
      let s ← setSizeInuse s p nb
      return (some (p + 16), s)
    else
      let dvs := s.dvsize
      let s := { s with dvsize := 0, dv := 0 }
      let s ← setInuse s p dvs
      return (some (p + 16), s)
  else if nb < s.topsize then
    let (p, s) ← splitTop s nb
    return (some p, s)
  else sysAlloc e s nb

/-- A chunk of the small bin that fits without remainder, src/dlmalloc.c:4170-4181. -/
def exactSmall (s : Hp) (idx : Nat) : R (Nat × Hp) :=
  match s.small idx with
  | [] => .error .fault
  | p :: _ => do
    let s := unlinkSmall s p idx
    let s ← setInuse s p (8 * idx)
    return (p + 16, s)

/-- A chunk of the next small bin, src/dlmalloc.c:4184-4208. -/
def nextSmall (s : Hp) (nb i : Nat) : R (Nat × Hp) :=
  match s.small i with
  | [] => .error .fault
  | p :: _ => do
    let s := unlinkSmall s p i
    let rsize := 8 * i - nb
    if rsize < 32 then
      let s ← setInuse s p (8 * i)
      return (p + 16, s)
    else
      let s ← setSizeInuse s p nb
      let s ← setSizeFree s (p + nb) rsize
      return (p + 16, replaceDv s (p + nb) rsize)

/-- Requests below 241 bytes, src/dlmalloc.c:4162-4213. -/
def smallRequest (e : Env) (s : Hp) (nb : Nat) : R (Option Nat × Hp) := do
  let idx := nb / 8
  let smallbits := s.smallmap >>> idx
  if smallbits &&& 3 ≠ 0 then
    let (p, s) ← exactSmall s (idx + (1 - smallbits % 2))
    return (some p, s)
  else if s.dvsize < nb then
    if smallbits ≠ 0 then
      let b := (smallbits <<< idx % 2 ^ 32) &&& leftBits (1 <<< idx)
      let (p, s) ← nextSmall s nb (bit2idx (leastBit b))
      return (some p, s)
    else if s.treemap ≠ 0 then
      let (p, s) ← tmallocSmall s nb
      return (some p, s)
    else dvTopSys e s nb
  else dvTopSys e s nb

/-- `dlmalloc`, src/dlmalloc.c:4134-4264; MAX_SMALL_REQUEST is 240, MIN_REQUEST 23, MAX_REQUEST
2^64 - 128. -/
def dlmalloc (e : Env) (bytes : Nat) (s : Hp) : R (Option Nat × Hp) := do
  if bytes ≤ 240 then smallRequest e s (if bytes < 23 then 32 else padRequest bytes)
  else if 2 ^ 64 - 128 ≤ bytes then dvTopSys e s (2 ^ 64 - 1)
  else
    let nb := padRequest bytes
    if s.treemap ≠ 0 then
      match ← tmallocLarge s nb with
      | (some p, s) => return (some p, s)
      | (none, s) => dvTopSys e s nb
    else dvTopSys e s nb

/-! ## dlfree -/

/-- What remains to be done with the system at the end of `dlfree`. -/
inductive Then
  | stop
  | trim
  | unmap (a n : Nat)
  deriving DecidableEq, Repr

/-- The chunk joins the top, src/dlmalloc.c:4322-4334. -/
def freeTop (s : Hp) (p psize : Nat) : R (Hp × Then) := do
  let tsize := s.topsize + psize
  let s := { s with topsize := tsize, top := p }
  let s ← s.set (p + 8) (tsize ||| 1)
  let s := if p = s.dv then { s with dv := 0, dvsize := 0 } else s
  return (s, if s.trim < tsize then .trim else .stop)

/-- Forward consolidation, src/dlmalloc.c:4319-4357. -/
def freeForward (s : Hp) (p psize next : Nat) : R (Hp × Then) := do
  let hn ← s.get (next + 8)
  if p < next ∧ pinuse hn then
    if !cinuse hn then
      if next = s.top then freeTop s p psize
      else if next = s.dv then
        let dsize := s.dvsize + psize
        let s := { s with dvsize := dsize, dv := p }
        return (← setSizeFree s p dsize, .stop)
      else
        let nsize := chunksize hn
        let s := unlinkChunk s next nsize
        let s ← setSizeFree s p (psize + nsize)
        return (if p = s.dv then { s with dvsize := psize + nsize } else insertChunk s p (psize + nsize), .stop)
    else
      let s ← setFree s p psize next
      return (insertChunk s p psize, .stop)
  else .error .abort

/-- `dlfree` without the calls of the system, src/dlmalloc.c:4266-4364. -/
def freeChunk (mem : Nat) (s : Hp) : R (Hp × Then) := do
  if mem = 0 then return (s, .stop)
  else
    let p := mem - 16
    let h ← s.get (p + 8)
    if s.least ≤ p ∧ cinuse h then
      let psize := chunksize h
      let next := p + psize
      if pinuse h then freeForward s p psize next
      else
        let prevsize ← s.get p
        if prevsize % 2 = 1 then
          return (s, .unmap (p - prevsize / 2 * 2) (psize + prevsize / 2 * 2 + 32))
        else
          let prev := p - prevsize
          if s.least ≤ prev then
            if prev ≠ s.dv then freeForward (unlinkChunk s prev prevsize) prev (psize + prevsize) next
            else
              let hn ← s.get (next + 8)
              if hn &&& 3 = 3 then
                let s := { s with dvsize := psize + prevsize }
                return (← setFree s prev (psize + prevsize) next, .stop)
              else freeForward s prev (psize + prevsize) next
          else .error .abort
    else .error .abort

/-- `dlfree`.  The branch for chunks that were mapped directly only unmaps. -/
def dlfree (e : Env) (mem : Nat) (s : Hp) : R Hp := do
  match ← freeChunk mem s with
  | (s, .stop) => return s
  | (s, .trim) => sysTrim e s
  | (s, .unmap a n) => return (s.munmap e a n).2

end Verif.Dl
