import Verif.Closures.Seg
import Verif.Spec.Temp

/-
Histories of a process that allocates closures from dlmalloc's segments, and what the two views
of a segment are.
-/
namespace Verif.Dual
open Verif

/-- The mappings at program start. -/
def G.init (vm : VM) : G := ⟨St.init vm, [], false⟩

/-- An address of the writable view. -/
def InData (s : Seg) (x : Nat) : Prop := s.base ≤ x ∧ x < s.base + s.size

/-- An address of the executable view. -/
def InCode (s : Seg) (x : Nat) : Prop := (s.base : Int) + s.off ≤ x ∧ (x : Int) < s.base + s.off + s.size

/-- Every result of the system call `mmap` with a free choice of address is an unused range. -/
def FreshMap (w : World) : Prop := ∀ t vm n a, w.mmap t vm n = some a → ∀ x, a ≤ x → x < a + n → vm x = none

/-- Sizes: words are smaller than the space reserved at the end of a segment. -/
structure SizesOk (c : Cfg) (y : Sys) : Prop where
  page : 0 < c.page
  word : 0 < c.word
  foot : 2 * c.word < y.foot

/-- The histories.  Each step of dlmalloc runs under its lock.  `other` is everything else in the
process: it may store anything into memory, map and unmap outside the views of the segments, and
open and close its own files. -/
inductive SReach (c : Cfg) (w : World) (y : Sys) : G → Prop
  | init (vm : VM) : SReach c w y (.init vm)
  | alloc {g : G} {top k nb b} {g' : G} : SReach c w y g → sysAlloc c w y top k nb g = .ok (b, g') → SReach c w y g'
  | release {g : G} (empty : Seg → Bool) : SReach c w y g → SReach c w y (releaseUnused w empty g)
  | trim {g : G} {a extra pinned} {g' : G} : SReach c w y g → sysTrim w a extra pinned g = .ok g' → SReach c w y g'
  | search {g : G} {k fd} {st' : St} : SReach c w y g → search c w k g.s = .ok (fd, st') → SReach c w y { g with s := st' }
  | other {g : G} {st' : St} : SReach c w y g → g.s.clock ≤ st'.clock → st'.idx = g.s.idx → st'.lastMounts = g.s.lastMounts →
      st'.lastMntent = g.s.lastMntent → st'.tr = g.s.tr → st'.execfd = g.s.execfd → st'.execsize = g.s.execsize →
      (∀ fd, g.s.execfd = some fd → st'.files fd = g.s.files fd) →
      (∀ s ∈ g.segs, ∀ x, InData s x ∨ InCode s x → st'.vm x = g.s.vm x) → SReach c w y { g with s := st' }

/-! ## Live closures -/

/-- A closure obtained from `ffi_closure_alloc`; `pgs` records what its bytes were mapped to. -/
structure Live where
  ptr : Nat
  size : Nat
  code : Int
  pgs : Nat → Option Pg

/-- The process and its live closures. -/
structure H where
  g : G
  live : List Live

/-- Two closures have no byte in common. -/
def Apart (a b : Live) : Prop := a.ptr + a.size ≤ b.ptr ∨ b.ptr + b.size ≤ a.ptr

/-- A closure has no byte at or above `n` bytes into a segment. -/
def Off (a : Live) (s : Seg) (n : Nat) : Prop := a.ptr + a.size ≤ s.base + n ∨ s.base + s.size ≤ a.ptr

/-- The histories of calls that do not overlap in time.  What is assumed of dlmalloc's chunks: a
new chunk is part of a segment and apart from all live ones, and what is unmapped holds no live
chunk. -/
inductive HReach (c : Cfg) (w : World) (y : Sys) : H → Prop
  | init (vm : VM) : HReach c w y ⟨.init vm, []⟩
  | malloc {h : H} {ptr size code} {s : Seg} : HReach c w y h → s ∈ h.g.segs → s.base ≤ ptr → ptr + size ≤ s.base + s.size → 0 < size →
      (∀ a ∈ h.live, Apart ⟨ptr, size, code, fun i => h.g.s.vm (ptr + i)⟩ a) → closureCode h.g.segs ptr = .ok code →
      HReach c w y { h with live := ⟨ptr, size, code, fun i => h.g.s.vm (ptr + i)⟩ :: h.live }
  | free {h : H} {live : List Live} : HReach c w y h → live.Sublist h.live → HReach c w y { h with live := live }
  | alloc {h : H} {top k nb b} {g' : G} : HReach c w y h → sysAlloc c w y top k nb h.g = .ok (b, g') → HReach c w y { h with g := g' }
  | release {h : H} {empty : Seg → Bool} : HReach c w y h → (∀ s ∈ h.g.segs, empty s = true → ∀ a ∈ h.live, Off a s 0) →
      HReach c w y { h with g := releaseUnused w empty h.g }
  | trim {h : H} {a extra pinned} {g' : G} : HReach c w y h → (∀ s ∈ h.g.segs, InData s a → ∀ l ∈ h.live, Off l s (s.size - extra)) →
      sysTrim w a extra pinned h.g = .ok g' → HReach c w y { h with g := g' }
  | search {h : H} {k fd} {st' : St} : HReach c w y h → search c w k h.g.s = .ok (fd, st') → HReach c w y { h with g := { h.g with s := st' } }
  | other {h : H} {st' : St} : HReach c w y h → h.g.s.clock ≤ st'.clock → st'.idx = h.g.s.idx → st'.lastMounts = h.g.s.lastMounts →
      st'.lastMntent = h.g.s.lastMntent → st'.tr = h.g.s.tr → st'.execfd = h.g.s.execfd → st'.execsize = h.g.s.execsize →
      (∀ fd, h.g.s.execfd = some fd → st'.files fd = h.g.s.files fd) →
      (∀ s ∈ h.g.segs, ∀ x, InData s x ∨ InCode s x → st'.vm x = h.g.s.vm x) → HReach c w y { h with g := { h.g with s := st' } }

end Verif.Dual
