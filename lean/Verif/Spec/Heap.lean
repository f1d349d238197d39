import Verif.Closures.Heap
import Verif.Spec.Seg

/-
Histories of a process that allocates and frees closures, with dlmalloc's chunks and segments.
-/
namespace Verif.Heap
open Verif

/-- What is assumed: sizes of a 64-bit target; the system call `mmap` answers with unused pages in
the address space, not at zero, and opening a file gives an unused descriptor. -/
structure Good (c : Dual.Cfg) (w : Dual.World) (y : Dual.Sys) : Prop where
  page : Dl.PageOk c.page
  word : c.word = 8
  foot : y.foot = 72
  map : Dual.FreshMap w
  fd : Dual.FreshFd w
  addr : ∀ t vm n a, w.mmap t vm n = some a → c.page ∣ a ∧ 0 < a ∧ a + n ≤ 2 ^ 64

/-- The chunks and what the owners of blocks know; the segments and the live closures. -/
structure Pr where
  d : Dl.H
  h : Dual.H

/-- A new closure. -/
def Pr.alloc (p : Pr) (n m : Nat) (code : Int) (s' : Dl.Hp) (g' : Dual.G) : Pr :=
  ⟨p.d.set m (some n) s' fun x => if m ≤ x ∧ x < m + n then s'.mem x else p.d.val x,
   ⟨g', ⟨m, n, code, fun i => g'.s.vm (m + i)⟩ :: p.h.live⟩⟩

/-- The histories of calls that do not overlap in time: `ffi_closure_alloc`, `ffi_closure_free`
with the closure or its code address, stores into closures by their owners, and everything else,
which leaves alone the memory that dlmalloc has got. -/
inductive Reach (c : Dual.Cfg) (w : Dual.World) (y : Dual.Sys) : Pr → Prop
  | init (vm : Dual.VM) (mem val : Nat → Nat) :
      Reach c w y ⟨⟨Dl.hp0 mem fun x => (vm x).isSome, fun _ => none, val⟩, ⟨.init vm, []⟩⟩
  | alloc {p : Pr} {k n m : Nat} {code : Int} {s' : Dl.Hp} {g' : Dual.G} : Reach c w y p → 0 < n →
      closureAlloc c w y k n p.d.s p.h.g = .ok (some (m, code), s', g') → Reach c w y (p.alloc n m code s' g')
  | refused {p : Pr} {k n : Nat} {s' : Dl.Hp} {g' : Dual.G} : Reach c w y p →
      closureAlloc c w y k n p.d.s p.h.g = .ok (none, s', g') → Reach c w y ⟨{ p.d with s := s' }, { p.h with g := g' }⟩
  | free {p : Pr} {l : Dual.Live} {a : Nat} {s' : Dl.Hp} {g' : Dual.G} : Reach c w y p → l ∈ p.h.live → (a = l.ptr ∨ (a : Int) = l.code) →
      closureFree c w a p.d.s p.h.g = .ok (s', g') →
      Reach c w y ⟨p.d.set l.ptr none s' p.d.val, ⟨g', p.h.live.filter fun x => x.ptr ≠ l.ptr⟩⟩
  | store {p : Pr} {l : Dual.Live} {x v : Nat} : Reach c w y p → l ∈ p.h.live → Dl.InBlock l.ptr l.size x → 8 ∣ x →
      Reach c w y { p with d := { p.d with s := { p.d.s with mem := Dl.upd p.d.s.mem x v }, val := Dl.upd p.d.val x v } }
  | other {p : Pr} {st' : Dual.St} {mem : Nat → Nat} : Reach c w y p → p.h.g.s.clock ≤ st'.clock → st'.idx = p.h.g.s.idx →
      st'.lastMounts = p.h.g.s.lastMounts → st'.lastMntent = p.h.g.s.lastMntent → st'.tr = p.h.g.s.tr →
      st'.execfd = p.h.g.s.execfd → st'.execsize = p.h.g.s.execsize →
      (∀ fd, p.h.g.s.execfd = some fd → st'.files fd = p.h.g.s.files fd) →
      (∀ s ∈ p.h.g.segs, ∀ x, Dual.InData s x ∨ Dual.InCode s x → st'.vm x = p.h.g.s.vm x) →
      (∀ s ∈ p.h.g.segs, ∀ x, Dual.InData s x → mem x = p.d.s.mem x) →
      Reach c w y ⟨{ p.d with s := { p.d.s with mem := mem, mapped := mapOf { p.h.g with s := st' } } }, { p.h with g := { p.h.g with s := st' } }⟩

end Verif.Heap
