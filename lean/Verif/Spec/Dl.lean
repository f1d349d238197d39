import Verif.Dl.Model

/-
Histories of the heap, and what its users rely on.
-/
namespace Verif.Dl
open Verif

/-- The heap before its first use: all of `malloc_state` is zero (a static variable,
src/dlmalloc.c:2108). -/
def hp0 (mem : Nat → Nat) (mapped : Nat → Bool) : Hp :=
  ⟨mem, mapped, 0, 0, fun _ => [], fun _ => .nil, 0, 0, 0, 0, 0, 0, []⟩

/-- Page sizes: powers of two from 4 KiB to 4 GiB. -/
def PageOk (P : Nat) : Prop := ∃ k, 12 ≤ k ∧ k ≤ 32 ∧ P = 2 ^ k

/-- What the system may answer: new memory is a range of pages none of which is mapped. -/
structure EnvOk (P : Nat) (e : Env) (s : Hp) : Prop where
  page : e.page = P
  fresh : ∀ n b, e.mmap n = some b → P ∣ b ∧ 0 < b ∧ b + n ≤ 2 ^ 64 ∧ ∀ x, b ≤ x → x < b + n → s.mapped x = false

/-- A word of a block of `n` bytes at `m`. -/
def InBlock (m n x : Nat) : Prop := m ≤ x ∧ x < m + n

/-- Heap; requested sizes of the blocks handed out and not given back; what their owners know to
be in memory. -/
structure H where
  s : Hp
  live : Nat → Option Nat
  val : Nat → Nat

def H.set (h : H) (m : Nat) (n : Option Nat) (s : Hp) (val : Nat → Nat) : H := ⟨s, fun q => if q = m then n else h.live q, val⟩

/-- The histories: calls of `dlmalloc` and `dlfree`, with any answers of the system; owners store
into words of their blocks; anything else may happen to memory that the heap has not got. -/
inductive Hist (P : Nat) : H → Prop
  | init (mem mapped val) : Hist P ⟨hp0 mem mapped, fun _ => none, val⟩
  | malloc {h : H} {e : Env} {n m : Nat} {s' : Hp} : Hist P h → EnvOk P e h.s → dlmalloc e n h.s = .ok (some m, s') →
      Hist P (h.set m (some n) s' fun x => if m ≤ x ∧ x < m + n then s'.mem x else h.val x)
  | refused {h : H} {e : Env} {n : Nat} {s' : Hp} : Hist P h → EnvOk P e h.s → dlmalloc e n h.s = .ok (none, s') →
      Hist P { h with s := s' }
  | free {h : H} {e : Env} {m n : Nat} {s' : Hp} : Hist P h → h.live m = some n → e.page = P → dlfree e m h.s = .ok s' →
      Hist P (h.set m none s' h.val)
  | free0 {h : H} {e : Env} {s' : Hp} : Hist P h → dlfree e 0 h.s = .ok s' → Hist P { h with s := s' }
  | store {h : H} {m n x v : Nat} : Hist P h → h.live m = some n → InBlock m n x → 8 ∣ x →
      Hist P { h with s := { h.s with mem := upd h.s.mem x v }, val := upd h.val x v }
  | other {h : H} {mem : Nat → Nat} {mapped : Nat → Bool} : Hist P h →
      (∀ g ∈ h.s.segs, ∀ x, g.base ≤ x → x < g.base + g.size → mem x = h.s.mem x ∧ mapped x = h.s.mapped x) →
      Hist P { h with s := { h.s with mem := mem, mapped := mapped } }

/-- A block that can be used. -/
structure Usable (s : Hp) (m n : Nat) : Prop where
  nonnull : m ≠ 0
  aligned : 8 ∣ m
  space : m + n ≤ 2 ^ 64
  mapped : ∀ x, m ≤ x → x < m + n → s.mapped x = true

/-- The chunks of a tree. -/
def T.chunks : T → List Nat
  | .nil => []
  | .node a ring l r => a :: (ring ++ (l.chunks ++ r.chunks))

/-- The chunks from `p` up to `b` as their head words tell: address, size, whether in use. -/
inductive Row (mem : Nat → Nat) (b : Nat) : Nat → List (Nat × Nat × Bool) → Prop
  | nil : Row mem b b []
  | cons {p l} : 0 < mem (p + 8) / 8 * 8 → Row mem b (p + mem (p + 8) / 8 * 8) l →
      Row mem b p ((p, mem (p + 8) / 8 * 8, decide (mem (p + 8) / 2 % 2 = 1)) :: l)

/-- Where the chunks of a segment end: at the top, or at the record of the segment. -/
def Hp.stop (s : Hp) (g : Seg) : Nat := if g.link = 0 then s.top else g.link - 16

/-- A free chunk that `dlmalloc` can find. -/
def Findable (s : Hp) (p z : Nat) : Prop :=
  (p = s.dv ∧ z = s.dvsize) ∨ if z < 256 then p ∈ s.small (z / 8) else p ∈ (s.tree (treeIndex z)).chunks

/-- A free chunk and its size: the designated victim, or a chunk in one of the bins. -/
def FreeChunk (s : Hp) (p z : Nat) : Prop :=
  (p = s.dv ∧ z = s.dvsize ∧ z ≠ 0) ∨ (z = s.mem (p + 8) / 8 * 8 ∧ ((∃ i, p ∈ s.small i) ∨ ∃ i, p ∈ (s.tree i).chunks))

/-- Size of the chunk for a request of `n` bytes: 8 more, a multiple of 8, 32 at least. -/
def padded (n : Nat) : Nat := max 32 ((n + 15) / 8 * 8)

/-- Two blocks have no byte in common. -/
def Apart (m n m' n' : Nat) : Prop := m + n ≤ m' ∨ m' + n' ≤ m

end Verif.Dl
