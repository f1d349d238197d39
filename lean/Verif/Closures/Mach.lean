import Verif.Base.Mem
import Verif.Core.Model

/-
Model of the Mach trampoline tables, src/closures.c:161-386 (`FFI_EXEC_TRAMPOLINE_TABLE`,
iOS and macOS on ARM): pointers, heap blocks and mappings.  An access to a block that is not
allocated, or through NULL, is the outcome `fault`.  malloc, calloc and the vm_* calls are
parameters of the operations.
-/
namespace Verif.Mach
open Verif

/-- Pointer to a `ffi_trampoline_table_entry`: the calloc block of the pool and the index. -/
abbrev EP := Nat × Nat

/-- `struct ffi_trampoline_table_entry`, src/closures.c:192-196. -/
structure Entry where
  tramp : Nat
  next : Option EP
  deriving DecidableEq, Repr

/-- `struct ffi_trampoline_table`, src/closures.c:178-190. -/
structure Table where
  config : Nat
  freeCount : Nat
  freeList : Option EP
  pool : Nat
  prev : Option Nat
  next : Option Nat
  deriving DecidableEq, Repr

/-- The two fields of `ffi_closure` used here, include/ffi.h.in:324-326. -/
structure Closure where
  table : Nat
  entry : EP
  deriving DecidableEq, Repr

/-- What is mapped at an address. -/
inductive Prot
  | rw | rx
  deriving DecidableEq, Repr

/-- `PAGE_MAX_SIZE`, `FFI_TRAMPOLINE_SIZE`. -/
structure Cfg where
  page : Nat
  size : Nat

/-- `FFI_TRAMPOLINE_COUNT`, src/closures.c:199. -/
def Cfg.count (c : Cfg) : Nat := c.page / c.size

/-- Heap, `ffi_trampoline_tables` and address space. -/
structure St where
  tables : Nat → Option Table
  pools : Nat → Option (Nat → Entry)
  closures : Nat → Option Closure
  prot : Nat → Option Prot
  head : Option Nat

/-- Results of the platform calls of one `ffi_closure_alloc`: `malloc` of the closure (with
its indeterminate contents), `vm_allocate`, `vm_remap` (with the execute bit of `cur_prot`;
`none` is failure), `vm_protect`, and the two `calloc`s. -/
structure Env where
  closure : Option (Nat × Closure)
  vmAlloc : Option Nat
  vmRemap : Option Bool
  vmProtect : Bool
  table : Option Nat
  pool : Option Nat

abbrev R (α : Type) := Except Abn α

def upd {β : Type} (f : Nat → β) (a : Nat) (b : β) : Nat → β := fun x => if x = a then b else f x

def St.getT (s : St) (t : Nat) : R Table :=
  match s.tables t with
  | some x => .ok x
  | none => .error .fault

def St.setT (s : St) (t : Nat) (f : Table → Table) : R St :=
  match s.tables t with
  | some x => .ok { s with tables := upd s.tables t (some (f x)) }
  | none => .error .fault

/-- Change of a field through a pointer if it is not NULL. -/
def St.setT? (s : St) (t : Option Nat) (f : Table → Table) : R St :=
  match t with
  | some t => s.setT t f
  | none => .ok s

/-- A pool has `n` entries. -/
def St.getE (n : Nat) (s : St) (e : EP) : R Entry :=
  match s.pools e.1 with
  | some a => if e.2 < n then .ok (a e.2) else .error .fault
  | none => .error .fault

def St.setE (n : Nat) (s : St) (e : EP) (f : Entry → Entry) : R St :=
  match s.pools e.1 with
  | some a => if e.2 < n then .ok { s with pools := upd s.pools e.1 (some (upd a e.2 (f (a e.2)))) }
              else .error .fault
  | none => .error .fault

def St.setProt (s : St) (a n : Nat) (p : Option Prot) : St :=
  { s with prot := fun x => if a ≤ x ∧ x < a + n then p else s.prot x }

/-- The loop src/closures.c:266-277, `k` iterations from `i` (`i` is a `uint16_t`, so the
number of entries must be below 2^16: an assumption). -/
def fillPool (c : Cfg) (pool page : Nat) : Nat → Nat → St → R St
  | 0, _, s => .ok s
  | k + 1, i, s => do
    let s ← s.setE c.count (pool, i) fun e => { e with tramp := page + i * c.size }
    let s ← if i + 1 < c.count then s.setE c.count (pool, i) fun e => { e with next := some (pool, i + 1) }
            else pure s
    fillPool c pool page k (i + 1) s

/-- `ffi_trampoline_table_alloc`, src/closures.c:204-282.  The results of `calloc` are used
without a check. -/
def tableAlloc (c : Cfg) (v : Env) (s : St) : R (St × Option Nat) := do
  match v.vmAlloc with
  | none => return (s, none)
  | some config =>
    let s := s.setProt config (2 * c.page) (some .rw)
    let page := config + c.page
    match v.vmRemap with
    | none => return (s.setProt config (2 * c.page) none, none)
    | some exec =>
      if exec = false ∧ v.vmProtect = false then return (s.setProt config (2 * c.page) none, none)
      let s := s.setProt page c.page (some .rx)
      match v.table with
      | none => .error .fault
      | some t =>
        let s := { s with tables := upd s.tables t (some ⟨config, c.count, none, 0, none, none⟩) }
        match v.pool with
        | none => .error .fault
        | some p =>
          let s := { s with pools := upd s.pools p (some fun _ => ⟨0, none⟩) }
          let s ← s.setT t fun x => { x with pool := p }
          let s ← fillPool c p page c.count 0 s
          let s ← s.setT t fun x => { x with freeList := some (p, 0) }
          return (s, some t)

/-- `ffi_trampoline_table_free`, src/closures.c:284-300. -/
def tableFree (c : Cfg) (t : Nat) (s : St) : R St := do
  let x ← s.getT t
  let s ← s.setT? x.prev fun y => { y with next := x.next }
  let x ← s.getT t
  let s ← s.setT? x.next fun y => { y with prev := x.prev }
  let x ← s.getT t
  let s := s.setProt x.config (2 * c.page) none
  match s.pools x.pool with
  | none => .error .fault
  | some _ => return { s with pools := upd s.pools x.pool none, tables := upd s.tables t none }

/-- The part of `ffi_closure_alloc` that claims an entry of the first table and fills in the
closure, src/closures.c:332-345; `table` is the local variable. -/
def claim (c : Cfg) (cl table : Nat) (s : St) : R (St × Option (Nat × Nat)) := do
  match s.head with
  | none => .error .fault
  | some h =>
    match (← s.getT h).freeList with
    | none => .error .fault
    | some e =>
      let x ← s.getE c.count e
      let s ← s.setT h fun y => { y with freeList := x.next }
      -- `free_count` is a uint16_t
      let s ← s.setT h fun y => { y with freeCount := (y.freeCount + (2 ^ 16 - 1)) % 2 ^ 16 }
      let s ← s.setE c.count e fun y => { y with next := none }
      return ({ s with closures := upd s.closures cl (some ⟨table, e⟩) }, some (cl, x.tramp))

/-- `table == NULL || table->free_list == NULL`, src/closures.c:313-314. -/
def needTable (s : St) : R Bool :=
  match s.head with
  | none => .ok true
  | some h => do return (← s.getT h).freeList.isNone

/-- `ffi_closure_alloc`, src/closures.c:302-346: closure and code address. -/
def alloc (c : Cfg) (v : Env) (s : St) : R (St × Option (Nat × Nat)) := do
  match v.closure with
  | none => return (s, none)
  | some (cl, junk) =>
    let s := { s with closures := upd s.closures cl (some junk) }
    if ← needTable s then
      match ← tableAlloc c v s with
      | (s, none) => return ({ s with closures := upd s.closures cl none }, none)
      | (s, some t) =>
        let h := s.head
        let s ← s.setT t fun x => { x with next := h }
        let s ← s.setT? h fun x => { x with prev := some t }
        claim c cl t { s with head := some t }
    else
      match s.head with
      | none => .error .fault
      | some h => claim c cl h s

/-- `ffi_closure_free`, src/closures.c:348-386. -/
def free (c : Cfg) (cl : Nat) (s : St) : R St := do
  match s.closures cl with
  | none => .error .fault
  | some ⟨t, e⟩ =>
    let fl := (← s.getT t).freeList
    let s ← s.setE c.count e fun x => { x with next := fl }
    let s ← s.setT t fun x => { x with freeList := some e }
    let s ← s.setT t fun x => { x with freeCount := (x.freeCount + 1) % 2 ^ 16 }
    let s ← if (← s.getT t).freeCount = c.count ∧ s.head ≠ some t then tableFree c t s
      else if s.head ≠ some t then do
        let h := s.head
        let s ← s.setT t fun x => { x with prev := none }
        let s ← s.setT t fun x => { x with next := h }
        let s ← s.setT? h fun x => { x with prev := some t }
        pure { s with head := some t }
      else pure s
    return { s with closures := upd s.closures cl none }

/-- Before the first call. -/
def St.init (prot : Nat → Option Prot) : St :=
  { tables := fun _ => none, pools := fun _ => none, closures := fun _ => none, prot := prot, head := none }

end Verif.Mach
