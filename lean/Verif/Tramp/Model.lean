import Verif.Base.Mem
import Verif.Core.Model

/-
Model of src/tramp.c (static trampolines, Linux): tables of trampolines in two
doubly linked lists, at the level of pointers and heap blocks.  Every access to a heap
block that is not allocated (freed or never allocated), to an array element out of
bounds, or through NULL is the outcome `fault`.  The platform (malloc, mmap, files) is a
parameter of every operation.
-/
namespace Verif.Tramp
open Verif

/-- Pointer to a `struct tramp`: the malloc block of the array and the index. -/
abbrev TP := Nat × Nat

/-- `struct tramp`, src/tramp.c:125-132. -/
structure Tramp where
  prev : Option TP
  next : Option TP
  table : Nat
  code : Nat
  parm : Nat
  deriving DecidableEq, Repr

/-- `struct tramp_table`, src/tramp.c:91-100. -/
structure Table where
  prev : Option Nat
  next : Option Nat
  code : Nat
  parm : Nat
  array : Nat
  free : Option TP
  nfree : Int
  deriving DecidableEq, Repr

/-- `enum tramp_globals_status`, src/tramp.c:134-138. -/
inductive Status
  | uninit | passed | failed
  deriving DecidableEq, Repr

/-- What is mapped at an address. -/
inductive Prot
  | rw | rx
  deriving DecidableEq, Repr

/-- Constants of the platform: what `ffi_tramp_arch` returns (`none` if the weak symbol
is absent): trampoline size, map size and the bytes of the code table; the page size
(`none`: `sysconf` returns -1). -/
structure Plat where
  arch : Option (Nat × Nat × (Nat → Byte))
  page : Option Nat

/-- The globals of src/tramp.c:162-175, the heap, and the address space.  `ntramp`,
`size`, `mapSize` and `text` are set by initialisation. -/
structure St where
  tables : Nat → Option Table
  arrays : Nat → Option (Nat → Tramp)
  prot : Nat → Option Prot
  mem : Mem
  fd : Bool
  size : Nat
  mapSize : Nat
  text : Nat → Byte
  ntramp : Nat
  freeTables : Option Nat
  nfreeTables : Int
  status : Status

/-- Result of the platform calls one `tramp_table_alloc` can make: `malloc` of the table
(with the indeterminate contents), `malloc` of the array, the two `mmap`s. -/
structure TabEnv where
  table : Option (Nat × Table)
  array : Option (Nat × (Nat → Tramp))
  map1 : Option Nat
  map2 : Bool

/-- Platform calls of one API operation: whether the libffi binary was found and opened,
whether a temporary file was created and written, and the calls of the three possible
table allocations. -/
structure Env where
  libffi : Bool
  temp : Bool
  e1 : TabEnv
  e2 : TabEnv
  e3 : TabEnv

abbrev R (α : Type) := Except Abn α

def upd {α β : Type} [DecidableEq α] (f : α → β) (a : α) (b : β) : α → β := fun x => if x = a then b else f x

/-! ## Heap accesses -/

def St.getT (s : St) (t : Nat) : R Table :=
  match s.tables t with
  | some x => .ok x
  | none => .error .fault

def St.setT (s : St) (t : Nat) (f : Table → Table) : R St :=
  match s.tables t with
  | some x => .ok { s with tables := upd s.tables t (some (f x)) }
  | none => .error .fault

def St.getR (s : St) (p : TP) : R Tramp :=
  match s.arrays p.1 with
  | some a => if p.2 < s.ntramp then .ok (a p.2) else .error .fault
  | none => .error .fault

def St.setR (s : St) (p : TP) (f : Tramp → Tramp) : R St :=
  match s.arrays p.1 with
  | some a => if p.2 < s.ntramp then .ok { s with arrays := upd s.arrays p.1 (some (upd a p.2 (f (a p.2)))) }
              else .error .fault
  | none => .error .fault

/-- Change of a field through a pointer if it is not NULL. -/
def St.setT? (s : St) (t : Option Nat) (f : Table → Table) : R St :=
  match t with
  | some t => s.setT t f
  | none => .ok s

def St.setR? (s : St) (p : Option TP) (f : Tramp → Tramp) : R St :=
  match p with
  | some p => s.setR p f
  | none => .ok s

/-- `free` of a block that is not allocated is a fault. -/
def St.freeTable (s : St) (t : Nat) : R St :=
  match s.tables t with
  | some _ => .ok { s with tables := upd s.tables t none }
  | none => .error .fault

def St.freeArray (s : St) (a : Nat) : R St :=
  match s.arrays a with
  | some _ => .ok { s with arrays := upd s.arrays a none }
  | none => .error .fault

def St.setProt (s : St) (a n : Nat) (p : Option Prot) : St :=
  { s with prot := fun x => if a ≤ x ∧ x < a + n then p else s.prot x }

/-! ## Tables -/

/-- `tramp_table_map`, src/tramp.c:336-362.  The anonymous mapping is zero-filled, the
code half shows the bytes of the file. -/
def tableMap (e : TabEnv) (t : Nat) (s : St) : R (St × Bool) := do
  match e.map1 with
  | none => return (s, false)
  | some addr =>
    let s := s.setProt addr (s.mapSize * 2) (some .rw)
    let s := { s with mem := fun x => if addr ≤ x ∧ x < addr + s.mapSize * 2 then 0 else s.mem x }
    if e.map2 then
      let s := s.setProt addr s.mapSize (some .rx)
      let s := { s with mem := fun x => if addr ≤ x ∧ x < addr + s.mapSize then s.text (x - addr) else s.mem x }
      let s ← s.setT t fun x => { x with code := addr }
      let s ← s.setT t fun x => { x with parm := addr + s.mapSize }
      return (s, true)
    else
      let s := s.setProt addr (s.mapSize * 2) none
      return (s, false)

/-- `tramp_table_unmap`, src/tramp.c:364-369. -/
def tableUnmap (t : Nat) (s : St) : R St := do
  let x ← s.getT t
  let s := s.setProt x.code s.mapSize none
  return s.setProt x.parm s.mapSize none

/-- `tramp_table_free`, src/tramp.c:508-514. -/
def tableFree (t : Nat) (s : St) : R St := do
  let s ← tableUnmap t s
  let x ← s.getT t
  let s ← s.freeArray x.array
  s.freeTable t

/-- `tramp_table_add`, src/tramp.c:519-528. -/
def tableAdd (t : Nat) (s : St) : R St := do
  let h := s.freeTables
  let s ← s.setT t fun x => { x with next := h }
  let s ← s.setT t fun x => { x with prev := none }
  let s ← s.setT? h fun x => { x with prev := some t }
  return { s with freeTables := some t, nfreeTables := s.nfreeTables + 1 }

/-- `tramp_table_del`, src/tramp.c:533-543. -/
def tableDel (t : Nat) (s : St) : R St := do
  let s := { s with nfreeTables := s.nfreeTables - 1 }
  let x ← s.getT t
  let s ← s.setT? x.prev fun y => { y with next := x.next }
  let x ← s.getT t
  let s ← s.setT? x.next fun y => { y with prev := x.prev }
  let x ← s.getT t
  return if s.freeTables = some t then { s with freeTables := x.next } else s

/-! ## Trampolines -/

/-- `tramp_add`, src/tramp.c:550-574. -/
def trampAdd (p : TP) (s : St) : R St := do
  let t := (← s.getR p).table
  let h := (← s.getT t).free
  let s ← s.setR p fun x => { x with next := h }
  let s ← s.setR p fun x => { x with prev := none }
  let s ← s.setR? h fun x => { x with prev := some p }
  let s ← s.setT t fun x => { x with free := some p }
  let s ← s.setT t fun x => { x with nfree := x.nfree + 1 }
  let s ← if (← s.getT t).nfree = 1 then tableAdd t s else pure s
  if (← s.getT t).nfree = (s.ntramp : Int) ∧ s.nfreeTables > 1 then
    let s ← tableDel t s
    tableFree t s
  else return s

/-- `tramp_del`, src/tramp.c:579-594. -/
def trampDel (p : TP) (s : St) : R St := do
  let t := (← s.getR p).table
  let s ← s.setT t fun x => { x with nfree := x.nfree - 1 }
  let x ← s.getR p
  let s ← s.setR? x.prev fun y => { y with next := x.next }
  let x ← s.getR p
  let s ← s.setR? x.next fun y => { y with prev := x.prev }
  let x ← s.getR p
  let s ← if (← s.getT t).free = some p then s.setT t fun y => { y with free := x.next } else pure s
  if (← s.getT t).nfree = 0 then tableDel t s else return s

/-- The loop of `tramp_table_alloc`, src/tramp.c:483-493, `k` iterations from `i`. -/
def fillLoop (t a : Nat) : Nat → Nat → Nat → Nat → St → R St
  | 0, _, _, _, s => .ok s
  | k + 1, i, code, parm, s => do
    let s ← s.setR (a, i) fun x => { x with table := t }
    let s ← s.setR (a, i) fun x => { x with code := code }
    let s ← s.setR (a, i) fun x => { x with parm := parm }
    let s ← trampAdd (a, i) s
    fillLoop t a k (i + 1) (code + s.size) (parm + s.size) s

/-- `tramp_table_alloc`, src/tramp.c:428-503. -/
def tableAlloc (e : TabEnv) (s : St) : R (St × Bool) := do
  if s.nfreeTables > 0 then return (s, true)
  match e.table with
  | none => return (s, false)
  | some (t, tj) =>
    let s := { s with tables := upd s.tables t (some tj) }
    match e.array with
    | none => return (← s.freeTable t, false)
    | some (a, aj) =>
      let s := { s with arrays := upd s.arrays a (some aj) }
      match ← tableMap e t s with
      | (s, false) =>
        let s ← s.freeArray a
        return (← s.freeTable t, false)
      | (s, true) =>
        let s ← s.setT t fun x => { x with array := a }
        let s ← s.setT t fun x => { x with free := none }
        let s ← s.setT t fun x => { x with nfree := 0 }
        let x ← s.getT t
        return (← fillLoop t a s.ntramp 0 x.code x.parm s, true)

/-! ## Initialisation -/

/-- `ffi_tramp_get_libffi`, src/tramp.c:204-254. -/
def getLibffi (v : Env) (s : St) : R (St × Bool) := do
  if v.libffi then
    let s := { s with fd := true }
    match ← tableAlloc v.e1 s with
    | (s, true) => return (s, true)
    | (s, false) => return ({ s with fd := false }, false)
  else return (s, false)

/-- `ffi_tramp_get_temp_file`, src/tramp.c:260-279. -/
def getTempFile (v : Env) (s : St) : R (St × Bool) := do
  if v.temp then
    let s := { s with fd := true }
    match ← tableAlloc v.e2 s with
    | (s, true) => return (s, true)
    | (s, false) => return ({ s with fd := false }, false)
  else return ({ s with fd := false }, false)

/-- `ffi_tramp_init_os`, src/tramp.c:287-293. -/
def initOs (v : Env) (s : St) : R (St × Bool) := do
  match ← getLibffi v s with
  | (s, true) => return (s, true)
  | (s, false) => getTempFile v s

/-- `ffi_tramp_init`, src/tramp.c:378-417. -/
def trampInit (P : Plat) (v : Env) (s : St) : R (St × Bool) := do
  if s.status = .passed then return (s, true)
  if s.status = .failed then return (s, false)
  match P.arch with
  | none => return ({ s with status := .failed }, false)
  | some (size, mapSize, text) =>
    let s := { s with freeTables := none, nfreeTables := 0, size := size, mapSize := mapSize, text := text,
                      ntramp := mapSize / size }
    if P.page.any fun p => decide (p > mapSize) then return (s, false)
    match ← initOs v s with
    | (s, true) => return ({ s with status := .passed }, true)
    | (s, false) => return ({ s with status := .failed }, false)

/-! ## API -/

/-- `ffi_tramp_is_supported`, src/tramp.c:598-607. -/
def isSupported (P : Plat) (v : Env) (s : St) : R (St × Bool) := trampInit P v s

/-- `ffi_tramp_alloc`, src/tramp.c:612-637. -/
def alloc (P : Plat) (v : Env) (flags : Int) (s : St) : R (St × Option TP) := do
  match ← trampInit P v s with
  | (s, false) => return (s, none)
  | (s, true) =>
    if flags ≠ 0 then return (s, none)
    match ← tableAlloc v.e3 s with
    | (s, false) => return (s, none)
    | (s, true) =>
      match s.freeTables with
      | none => .error .fault
      | some t =>
        match (← s.getT t).free with
        | none => .error .fault
        | some p => return (← trampDel p s, some p)

/-- `ffi_tramp_set_parms`, src/tramp.c:642-651.  A store to an address that is not mapped
writable is a fault. -/
def setParms (p : TP) (target data : Nat) (s : St) : R St := do
  let x ← s.getR p
  if (List.range 16).all fun i => s.prot (x.parm + i) = some .rw then
    let s := { s with mem := s.mem.wr (x.parm + 8) (leBytes 8 target) }
    return { s with mem := s.mem.wr x.parm (leBytes 8 data) }
  else .error .fault

/-- `ffi_tramp_get_addr`, src/tramp.c:656-667. -/
def getAddr (p : TP) (s : St) : R Nat := do
  return (← s.getR p).code

/-- `ffi_tramp_free`, src/tramp.c:672-680. -/
def free (p : TP) (s : St) : R St := trampAdd p s

/-- Before the first call. -/
def St.init (mem : Mem) (prot : Nat → Option Prot) : St :=
  { tables := fun _ => none, arrays := fun _ => none, prot := prot, mem := mem, fd := false, size := 0,
    mapSize := 0, text := fun _ => 0, ntramp := 0, freeTables := none, nfreeTables := 0, status := .uninit }

end Verif.Tramp
