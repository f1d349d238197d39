import Verif.Base.Mem
import Verif.Core.Model

/-
Model of the search for an executable temporary file and of the double mapping,
src/closures.c:576-967 (`FFI_MMAP_EXEC_WRIT`, not Windows).  The system calls are answered by
a `World`; every answer may depend on the time (the number of system calls made so far).
Loops of the source that are not obviously finite take fuel; running out of it is the outcome
`fuel`.
-/
namespace Verif.Dual
open Verif

abbrev R (α : Type) := Except Abn α

/-- What the build knows: `HAVE_MEMFD_CREATE`, `HAVE_MNTENT`, `O_TMPFILE`, the page size and
`sizeof (ptrdiff_t)`. -/
structure Cfg where
  memfd : Bool
  mntent : Bool
  tmpfile : Bool
  page : Nat
  word : Nat

/-- The part of `struct mntent` used: mount directory and the results of `hasmntopt`. -/
structure Mnt where
  dir : String
  ro : Bool
  noexec : Bool
  deriving DecidableEq, Repr

/-- Storage behind a page: byte of a file, or of an anonymous mapping made at a time. -/
inductive Phys
  | file (id off : Nat)
  | anon (id off : Nat)
  deriving DecidableEq, Repr

/-- A mapped byte: its storage and whether it can be written and executed. -/
structure Pg where
  phys : Phys
  w : Bool
  x : Bool
  deriving DecidableEq, Repr

abbrev VM := Nat → Option Pg

/-- An open file: identity, length, position, which bytes have storage allocated, and whether
`ftruncate` was ever applied to it (recorded for C50, not read by any function). -/
structure File where
  id : Nat
  len : Nat
  pos : Nat
  backed : Nat → Bool
  cut : Bool

/-- Attempts made, in the order of the calls. -/
inductive Ev
  | memfd
  | open (dir : String)
  | setmntent (path : String) (ok : Bool)
  deriving DecidableEq, Repr

/-- Answers of the system.  `none` is failure. -/
structure World where
  memfd : Nat → Bool
  getenv : String → Option String
  /-- `open (dir, ... | O_TMPFILE)` -/
  openTmp : Nat → String → Bool
  /-- its failure is EINVAL, EISDIR or EOPNOTSUPP -/
  tmpRetry : Nat → Bool
  /-- `mkostemp` or `mkstemp` -/
  mkostemp : Nat → String → Bool
  /-- descriptor given to a new file -/
  newfd : Nat → (Nat → Option File) → Option Nat
  setmntent : Nat → String → Bool
  /-- contents of a mounts file; simplified: the same whenever it is opened -/
  mounts : String → List Mnt
  /-- `access (dir, W_OK) == 0` -/
  access : String → Bool
  /-- bytes written by `write` (at most the number asked for is used); an error writes none -/
  write : Nat → File → Nat → Nat
  ftruncate : Nat → Bool
  mmap : Nat → VM → Nat → Option Nat
  munmap : Nat → Bool
  /-- a refused anonymous executable mapping fails with EPERM or EACCES -/
  denied : Nat → Bool

/-- `open_temp_exec_file_*`, the functions of the table src/closures.c:721-740. -/
inductive Func
  | memfd | env | dir | mnt
  deriving DecidableEq, Repr

structure Opt where
  func : Func
  arg : String
  rep : Bool
  deriving DecidableEq, Repr

/-- `open_temp_exec_file_opts`, src/closures.c:721-740. -/
def optTable (memfd mntent : Bool) : List Opt :=
  (if memfd then [⟨.memfd, "libffi", false⟩] else []) ++
  [⟨.env, "LIBFFI_TMPDIR", false⟩, ⟨.env, "TMPDIR", false⟩, ⟨.dir, "/tmp", false⟩, ⟨.dir, "/var/tmp", false⟩,
    ⟨.dir, "/dev/shm", false⟩, ⟨.env, "HOME", false⟩] ++
  (if mntent then [⟨.mnt, "/etc/mtab", true⟩, ⟨.mnt, "/proc/mounts", true⟩] else [])

abbrev opts (c : Cfg) : List Opt := optTable c.memfd c.mntent

/-- The static variables of src/closures.c:576-590, 678-679, 743, the open files, the address
space, and the words stored in memory (by storage, so that both views of it agree). -/
structure St where
  clock : Nat
  tr : List Ev
  /-- `open_temp_exec_file_opts_idx` -/
  idx : Nat
  /-- `last_mounts` -/
  lastMounts : Option String
  /-- `last_mntent`: what is left to read -/
  lastMntent : Option (List Mnt)
  execfd : Option Nat
  execsize : Nat
  files : Nat → Option File
  vm : VM
  words : Phys → Int

def St.tick (st : St) : St := { st with clock := st.clock + 1 }

/-- A system call that returns a new empty file. -/
def St.opened (st : St) (fd : Option Nat) : St :=
  match fd with
  | none => st.tick
  | some n => { st with
      clock := st.clock + 1
      files := fun k => if k = n then some ⟨st.clock, 0, 0, fun _ => false, false⟩ else st.files k }

/-- Result of a call that opens a file: it succeeds if `ok` and a descriptor is free. -/
def St.newfd (w : World) (ok : Bool) (st : St) : Option Nat :=
  if ok then w.newfd st.clock st.files else none

/-- `open_temp_exec_file_memfd`, src/closures.c:589-597. -/
def openMemfd (w : World) (st : St) : Option Nat × St :=
  let fd := st.newfd w (w.memfd st.clock)
  (fd, { st.opened fd with tr := st.tr ++ [.memfd] })

/-- `open_temp_exec_file_name`, src/closures.c:600-616 (`unlink` has no effect here). -/
def openName (w : World) (name : String) (st : St) : Option Nat × St :=
  let fd := st.newfd w (w.mkostemp st.clock name)
  (fd, st.opened fd)

/-- `open_temp_exec_file_dir`, src/closures.c:618-655; `alloca` does not fail. -/
def openDir (c : Cfg) (w : World) (dir : String) (st : St) : Option Nat × St :=
  let st := { st with tr := st.tr ++ [.open dir] }
  if c.tmpfile then
    match st.newfd w (w.openTmp st.clock dir) with
    | some fd => (some fd, st.opened (some fd))
    | none =>
      if w.tmpRetry st.clock then openName w (dir ++ "/ffiXXXXXX") st.tick else (none, st.tick)
  else openName w (dir ++ "/ffiXXXXXX") st

/-- `open_temp_exec_file_env`, src/closures.c:657-668. -/
def openEnv (c : Cfg) (w : World) (var : String) (st : St) : Option Nat × St :=
  match w.getenv var with
  | none => (none, st)
  | some dir => openDir c w dir st

/-- The mount point can be used, src/closures.c:706-708. -/
def usable (w : World) (m : Mnt) : Bool := !(m.ro || m.noexec || !w.access m.dir)

/-- The loop src/closures.c:697-715 on the entries left to read. -/
def mntLoop (c : Cfg) (w : World) : List Mnt → St → Option Nat × St
  | [], st => (none, { st with lastMntent := some [] })
  | m :: ms, st =>
    if usable w m then
      match openDir c w m.dir st with
      | (some fd, st) => (some fd, { st with lastMntent := some ms })
      | (none, st) => mntLoop c w ms st
    else mntLoop c w ms st

/-- `open_temp_exec_file_mnt`, src/closures.c:670-716. -/
def openMnt (c : Cfg) (w : World) (mounts : Option String) (st : St) : Option Nat × St :=
  let st :=
    if mounts ≠ st.lastMounts then
      match mounts with
      | some p => { st with
          clock := st.clock + 1, lastMounts := some p
          lastMntent := if w.setmntent st.clock p then some (w.mounts p) else none
          tr := st.tr ++ [.setmntent p (w.setmntent st.clock p)] }
      | none => { st with lastMounts := none, lastMntent := none }
    else st
  match st.lastMntent with
  | none => (none, st)
  | some l => mntLoop c w l st

/-- Call of `func (arg)`. -/
def Opt.call (c : Cfg) (w : World) (o : Opt) (st : St) : Option Nat × St :=
  match o.func with
  | .memfd => openMemfd w st
  | .env => openEnv c w o.arg st
  | .dir => openDir c w o.arg st
  | .mnt => openMnt c w (some o.arg) st

/-- `open_temp_exec_file_opts_next`, src/closures.c:745-766.  `func (NULL)` is called for
repeated entries only, which are all `open_temp_exec_file_mnt`; for another function it would
dereference NULL. -/
def optsNext (c : Cfg) (w : World) (st : St) : R (Bool × St) := do
  match (opts c)[st.idx]? with
  | none => .error .fault
  | some o =>
    let st ← if o.rep then (if o.func = .mnt then pure (openMnt c w none st).2 else .error .fault) else pure st
    if st.idx + 1 = (opts c).length then return (true, { st with idx := 0 })
    else return (false, { st with idx := st.idx + 1 })

/-- `open_temp_exec_file`, src/closures.c:768-790. -/
def search (c : Cfg) (w : World) : Nat → St → R (Option Nat × St)
  | 0, _ => .error .fuel
  | k + 1, st => do
    match (opts c)[st.idx]? with
    | none => .error .fault
    | some o =>
      let (fd, st) := o.call c w st
      if o.rep = false ∨ fd = none then
        let (stop, st) ← optsNext c w st
        if stop = true ∨ fd ≠ none then return (fd, st) else search c w k st
      else return (fd, st)

/-- `write (fd, buf, n)` of zeros: the number of bytes written.  The model does not need the
data, since new storage reads as zero. -/
def St.write (w : World) (fd n : Nat) (st : St) : R (Nat × St) :=
  match st.files fd with
  | none => .error .fault
  | some f =>
    let k := min n (w.write st.clock f n)
    .ok (k, { st with
      clock := st.clock + 1
      files := fun j => if j = fd then some { f with len := if k = 0 then f.len else max f.len (f.pos + k), pos := f.pos + k, backed := fun o => f.backed o || (decide (f.pos ≤ o) && decide (o < f.pos + k)) } else st.files j })

/-- `allocate_space`, src/closures.c:798-820: true on success. -/
def allocSpace (c : Cfg) (w : World) (fd : Nat) : Nat → Nat → St → R (Bool × St)
  | _, 0, st => .ok (true, st)
  | 0, _ + 1, _ => .error .fuel
  | k + 1, len + 1, st => do
    let n := if len + 1 < c.page then len + 1 else c.page
    let (r, st) ← st.write w fd n
    if r < n then return (false, st) else allocSpace c w fd k (len + 1 - n) st

/-- `mmap` of a range of storage at an address chosen by the system. -/
def St.mmap (w : World) (len : Nat) (pg : Nat → Pg) (st : St) : Option Nat × St :=
  match w.mmap st.clock st.vm len with
  | none => (none, st.tick)
  | some a => (some a, { st with
      clock := st.clock + 1
      vm := fun x => if a ≤ x ∧ x < a + len then some (pg (x - a)) else st.vm x })

/-- `munmap`: true on success. -/
def St.munmap (w : World) (a len : Nat) (st : St) : Bool × St :=
  if w.munmap st.clock then
    (true, { st with clock := st.clock + 1, vm := fun x => if a ≤ x ∧ x < a + len then none else st.vm x })
  else (false, st.tick)

/-- `ftruncate (fd, len)`; its result is ignored by the callers. -/
def St.ftruncate (w : World) (fd len : Nat) (st : St) : R St :=
  match st.files fd with
  | none => .error .fault
  | some f =>
    .ok (if w.ftruncate st.clock then
      { st with
        clock := st.clock + 1
        files := fun j => if j = fd then some { f with len := len, backed := fun o => f.backed o && decide (o < len), cut := true } else st.files j }
      else st.tick)

def St.close (fd : Nat) (st : St) : St :=
  { st with files := fun j => if j = fd then none else st.files j }

/-- Read of the word at an address. -/
def St.getW (st : St) (a : Nat) : R Int :=
  match st.vm a with
  | some pg => .ok (st.words pg.phys)
  | none => .error .fault

/-- Write of the word at an address. -/
def St.setW (st : St) (a : Nat) (v : Int) : R St :=
  match st.vm a with
  | some pg => if pg.w then .ok { st with words := fun p => if p = pg.phys then v else st.words p } else .error .fault
  | none => .error .fault

/-- After the first mapping of a file a mounts file is closed, src/closures.c:871-873. -/
def leaveList (c : Cfg) (w : World) (offset : Nat) (st : St) : R St :=
  match (opts c)[st.idx]? with
  | none => .error .fault
  | some o => if offset = 0 ∧ o.rep = true then (do return (← optsNext c w st).2) else pure st

/-- `dlmmap_locked` after a file is open, src/closures.c:842-889.  The result `none` of the
outer option asks for another file (`goto retry_open`). -/
def mapFile (c : Cfg) (w : World) (fd len : Nat) (st : St) : R (Option (Option Nat) × St) := do
  let offset := st.execsize
  let (ok, st) ← allocSpace c w fd len len st
  if ok = false then return (some none, st)
  match st.files fd with
  | none => .error .fault
  | some f =>
  match st.mmap w len fun o => ⟨.file f.id (offset + o), false, true⟩ with
  | (none, st) =>
    if offset = 0 then return (none, st.close fd)
    else
      let st ← st.ftruncate w fd offset
      return (some none, st)
  | (some ptr, st) =>
    let st ← leaveList c w offset st
    match st.mmap w len fun o => ⟨.file f.id (offset + o), true, false⟩ with
    | (none, st) =>
      let (_, st) := st.munmap w ptr len
      let st ← st.ftruncate w fd offset
      return (some none, st)
    | (some start, st) =>
      -- mmap_exec_offset, src/dlmalloc.c:1953
      let st ← st.setW (start + len - c.word) ((ptr : Int) - (start : Int))
      return (some (some start), { st with execsize := st.execsize + len })

/-- From `retry_open` on, src/closures.c:837-889. -/
def retryOpen (c : Cfg) (w : World) (len : Nat) : Nat → St → R (Option Nat × St)
  | 0, _ => .error .fuel
  | k + 1, st => do
    let (fd, st) ← search c w k st
    let st := { st with execfd := fd }
    match fd with
    | none => return (none, st)
    | some fd =>
      match ← mapFile c w fd len st with
      | (some r, st) => return (r, st)
      | (none, st) => retryOpen c w len k st

/-- `dlmmap_locked`, src/closures.c:827-889. -/
def dlmmapLocked (c : Cfg) (w : World) (k len : Nat) (st : St) : R (Option Nat × St) := do
  match st.execfd with
  | none => retryOpen c w len k { st with idx := 0 }
  | some fd =>
    match ← mapFile c w fd len st with
    | (some r, st) => return (r, st)
    | (none, st) => retryOpen c w len k st

end Verif.Dual
