import Verif.Closures.Temp

/-
What it means that a location for the temporary file was tried.
-/
namespace Verif.Dual
open Verif

/-- The location(s) of a table entry were tried in the events `tr`: the memory file, the
directory, the directory in the environment variable if it is set, or every writable and
executable mount point of a mounts file unless that file cannot be opened. -/
def Tried (w : World) (tr : List Ev) (o : Opt) : Prop :=
  match o.func with
  | .memfd => Ev.memfd ∈ tr
  | .dir => Ev.open o.arg ∈ tr
  | .env => ∀ d, w.getenv o.arg = some d → Ev.open d ∈ tr
  | .mnt => Ev.setmntent o.arg false ∈ tr ∨
      ∀ m ∈ w.mounts o.arg, m.ro = false → m.noexec = false → w.access m.dir = true → Ev.open m.dir ∈ tr

/-- At program start. -/
def St.init (vm : VM) : St :=
  { clock := 0, tr := [], idx := 0, lastMounts := none, lastMntent := none, execfd := none, execsize := 0
    files := fun _ => none, vm := vm, words := fun _ => 0 }

/-- A call that ends with result `r`: enough fuel gives it. -/
def Done {α : Type} (f : Nat → R α) (r : α) : Prop := ∃ N, ∀ k, N ≤ k → f k = .ok r

/-- A descriptor given to a new file is not in use. -/
def FreshFd (w : World) : Prop := ∀ t fs n, w.newfd t fs = some n → fs n = none

/-- The states of a process: `open_temp_exec_file` is called by src/tramp.c and by
`dlmmap_locked`, and everything else leaves the variables of the search alone. -/
inductive Reach (c : Cfg) (w : World) : St → Prop
  | init (vm : VM) : Reach c w (St.init vm)
  | search {st : St} {fd : Option Nat} {st' : St} : Reach c w st → Done (fun k => search c w k st) (fd, st') → Reach c w st'
  | map {st : St} {len : Nat} {r : Option Nat} {st' : St} : Reach c w st → c.word ≤ len →
      Done (fun k => dlmmapLocked c w k len st) (r, st') → Reach c w st'
  | other {st st' : St} : Reach c w st → st'.idx = st.idx → st'.lastMounts = st.lastMounts →
      st'.lastMntent = st.lastMntent → st'.tr = st.tr → st'.execfd = st.execfd →
      (∀ fd, st.execfd = some fd → st.files fd ≠ none → st'.files fd ≠ none) → Reach c w st'

end Verif.Dual
