import Verif.Closures.TempWitness

/-
C35: the search for an executable temporary file (src/closures.c:576-889).  `Reach` are the
states of a process (Verif/Spec/Temp.lean); the answers of the system are arbitrary.
-/
namespace Verif.Props
open Verif Verif.Dual

/-! ## Systems for the examples -/

/-- Nothing can be opened. -/
def tmpWorld : World where
  memfd _ := false
  getenv v := if v = "HOME" then some "/home" else none
  openTmp _ _ := false
  tmpRetry _ := false
  mkostemp _ _ := false
  newfd _ _ := some 3
  setmntent _ p := p = "/etc/mtab"
  mounts _ := [⟨"/a", false, false⟩, ⟨"/b", true, false⟩, ⟨"/c", false, false⟩]
  access _ := true
  write _ _ n := n
  ftruncate _ := true
  mmap _ _ _ := none
  munmap _ := true
  denied _ := true

def tmpCfg (memfd mntent : Bool) : Cfg := ⟨memfd, mntent, true, 4096, 8⟩

/-! ## One search -/

/-- C35: every search ends, with a file or with -1; it gives up only after trying every location
from the current one on, all of them within this call if no mounts file was being read. -/
theorem C35_search {c : Cfg} (hp : 0 < c.page) (hw : 0 < c.word) {w : World} {st : St} (h : Reach c w st) :
    ∃ fd st', Done (fun k => search c w k st) (fd, st') ∧ (∀ f, fd = some f → st'.files f ≠ none) ∧
      (fd = none → st'.idx = 0 ∧ (∀ n o, st.idx ≤ n → (opts c)[n]? = some o → Tried w st'.tr o) ∧
        (st.lastMounts = none → ∃ ext, st'.tr = st.tr ++ ext ∧ ∀ n o, st.idx ≤ n → (opts c)[n]? = some o → Tried w ext o)) := by
  have hi := inv_reach hp hw h
  obtain ⟨fd, st', ext, h1, h2, h3, h4, h5, h6⟩ := search_spec (c := c) (w := w) _ st st.tr rfl hi.idx hi.half
  refine ⟨fd, st', ⟨_, h1⟩, fun f hf => (h6 f hf).1, fun hn => ⟨(h5 hn).2.1, ?_, ?_⟩⟩
  · intro n o hn1 ho
    rw [h2]
    exact (h5 hn).2.2 n o hn1 (List.getElem?_eq_some_iff.1 ho).1 ho
  · intro hl
    have hh : Half w [] st := by
      rcases hi.half with h | ⟨a, h, _⟩
      · exact .inl h
      · rw [hl] at h; simp at h
    obtain ⟨fd2, st2, ext2, g1, g2, g3, g4, g5, g6⟩ := search_spec (c := c) (w := w) _ st [] rfl hi.idx hh
    have e := (h1 _ le_rfl).symm.trans (g1 _ le_rfl)
    simp only [Except.ok.injEq, Prod.mk.injEq] at e
    obtain ⟨rfl, rfl⟩ := e
    exact ⟨ext2, g2, fun n o hn1 ho => (g5 hn).2.2 n o hn1 (List.getElem?_eq_some_iff.1 ho).1 ho⟩

-- Nothing can be opened: everything is tried, the mount points that can be written included.
example : (search (tmpCfg true true) tmpWorld 9 (St.init fun _ => none)).toOption.map (fun r => (r.1, r.2.tr)) =
    some (none, [.memfd, .open "/tmp", .open "/var/tmp", .open "/dev/shm", .open "/home", .setmntent "/etc/mtab" true,
      .open "/a", .open "/c", .setmntent "/proc/mounts" false]) := by decide
example : Reach (tmpCfg true true) tmpWorld (St.init fun _ => none) := .init _

/-! ## dlmmap_locked -/

/-- C35 (partial, with mounts files, `HAVE_MNTENT`): `dlmmap_locked` ends whatever the system
answers; if it is left without a file, all locations from the current one on were tried, within
this call if no mounts file was being read; a search started by this call is over all locations.
Missing: a file that cannot be filled or extended is kept (`C35_full`), and builds without
mounts files (`C35_loops`). -/
theorem C35_map_partial {c : Cfg} (hm : c.mntent = true) (hp : 0 < c.page) (hw : 0 < c.word) {w : World} {len : Nat}
    (hlen : c.word ≤ len) {st : St} (h : Reach c w st) :
    ∃ r st', Done (fun k => dlmmapLocked c w k len st) (r, st') ∧
      (st'.execfd = none → r = none ∧ ∀ i, i = (if st.execfd = none then 0 else st.idx) →
        (∀ n o, i ≤ n → (opts c)[n]? = some o → Tried w st'.tr o) ∧
        (st.lastMounts = none → ∃ ext, st'.tr = st.tr ++ ext ∧ ∀ n o, i ≤ n → (opts c)[n]? = some o → Tried w ext o)) := by
  have hi := inv_reach hp hw h
  obtain ⟨r, st', ext, N, h1, h2, h3, h4, h5, h6⟩ := dlmmapLocked_spec hm hp hw hlen st st.tr hi.idx hi.half hi.file
  refine ⟨r, st', ⟨N, h1⟩, fun hn => ⟨(h5 hn).1, ?_⟩⟩
  rintro i rfl
  refine ⟨?_, ?_⟩
  · intro n o hn1 ho
    rw [h2]
    exact (h5 hn).2.2.2 n o hn1 (List.getElem?_eq_some_iff.1 ho).1 ho
  · intro hl
    have hh : Half w [] st := by
      rcases hi.half with h | ⟨a, h, _⟩
      · exact .inl h
      · rw [hl] at h; simp at h
    obtain ⟨r2, st2, ext2, M, g1, g2, g3, g4, g5, g6⟩ := dlmmapLocked_spec hm hp hw hlen st [] hi.idx hh hi.file
    obtain ⟨rfl, rfl⟩ := Prod.mk.inj (Done.unique (f := fun k => dlmmapLocked c w k len st) ⟨N, h1⟩ ⟨M, g1⟩)
    exact ⟨ext2, g2, fun n o hn1 ho => (g5 hn).2.2.2 n o hn1 (List.getElem?_eq_some_iff.1 ho).1 ho⟩

/-- Everything opens, nothing can be mapped for execution. -/
def noexecWorld : World := { tmpWorld with openTmp := fun _ _ => true, memfd := fun _ => true }

-- All locations are opened in turn and none can be mapped.
example : (dlmmapLocked (tmpCfg true true) noexecWorld 30 8 (St.init fun _ => none)).toOption.map (fun r => (r.1, r.2.execfd, r.2.tr)) =
    some (none, none, [.memfd, .open "/tmp", .open "/var/tmp", .open "/dev/shm", .open "/home", .setmntent "/etc/mtab" true,
      .open "/a", .open "/c", .setmntent "/proc/mounts" false]) := by decide

/-- Not C35: without mounts files (`HAVE_MNTENT` undefined) the last location is `$HOME`; the
search that opens a file there wraps around to the first location, and `dlmmap_locked`, finding
that no file can be mapped for execution, goes round forever: no amount of fuel is enough. -/
theorem C35_loops {c : Cfg} (hm : c.mntent = false) (hp : 0 < c.page) (hw : 0 < c.word) {w : World} {len : Nat}
    (hlen : c.word ≤ len) {home : String} (hhome : w.getenv "HOME" = some home) (hfd : ∀ t fs, w.newfd t fs ≠ none)
    (hopen : ∀ t, w.openTmp t home = true) (hmk : ∀ t n, w.mkostemp t n = true)
    (hwr : ∀ t f n, n ≤ w.write t f n) (hmap : ∀ t vm n, w.mmap t vm n = none) {st : St} (h : Reach c w st)
    (he : st.execfd = none) (hz : st.execsize = 0) (k : Nat) : dlmmapLocked c w k len st = .error .fuel := by
  have hi := inv_reach hp hw h
  have ho : ∀ st : St, (openEnv c w "HOME" st).1 ≠ none := by
    intro st
    have hf : ∀ s : St, w.newfd s.clock s.files ≠ none := fun s => hfd _ _
    unfold openEnv
    simp only [hhome]
    unfold openDir openName
    simp only [St.newfd, hopen, hmk, if_true]
    split
    · split
      · simp
      · rename_i e
        exact absurd e (hfd _ _)
    · exact hfd _ _
  unfold dlmmapLocked
  simp only [he]
  exact retryOpen_loops hm hp hw hlen ho hwr hmap k { st with idx := 0, execfd := none } (opts_pos c) hi.half hz

example (k : Nat) : dlmmapLocked (tmpCfg false false) { noexecWorld with mkostemp := fun _ _ => true } k 4096 (St.init fun _ => none) = .error .fuel :=
  C35_loops (w := { noexecWorld with mkostemp := fun _ _ => true }) rfl (by decide) (by decide) (by decide) (home := "/home") rfl
    (by simp [noexecWorld, tmpWorld]) (by simp [noexecWorld]) (by simp) (by simp [noexecWorld, tmpWorld]) (by simp [noexecWorld, tmpWorld])
    (.init _) rfl rfl k

/-- Not C35: once a file is chosen whose file system has no space left, every request fails
without trying another location, and the file stays chosen for the next request. -/
theorem C35_full {c : Cfg} (hp : 0 < c.page) {w : World} {len : Nat} (hlen : 0 < len) {st : St} {fd : Nat} {f : File}
    (he : st.execfd = some fd) (hf : st.files fd = some f) (hfull : ∀ t f' n, f'.id = f.id → w.write t f' n = 0) (k : Nat) :
    ∃ st' f', dlmmapLocked c w k len st = .ok (none, st') ∧ st'.tr = st.tr ∧ st'.execfd = some fd ∧ st'.files fd = some f' ∧
      f'.id = f.id :=
  dlmmapLocked_full hp hlen he hf hfull k

/-- The memory file is full; everything else works. -/
def fullWorld : World := { tmpWorld with
  memfd := fun _ => true, openTmp := fun _ _ => true, write := fun _ f n => if f.id = 0 then 0 else n, mmap := fun t _ _ => some (4096 * t) }

-- The first request chooses the full memory file; later requests fail although /tmp would do.
example : (do
    let (r1, st1) ← dlmmapLocked (tmpCfg true true) fullWorld 30 8 (St.init fun _ => none)
    let (r2, st2) ← dlmmapLocked (tmpCfg true true) fullWorld 30 8 st1
    return (r1, r2, st2.execfd, st2.tr)).toOption = some (none, none, some 3, [.memfd]) := by decide
example : (dlmmapLocked (tmpCfg false true) { fullWorld with write := fun _ _ n => n } 30 8 (St.init fun _ => none)).toOption.map (·.1) =
    some (some 12288) := by decide

/-- Before time 9 only `/a` can be written; the trampolines take a file there (src/tramp.c:266);
afterwards nothing opens. -/
def halfWorld : World := { tmpWorld with openTmp := fun t d => d = "/a" && t ≤ 8 }

def halfSt (k : Nat) : St :=
  match search (tmpCfg true true) halfWorld k (St.init fun _ => none) with
  | .ok (_, st) => st
  | _ => St.init fun _ => none

def halfSt' (k : Nat) : St :=
  match dlmmapLocked (tmpCfg true true) halfWorld k 8 (halfSt 9) with
  | .ok (_, st) => st
  | _ => St.init fun _ => none

/-- Not C35 (all locations within the call): after a search made for the trampolines, a search
from the first location continues the mounts file where it was left. -/
theorem C35_half_read : ∃ st, Reach (tmpCfg true true) halfWorld st ∧ st.execfd = none ∧
    ∃ st' ext, Done (fun k => dlmmapLocked (tmpCfg true true) halfWorld k 8 st) (none, st') ∧ st'.tr = st.tr ++ ext ∧
      st'.execfd = none ∧ Ev.open "/c" ∈ ext ∧ Ev.open "/a" ∉ ext ∧ ⟨"/a", false, false⟩ ∈ halfWorld.mounts "/etc/mtab" := by
  have e1 : search (tmpCfg true true) halfWorld 9 (St.init fun _ => none) = .ok (some 3, halfSt 9) := rfl
  have e2 : dlmmapLocked (tmpCfg true true) halfWorld 20 8 (halfSt 9) = .ok (none, halfSt' 20) := rfl
  refine ⟨halfSt 9, .search (.init _) ⟨9, fun k hk => search_mono e1 hk⟩, rfl, _,
    [.memfd, .open "/tmp", .open "/var/tmp", .open "/dev/shm", .open "/home", .open "/c", .setmntent "/proc/mounts" false],
    ⟨20, fun k hk => dlmmapLocked_mono e2 hk⟩, rfl, rfl, by decide, by decide, by decide⟩

end Verif.Props
