import Verif.Closures.SegLive
import Verif.Closures.SegBack
import Verif.Closures.SegRace

/-
C36: double mapping (src/closures.c:827-967, dlmalloc's segments), and the serial part of C34:
pairing of code and data addresses (src/closures.c:985-1057).
-/
namespace Verif.Props
open Verif Verif.Dual

/-! ## A system for the examples -/

/-- Every file opens; memory is given at a place that depends on the time, if it is free;
`munmap` fails at time 10. -/
def segWorld : World where
  memfd _ := true
  getenv _ := none
  openTmp _ _ := false
  tmpRetry _ := false
  mkostemp _ _ := false
  newfd _ fs := if (fs 3).isNone then some 3 else none
  setmntent _ _ := false
  mounts _ := []
  access _ := false
  write _ _ n := n
  ftruncate _ := true
  mmap t vm n := if (List.range n).all fun i => (vm (100 * (t + 1) + i)).isNone then some (100 * (t + 1)) else none
  munmap t := decide (t ≠ 10)
  denied _ := true

def segCfg : Cfg := ⟨true, false, true, 4, 1⟩

/-- SELinux forbids memory that is both writable and executable. -/
def segSys : Sys := ⟨false, false, false, true, 3⟩

theorem segWorld_map : FreshMap segWorld := by
  intro t vm n a h x h1 h2
  simp only [segWorld] at h
  split at h
  · rename_i hall
    simp only [Option.some.injEq] at h
    subst h
    have := List.all_eq_true.1 hall (x - 100 * (t + 1)) (List.mem_range.2 (by omega))
    rw [show 100 * (t + 1) + (x - 100 * (t + 1)) = x by omega] at this
    simpa using this
  · simp at h

theorem segWorld_fd : FreshFd segWorld := by
  intro t fs n h
  simp only [segWorld] at h
  split at h
  · rename_i hn
    simp only [Option.some.injEq] at h
    subst h
    simpa using hn
  · simp at h

theorem segOk : SizesOk segCfg segSys := ⟨by decide, by decide, by decide⟩

/-- Two allocations of segments: one at 500 with code at 400, one at 900 with code at 800. -/
def segG (n : Nat) : G :=
  match n with
  | 0 => .init fun _ => none
  | n + 1 => match sysAlloc segCfg segWorld segSys (fun _ => true) 20 0 (segG n) with
    | .ok (_, g) => g
    | .error _ => segG n

theorem segG_reach : SReach segCfg segWorld segSys (segG 2) := by
  have h0 : SReach segCfg segWorld segSys (segG 0) := .init _
  have step : ∀ n, SReach segCfg segWorld segSys (segG n) → SReach segCfg segWorld segSys (segG (n + 1)) := by
    intro n h
    unfold segG
    cases ho : sysAlloc segCfg segWorld segSys (fun _ => true) 20 0 (segG n) with
    | error e => exact h
    | ok r => exact .alloc h ho
  exact step 1 (step 0 h0)

example : (segG 2).segs = [⟨900, 8, -100⟩, ⟨500, 8, -100⟩] ∧ (segG 2).half = false := by decide +kernel
-- Both views of one byte.
example : ((segG 2).s.vm 903).map (·.phys) = ((segG 2).s.vm 803).map (·.phys) ∧
    ((segG 2).s.vm 903).map (·.w) = some true ∧ ((segG 2).s.vm 803).map (·.x) = some true ∧ (segG 2).s.execsize = 16 := by decide +kernel

/-! ## The double mapping -/

/-- C36 (partial): in every history in which no `munmap` of data fails after that of its code,
the recorded distance translates every data address of a segment to an address that shows the same
byte; if the views differ, code is executable and not writable, and data is writable and not
executable.  A single view is writable, and executable unless static trampolines or PaX trampoline
emulation are used.  Missing: `C36_half`. -/
theorem C36_views_partial {c : Cfg} {w : World} {y : Sys} (hok : SizesOk c y) (hM : FreshMap w) (hF : FreshFd w) {g : G}
    (h : SReach c w y g) (hh : g.half = false) {s : Seg} (hs : s ∈ g.segs) {x : Nat} (hx : InData s x) :
    ∃ (b : Nat) (d p : Pg), (b : Int) = x + s.off ∧ g.s.vm x = some d ∧ g.s.vm b = some p ∧ p.phys = d.phys ∧ d.w = true ∧
      (s.off ≠ 0 → p.x = true ∧ p.w = false ∧ d.x = false) ∧
      (s.off = 0 → d.x = true ∨ y.tramp = true ∨ (y.mprotect = true ∧ y.emutramp = true)) := by
  obtain ⟨b, d, p, h1, h2, h3, h4, h5, h6, h7, _⟩ := (sinv_reach hok hM hF h hh).views.view s hs x hx
  exact ⟨b, d, p, h1, h2, h3, h4, h5, h6, h7⟩

example : SReach segCfg segWorld segSys (segG 2) ∧ (segG 2).half = false ∧ (⟨900, 8, -100⟩ : Seg) ∈ (segG 2).segs ∧
    InData ⟨900, 8, -100⟩ 903 := ⟨segG_reach, by decide +kernel, by decide +kernel, by decide, by decide⟩

/-- C36: file ranges are given out once: two data addresses of any segments show the same byte
of storage only if they are the same address. -/
theorem C36_storage_partial {c : Cfg} {w : World} {y : Sys} (hok : SizesOk c y) (hM : FreshMap w) (hF : FreshFd w) {g : G}
    (h : SReach c w y g) (hh : g.half = false) {s t : Seg} (hs : s ∈ g.segs) (ht : t ∈ g.segs) {x z : Nat} (hx : InData s x) (hz : InData t z)
    {d e : Pg} (hd : g.s.vm x = some d) (he : g.s.vm z = some e) (hp : d.phys = e.phys) : x = z :=
  (sinv_reach hok hM hF h hh).views.store s hs t ht x z hx hz d e hd he hp

/-- C36: the consistency test in `set_segment_flags` never calls `abort`, and no access to the
offset word or to the header of the top chunk faults: obtaining a segment succeeds or fails
regularly, unless the search for a file takes longer than `k` steps. -/
theorem C36_no_abort_partial {c : Cfg} {w : World} {y : Sys} (hok : SizesOk c y) (hM : FreshMap w) (hF : FreshFd w) {g : G}
    (h : SReach c w y g) (hh : g.half = false) (top : Seg → Bool) (k nb : Nat) {e : Abn}
    (he : sysAlloc c w y top k nb g = .error e) : e = .fuel := by
  rcases sysAlloc_ok (top := top) (k := k) (nb := nb) hok hM hF (sinv_reach hok hM hF h hh) with h1 | ⟨b, g', h1, _⟩
  · rw [he] at h1
    simpa using h1
  · rw [he] at h1
    simp at h1

-- A failed test would call `abort`: a segment whose offset words differ.
example : (match setFlags segCfg 500 8 { St.init (fun x => if 400 ≤ x ∧ x < 600 then some ⟨.file 0 x, true, true⟩ else none) with
    words := fun p => if p = .file 0 507 then -100 else 0 } with | .error .abort => true | _ => false) = true := by decide +kernel

/-- Not C36: if the `munmap` of data fails after the `munmap` of the code of an empty segment
(src/closures.c:958-966), the segment stays in dlmalloc's list with free chunks, but its code
addresses are not mapped. -/
theorem C36_half : ∃ c w y g, SizesOk c y ∧ FreshMap w ∧ FreshFd w ∧ SReach c w y g ∧ ∃ s ∈ g.segs, ∃ x d, InData s x ∧
    g.s.vm x = some d ∧ d.w = true ∧ ∀ b : Nat, closureCode g.segs x = .ok b → g.s.vm b = none := by
  refine ⟨segCfg, segWorld, segSys, releaseUnused segWorld (fun _ => true) (segG 2), segOk, segWorld_map, segWorld_fd,
    .release _ segG_reach, ⟨500, 8, -100⟩, by decide +kernel, 500, ⟨.file 0 0, true, false⟩, ⟨by decide, by decide⟩, by decide +kernel, rfl, ?_⟩
  have h1 : closureCode (releaseUnused segWorld (fun _ => true) (segG 2)).segs 500 = .ok 400 := by
    have : (releaseUnused segWorld (fun _ => true) (segG 2)).segs = [⟨900, 8, -100⟩, ⟨500, 8, -100⟩] := by decide +kernel
    rw [this]
    rfl
  intro b hb
  rw [h1] at hb
  have : b = 400 := by
    have := Except.ok.inj hb
    omega
  subst this
  decide +kernel

/-! ## Space in the file -/

/-- C50 (partial): as long as the temporary file was never truncated, every byte of a segment that
is mapped from it has been written before: using it cannot fail for lack of space.  Failed writes
are included.  Missing: `C50_hole`. -/
theorem C50_backed_partial {c : Cfg} {w : World} {y : Sys} (hok : SizesOk c y) (hM : FreshMap w) (hF : FreshFd w) {g : G}
    (h : SReach c w y g) (hh : g.half = false) {s : Seg} (hs : s ∈ g.segs) {x id o : Nat} (hx : InData s x) {d : Pg}
    (hd : g.s.vm x = some d) (hp : d.phys = .file id o) :
    ∃ fd f, g.s.execfd = some fd ∧ g.s.files fd = some f ∧ f.id = id ∧ (f.cut = false → f.backed o = true) := by
  obtain ⟨b, d', p, h1, h2, h3, h4, h5, h6, h7, h8⟩ := (sinv_reach hok hM hF h hh).views.view s hs x hx
  rw [hd] at h2
  obtain rfl := Option.some.inj h2
  rw [hp] at h8
  obtain ⟨fd, f, a1, a2, a3, a4⟩ := h8
  refine ⟨fd, f, a1, a2, a3, fun hc => ?_⟩
  obtain ⟨b1, b2⟩ := bk_reach hok hM hF h hh fd f a1 a2 hc
  exact b2 o (by omega)

example : ((segG 2).s.files 3).map (·.cut) = some false ∧ ((segG 2).s.vm 907).map (·.phys) = some (.file 0 15) ∧
    ((segG 2).s.files 3).map (·.backed 15) = some true := by decide +kernel

/-- The second mapping of code fails, at time 7. -/
def holeWorld : World := { segWorld with mmap := fun t vm n => if t = 7 then none else segWorld.mmap t vm n }

def holeG (n : Nat) : G :=
  match n with
  | 0 => .init fun _ => none
  | n + 1 => match sysAlloc segCfg holeWorld segSys (fun _ => true) 20 0 (holeG n) with
    | .ok (_, g) => g
    | .error _ => holeG n

/-- Not C50: after a failed `mmap` the file is truncated but its position stays
(src/closures.c:856, 874); the next `allocate_space` writes behind a hole, and the hole is given out: the
space for it is allocated only when it is used, which fails with SIGBUS if the disk is full. -/
theorem C50_hole : ∃ c w y g, SizesOk c y ∧ FreshMap w ∧ FreshFd w ∧ SReach c w y g ∧ g.half = false ∧ ∃ s ∈ g.segs, ∃ x d id o fd f, InData s x ∧
    g.s.vm x = some d ∧ d.phys = .file id o ∧ g.s.execfd = some fd ∧ g.s.files fd = some f ∧ f.id = id ∧ f.backed o = false := by
  have hM : FreshMap holeWorld := by
    intro t vm n a h
    simp only [holeWorld] at h
    split at h
    · simp at h
    · exact segWorld_map t vm n a h
  have h0 : SReach segCfg holeWorld segSys (holeG 0) := .init _
  have step : ∀ n, SReach segCfg holeWorld segSys (holeG n) → SReach segCfg holeWorld segSys (holeG (n + 1)) := by
    intro n h
    unfold holeG
    cases ho : sysAlloc segCfg holeWorld segSys (fun _ => true) 20 0 (holeG n) with
    | error e => exact h
    | ok r => exact .alloc h ho
  have hf : ((holeG 3).s.files 3).isSome = true := by decide +kernel
  obtain ⟨f, hf⟩ := Option.isSome_iff_exists.1 hf
  have e1 : ((holeG 3).s.files 3).map (·.id) = some 0 := by decide +kernel
  have e2 : ((holeG 3).s.files 3).map (fun f => f.backed 15) = some false := by decide +kernel
  rw [hf] at e1 e2
  refine ⟨segCfg, holeWorld, segSys, holeG 3, segOk, hM, segWorld_fd, step 2 (step 1 (step 0 h0)), by decide +kernel, ?_⟩
  exact ⟨⟨1300, 8, -100⟩, by decide +kernel, 1307, ⟨.file 0 15, true, false⟩, 0, 15, 3, f, ⟨by decide, by decide⟩, by decide +kernel, rfl, by decide +kernel, hf,
    Option.some.inj e1, Option.some.inj e2⟩

/-! ## Closures -/

theorem dis_of {s t : Seg} : ∀ {l : List Seg}, l.Pairwise Dis → s ∈ l → t ∈ l → s ≠ t → Dis s t
  | [], _, hs, _, _ => by simp at hs
  | u :: l, hl, hs, ht, hne => by
    rw [List.pairwise_cons] at hl
    rcases List.mem_cons.1 hs with hs | hs <;> rcases List.mem_cons.1 ht with ht | ht
    · exact absurd (hs.trans ht.symm) hne
    · rw [hs]; exact hl.1 t ht
    · rw [ht]; exact (hl.1 s hs).symm
    · exact dis_of hl.2 hs ht hne

/-- Two live closures in the first segments. -/
def segH : H := ⟨segG 2, [⟨904, 2, 804, fun i => (segG 2).s.vm (904 + i)⟩, ⟨500, 4, 400, fun i => (segG 2).s.vm (500 + i)⟩]⟩

theorem segH_reach : HReach segCfg segWorld segSys segH := by
  have h0 : HReach segCfg segWorld segSys ⟨segG 0, []⟩ := .init _
  have step : ∀ n, HReach segCfg segWorld segSys ⟨segG n, []⟩ → HReach segCfg segWorld segSys ⟨segG (n + 1), []⟩ := by
    intro n h
    unfold segG
    cases ho : sysAlloc segCfg segWorld segSys (fun _ => true) 20 0 (segG n) with
    | error e => exact h
    | ok r => exact .alloc (h := ⟨segG n, []⟩) h ho
  have hseg : (segG 2).segs = [⟨900, 8, -100⟩, ⟨500, 8, -100⟩] := by decide +kernel
  have h1 := step 1 (step 0 h0)
  have h2 : HReach segCfg segWorld segSys ⟨segG 2, [⟨500, 4, 400, fun i => (segG 2).s.vm (500 + i)⟩]⟩ :=
    .malloc (h := ⟨segG 2, []⟩) (s := ⟨500, 8, -100⟩) h1 (by simp only; rw [hseg]; simp) (by decide) (by decide) (by decide) (by simp)
      (by simp only; rw [hseg]; rfl)
  exact .malloc (s := ⟨900, 8, -100⟩) h2 (by simp only; rw [hseg]; simp) (by decide) (by decide) (by decide)
    (by simp only [List.mem_singleton, forall_eq, Apart]; omega) (by simp only; rw [hseg]; rfl)


/-- C34 (partial): calls that do not overlap in time.  For every live closure:
the address given as code shows the same bytes as the closure, which are those it had when it was
allocated; `ffi_data_to_code_pointer` gives the same address; `ffi_closure_free` finds the closure
from either address; no other live closure shares a byte of data or code with it.
Missing: interleavings (`C34_race`), static trampolines (C29-C33), dlmalloc's chunks (assumed in
`HReach`), and half-failed unmapping (`C36_half`). -/
theorem C34_serial_partial {c : Cfg} {w : World} {y : Sys} (hok : SizesOk c y) (hM : FreshMap w) (hF : FreshFd w) {h : H}
    (hr : HReach c w y h) (hh : h.g.half = false) {a : Live} (ha : a ∈ h.live) :
    ∃ b : Nat, a.code = b ∧ dataToCode h.g.segs a.ptr = b ∧ freeArg true h.g.segs a.ptr = a.ptr ∧ freeArg true h.g.segs b = a.ptr ∧
      (∀ i, i < a.size → ∃ d p, h.g.s.vm (a.ptr + i) = some d ∧ a.pgs i = some d ∧ h.g.s.vm (b + i) = some p ∧ p.phys = d.phys ∧
        d.w = true ∧ (p.x = true ∨ y.tramp = true ∨ (y.mprotect = true ∧ y.emutramp = true))) ∧
      h.live.Pairwise (fun (a a' : Live) => ∀ i j : Nat, i < a.size → j < a'.size → a.ptr + i ≠ a'.ptr + j ∧ a.code + (i : Int) ≠ a'.code + (j : Int)) := by
  have hi := sinv_reach hok hM hF (sreach_of hr) hh
  obtain ⟨hl, hap⟩ := live_reach hok hM hF hr hh
  obtain ⟨h3, s, h4, h5, h6, h7, h8⟩ := hl a ha
  have hin : ∀ i, i < a.size → InData s (a.ptr + i) := fun i hi => ⟨by omega, by omega⟩
  have h0 : InData s a.ptr := hin 0 h3
  obtain ⟨b, d, p, b1, b2, b3, b4, b5, b6, b7, _⟩ := hi.views.view s h4 a.ptr h0
  have hb : InCode s b := inCode_of h0 b1
  refine ⟨b, by rw [h7, b1], ?_, ?_, ?_, ?_, ?_⟩
  · unfold dataToCode
    rw [holding_of h0 hi.views.disj h4, b1]
  · unfold freeArg
    rw [if_pos rfl]
    cases hc : segHoldingCode h.g.segs a.ptr with
    | none => rfl
    | some t =>
      have ht : t ∈ h.g.segs := List.mem_of_find?_eq_some hc
      have hin2 : InCode t a.ptr := by
        unfold segHoldingCode at hc
        exact (code_iff t a.ptr).1 (by simpa using List.find?_some hc)
      by_cases hst : s = t
      · subst hst
        by_cases ho : s.off = 0
        · simp [ho]
        · exact (hi.views.self s h4 ho _ h0 hin2).elim
      · exact (dis_of hi.views.disj h4 ht hst a.ptr (.inl h0) (.inr hin2)).elim
  · unfold freeArg
    rw [if_pos rfl, holdingCode_of hb hi.views.disj h4]
    simp only
    omega
  · intro i hlt
    obtain ⟨b', d', p', c1, c2, c3, c4, c5, c6, c7, _⟩ := hi.views.view s h4 (a.ptr + i) (hin i hlt)
    have : b' = b + i := by omega
    subst this
    refine ⟨d', p', c2, by rw [← h8 i hlt]; exact c2, c3, c4, c5, ?_⟩
    by_cases ho : s.off = 0
    · have : b + i = a.ptr + i := by omega
      rw [this, c2] at c3
      obtain rfl := Option.some.inj c3
      exact c7 ho
    · exact .inl (c6 ho).1
  · refine List.Pairwise.imp_of_mem ?_ hap
    intro u v hu hv huv i j hi1 hj1
    have hne : u.ptr + i ≠ v.ptr + j := by unfold Apart at huv; omega
    refine ⟨hne, fun he => hne ?_⟩
    obtain ⟨_, s1, u4, u5, u6, u7, u8⟩ := hl u hu
    obtain ⟨_, s2, v4, v5, v6, v7, v8⟩ := hl v hv
    have hu1 : InData s1 (u.ptr + i) := ⟨by omega, by omega⟩
    have hv1 : InData s2 (v.ptr + j) := ⟨by omega, by omega⟩
    obtain ⟨b1, d1, p1, e1, e2, e3, e4, _⟩ := hi.views.view s1 u4 _ hu1
    obtain ⟨b2, d2, p2, f1, f2, f3, f4, _⟩ := hi.views.view s2 v4 _ hv1
    have : b1 = b2 := by
      rw [u7, v7] at he
      push_cast at e1 f1
      omega
    subst this
    rw [e3] at f3
    obtain rfl := Option.some.inj f3
    exact hi.views.store s1 u4 s2 v4 _ _ hu1 hv1 d1 d2 e2 f2 (e4.symm.trans f4)

example : HReach segCfg segWorld segSys segH ∧ segH.g.half = false ∧ segH.live.length = 2 := ⟨segH_reach, by decide +kernel, rfl⟩
-- Either address is freed as the data address.
example : freeArg true (segG 2).segs 804 = 904 ∧ freeArg true (segG 2).segs 904 = 904 ∧ dataToCode (segG 2).segs 904 = 804 := by decide +kernel

/-- Not C34: `ffi_closure_alloc` looks up the segment of its new closure without dlmalloc's lock.
While another thread adds a segment, the record of the old first segment is not reachable between
the store of the base and that of the link (src/dlmalloc.c:3402-3405).  For every closure `a` in
the only segment, and every new segment, there is an interleaving in which the lookup gives NULL,
which is then dereferenced; a lookup before or after gives the right code address. -/
theorem C34_race {m : Race.Recs} {a ss tb len : Nat} {o : Int} (hss : ss ≠ 0) (hn : (m 0).next = none)
    (ha : (m 0).base ≤ a ∧ a < (m 0).base + (m 0).size) (htb : ¬ (tb ≤ a ∧ a < tb + len)) :
    (∃ sched r, (Race.run a sched m (Race.addStores ss tb len o) (.atRec 0)).2.2 = .done r ∧
      Race.useSeg (Race.run a sched m (Race.addStores ss tb len o) (.atRec 0)).1 a r = .error .fault) ∧
    (∃ r, (Race.run a [false, false] m (Race.addStores ss tb len o) (.atRec 0)).2.2 = .done r ∧ Race.useSeg m a r = .ok (a + (m 0).off)) ∧
    (∃ n r, (Race.run a (List.replicate 5 true ++ List.replicate n false) m (Race.addStores ss tb len o) (.atRec 0)).2.2 = .done r ∧
      Race.useSeg (Race.run a (List.replicate 5 true ++ List.replicate n false) m (Race.addStores ss tb len o) (.atRec 0)).1 a r =
        .ok (a + (m 0).off)) := by
  obtain ⟨ha1, ha2⟩ := ha
  have hss' : 0 ≠ ss := hss.symm
  refine ⟨?_, ⟨some 0, ?_, rfl⟩, ?_⟩
  · by_cases hb : tb ≤ a
    · have hlt : ¬ a < tb + len := fun h => htb ⟨hb, h⟩
      refine ⟨[true, true, true, true, false, false, false], none, ?_, rfl⟩
      simp [Race.run, Race.addStores, Race.Store.run, Race.Rd.step, Race.upd, hss', hb, hlt, hn]
    · refine ⟨[true, true, true, true, false, false], none, ?_, rfl⟩
      simp [Race.run, Race.addStores, Race.Store.run, Race.Rd.step, Race.upd, hss', hb, hn]
  · simp [Race.run, Race.Rd.step, ha1, ha2]
  · by_cases hb : tb ≤ a
    · have hlt : ¬ a < tb + len := fun h => htb ⟨hb, h⟩
      refine ⟨5, some ss, ?_⟩
      simp [List.replicate, Race.run, Race.addStores, Race.Store.run, Race.Rd.step, Race.upd, hss', hss, hb, hlt, ha1, ha2, Race.useSeg]
    · refine ⟨4, some ss, ?_⟩
      simp [List.replicate, Race.run, Race.addStores, Race.Store.run, Race.Rd.step, Race.upd, hss', hss, hb, ha1, ha2, Race.useSeg]

example : ∃ m : Race.Recs, (m 0).next = none ∧ (m 0).base ≤ 500 ∧ 500 < (m 0).base + (m 0).size ∧ ¬ (900 ≤ 500 ∧ 500 < 900 + 8) :=
  ⟨fun _ => ⟨500, 8, -100, none⟩, by decide⟩

end Verif.Props
