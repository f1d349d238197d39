import Verif.Closures.HeapLink
import Verif.Props.Dl

/-
C81: `ffi_closure_alloc` and `ffi_closure_free` as a whole (src/closures.c:827-1057 over
src/dlmalloc.c): nothing is assumed of dlmalloc's chunks.
-/
namespace Verif.Props
open Verif Verif.Dual Verif.Heap

/-! ## A system for the examples -/

/-- Memory at a place that depends on the time, if it is free. -/
def heapWorld : World := { segWorld with
  mmap := fun t vm n =>
    if 4096000000 * (t + 1) + n ≤ 2 ^ 64 ∧ (List.range n).all (fun i => (vm (4096000000 * (t + 1) + i)).isNone) = true then
      some (4096000000 * (t + 1)) else none
  munmap := fun _ => true }

def heapCfg : Cfg := ⟨true, false, true, 4096, 8⟩
def heapSys : Sys := ⟨false, false, false, true, 72⟩

theorem heap_fresh {vm : VM} {n b x : Nat} (h : (List.range n).all (fun i => (vm (b + i)).isNone) = true) (h1 : b ≤ x)
    (h2 : x < b + n) : vm x = none := by
  have := List.all_eq_true.1 h (x - b) (List.mem_range.2 (by omega))
  rw [show b + (x - b) = x by omega] at this
  simpa using this

theorem heap_good : Good heapCfg heapWorld heapSys := by
  refine ⟨⟨12, by omega, by omega, rfl⟩, rfl, rfl, ?_, ?_, ?_⟩
  · intro t vm n a h x h1 h2
    simp only [heapWorld] at h
    split at h
    · rename_i hc
      simp only [Option.some.injEq] at h
      subst h
      exact heap_fresh hc.2 h1 h2
    · simp at h
  · intro t fs n h
    simp only [heapWorld] at h
    exact segWorld_fd t fs n h
  · intro t vm n a h
    simp only [heapWorld] at h
    split at h
    · rename_i hc
      simp only [Option.some.injEq] at h
      subst h
      refine ⟨?_, by omega, by omega⟩
      have hd : 4096 ∣ 4096000000 * (t + 1) := Dvd.dvd.mul_right (by norm_num) _
      exact hd
    · simp at h

def heap0 : Pr := ⟨⟨Dl.hp0 (fun _ => 0) fun _ => false, fun _ => none, fun _ => 0⟩, ⟨.init fun _ => none, []⟩⟩

theorem heap0_reach : Reach heapCfg heapWorld heapSys heap0 := .init (fun _ => none) _ _

def heapAlloc (n : Nat) (p : Pr) : Pr :=
  match closureAlloc heapCfg heapWorld heapSys 20 n p.d.s p.h.g with
  | .ok (some (m, code), s', g') => p.alloc n m code s' g'
  | _ => p

theorem heapAlloc_reach {p : Pr} (h : Reach heapCfg heapWorld heapSys p) {n : Nat} (hn : 0 < n) : Reach heapCfg heapWorld heapSys (heapAlloc n p) := by
  unfold heapAlloc
  split
  · rename_i he; exact .alloc h hn he
  · exact h

/-- `i` is the closure's place in the list. -/
def heapFree (i : Nat) (byCode : Bool) (p : Pr) : Pr :=
  match p.h.live[i]? with
  | none => p
  | some l =>
    match closureFree heapCfg heapWorld (if byCode then l.code.toNat else l.ptr) p.d.s p.h.g with
    | .ok (s', g') => ⟨p.d.set l.ptr none s' p.d.val, ⟨g', p.h.live.filter fun x => x.ptr ≠ l.ptr⟩⟩
    | _ => p

theorem heapFree_reach {p : Pr} (h : Reach heapCfg heapWorld heapSys p) (hh : p.h.g.half = false) (i : Nat) (b : Bool) :
    Reach heapCfg heapWorld heapSys (heapFree i b p) := by
  unfold heapFree
  split
  · exact h
  · rename_i l hl
    split
    · rename_i s' g' he
      have hm := List.mem_of_getElem? hl
      refine .free h hm ?_ he
      cases b with
      | false => exact .inl rfl
      | true =>
        right
        obtain ⟨b, h1, _⟩ := C34_serial_partial heap_good.sizes heap_good.map heap_good.fd (h.K heap_good hh).reach hh hm
        rw [if_pos rfl, h1]; rfl
    · exact h

/-- Two closures in the first segment, one in a second segment; the first one is freed by its code
address; a smaller one takes its place. -/
def heap3 : Pr := heapAlloc 3900 (heapAlloc 64 (heapAlloc 64 heap0))
def heap4 : Pr := heapFree 2 true heap3
def heap5 : Pr := heapAlloc 40 heap4

theorem heap3_half : heap3.h.g.half = false := by decide +kernel
theorem heap3_reach : Reach heapCfg heapWorld heapSys heap3 :=
  heapAlloc_reach (heapAlloc_reach (heapAlloc_reach heap0_reach (by decide)) (by decide)) (by decide)
theorem heap5_reach : Reach heapCfg heapWorld heapSys heap5 :=
  heapAlloc_reach (heapFree_reach heap3_reach heap3_half 2 true) (by decide)

example : heap3.h.live.map (fun l => (l.ptr, l.size, l.code)) =
    [(28672000016, 3900, 24576000016), (16384000088, 64, 12288000088), (16384000016, 64, 12288000016)] := by decide +kernel
example : heap5.h.live.map (fun l => (l.ptr, l.size, l.code)) =
    [(16384000016, 40, 12288000016), (28672000016, 3900, 24576000016), (16384000088, 64, 12288000088)] := by decide +kernel

/-! ## Both models -/

/-- C81: in every history in which no `munmap` of data fails after that of its code, the chunks of
dlmalloc have a history of their own in which the system answered with unused memory (so C76 to
C80 apply), its blocks are the live closures, and its segments are the doubly mapped ones. -/
theorem heap_chunks {c : Cfg} {w : World} {y : Sys} (hg : Good c w y) {p : Pr} (h : Reach c w y p) (hh : p.h.g.half = false) :
    Dl.Hist c.page p.d ∧ (∀ m n, p.d.live m = some n ↔ ∃ l ∈ p.h.live, l.ptr = m ∧ l.size = n) ∧
      p.d.s.segs.map (fun t => (t.base, t.size)) = p.h.g.segs.map (fun t => (t.base, t.size)) ∧
      ∀ x, p.d.s.mapped x = true ↔ p.h.g.s.vm x ≠ none := by
  have k := h.K hg hh
  refine ⟨k.hist, fun m n => ⟨fun hm => k.only m n hm, ?_⟩, k.segs, ?_⟩
  · rintro ⟨l, hl, rfl, rfl⟩; exact k.live l hl
  · intro x
    rw [k.map]
    unfold mapOf
    cases p.h.g.s.vm x <;> simp

/-- C81: for every live closure: its bytes are mapped and writable, are those that its owner
stored, and are aligned; the code address shows the same bytes and is executable (unless static trampolines
or PaX emulation are used); the pages are those it was allocated in; `ffi_data_to_code_pointer`
gives the code address; no other live closure has a byte in common with it, in either view. -/
theorem heap_closures {c : Cfg} {w : World} {y : Sys} (hg : Good c w y) {p : Pr} (h : Reach c w y p) (hh : p.h.g.half = false) {l : Live}
    (hl : l ∈ p.h.live) :
    ∃ b : Nat, l.code = b ∧ dataToCode p.h.g.segs l.ptr = b ∧ l.ptr ≠ 0 ∧ 8 ∣ l.ptr ∧
      (∀ i, i < l.size → ∃ d q, p.h.g.s.vm (l.ptr + i) = some d ∧ l.pgs i = some d ∧ p.h.g.s.vm (b + i) = some q ∧ q.phys = d.phys ∧
        d.w = true ∧ (q.x = true ∨ y.tramp = true ∨ (y.mprotect = true ∧ y.emutramp = true))) ∧
      (∀ x, l.ptr ≤ x → x < l.ptr + l.size → p.d.s.mem x = p.d.val x) ∧
      p.h.live.Pairwise (fun (a a' : Live) => ∀ i j : Nat, i < a.size → j < a'.size → a.ptr + i ≠ a'.ptr + j ∧ a.code + (i : Int) ≠ a'.code + (j : Int)) := by
  have k := h.K hg hh
  obtain ⟨b, h1, h2, h3, h4, h5, h6⟩ := C34_serial_partial hg.sizes hg.map hg.fd k.reach hh hl
  obtain ⟨u, v, _⟩ := dl_blocks hg.page k.hist (k.live l hl)
  exact ⟨b, h1, h2, u.nonnull, u.aligned, h5, fun x x1 x2 => v x ⟨x1, x2⟩, h6⟩

example : Good heapCfg heapWorld heapSys ∧ Reach heapCfg heapWorld heapSys heap5 ∧ heap5.h.g.half = false ∧ heap5.h.live.length = 3 :=
  ⟨heap_good, heap5_reach, by decide +kernel, by decide +kernel⟩

/-- C81: `ffi_closure_alloc` never crashes: it gives a new closure or NULL, unless the search for a
file takes longer than `k` steps.  The histories go on. -/
theorem heap_alloc {c : Cfg} {w : World} {y : Sys} (hg : Good c w y) {p : Pr} (h : Reach c w y p) (hh : p.h.g.half = false) (k n : Nat) (hn : 0 < n) :
    closureAlloc c w y k n p.d.s p.h.g = .error .fuel ∨
    (∃ s' g', closureAlloc c w y k n p.d.s p.h.g = .ok (none, s', g')) ∨
    ∃ m code s' g', closureAlloc c w y k n p.d.s p.h.g = .ok (some (m, code), s', g') ∧ (∀ l ∈ p.h.live, l.ptr ≠ m) ∧
      Reach c w y (p.alloc n m code s' g') := by
  rcases alloc_both hg (h.K hg hh) hh k n hn with e | ⟨s', g', e, _⟩ | ⟨m, code, s', g', e, e2⟩
  · exact .inl e
  · exact .inr (.inl ⟨s', g', e⟩)
  · refine .inr (.inr ⟨m, code, s', g', e, ?_, .alloc h hn e⟩)
    intro l hl he
    have hr : Reach c w y (p.alloc n m code s' g') := .alloc h hn e
    have hh' : (p.alloc n m code s' g').h.g.half = false := by rw [← hh]; exact closureAlloc_half e
    have hp := (live_reach hg.sizes hg.map hg.fd e2.reach hh').2
    have h1 := (List.pairwise_cons.1 hp).1 l hl
    have h2 := (live_reach hg.sizes hg.map hg.fd e2.reach hh').1 l (List.mem_cons_of_mem _ hl)
    have h3 := h2.1
    unfold Dual.Apart at h1
    simp only at h1
    omega

/-- C81: `ffi_closure_free` never crashes for a live closure, given by either address, and frees
that closure only. -/
theorem heap_free {c : Cfg} {w : World} {y : Sys} (hg : Good c w y) {p : Pr} (h : Reach c w y p) (hh : p.h.g.half = false) {l : Live}
    (hl : l ∈ p.h.live) {a : Nat} (ha : a = l.ptr ∨ (a : Int) = l.code) :
    ∃ s' g', closureFree c w a p.d.s p.h.g = .ok (s', g') ∧
      Reach c w y ⟨p.d.set l.ptr none s' p.d.val, ⟨g', p.h.live.filter fun x => x.ptr ≠ l.ptr⟩⟩ := by
  have k := h.K hg hh
  obtain ⟨s', g', e, _⟩ := free_both hg k hl
  rw [← free_arg hg k hh hl ha] at e
  exact ⟨s', g', e, .free h hl ha e⟩

example : Reach heapCfg heapWorld heapSys heap3 ∧ heap3.h.g.half = false ∧ ∃ l ∈ heap3.h.live, l.code = (12288000016 : Nat) :=
  ⟨heap3_reach, heap3_half, heap3.h.live[2]'(by decide +kernel), List.getElem_mem _, by decide +kernel⟩

end Verif.Props
