import Verif.Closures.Heap
import Verif.Dl.Hist
import Verif.Closures.SegLive

/-
The segment lists of the two models change in the same way.
-/
namespace Verif.Heap
open Verif

def updG {α : Type} (p : α → Bool) (f : α → α) : List α → List α
  | [] => []
  | s :: l => if p s then f s :: l else s :: updG p f l

def pr (t : Dl.Seg) : Nat × Nat := (t.base, t.size)
def pr' (t : Dual.Seg) : Nat × Nat := (t.base, t.size)

theorem map_upd {p : Dl.Seg → Bool} {f : Dl.Seg → Dl.Seg} {p' : Nat × Nat → Bool} {f' : Nat × Nat → Nat × Nat}
    (hp : ∀ t, p t = p' (pr t)) (hf : ∀ t, pr (f t) = f' (pr t)) : ∀ l, (Dl.updFirst p f l).map pr = updG p' f' (l.map pr)
  | [] => rfl
  | t :: l => by
    unfold Dl.updFirst
    rw [List.map_cons, updG, ← hp]
    split
    · rw [List.map_cons, hf]
    · rw [List.map_cons, map_upd hp hf l]

theorem map_upd' {p : Dual.Seg → Bool} {f : Dual.Seg → Dual.Seg} {p' : Nat × Nat → Bool} {f' : Nat × Nat → Nat × Nat}
    (hp : ∀ t, p t = p' (pr' t)) (hf : ∀ t, pr' (f t) = f' (pr' t)) : ∀ l, (Dual.updFirst p f l).map pr' = updG p' f' (l.map pr')
  | [] => rfl
  | t :: l => by
    unfold Dual.updFirst
    rw [List.map_cons, updG, ← hp]
    split
    · rw [List.map_cons, hf]
    · rw [List.map_cons, map_upd' hp hf l]

def endsAt (tb : Nat) (t : Nat × Nat) : Bool := tb == t.1 + t.2
def startsAt (tb len : Nat) (t : Nat × Nat) : Bool := t.1 == tb + len
def inside (a : Nat) (t : Nat × Nat) : Bool := decide (t.1 ≤ a) && decide (a < t.1 + t.2)

/-- Prepended or added. -/
def putFront (pp : Bool) (tb len : Nat) (l : List (Nat × Nat)) : List (Nat × Nat) :=
  if (l.find? (startsAt tb len)).isSome && pp then updG (startsAt tb len) (fun t => (tb, t.2 + len)) l else (tb, len) :: l

/-- The ranges of the segments after new memory was placed. -/
def put (ap pp : Bool) (top tb len : Nat) (l : List (Nat × Nat)) : List (Nat × Nat) :=
  match l with
  | [] => [(tb, len)]
  | l =>
    if (l.find? (endsAt tb)).any (inside top) && ap then updG (endsAt tb) (fun t => (t.1, t.2 + len)) l
    else putFront pp tb len l

theorem put_cons {ap pp : Bool} {top tb len : Nat} {l : List (Nat × Nat)} (h : l ≠ []) :
    put ap pp top tb len l = if (l.find? (endsAt tb)).any (inside top) && ap then updG (endsAt tb) (fun t => (t.1, t.2 + len)) l
      else putFront pp tb len l := by
  cases l with
  | nil => exact absurd rfl h
  | cons a l => rfl

/-! ## Chunks -/

section
variable {s s' : Dl.Hp}

theorem set_segs {a v : Nat} (h : s.set a v = .ok s') : s'.segs = s.segs ∧ s'.mapped = s.mapped := by
  unfold Dl.Hp.set at h
  split at h
  · cases h; exact ⟨rfl, rfl⟩
  · cases h

theorem insertChunk_segs (s : Dl.Hp) (p z : Nat) : (Dl.insertChunk s p z).segs = s.segs ∧ (Dl.insertChunk s p z).mapped = s.mapped ∧
    (Dl.insertChunk s p z).mem = s.mem := by
  unfold Dl.insertChunk
  split
  · exact ⟨rfl, rfl, rfl⟩
  · unfold Dl.insertLarge; exact ⟨rfl, rfl, rfl⟩

theorem unlinkLarge_segs (s : Dl.Hp) (p i : Nat) : (Dl.unlinkLarge s p i).segs = s.segs ∧ (Dl.unlinkLarge s p i).mapped = s.mapped ∧
    (Dl.unlinkLarge s p i).mem = s.mem := by
  unfold Dl.unlinkLarge; exact ⟨rfl, rfl, rfl⟩

theorem unlinkChunk_segs (s : Dl.Hp) (p z : Nat) : (Dl.unlinkChunk s p z).segs = s.segs ∧ (Dl.unlinkChunk s p z).mapped = s.mapped := by
  unfold Dl.unlinkChunk
  split
  · unfold Dl.unlinkSmall; exact ⟨rfl, rfl⟩
  · exact ⟨(unlinkLarge_segs s _ _).1, (unlinkLarge_segs s _ _).2.1⟩

theorem bindOk {α β : Type} {x : R α} {f : α → R β} {b : β} (h : (x >>= f) = .ok b) : ∃ a, x = .ok a ∧ f a = .ok b := by
  cases x with
  | error e => cases h
  | ok a => exact ⟨a, rfl, h⟩

theorem setSizeInuse_segs {p z : Nat} (h : Dl.setSizeInuse s p z = .ok s') : s'.segs = s.segs ∧ s'.mapped = s.mapped := set_segs h

theorem setSizeFree_segs {p z : Nat} (h : Dl.setSizeFree s p z = .ok s') : s'.segs = s.segs ∧ s'.mapped = s.mapped := by
  unfold Dl.setSizeFree at h
  obtain ⟨a, h1, h2⟩ := bindOk h
  have := set_segs h1; have := set_segs h2
  simp_all

theorem setFree_segs {p z n : Nat} (h : Dl.setFree s p z n = .ok s') : s'.segs = s.segs ∧ s'.mapped = s.mapped := by
  unfold Dl.setFree at h
  obtain ⟨a, h1, h⟩ := bindOk h
  obtain ⟨b, h2, h⟩ := bindOk h
  have := set_segs h2
  have := setSizeFree_segs h
  simp_all

theorem initTop_segs {p z : Nat} (h : Dl.initTop s p z = .ok s') : s'.segs = s.segs ∧ s'.mapped = s.mapped := by
  unfold Dl.initTop at h
  obtain ⟨a, h1, h⟩ := bindOk h
  obtain ⟨b, h2, h⟩ := bindOk h
  cases h
  have := set_segs h1; have := set_segs h2
  simp_all

theorem splitTop_segs {nb p : Nat} (h : Dl.splitTop s nb = .ok (p, s')) : s'.segs = s.segs ∧ s'.mapped = s.mapped := by
  unfold Dl.splitTop at h
  obtain ⟨a, h1, h⟩ := bindOk h
  obtain ⟨b, h2, h⟩ := bindOk h
  cases h
  have := set_segs h1; have := setSizeInuse_segs h2
  simp_all

theorem prependAlloc_segs {a b nb p : Nat} (h : Dl.prependAlloc s a b nb = .ok (p, s')) : s'.segs = s.segs := by
  unfold Dl.prependAlloc at h
  obtain ⟨s1, h1, h⟩ := bindOk h
  have e1 := (setSizeInuse_segs h1).1
  split at h
  · obtain ⟨s2, h2, h⟩ := bindOk h
    cases h
    rw [(set_segs h2).1]; exact e1
  · split at h
    · obtain ⟨s2, h2, h⟩ := bindOk h
      cases h
      rw [(setSizeFree_segs h2).1]; exact e1
    · obtain ⟨hd, h2, h⟩ := bindOk h
      simp only [] at h
      split at h
      · obtain ⟨s3, h3, h⟩ := bindOk h
        cases h
        rw [(insertChunk_segs _ _ _).1, (setFree_segs h3).1]; exact e1
      · obtain ⟨s3, h3, h⟩ := bindOk h
        cases h
        rw [(insertChunk_segs _ _ _).1, (setFree_segs h3).1, (unlinkChunk_segs _ _ _).1]; exact e1

theorem fences_segs : ∀ {k : Nat} {s s' : Dl.Hp} {p e : Nat}, Dl.fences k s p e = .ok s' → s'.segs = s.segs
  | 0, _, _, _, _, h => by cases h
  | k + 1, s, s', p, e, h => by
    unfold Dl.fences at h
    obtain ⟨s1, h1, h⟩ := bindOk h
    have e1 := (set_segs h1).1
    split at h
    · rw [fences_segs h, e1]
    · cases h; exact e1

theorem addSegment_segs {e : Dl.Env} {a n : Nat} (h : Dl.addSegment e s a n = .ok s') : s'.segs.map pr = (a, n) :: s.segs.map pr := by
  unfold Dl.addSegment at h
  simp only [] at h
  split at h
  · cases h
  · rename_i o _
    generalize (if o.base + o.size - Dl.foot < s.top + 32 then s.top else o.base + o.size - Dl.foot) = csp at h
    obtain ⟨s1, h1, h⟩ := bindOk h
    obtain ⟨s2, h2, h⟩ := bindOk h
    have e1 : s2.segs = s.segs := by rw [(setSizeInuse_segs h2).1, (initTop_segs h1).1]
    split at h
    · cases h
    · rename_i g rest hg
      obtain ⟨s3, h3, h⟩ := bindOk h
      obtain ⟨s4, h4, h⟩ := bindOk h
      obtain ⟨s5, h5, h⟩ := bindOk h
      obtain ⟨s6, h6, h⟩ := bindOk h
      obtain ⟨s7, h7, h⟩ := bindOk h
      obtain ⟨s8, h8, h⟩ := bindOk h
      have e2 : s8.segs.map pr = (a, n) :: s.segs.map pr := by
        rw [fences_segs h8, ← e1, hg]; rfl
      split at h
      · obtain ⟨s9, h9, h⟩ := bindOk h
        cases h
        rw [(insertChunk_segs _ _ _).1, (setFree_segs h9).1, e2]
      · cases h; exact e2

theorem placeNew_segs {e : Dl.Env} {nb tb len : Nat} {r : Option Nat} (hz : s.top = 0 ↔ s.segs = [])
    (h : Dl.placeNew e s nb tb len = .ok (r, s')) :
    s'.segs.map pr = put e.append e.prepend s.top tb len (s.segs.map pr) := by
  have oth : ∀ {r s'}, s.segs ≠ [] → Dl.placeNew.other e s nb tb len = .ok (r, s') →
      s'.segs.map pr = putFront e.prepend tb len (s.segs.map pr) := by
    intro r s' hn h
    unfold Dl.placeNew.other at h
    simp only [] at h
    unfold putFront
    rw [List.find?_map]
    have hcomp : (startsAt tb len ∘ pr) = fun g : Dl.Seg => g.base == tb + len := rfl
    rw [hcomp]
    split at h
    · rename_i g hg
      rw [hg]
      split at h
      · rename_i hp
        rw [hp]
        simp only [Option.map_some, Option.isSome_some, Bool.and_self, if_true]
        have fin : ∀ {s2 : Dl.Hp}, s2.segs = Dl.updFirst (fun g => g.base == tb + len) (fun g => { g with base := tb, size := g.size + len }) s.segs →
            (do let x ← Dl.prependAlloc s2 tb g.base nb; pure (some x.1, x.2) : R (Option Nat × Dl.Hp)) = .ok (r, s') →
            s'.segs.map pr = updG (startsAt tb len) (fun t => (tb, t.2 + len)) (s.segs.map pr) := by
          intro s2 e2 h
          obtain ⟨⟨p, s3⟩, h3, h⟩ := bindOk h
          cases h
          rw [prependAlloc_segs h3, e2]
          exact map_upd (p' := startsAt tb len) (f' := fun t => (tb, t.2 + len)) (fun _ => rfl) (fun _ => rfl) _
        by_cases hl : g.link ≠ 0
        · simp only [if_pos hl] at h
          obtain ⟨s1, h1, h⟩ := bindOk h
          obtain ⟨s2, h2, h⟩ := bindOk h
          exact fin (by rw [(set_segs h2).1, (set_segs h1).1]) h
        · simp only [if_neg hl] at h
          obtain ⟨s1, h1, h⟩ := bindOk h
          obtain ⟨s2, h2, h⟩ := bindOk h
          exact fin (by cases h2; cases h1; rfl) h
      · rename_i hp
        rw [if_neg (by simp [hp])]
        obtain ⟨s1, h1, h⟩ := bindOk h
        cases h
        exact (addSegment_segs h1 :)
    · rename_i hg
      rw [hg]
      obtain ⟨s1, h1, h⟩ := bindOk h
      cases h
      exact (addSegment_segs h1 :)
  unfold Dl.placeNew at h
  by_cases ht : s.top = 0
  · rw [if_pos ht] at h
    obtain ⟨s1, h1, h⟩ := bindOk h
    obtain ⟨s2, h2, h⟩ := bindOk h
    cases h
    rw [(initTop_segs h2).1, hz.1 ht]
    show s1.segs.map pr = _
    rw [(set_segs h1).1]
    rfl
  · rw [if_neg ht] at h
    have hn : s.segs ≠ [] := fun e => ht (hz.2 e)
    rw [put_cons (by simpa using hn), List.find?_map]
    have hcomp : (endsAt tb ∘ pr) = fun g : Dl.Seg => tb == g.base + g.size := rfl
    rw [hcomp]
    split at h
    · rename_i g hg
      rw [hg]
      have hi : (Option.map pr (some g)).any (inside s.top) = g.holds s.top := rfl
      rw [hi, Bool.and_comm]
      split at h
      · rename_i hc
        rw [if_pos hc]
        obtain ⟨s1, h1, h⟩ := bindOk h
        cases h
        rw [(initTop_segs h1).1]
        exact map_upd (p' := endsAt tb) (f' := fun t => (t.1, t.2 + len)) (fun _ => rfl) (fun _ => rfl) _
      · rename_i hc
        rw [if_neg hc]
        exact oth hn h
    · rename_i hg
      rw [hg]
      exact oth hn h

/-- The ranges of the segments after `sys_alloc`. -/
theorem sysAlloc_segs {e : Dl.Env} {nb : Nat} {r : Option Nat} (hz : s.top = 0 ↔ s.segs = []) (h : Dl.sysAlloc e s nb = .ok (r, s')) :
    s'.segs.map pr = if Dl.reqSize e nb ≤ nb then s.segs.map pr else
      match e.mmap (Dl.reqSize e nb) with
      | none => s.segs.map pr
      | some tb => put e.append e.prepend s.top tb (Dl.reqSize e nb) (s.segs.map pr) := by
  unfold Dl.sysAlloc at h
  simp only [] at h
  split at h
  · rename_i c; rw [if_pos c]; cases h; rfl
  · rename_i c
    rw [if_neg c]
    split at h
    · rename_i hm; rw [hm]; cases h; rfl
    · rename_i tb hm
      rw [hm]
      simp only []
      obtain ⟨⟨r1, s1⟩, h1, h⟩ := bindOk h
      have e1 := placeNew_segs (s := s.map tb (Dl.reqSize e nb)) hz h1
      have e2 : s'.segs = s1.segs := by
        split at h
        · rename_i p s2 heq; cases heq; cases h; rfl
        · rename_i s2 heq; cases heq
          split at h
          · obtain ⟨⟨q, s3⟩, h3, h⟩ := bindOk h
            cases h
            exact (splitTop_segs h3).1
          · cases h; rfl
      rw [e2]; exact e1
end

/-! ## Views -/

theorem dual_add {c : Dual.Cfg} {y : Dual.Sys} {tb len : Nat} {g g' : Dual.G} (h : Dual.addSegment c y tb len g = .ok g') :
    g'.segs.map pr' = (tb, len) :: g.segs.map pr' := by
  unfold Dual.addSegment at h
  obtain ⟨st, h1, h⟩ := bindOk h
  obtain ⟨⟨t, st2⟩, h2, h⟩ := bindOk h
  cases h
  unfold Dual.setFlags at h2
  obtain ⟨o, k1, h2⟩ := bindOk h2
  obtain ⟨o2, k2, h2⟩ := bindOk h2
  split at h2
  · cases h2
  · obtain ⟨st3, k3, h2⟩ := bindOk h2
    cases h2
    rfl

theorem dual_front {c : Dual.Cfg} {y : Dual.Sys} {tb len : Nat} {g g' : Dual.G} (h : Dual.prependOrAdd c y tb len g = .ok g') :
    g'.segs.map pr' = putFront (match g.segs.find? fun s => s.base == tb + len with
      | some t => isTrue (Dual.mergeable c t tb len g.s)
      | none => false) tb len (g.segs.map pr') := by
  unfold Dual.prependOrAdd at h
  unfold putFront
  rw [List.find?_map]
  have hcomp : (startsAt tb len ∘ pr') = fun g : Dual.Seg => g.base == tb + len := rfl
  rw [hcomp]
  split at h
  · rename_i t ht
    rw [ht]
    obtain ⟨b, h1, h⟩ := bindOk h
    simp only [h1, isTrue, Option.map_some, Option.isSome_some, Bool.true_and]
    split at h
    · rename_i hb
      rw [if_pos hb]
      cases h
      exact map_upd' (p' := startsAt tb len) (f' := fun t => (tb, t.2 + len)) (fun _ => rfl) (fun _ => rfl) _
    · rename_i hb
      rw [if_neg hb]
      exact dual_add h
  · rename_i ht
    rw [ht]
    exact dual_add h

theorem dual_place {c : Dual.Cfg} {y : Dual.Sys} {top : Nat} {tb len : Nat} {g g' : Dual.G}
    (h : Dual.placeNew c y (fun t => t.holds top) tb len g = .ok g') :
    g'.segs.map pr' = put (match g.segs.find? fun s => tb == s.base + s.size with
      | some t => isTrue (Dual.mergeable c t tb len g.s)
      | none => false) (match g.segs.find? fun s => s.base == tb + len with
      | some t => isTrue (Dual.mergeable c t tb len g.s)
      | none => false) top tb len (g.segs.map pr') := by
  unfold Dual.placeNew at h
  split at h
  · rename_i hn
    rw [hn]
    obtain ⟨⟨t, st⟩, h1, h⟩ := bindOk h
    obtain ⟨st2, h2, h⟩ := bindOk h
    cases h
    unfold Dual.setFlags at h1
    obtain ⟨o, k1, h1⟩ := bindOk h1
    obtain ⟨o2, k2, h1⟩ := bindOk h1
    split at h1
    · cases h1
    · obtain ⟨st3, k3, h1⟩ := bindOk h1
      cases h1
      rfl
  · rename_i hn
    rw [put_cons (by simpa using hn), List.find?_map]
    have hcomp : (endsAt tb ∘ pr') = fun g : Dual.Seg => tb == g.base + g.size := rfl
    rw [hcomp]
    split at h
    · rename_i t ht
      rw [ht]
      obtain ⟨b, h1, h⟩ := bindOk h
      have hi : (Option.map pr' (some t)).any (inside top) = t.holds top := rfl
      simp only [h1, isTrue]
      rw [hi, Bool.and_comm]
      split at h
      · rename_i hb
        rw [if_pos hb]
        cases h
        exact map_upd' (p' := endsAt tb) (f' := fun t => (t.1, t.2 + len)) (fun _ => rfl) (fun _ => rfl) _
      · rename_i hb
        rw [if_neg hb]
        exact dual_front h
    · rename_i ht
      rw [ht]
      exact dual_front h

end Verif.Heap
