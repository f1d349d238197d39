import Verif.Core.Lemmas
import Verif.Spec.TypeLemmas

/-
Building well-formed types, used to show that hypotheses of theorems are
satisfiable by concrete, non-trivial types.
-/
namespace Verif.Spec
open Verif

def buildEnd : Nat → List (Nat × Nat) → Nat
  | e, [] => e
  | e, (s, a) :: ms => buildEnd (roundUp e a + s) ms

def buildOffs : Nat → List (Nat × Nat) → List Nat
  | _, [] => []
  | e, (s, a) :: ms => roundUp e a :: buildOffs (roundUp e a + s) ms

def buildAlign : List (Nat × Nat) → Nat
  | [] => 1
  | [(_, a)] => a
  | (_, a) :: ms => max a (buildAlign ms)

/-- The struct type with the given members. -/
def mkStruct (es : List FType) : FType :=
  let ms := es.map fun e => (e.size, e.align)
  .mk (roundUp (buildEnd 0 ms) (buildAlign ms)) (buildAlign ms) .struct es

/-- A scalar type of the data model. -/
def mkScalar (tab : ScalarTab) (tc : TC) : FType :=
  .mk ((tab tc).getD (1, 1)).1 ((tab tc).getD (1, 1)).2 tc []

/-- A complex type. -/
def mkComplex (tab : ScalarTab) (tc : TC) : FType :=
  .mk (2 * ((tab tc).getD (1, 1)).1) ((tab tc).getD (1, 1)).2 .complex [mkScalar tab tc]

theorem build_placed (ms : List (Nat × Nat)) (h : ∀ m ∈ ms, 0 < m.2) (e : Nat) :
    Placed e ms (buildOffs e ms) (buildEnd e ms) := by
  induction ms generalizing e with
  | nil => exact .nil e
  | cons m ms ih =>
    obtain ⟨s, a⟩ := m
    exact .cons (isLeastMult_roundUp (h (s, a) (by simp))) (ih (fun m hm => h m (by simp [hm])) _)

theorem build_align : ∀ (ms : List (Nat × Nat)), ms ≠ [] → IsMaxAlign ms (buildAlign ms)
  | [], h => absurd rfl h
  | [(s, a)], _ => ⟨⟨(s, a), by simp, rfl⟩, by simp [buildAlign]⟩
  | (s, a) :: m :: ms, _ => by
    have ih := build_align (m :: ms) (by simp)
    obtain ⟨⟨x, hx, hxa⟩, hle⟩ := ih
    refine ⟨?_, ?_⟩
    · by_cases h : buildAlign (m :: ms) ≤ a
      · exact ⟨(s, a), by simp, by simp only [buildAlign]; omega⟩
      · exact ⟨x, by simp [hx], by simp only [buildAlign]; omega⟩
    · intro y hy
      rw [List.mem_cons] at hy
      rcases hy with rfl | hy
      · simp only [buildAlign]; omega
      · have := hle y hy; simp only [buildAlign]; omega

theorem mkScalar_wf {tab : ScalarTab} {tc : TC} (h : (tab tc).isSome = true) : WF tab (mkScalar tab tc) := by
  obtain ⟨⟨s, a⟩, hs⟩ := Option.isSome_iff_exists.1 h
  unfold mkScalar
  rw [hs]
  exact .scalar hs

theorem mkComplex_wf {tab : ScalarTab} {tc : TC} (h : (tab tc).isSome = true) (hb : complexBase tc = true) :
    WF tab (mkComplex tab tc) := by
  obtain ⟨⟨s, a⟩, hs⟩ := Option.isSome_iff_exists.1 h
  unfold mkComplex mkScalar
  rw [hs]
  exact .complex hb hs

theorem mkStruct_wf {tab : ScalarTab} (ht : TabOk tab) {es : List FType} (hne : es ≠ [])
    (h : ∀ e ∈ es, WF tab e) : WF tab (mkStruct es) := by
  have hpos : ∀ m ∈ es.map (fun e => (e.size, e.align)), 0 < m.2 := by
    intro m hm
    obtain ⟨e, he, rfl⟩ := List.mem_map.1 hm
    exact (h e he).align_pos ht
  have hal := build_align (es.map fun e => (e.size, e.align)) (by simpa using hne)
  refine .struct (offs := buildOffs 0 (es.map fun e => (e.size, e.align))) h ⟨_, build_placed _ hpos 0, hal, ?_⟩
  obtain ⟨⟨m, hm, hma⟩, _⟩ := hal
  exact isLeastMult_roundUp (by rw [← hma]; exact hpos m hm)

end Verif.Spec
