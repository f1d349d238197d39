import Verif.X64.AsmClosure

/-
`ffi_closure_unix64_alt` and `ffi_closure_unix64_sse_alt` (src/x86/unix64.S:459-482), which
static trampolines jump to.
-/
namespace Verif.X64.Asm
open Verif

variable {c : Ctx} {lo : Nat}

/-- The entry points for static trampolines. -/
def altLbl (sse : Bool) : Lbl := if sse then .altSse else .alt

theorem altCode (cet sse : Bool) : fetch cet (off cet (altLbl sse) + eo cet) = some (5, .ld 8 10 4 8) ∧
    fetch cet (off cet (altLbl sse) + eo cet + 5) = some (4, .addi 16) ∧
    fetch cet (off cet (altLbl sse) + eo cet + 9) = some (5, .jmp (closLbl false sse)) ∧
    (cet = true → fetch cet (off cet (altLbl sse)) = some (4, .endbr)) := by
  revert cet sse; decide +kernel

/-- The offsets of their instructions. -/
def altOffs (cet sse : Bool) : List Nat :=
  [off cet (altLbl sse), off cet (altLbl sse) + eo cet, off cet (altLbl sse) + eo cet + 5, off cet (altLbl sse) + eo cet + 9]

theorem altNone (cet sse : Bool) : ∀ o ∈ altOffs cet sse, rowAt cet o = none ∧ (fetch cet o).isSome := by
  revert cet sse; decide +kernel

theorem Reach.trans {s t u : St} (h1 : Reach c lo s t) (h2 : Reach c lo t u) : Reach c lo s u := by
  induction h1 with
  | refl => exact h2
  | step h _ ih => exact .step h (ih h2)
  | irq h _ ih => exact .irq h (ih h2)

attribute [local irreducible] fetch rowAt off Block eo altLbl

/-! ## `ffi_closure_unix64_alt` -/

/-- The state in which `ffi_closure_unix64_alt` jumps to `ffi_closure_unix64`. -/
def AltTo (c : Ctx) (lo : Nat) (sse : Bool) (s : St) (p k : Nat) (w : St) : Prop :=
  w.pc = .at_ (off c.cet (closLbl false sse)) ∧ w.r = upd (upd s.r 10 k) 4 (p + 16) ∧ (w.x = s.x ∧ w.fp = s.fp) ∧ w.ss = s.ss ∧
    ∀ a, a < lo ∨ p + 16 ≤ a → w.mem a = s.mem a

/-- An execution that starts at `ffi_closure_unix64_alt` is at one of its instructions and can go on to
`ffi_closure_unix64`, or is one of `ffi_closure_unix64`. -/
theorem alt_reach {s t : St} {p k : Nat} {sse : Bool} (hr : Reach c lo s t) (hpc : s.pc = .at_ (off c.cet (altLbl sse))) (h4 : s.r 4 = p) (hk : leNat (s.mem.rd (p + 8) 8) = k) :
    (∃ o v w, t.pc = .at_ o ∧ step c t = some v ∧ Reach c lo t w ∧ AltTo c lo sse s p k w) ∨ ∃ w, Reach c lo w t ∧ AltTo c lo sse s p k w := by
  obtain ⟨f1, f2, f3, f4⟩ := altCode c.cet sse
  -- the states on the way
  let P : St → Prop := fun u => (u.x = s.x ∧ u.fp = s.fp) ∧ u.ss = s.ss ∧
    ((u.pc = .at_ (off c.cet (altLbl sse)) ∧ c.cet = true ∧ u.r = s.r ∧ ∀ a, a < lo ∨ p ≤ a → u.mem a = s.mem a) ∨
     (u.pc = .at_ (off c.cet (altLbl sse) + eo c.cet) ∧ u.r = s.r ∧ ∀ a, a < lo ∨ p ≤ a → u.mem a = s.mem a) ∨
     (u.pc = .at_ (off c.cet (altLbl sse) + eo c.cet + 5) ∧ u.r = upd s.r 10 k ∧ ∀ a, a < lo ∨ p ≤ a → u.mem a = s.mem a) ∨
     (u.pc = .at_ (off c.cet (altLbl sse) + eo c.cet + 9) ∧ u.r = upd (upd s.r 10 k) 4 (p + 16) ∧ ∀ a, a < lo ∨ p + 16 ≤ a → u.mem a = s.mem a))
  have hrd : ∀ {u : St}, (∀ a, a < lo ∨ p ≤ a → u.mem a = s.mem a) → leNat (u.mem.rd (p + 8) 8) = k := by
    intro u hm
    rw [← hk]
    exact congrArg leNat (Mem.rd_congr fun i hi => hm _ (.inr (by omega)))
  have st1 : ∀ {u : St}, u.pc = .at_ (off c.cet (altLbl sse) + eo c.cet) → u.r = s.r → (∀ a, a < lo ∨ p ≤ a → u.mem a = s.mem a) →
      step c u = some (u.set (.at_ (off c.cet (altLbl sse) + eo c.cet + 5)) 10 k) := by
    intro u h1 h2 h3
    unfold step
    rw [h1]
    simp only [f1, exec]
    rw [h2, h4, hrd h3]
  have st2 : ∀ {u : St}, u.pc = .at_ (off c.cet (altLbl sse) + eo c.cet + 5) → u.r = upd s.r 10 k →
      step c u = some (u.set (.at_ (off c.cet (altLbl sse) + eo c.cet + 9)) 4 (p + 16)) := by
    intro u h1 h2
    unfold step
    rw [h1]
    simp only [f2, exec]
    rw [h2, show upd s.r 10 k 4 = p from h4]
  have st3 : ∀ {u : St}, u.pc = .at_ (off c.cet (altLbl sse) + eo c.cet + 9) → step c u = some { u with pc := .at_ (off c.cet (closLbl false sse)) } := by
    intro u h1
    unfold step
    rw [h1]
    simp only [f3, exec]
  have st0 : ∀ {u : St}, u.pc = .at_ (off c.cet (altLbl sse)) → c.cet = true → step c u = some { u with pc := .at_ (off c.cet (altLbl sse) + 4) } := by
    intro u h1 h2
    unfold step
    rw [h1]
    simp only [f4 h2, exec]
  have e4 : c.cet = true → eo c.cet = 4 := fun h => by unfold eo; rw [if_pos h]
  have fin3 : ∀ {u : St}, u.pc = .at_ (off c.cet (altLbl sse) + eo c.cet + 9) → u.r = upd (upd s.r 10 k) 4 (p + 16) → u.x = s.x ∧ u.fp = s.fp → u.ss = s.ss →
      (∀ a, a < lo ∨ p + 16 ≤ a → u.mem a = s.mem a) → ∃ w, Reach c lo u w ∧ AltTo c lo sse s p k w :=
    fun h1 h2 h3 h4 h5 => ⟨_, .step (st3 h1) .refl, rfl, h2, h3, h4, h5⟩
  have fin2 : ∀ {u : St}, u.pc = .at_ (off c.cet (altLbl sse) + eo c.cet + 5) → u.r = upd s.r 10 k → u.x = s.x ∧ u.fp = s.fp → u.ss = s.ss →
      (∀ a, a < lo ∨ p ≤ a → u.mem a = s.mem a) → ∃ w, Reach c lo u w ∧ AltTo c lo sse s p k w := by
    intro u h1 h2 h3 h4 h5
    obtain ⟨w, hw, h⟩ := fin3 (u := u.set (.at_ (off c.cet (altLbl sse) + eo c.cet + 9)) 4 (p + 16)) rfl
      (by show upd u.r 4 _ = _; rw [h2]) h3 h4 fun a ha => h5 a (by omega)
    exact ⟨w, .step (st2 h1 h2) hw, h⟩
  have fin1 : ∀ {u : St}, u.pc = .at_ (off c.cet (altLbl sse) + eo c.cet) → u.r = s.r → u.x = s.x ∧ u.fp = s.fp → u.ss = s.ss →
      (∀ a, a < lo ∨ p ≤ a → u.mem a = s.mem a) → ∃ w, Reach c lo u w ∧ AltTo c lo sse s p k w := by
    intro u h1 h2 h3 h4 h5
    obtain ⟨w, hw, h⟩ := fin2 (u := u.set (.at_ (off c.cet (altLbl sse) + eo c.cet + 5)) 10 k) rfl
      (by show upd u.r 10 _ = _; rw [h2]) h3 h4 h5
    exact ⟨w, .step (st1 h1 h2 h5) hw, h⟩
  have fin0 : ∀ {u : St}, u.pc = .at_ (off c.cet (altLbl sse)) → c.cet = true → u.r = s.r → u.x = s.x ∧ u.fp = s.fp → u.ss = s.ss →
      (∀ a, a < lo ∨ p ≤ a → u.mem a = s.mem a) → ∃ w, Reach c lo u w ∧ AltTo c lo sse s p k w := by
    intro u h1 hc h2 h3 h4 h5
    obtain ⟨w, hw, h⟩ := fin1 (u := { u with pc := .at_ (off c.cet (altLbl sse) + 4) }) (by rw [e4 hc]) h2 h3 h4 h5
    exact ⟨w, .step (st0 h1 hc) hw, h⟩
  have key : ∀ {u : St}, Reach c lo u t → P u → (∃ o v w, t.pc = .at_ o ∧ step c t = some v ∧ Reach c lo t w ∧ AltTo c lo sse s p k w) ∨
      ∃ w, Reach c lo w t ∧ AltTo c lo sse s p k w := by
    intro u hu
    induction hu with
    | refl =>
      rintro ⟨hx, hs, h | h | h | h⟩
      · obtain ⟨w, hw, hq⟩ := fin0 h.1 h.2.1 h.2.2.1 hx hs h.2.2.2
        exact .inl ⟨_, _, w, h.1, st0 h.1 h.2.1, hw, hq⟩
      · obtain ⟨w, hw, hq⟩ := fin1 h.1 h.2.1 hx hs h.2.2
        exact .inl ⟨_, _, w, h.1, st1 h.1 h.2.1 h.2.2, hw, hq⟩
      · obtain ⟨w, hw, hq⟩ := fin2 h.1 h.2.1 hx hs h.2.2
        exact .inl ⟨_, _, w, h.1, st2 h.1 h.2.1, hw, hq⟩
      · obtain ⟨w, hw, hq⟩ := fin3 h.1 h.2.1 hx hs h.2.2
        exact .inl ⟨_, _, w, h.1, st3 h.1, hw, hq⟩
    | irq hm _ ih =>
      rintro ⟨hx, hs, h⟩
      refine ih hr ⟨hx, hs, ?_⟩
      rcases h with h | h | h | h
      · refine .inl ⟨h.1, h.2.1, h.2.2.1, fun a ha => (hm a ?_).trans (h.2.2.2 a ha)⟩
        rw [h.2.2.1, h4]; omega
      · refine .inr (.inl ⟨h.1, h.2.1, fun a ha => (hm a ?_).trans (h.2.2 a ha)⟩)
        rw [h.2.1, h4]; omega
      · refine .inr (.inr (.inl ⟨h.1, h.2.1, fun a ha => (hm a ?_).trans (h.2.2 a ha)⟩))
        rw [h.2.1, show upd s.r 10 k 4 = p from h4]; omega
      · refine .inr (.inr (.inr ⟨h.1, h.2.1, fun a ha => (hm a ?_).trans (h.2.2 a ha)⟩))
        rw [h.2.1]
        show a < lo ∨ p + 16 ≤ a + 128
        omega
    | step he hrest ih =>
      rintro ⟨hx, hs, h⟩
      rcases h with h | h | h | h
      · rw [st0 h.1 h.2.1] at he
        cases he
        refine ih hr ⟨hx, hs, .inr (.inl ⟨?_, h.2.2.1, h.2.2.2⟩)⟩
        rw [e4 h.2.1]
      · rw [st1 h.1 h.2.1 h.2.2] at he
        cases he
        refine ih hr ⟨hx, hs, .inr (.inr (.inl ⟨rfl, ?_, h.2.2⟩))⟩
        show upd _ 10 k = _
        rw [h.2.1]
      · rw [st2 h.1 h.2.1] at he
        cases he
        refine ih hr ⟨hx, hs, .inr (.inr (.inr ⟨rfl, ?_, fun a ha => h.2.2 a (by omega)⟩))⟩
        show upd _ 4 (p + 16) = _
        rw [h.2.1]
      · rw [st3 h.1] at he
        cases he
        exact .inr ⟨_, hrest, rfl, h.2.1, hx, hs, h.2.2⟩
  refine key hr ⟨⟨rfl, rfl⟩, rfl, ?_⟩
  by_cases hc : c.cet = true
  · exact .inl ⟨hpc, hc, rfl, fun _ _ => rfl⟩
  · refine .inr (.inl ⟨?_, rfl, fun _ _ => rfl⟩)
    rw [hpc, show eo c.cet = 0 by unfold eo; rw [if_neg hc], Nat.add_zero]

end Verif.X64.Asm
