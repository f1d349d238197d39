import Verif.Dl.Bins
import Verif.Spec.Dl

/-
The invariant of the heap.
-/
namespace Verif.Dl
open Verif

/-- The chunks that belong into a bin. -/
def binF (A : Chunks) : Nat → Option Nat := fun p =>
  match A p with
  | some (z, .free) => some z
  | _ => none

theorem binF_some {A : Chunks} {p z : Nat} : binF A p = some z ↔ A p = some (z, .free) := by
  unfold binF
  split
  · rename_i w h; rw [h]; simp
  · rename_i h
    constructor
    · intro h'; cases h'
    · intro h'; exact absurd h' (h z)

theorem binF_none {A : Chunks} {p : Nat} (h : ∀ z, A p ≠ some (z, .free)) : binF A p = none := by
  cases e : binF A p with
  | none => rfl
  | some z => exact absurd (binF_some.1 e) (h z)

/-- The segments. -/
structure Segs (P : Nat) (segs : List Seg) (mapped : Nat → Bool) (top topsize least : Nat) (A : Chunks) : Prop where
  page : ∀ g ∈ segs, P ∣ g.base ∧ P ∣ g.size ∧ 0 < g.base ∧ 0 < g.size ∧ g.base + g.size ≤ 2 ^ 64
  disj : segs.Pairwise fun g h => g.base + g.size ≤ h.base ∨ h.base + h.size ≤ g.base
  map : ∀ g ∈ segs, ∀ x, g.base ≤ x → x < g.base + g.size → mapped x = true
  hold : ∀ p z u, A p = some (z, u) → ∃ g ∈ segs, g.base ≤ p ∧ p + z + 32 ≤ g.base + g.size
  past : ∀ p z u, A p = some (z, u) → ∀ g ∈ segs, g.base ≤ p → p < g.base + g.size →
    p + 72 ≤ g.base + g.size ∧ (u ≠ .link → p + z + 72 ≤ g.base + g.size)
  first : ∀ g ∈ segs, A g.base ≠ none
  link : ∀ g ∈ segs.tail, 16 < g.link ∧ A (g.link - 16) = some (40, .link) ∧ g.base < g.link - 16 ∧
    g.link + 56 ≤ g.base + g.size ∧ g.base + g.size ≤ g.link + 88
  head : ∀ g, segs.head? = some g → g.link = 0 ∧ g.base ≤ top ∧ top + topsize + 72 = g.base + g.size
  least : ∀ p z u, A p = some (z, u) → least ≤ p
  nil : segs = [] → top = 0 ∧ topsize = 0
  own : ∀ p z, A p = some (z, .link) → ∃ g ∈ segs.tail, g.link = p + 16

/-- The designated victim. -/
structure DvOk (dv dvsize : Nat) (A : Chunks) : Prop where
  iff : ∀ p z, A p = some (z, .dv) ↔ p = dv ∧ z = dvsize ∧ dvsize ≠ 0
  zero : dvsize = 0 → dv = 0

def TopOk (segs : List Seg) (top topsize : Nat) (A : Chunks) : Prop :=
  ∀ p z, A p = some (z, .top) ↔ p = top ∧ z = topsize ∧ segs ≠ []

structure Inv (P : Nat) (s : Hp) (A : Chunks) : Prop where
  tags : Tags s.mem A
  bins : s.Bins (binF A)
  dv : DvOk s.dv s.dvsize A
  top : TopOk s.segs s.top s.topsize A
  segs : Segs P s.segs s.mapped s.top s.topsize s.least A

theorem Inv.init (P : Nat) (mem : Nat → Nat) (mapped : Nat → Bool) : Inv P (hp0 mem mapped) (fun _ => none) where
  tags := Tags.empty mem
  bins := Bins.empty.congr (fun p => rfl)
  dv := ⟨by intro p z; simp [hp0], fun _ => rfl⟩
  top := by intro p z; simp [hp0]
  segs := ⟨by simp [hp0], by simp [hp0], by simp [hp0], by simp, by simp, by simp [hp0], by simp [hp0],
    by simp [hp0], by simp, by simp [hp0], by simp⟩

theorem pw_disj {l : List Seg} (h : l.Pairwise fun g h => g.base + g.size ≤ h.base ∨ h.base + h.size ≤ g.base)
    {g k : Seg} (hg : g ∈ l) (hk : k ∈ l) {x : Nat} (h1 : g.base ≤ x) (h2 : x < g.base + g.size)
    (h3 : k.base ≤ x) (h4 : x < k.base + k.size) : g = k := by
  induction l with
  | nil => cases hg
  | cons a l ih =>
    rw [List.pairwise_cons] at h
    rcases List.mem_cons.1 hg with rfl | hg'
    · rcases List.mem_cons.1 hk with rfl | hk'
      · rfl
      · have := h.1 k hk'; omega
    · rcases List.mem_cons.1 hk with rfl | hk'
      · have := h.1 g hg'; omega
      · exact ih h.2 hg' hk'

section
variable {P : Nat} {s : Hp} {A : Chunks}

theorem Inv.mapped (i : Inv P s A) {p z : Nat} {u : Use} (h : A p = some (z, u)) {x : Nat} (h1 : p ≤ x)
    (h2 : x < p + z + 32) : s.mapped x = true := by
  obtain ⟨g, hg, h3, h4⟩ := i.segs.hold p z u h
  exact i.segs.map g hg x (by omega) (by omega)

theorem Inv.lt64 (i : Inv P s A) {p z : Nat} {u : Use} (h : A p = some (z, u)) : p + z + 32 ≤ 2 ^ 64 := by
  obtain ⟨g, hg, h3, h4⟩ := i.segs.hold p z u h
  have := (i.segs.page g hg).2.2.2.2
  omega

theorem Hp.get_ok {s : Hp} {a : Nat} (h : s.mapped a = true) : s.get a = .ok (s.mem a) := by simp [Hp.get, h]
theorem Hp.set_ok {s : Hp} {a : Nat} (v : Nat) (h : s.mapped a = true) :
    s.set a v = .ok { s with mem := upd s.mem a v } := by simp [Hp.set, h]
end

/-! ## Chunks in a row -/

/-- `[a, b)` is filled by the chunks of the list, one behind the other. -/
inductive Span (A : Chunks) (b : Nat) : Nat → List (Nat × Nat × Use) → Prop
  | nil : Span A b b []
  | cons {a z u l} : A a = some (z, u) → Span A b (a + z) l → Span A b a ((a, z, u) :: l)

theorem Span.le {A : Chunks} {a b : Nat} {l} (s : Span A b a l) : a ≤ b := by
  induction s with
  | nil => exact Nat.le_refl _
  | cons h _ ih => omega

theorem Span.ent {A : Chunks} {a b : Nat} {l} (s : Span A b a l) : ∀ y ∈ l, A y.1 = some (y.2.1, y.2.2) := by
  induction s with
  | nil => intro y hy; cases hy
  | cons h _ ih =>
    intro y hy
    rcases List.mem_cons.1 hy with rfl | hy
    · exact h
    · exact ih y hy

theorem Span.mem {mem : Nat → Nat} {A : Chunks} {a b : Nat} {l} (t : Tags mem A) (s : Span A b a l) {q w : Nat}
    {v : Use} (h : A q = some (w, v)) (h1 : a ≤ q) (h2 : q < b) : (q, w, v) ∈ l ∧ q + w ≤ b := by
  induction s with
  | nil => omega
  | @cons a z u l ha hs ih =>
    by_cases c : q = a
    · subst c; rw [h] at ha; cases ha
      exact ⟨List.mem_cons_self .., hs.le⟩
    · have := t.disj ha h (by omega)
      have := ih this
      exact ⟨List.mem_cons_of_mem _ this.1, this.2⟩

theorem Span.place {mem : Nat → Nat} {A : Chunks} {a b : Nat} {x l} (t : Tags mem A) (s : Span A b a (x :: l)) :
    Place A a b ∧ A a ≠ none := by
  obtain ⟨a', z, u⟩ := x
  have sp := s
  cases s with
  | cons ha hs =>
    have o := t.ok ha
    have := hs.le
    have := o.min
    refine ⟨⟨o.pos, o.al, by omega, fun p w v h hl => t.disj h ha hl, fun q w v h h1 h2 => (sp.mem t h h1 h2).2, ?_⟩, ?_⟩
    · intro p w v h e
      constructor
      · rintro rfl
        have := (t.ok h).last (.inl rfl)
        rw [e, ha] at this; cases this
      · rintro rfl
        have := (t.ok h).last (.inr rfl)
        rw [e, ha] at this; cases this
    · rw [ha]; simp

/-- The segment in which a row of chunks lies. -/
theorem Span.seg {P : Nat} {s : Hp} {A : Chunks} (i : Inv P s A) {a b : Nat} {x l} (sp : Span A b a (x :: l)) :
    ∃ g ∈ s.segs, g.base ≤ a ∧ b + 32 ≤ g.base + g.size := by
  have key : ∀ (l : List (Nat × Nat × Use)) (a : Nat), Span A b a l → ∀ g ∈ s.segs, g.base ≤ a → a + 32 ≤ g.base + g.size →
      b + 32 ≤ g.base + g.size := by
    intro l
    induction l with
    | nil => intro a sp g hg h1 h2; cases sp; exact h2
    | cons y l ih =>
      intro a sp g hg h1 h2
      cases sp with
      | cons ha hs =>
        rename_i z u
        obtain ⟨g', hg', h3, h4⟩ := i.segs.hold _ _ _ ha
        have := (i.tags.ok ha).min
        have : g = g' := pw_disj i.segs.disj hg hg' (x := a) h1 (by omega) h3 (by omega)
        subst this
        exact ih (a + z) hs g hg (by omega) h4
  cases sp with
  | cons ha hs =>
    rename_i z u
    obtain ⟨g, hg, h3, h4⟩ := i.segs.hold _ _ _ ha
    exact ⟨g, hg, h3, key l (a + z) hs g hg (by omega) h4⟩

theorem Span.past {P : Nat} {s : Hp} {A : Chunks} (i : Inv P s A) {a b : Nat} {x l} (sp : Span A b a (x :: l))
    (nl : ∀ y ∈ x :: l, y.2.2 ≠ .link) {g : Seg} (hg : g ∈ s.segs) (h1 : g.base ≤ a) (h2 : a < g.base + g.size) :
    b + 72 ≤ g.base + g.size := by
  have key : ∀ (l : List (Nat × Nat × Use)) (a : Nat), Span A b a l → (∀ y ∈ l, y.2.2 ≠ .link) → g.base ≤ a →
      a + 72 ≤ g.base + g.size → b + 72 ≤ g.base + g.size := by
    intro l
    induction l with
    | nil => intro a sp _ h1 h2; cases sp; exact h2
    | cons y l ih =>
      intro a sp nl h1 h2
      cases sp with
      | cons ha hs =>
        exact ih _ hs (fun y hy => nl y (List.mem_cons_of_mem _ hy)) (by omega)
          ((i.segs.past _ _ _ ha g hg h1 (by omega)).2 (nl _ (List.mem_cons_self ..)))
  cases sp with
  | cons ha hs =>
    exact key _ _ hs (fun y hy => nl y (List.mem_cons_of_mem _ hy)) (by omega)
      ((i.segs.past _ _ _ ha g hg h1 h2).2 (nl _ (List.mem_cons_self ..)))

/-! ## Replacement in the segments -/

theorem Segs.repl {P : Nat} {s : Hp} {A A' : Chunks} (i : Inv P s A) {a b : Nat} {x l} {top topsize : Nat}
    (sp : Span A b a (x :: l))
    (nl : ∀ y ∈ x :: l, y.2.2 ≠ .link)
    (out : ∀ p, p < a ∨ b ≤ p → A' p = A p) (ha' : A' a ≠ none)
    (inn : ∀ p z u, A' p = some (z, u) → a ≤ p → p < b → p + z ≤ b ∧ u ≠ .link)
    (ht : (top = s.top ∧ topsize = s.topsize) ∨
      (s.segs ≠ [] ∧ a ≤ s.top + s.topsize ∧ a ≤ top ∧ top + topsize = s.top + s.topsize ∧ s.top + s.topsize ≤ b)) :
    Segs P s.segs s.mapped top topsize s.least A' := by
  obtain ⟨g, hg, g1, g2⟩ := sp.seg i
  obtain ⟨pl, ha⟩ := sp.place i.tags
  have S := i.segs
  have al : s.least ≤ a := by
    cases e : A a with
    | none => exact absurd e ha
    | some y => exact S.least a y.1 y.2 e
  have g3 := sp.past i nl hg g1 (by have := pl.lt; omega)
  refine ⟨S.page, S.disj, S.map, ?_, ?_, ?_, ?_, ?_, ?_, ?_, ?_⟩
  · intro p z u h
    by_cases c : a ≤ p ∧ p < b
    · have := inn p z u h c.1 c.2
      exact ⟨g, hg, by omega, by omega⟩
    · rw [out p (by omega)] at h; exact S.hold p z u h
  · intro p z u h k hk k1 k2
    by_cases c : a ≤ p ∧ p < b
    · have := inn p z u h c.1 c.2
      have : k = g := pw_disj S.disj hk hg (x := p) k1 k2 (by omega) (by omega)
      subst this
      exact ⟨by omega, fun _ => by omega⟩
    · rw [out p (by omega)] at h; exact S.past p z u h k hk k1 k2
  · intro k hk
    by_cases c : a ≤ k.base ∧ k.base < b
    · have hs := (S.page k hk).2.2.2.1
      have := pw_disj S.disj hg hk (x := k.base) (by omega) (by omega) (Nat.le_refl _) (by omega)
      subst this
      have : a = g.base := by omega
      rw [← this]; exact ha'
    · rw [out _ (by omega)]; exact S.first k hk
  · intro k hk
    obtain ⟨h1, h2, h3, h4⟩ := S.link k hk
    refine ⟨h1, ?_, h3, h4⟩
    by_cases c : a ≤ k.link - 16 ∧ k.link - 16 < b
    · exact absurd rfl (nl _ (sp.mem i.tags h2 c.1 c.2).1)
    · rw [out _ (by omega)]; exact h2
  · intro k hk
    obtain ⟨h1, h2, h3⟩ := S.head k hk
    rcases ht with ⟨rfl, rfl⟩ | ⟨_, h4, h5, h6, h7⟩
    · exact ⟨h1, h2, h3⟩
    · refine ⟨h1, ?_, by omega⟩
      have hkm : k ∈ s.segs := List.mem_of_mem_head? hk
      have : g = k := by
        by_cases hz : b ≤ s.top + s.topsize
        · have hb : b = s.top + s.topsize := by omega
          exact pw_disj S.disj hg hkm (x := b) (by have := pl.lt; omega) (by omega) (by omega) (by omega)
        · exact pw_disj S.disj hg hkm (x := s.top + s.topsize) (by omega) (by omega) (by omega) (by omega)
      subst this; omega
  · intro p z u h
    by_cases c : a ≤ p ∧ p < b
    · omega
    · rw [out p (by omega)] at h; exact S.least p z u h
  · intro e
    rcases ht with ⟨rfl, rfl⟩ | ⟨h, _⟩
    · exact S.nil e
    · exact absurd e h
  · intro p z h
    by_cases c : a ≤ p ∧ p < b
    · exact absurd rfl (inn p z _ h c.1 c.2).2
    · rw [out p (by omega)] at h; exact S.own p z h

/-! ## One chunk, two chunks -/

theorem one_some {A : Chunks} {a b z : Nat} {u : Use} (hab : a < b) {p w : Nat} {v : Use} :
    one A a b z u p = some (w, v) ↔ (p = a ∧ w = z ∧ v = u) ∨ ((p < a ∨ b ≤ p) ∧ A p = some (w, v)) := by
  rcases Nat.lt_trichotomy p a with c | c | c
  · rw [one_out (.inl c) hab]; constructor
    · intro h; exact .inr ⟨.inl c, h⟩
    · rintro (h | h)
      · omega
      · exact h.2
  · subst c; rw [one_a]; constructor
    · intro h; cases h; exact .inl ⟨rfl, rfl, rfl⟩
    · rintro (h | h)
      · rw [h.2.1, h.2.2]
      · omega
  · by_cases d : p < b
    · rw [one_in c d]; constructor
      · intro h; cases h
      · rintro (h | h) <;> omega
    · rw [one_out (.inr (by omega)) hab]; constructor
      · intro h; exact .inr ⟨.inr (by omega), h⟩
      · rintro (h | h)
        · omega
        · exact h.2

theorem two_some {A : Chunks} {a b z w : Nat} {u v : Use} (hz : 0 < z) (hab : a + z < b) {p y : Nat} {x : Use} :
    two A a b z u w v p = some (y, x) ↔ (p = a ∧ y = z ∧ x = u) ∨ (p = a + z ∧ y = w ∧ x = v) ∨
      ((p < a ∨ b ≤ p) ∧ A p = some (y, x)) := by
  by_cases c1 : p = a
  · subst c1; rw [two_a]; constructor
    · intro h; cases h; exact .inl ⟨rfl, rfl, rfl⟩
    · rintro (h | h | h)
      · rw [h.2.1, h.2.2]
      · omega
      · omega
  · by_cases c2 : p = a + z
    · subst c2; rw [two_z hz]; constructor
      · intro h; cases h; exact .inr (.inl ⟨rfl, rfl, rfl⟩)
      · rintro (h | h | h)
        · omega
        · rw [h.2.1, h.2.2]
        · omega
    · by_cases c3 : a < p ∧ p < b
      · rw [two_in c3.1 c3.2 c2]; constructor
        · intro h; cases h
        · rintro (h | h | h) <;> omega
      · rw [two_out (by omega) hab]; constructor
        · intro h; exact .inr (.inr ⟨by omega, h⟩)
        · rintro (h | h | h)
          · omega
          · omega
          · exact h.2

end Verif.Dl
