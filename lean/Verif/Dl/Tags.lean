import Verif.Dl.Model

/-
Boundary tags: the chunks of the heap as a map from addresses to sizes and uses, and what
the words of memory have to do with it.
-/
namespace Verif.Dl
open Verif

/-! ## Words -/

theorem pinuse_eq (h : Nat) : pinuse h = decide (h % 2 = 1) := by
  unfold pinuse
  rw [Nat.and_one_is_mod]
  rcases Nat.mod_two_eq_zero_or_one h with e | e <;> simp [e]

theorem and_two (h : Nat) : h &&& 2 = h / 2 % 2 * 2 := by
  apply Nat.eq_of_testBit_eq
  intro i
  rw [Nat.testBit_and]
  cases i with
  | zero => simp [Nat.testBit_zero]
  | succ i =>
    rw [Nat.testBit_succ, Nat.testBit_succ, Nat.testBit_succ, ← Nat.testBit_and]
    have e1 : (2 : Nat) / 2 = 1 := rfl
    have e2 : h / 2 % 2 * 2 / 2 = h / 2 % 2 := by omega
    rw [e1, e2, Nat.and_one_is_mod]

theorem cinuse_eq (h : Nat) : cinuse h = decide (h / 2 % 2 = 1) := by
  unfold cinuse
  rw [and_two]
  rcases Nat.mod_two_eq_zero_or_one (h / 2) with e | e <;> simp [e]

theorem or_one (h : Nat) : h ||| 1 = h / 2 * 2 + 1 := by
  apply Nat.eq_of_testBit_eq
  intro i
  rw [Nat.testBit_or]
  cases i with
  | zero => simp [Nat.testBit_zero]
  | succ i =>
    rw [Nat.testBit_succ, Nat.testBit_succ, Nat.testBit_succ]
    have : (h / 2 * 2 + 1) / 2 = h / 2 := by omega
    rw [this]; simp

theorem or_two {h : Nat} (h4 : h / 2 % 2 = 0) : h ||| 2 = h + 2 := by
  apply Nat.eq_of_testBit_eq
  intro i
  rw [Nat.testBit_or]
  cases i with
  | zero =>
    simp only [Nat.testBit_zero]
    have : (h + 2) % 2 = h % 2 := by omega
    rw [this]; simp
  | succ i =>
    rw [Nat.testBit_succ, Nat.testBit_succ, Nat.testBit_succ]
    have : (h + 2) / 2 = h / 2 + 1 := by omega
    rw [this]
    have h1 : h / 2 + 1 = h / 2 ||| 1 := by rw [or_one]; omega
    rw [h1, Nat.testBit_or]

/-- The word of a chunk in use. -/
theorem or_three {z : Nat} (hz : 8 ∣ z) : z ||| 1 ||| 2 = z + 3 := by
  rw [or_one, or_two (by omega)]; omega

theorem or_one' {z : Nat} (hz : 8 ∣ z) : z ||| 1 = z + 1 := by rw [or_one]; omega

theorem chunksize_or_one (h : Nat) : chunksize (h ||| 1) = chunksize h := by
  unfold chunksize; rw [or_one]; omega
theorem cinuse_or_one (h : Nat) : cinuse (h ||| 1) = cinuse h := by
  rw [cinuse_eq, cinuse_eq, or_one, decide_eq_decide]; omega
theorem pinuse_or_one (h : Nat) : pinuse (h ||| 1) = true := by
  rw [pinuse_eq, or_one, decide_eq_true_iff]; omega
theorem chunksize_clear (h : Nat) : chunksize (h / 2 * 2) = chunksize h := by
  unfold chunksize; omega
theorem cinuse_clear (h : Nat) : cinuse (h / 2 * 2) = cinuse h := by
  rw [cinuse_eq, cinuse_eq, decide_eq_decide]; omega
theorem pinuse_clear (h : Nat) : pinuse (h / 2 * 2) = false := by
  rw [pinuse_eq, decide_eq_false_iff_not]; omega
theorem chunksize_three {z : Nat} (hz : 8 ∣ z) : chunksize (z ||| 1 ||| 2) = z := by
  rw [or_three hz]; unfold chunksize; omega
theorem cinuse_three {z : Nat} (hz : 8 ∣ z) : cinuse (z ||| 1 ||| 2) = true := by
  rw [or_three hz, cinuse_eq, decide_eq_true_iff]; omega
theorem pinuse_three {z : Nat} (hz : 8 ∣ z) : pinuse (z ||| 1 ||| 2) = true := by
  rw [or_three hz, pinuse_eq, decide_eq_true_iff]; omega
theorem chunksize_one {z : Nat} (hz : 8 ∣ z) : chunksize (z ||| 1) = z := by
  rw [or_one' hz]; unfold chunksize; omega
theorem cinuse_one {z : Nat} (hz : 8 ∣ z) : cinuse (z ||| 1) = false := by
  rw [or_one' hz, cinuse_eq, decide_eq_false_iff_not]; omega
theorem pinuse_one {z : Nat} (hz : 8 ∣ z) : pinuse (z ||| 1) = true := by
  rw [or_one' hz, pinuse_eq, decide_eq_true_iff]; omega

@[simp] theorem upd_same (m : Nat → Nat) (a v : Nat) : upd m a v a = v := by simp [upd]
theorem upd_ne {m : Nat → Nat} {a v x : Nat} (h : x ≠ a) : upd m a v x = m x := by simp [upd, h]

/-! ## Chunks -/

/-- What a chunk is: handed out, the record of a segment, in a bin, the designated victim, or
the top. -/
inductive Use | live | link | free | dv | top
  deriving DecidableEq

def Use.inuse : Use → Bool
  | .live | .link => true
  | _ => false

def Use.isFree : Use → Bool
  | .free | .dv => true
  | _ => false

abbrev Chunks := Nat → Option (Nat × Use)

/-- A free chunk ends at `p`. -/
def PF (A : Chunks) (p : Nat) : Prop := ∃ q z u, A q = some (z, u) ∧ u.isFree = true ∧ q + z = p

/-- What is true of one chunk. -/
structure Ok (mem : Nat → Nat) (A : Chunks) (p z : Nat) (u : Use) : Prop where
  pos : 0 < p
  al : 8 ∣ p
  alz : 8 ∣ z
  min : 8 ≤ z
  min' : u ≠ .top → 32 ≤ z
  size : chunksize (mem (p + 8)) = z
  cin : cinuse (mem (p + 8)) = u.inuse
  pin : pinuse (mem (p + 8)) = true ↔ ¬ PF A p
  foot : u.isFree = true → mem (p + z) = z
  next : u ≠ .link → u ≠ .top → A (p + z) ≠ none
  last : u = .link ∨ u = .top → A (p + z) = none
  nofree : u.isFree = true → ∀ w v, A (p + z) = some (w, v) → v.inuse = true

structure Tags (mem : Nat → Nat) (A : Chunks) : Prop where
  ok : ∀ {p z u}, A p = some (z, u) → Ok mem A p z u
  disj : ∀ {p z u q w v}, A p = some (z, u) → A q = some (w, v) → p < q → p + z ≤ q

theorem Tags.empty (mem : Nat → Nat) : Tags mem (fun _ => none) :=
  ⟨fun h => by simp at h, fun h => by simp at h⟩

theorem PF.iff {mem : Nat → Nat} {A : Chunks} (t : Tags mem A) {p z : Nat} {u : Use} (h : A p = some (z, u)) :
    PF A (p + z) ↔ u.isFree = true := by
  constructor
  · rintro ⟨q, w, v, hq, hv, e⟩
    have : q = p := by
      have o1 := t.ok h; have o2 := t.ok hq
      have m1 := o1.min; have m2 := o2.min
      rcases Nat.lt_trichotomy q p with l | l | l
      · have := t.disj hq h l; omega
      · exact l
      · have := t.disj h hq l; omega
    subst this
    rw [h] at hq; cases hq; exact hv
  · intro hu; exact ⟨p, z, u, h, hu, rfl⟩

/-- Replacing the chunks in `[a, b)`. -/
theorem Tags.repl {mem mem' : Nat → Nat} {A A' : Chunks} {a b : Nat} (t : Tags mem A)
    (sep : ∀ p z u, A p = some (z, u) → p < a → p + z ≤ a)
    (hin : ∀ q w v, A q = some (w, v) → a ≤ q → q < b → q + w ≤ b)
    (out : ∀ p, p < a ∨ b ≤ p → A' p = A p)
    (a' : A' a ≠ none)
    (alast : ∀ p z u, A p = some (z, u) → p + z = a → u ≠ .link ∧ u ≠ .top)
    (ag : ∀ x, x < a + 8 ∨ b + 8 < x → mem' x = mem x)
    (hb : ∀ w v, A b = some (w, v) → chunksize (mem' (b + 8)) = w ∧ cinuse (mem' (b + 8)) = v.inuse ∧
      (pinuse (mem' (b + 8)) = true ↔ ¬ PF A' b))
    (inn : ∀ p z u, A' p = some (z, u) → a ≤ p → p < b → p + z ≤ b ∧ Ok mem' A' p z u)
    (dis : ∀ p z u q w v, A' p = some (z, u) → A' q = some (w, v) → a ≤ p → p < q → q < b → p + z ≤ q)
    (fa : PF A a → ∀ w v, A' a = some (w, v) → v.inuse = true) (hab : a < b) : Tags mem' A' := by
  have D : ∀ {p z u q w v}, A' p = some (z, u) → A' q = some (w, v) → p < q → p + z ≤ q := by
    intro p z u q w v hp hq hl
    by_cases c1 : p < a
    · rw [out p (.inl c1)] at hp
      have := sep _ _ _ hp c1
      by_cases c2 : q < a
      · rw [out q (.inl c2)] at hq; exact t.disj hp hq hl
      · omega
    · by_cases c2 : p < b
      · by_cases c3 : q < b
        · exact dis p z u q w v hp hq (by omega) hl c3
        · have := (inn p z u hp (by omega) c2).1; omega
      · rw [out p (.inr (by omega))] at hp
        rw [out q (.inr (by omega))] at hq
        exact t.disj hp hq hl
  refine ⟨?_, D⟩
  intro p z u hp
  by_cases c : a ≤ p ∧ p < b
  · exact (inn p z u hp c.1 c.2).2
  · have co : p < a ∨ b ≤ p := by omega
    have hA : A p = some (z, u) := by rw [← out p co]; exact hp
    have o := t.ok hA
    have hpf : p ≠ b → (PF A' p ↔ PF A p) := by
      intro hne
      constructor
      · rintro ⟨q, w, v, hq, hv, e⟩
        by_cases c2 : a ≤ q ∧ q < b
        · have := (inn q w v hq c2.1 c2.2).1
          have := (inn q w v hq c2.1 c2.2).2.min
          omega
        · exact ⟨q, w, v, by rw [← out q (by omega)]; exact hq, hv, e⟩
      · rintro ⟨q, w, v, hq, hv, e⟩
        by_cases c2 : a ≤ q ∧ q < b
        · have := hin q w v hq c2.1 c2.2
          have := (t.ok hq).min
          omega
        · exact ⟨q, w, v, by rw [out q (by omega)]; exact hq, hv, e⟩
    have hend : p + z ≤ a ∨ b ≤ p + z := by
      rcases co with c | c
      · exact .inl (sep _ _ _ hA c)
      · exact .inr (by omega)
    have hnx : A' (p + z) = A (p + z) ∨ p + z = a := by
      rcases Nat.lt_or_ge (p + z) a with c | c
      · exact .inl (out _ (.inl c))
      · rcases hend with d | d
        · exact .inr (by omega)
        · exact .inl (out _ (.inr d))
    have hh : p ≠ b → mem' (p + 8) = mem (p + 8) := by
      intro hne; apply ag; omega
    have head : chunksize (mem' (p + 8)) = z ∧ cinuse (mem' (p + 8)) = u.inuse ∧
        (pinuse (mem' (p + 8)) = true ↔ ¬ PF A' p) := by
      by_cases hpb : p = b
      · subst hpb; exact hb z u hA
      · rw [hh hpb, hpf hpb]; exact ⟨o.size, o.cin, o.pin⟩
    refine ⟨o.pos, o.al, o.alz, o.min, o.min', head.1, head.2.1, head.2.2, ?_, ?_, ?_, ?_⟩
    · intro hu
      have hm : 32 ≤ z := o.min' (by rintro rfl; cases hu)
      rw [ag (p + z) (by rcases co with c | c; · have := sep _ _ _ hA c; omega
                         · omega)]
      exact o.foot hu
    · intro h1 h2
      rcases hnx with e | e
      · rw [e]; exact o.next h1 h2
      · rw [e]; exact a'
    · intro hl
      rcases hnx with e | e
      · rw [e]; exact o.last hl
      · have := alast _ _ _ hA e
        rcases hl with h | h
        · exact absurd h this.1
        · exact absurd h this.2
    · intro hu w v hw
      rcases hnx with e | e
      · rw [e] at hw; exact o.nofree hu w v hw
      · rw [e] at hw
        exact fa ⟨p, z, u, hA, hu, e⟩ w v hw

/-- One chunk instead of those in `[a, b)`. -/
def one (A : Chunks) (a b z : Nat) (u : Use) : Chunks := fun p =>
  if p = a then some (z, u) else if a < p ∧ p < b then none else A p

/-- Two chunks. -/
def two (A : Chunks) (a b z : Nat) (u : Use) (w : Nat) (v : Use) : Chunks := fun p =>
  if p = a then some (z, u) else if p = a + z then some (w, v) else if a < p ∧ p < b then none else A p

theorem one_a (A : Chunks) (a b z : Nat) (u : Use) : one A a b z u a = some (z, u) := by simp [one]
theorem one_out {A : Chunks} {a b z : Nat} {u : Use} {p : Nat} (h : p < a ∨ b ≤ p) (hab : a < b) :
    one A a b z u p = A p := by
  unfold one; rw [if_neg (by omega), if_neg (by omega)]
theorem one_in {A : Chunks} {a b z : Nat} {u : Use} {p : Nat} (h : a < p) (hb : p < b) : one A a b z u p = none := by
  unfold one; rw [if_neg (by omega), if_pos ⟨h, hb⟩]

theorem two_a (A : Chunks) (a b z : Nat) (u : Use) (w : Nat) (v : Use) : two A a b z u w v a = some (z, u) := by
  simp [two]
theorem two_z {A : Chunks} {a b z : Nat} {u : Use} {w : Nat} {v : Use} (hz : 0 < z) :
    two A a b z u w v (a + z) = some (w, v) := by unfold two; rw [if_neg (by omega), if_pos rfl]
theorem two_out {A : Chunks} {a b z : Nat} {u : Use} {w : Nat} {v : Use} {p : Nat} (h : p < a ∨ b ≤ p)
    (hab : a + z < b) : two A a b z u w v p = A p := by
  unfold two; rw [if_neg (by omega), if_neg (by omega), if_neg (by omega)]
theorem two_in {A : Chunks} {a b z : Nat} {u : Use} {w : Nat} {v : Use} {p : Nat} (h : a < p) (hb : p < b)
    (hn : p ≠ a + z) : two A a b z u w v p = none := by
  unfold two; rw [if_neg (by omega), if_neg hn, if_pos ⟨h, hb⟩]

/-- The words of the chunk behind keep size and use; whether the one before is in use is as
given. -/
def Behind (A : Chunks) (mem' : Nat → Nat) (b : Nat) (pf : Bool) : Prop :=
  ∀ w v, A b = some (w, v) → chunksize (mem' (b + 8)) = w ∧ cinuse (mem' (b + 8)) = v.inuse ∧
    pinuse (mem' (b + 8)) = !pf ∧ (pf = true → v.inuse = true)

/-- Conditions on the place `[a, b)` that is filled anew. -/
structure Place (A : Chunks) (a b : Nat) : Prop where
  pos : 0 < a
  al : 8 ∣ a
  lt : a < b
  sep : ∀ p z u, A p = some (z, u) → p < a → p + z ≤ a
  hin : ∀ q w v, A q = some (w, v) → a ≤ q → q < b → q + w ≤ b
  alast : ∀ p z u, A p = some (z, u) → p + z = a → u ≠ .link ∧ u ≠ .top

theorem Tags.one {mem mem' : Nat → Nat} {A : Chunks} {a b z : Nat} {u : Use} (t : Tags mem A)
    (pl : Place A a b)
    (ag : ∀ x, x < a + 8 ∨ b + 8 < x → mem' x = mem x)
    (hz : 8 ∣ z) (h8 : 8 ≤ z) (h32 : u ≠ .top → 32 ≤ z) (hle : a + z ≤ b)
    (hnext : u ≠ .link → u ≠ .top → a + z = b ∧ A b ≠ none)
    (hlast : u = .link ∨ u = .top → A b = none)
    (size : chunksize (mem' (a + 8)) = z) (cin : cinuse (mem' (a + 8)) = u.inuse)
    (pin : pinuse (mem' (a + 8)) = true ↔ ¬ PF A a)
    (hfoot : u.isFree = true → mem' (a + z) = z)
    (fa : PF A a → u.inuse = true)
    (hb : Behind A mem' b u.isFree) : Tags mem' (Dl.one A a b z u) := by
  have hpa : PF (Dl.one A a b z u) a ↔ PF A a := by
    constructor
    · rintro ⟨q, w, v, hq, hv, e⟩
      by_cases c : q = a
      · subst c; rw [one_a] at hq; cases hq; omega
      · rw [one_out (by omega) pl.lt] at hq; exact ⟨q, w, v, hq, hv, e⟩
    · rintro ⟨q, w, v, hq, hv, e⟩
      have := (t.ok hq).min
      exact ⟨q, w, v, by rw [one_out (by omega) pl.lt]; exact hq, hv, e⟩
  apply t.repl (a := a) (b := b) pl.sep pl.hin (fun p h => one_out h pl.lt) (by rw [one_a]; simp) pl.alast ag
  · intro w v hw
    obtain ⟨h1, h2, h3, h4⟩ := hb w v hw
    refine ⟨h1, h2, ?_⟩
    rw [h3]
    have hbz : a + z = b := by
      by_cases hu : u = .link ∨ u = .top
      · rw [hlast hu] at hw; cases hw
      · rw [not_or] at hu; exact (hnext hu.1 hu.2).1
    have : PF (Dl.one A a b z u) b ↔ u.isFree = true := by
      constructor
      · rintro ⟨q, w', v', hq, hv, e⟩
        by_cases c : q = a
        · subst c; rw [one_a] at hq; cases hq; exact hv
        · exfalso
          by_cases c2 : a < q ∧ q < b
          · rw [one_in c2.1 c2.2] at hq; cases hq
          · rw [one_out (by omega) pl.lt] at hq
            have := (t.ok hq).min
            have := pl.sep _ _ _ hq
            omega
      · intro hu; exact ⟨a, z, u, one_a .., hu, hbz⟩
    rw [this]; cases u.isFree <;> simp
  · intro p z' u' hp h1 h2
    have hpa' : p = a := by
      rcases Nat.lt_or_ge a p with c | c
      · rw [one_in c h2] at hp; cases hp
      · omega
    subst hpa'
    rw [one_a] at hp; cases hp
    refine ⟨hle, pl.pos, pl.al, hz, h8, h32, size, cin, by rw [hpa]; exact pin, hfoot, ?_, ?_, ?_⟩
    · intro g1 g2
      obtain ⟨e, h⟩ := hnext g1 g2
      rw [e, one_out (.inr (Nat.le_refl _)) pl.lt]; exact h
    · intro hl
      by_cases c : p + z < b
      · exact one_in (by omega) c
      · have : p + z = b := by omega
        rw [this, one_out (.inr (Nat.le_refl _)) pl.lt]; exact hlast hl
    · intro hu w v hw
      have e : p + z = b := (hnext (by rintro rfl; cases hu) (by rintro rfl; cases hu)).1
      rw [e, one_out (.inr (Nat.le_refl _)) pl.lt] at hw
      exact (hb w v hw).2.2.2 hu
  · intro p z' u' q w v hp hq h1 h2 h3
    rw [one_in (by omega) h3] at hq; cases hq
  · intro hf w v hw
    rw [one_a] at hw; cases hw; exact fa hf
  · exact pl.lt

theorem Tags.two {mem mem' : Nat → Nat} {A : Chunks} {a b z w : Nat} {u v : Use} (t : Tags mem A)
    (pl : Place A a b)
    (ag : ∀ x, x < a + 8 ∨ b + 8 < x → mem' x = mem x)
    (hz : 8 ∣ z) (h32 : 32 ≤ z) (hu1 : u ≠ .link) (hu2 : u ≠ .top)
    (hw : 8 ∣ w) (w8 : 8 ≤ w) (w32 : v ≠ .top → 32 ≤ w) (hle : a + z + w ≤ b)
    (hnext : v ≠ .link → v ≠ .top → a + z + w = b ∧ A b ≠ none)
    (hlast : v = .link ∨ v = .top → A b = none)
    (size : chunksize (mem' (a + 8)) = z) (cin : cinuse (mem' (a + 8)) = u.inuse)
    (pin : pinuse (mem' (a + 8)) = true ↔ ¬ PF A a)
    (hfoot : u.isFree = true → mem' (a + z) = z)
    (size2 : chunksize (mem' (a + z + 8)) = w) (cin2 : cinuse (mem' (a + z + 8)) = v.inuse)
    (pin2 : pinuse (mem' (a + z + 8)) = !u.isFree)
    (hfoot2 : v.isFree = true → mem' (a + z + w) = w)
    (fa : PF A a → u.inuse = true) (fb : u.isFree = true → v.inuse = true)
    (hb : Behind A mem' b v.isFree) : Tags mem' (Dl.two A a b z u w v) := by
  have hlt : a + z < b := by omega
  have T2 : ∀ {p x}, Dl.two A a b z u w v p = some x → a ≤ p → p < b → p = a ∨ p = a + z := by
    intro p x h h1 h2
    by_cases c : p = a
    · exact .inl c
    · by_cases d : p = a + z
      · exact .inr d
      · rw [two_in (by omega) h2 d] at h; cases h
  have hpa : PF (Dl.two A a b z u w v) a ↔ PF A a := by
    constructor
    · rintro ⟨q, w', v', hq, hv, e⟩
      by_cases c : q = a
      · subst c; rw [two_a] at hq; cases hq; omega
      · rw [two_out (by omega) hlt] at hq; exact ⟨q, w', v', hq, hv, e⟩
    · rintro ⟨q, w', v', hq, hv, e⟩
      have := (t.ok hq).min
      exact ⟨q, w', v', by rw [two_out (by omega) hlt]; exact hq, hv, e⟩
  have hpm : PF (Dl.two A a b z u w v) (a + z) ↔ u.isFree = true := by
    constructor
    · rintro ⟨q, w', v', hq, hv, e⟩
      by_cases c : q = a
      · subst c; rw [two_a] at hq; cases hq; exact hv
      · exfalso
        by_cases c2 : a < q ∧ q < b
        · rcases T2 hq (by omega) c2.2 with d | d
          · exact c d
          · subst d; rw [two_z (by omega)] at hq; cases hq; omega
        · rw [two_out (by omega) hlt] at hq
          have := (t.ok hq).min
          have := pl.sep _ _ _ hq
          omega
    · intro hu; exact ⟨a, z, u, two_a .., hu, rfl⟩
  apply t.repl (a := a) (b := b) pl.sep pl.hin (fun p h => two_out h hlt) (by rw [two_a]; simp) pl.alast ag
  · intro w' v' hw'
    obtain ⟨h1, h2, h3, h4⟩ := hb w' v' hw'
    refine ⟨h1, h2, ?_⟩
    rw [h3]
    have hbz : a + z + w = b := by
      by_cases hu : v = .link ∨ v = .top
      · rw [hlast hu] at hw'; cases hw'
      · rw [not_or] at hu; exact (hnext hu.1 hu.2).1
    have : PF (Dl.two A a b z u w v) b ↔ v.isFree = true := by
      constructor
      · rintro ⟨q, w2, v2, hq, hv, e⟩
        by_cases c : a ≤ q ∧ q < b
        · rcases T2 hq c.1 c.2 with d | d
          · subst d; rw [two_a] at hq; cases hq; omega
          · subst d; rw [two_z (by omega)] at hq; cases hq; exact hv
        · exfalso
          rw [two_out (by omega) hlt] at hq
          have := (t.ok hq).min
          have := pl.sep _ _ _ hq
          omega
      · intro hu; exact ⟨a + z, w, v, two_z (by omega), hu, hbz⟩
    rw [this]; cases v.isFree <;> simp
  · intro p z' u' hp h1 h2
    rcases T2 hp h1 h2 with d | d
    · subst d
      rw [two_a] at hp; cases hp
      refine ⟨by omega, pl.pos, pl.al, hz, by omega, fun _ => h32, size, cin, by rw [hpa]; exact pin, hfoot, ?_, ?_, ?_⟩
      · intro _ _; rw [two_z (by omega)]; simp
      · intro hl; rcases hl with h | h
        · exact absurd h hu1
        · exact absurd h hu2
      · intro hu w' v' hw'
        rw [two_z (by omega)] at hw'; cases hw'; exact fb hu
    · subst d
      rw [two_z (by omega)] at hp; cases hp
      have := pl.al
      refine ⟨by omega, by omega, by omega, hw, w8, w32, size2, cin2, ?_, hfoot2, ?_, ?_, ?_⟩
      · rw [pin2, hpm]; cases u.isFree <;> simp
      · intro g1 g2
        obtain ⟨e, h⟩ := hnext g1 g2
        rw [e, two_out (.inr (Nat.le_refl _)) hlt]; exact h
      · intro hl
        by_cases c : a + z + w < b
        · exact two_in (by omega) c (by omega)
        · have : a + z + w = b := by omega
          rw [this, two_out (.inr (Nat.le_refl _)) hlt]; exact hlast hl
      · intro hu w' v' hw'
        have e : a + z + w = b := (hnext (by rintro rfl; cases hu) (by rintro rfl; cases hu)).1
        rw [e, two_out (.inr (Nat.le_refl _)) hlt] at hw'
        exact (hb w' v' hw').2.2.2 hu
  · intro p z' u' q w' v' hp hq h1 h2 h3
    rcases T2 hq (by omega) h3 with d | d
    · omega
    · rcases T2 hp h1 (by omega) with d' | d'
      · subst d'; rw [two_a] at hp; cases hp; omega
      · omega
  · intro hf w' v' hw'
    rw [two_a] at hw'; cases hw'; exact fa hf
  · omega

/-- All chunks in `[a, b)` vanish. -/
def drop (A : Chunks) (a b : Nat) : Chunks := fun p => if a ≤ p ∧ p < b then none else A p

theorem Tags.drop {mem mem' : Nat → Nat} {A : Chunks} {a b : Nat} (t : Tags mem A)
    (sep : ∀ p z u, A p = some (z, u) → p < a → p + z < a)
    (hin : ∀ q w v, A q = some (w, v) → a ≤ q → q < b → q + w < b)
    (ag : ∀ x, x < a ∨ b ≤ x → mem' x = mem x) : Tags mem' (Dl.drop A a b) := by
  have S : ∀ {p x}, Dl.drop A a b p = some x → (p < a ∨ b ≤ p) ∧ A p = some x := by
    intro p x h
    unfold Dl.drop at h
    split at h
    · cases h
    · exact ⟨by omega, h⟩
  have O : ∀ p, p < a ∨ b ≤ p → Dl.drop A a b p = A p := by
    intro p h; unfold Dl.drop; rw [if_neg (by omega)]
  refine ⟨?_, fun hp hq h => t.disj (S hp).2 (S hq).2 h⟩
  intro p z u hp
  obtain ⟨c, hA⟩ := S hp
  have o := t.ok hA
  have hm := o.min
  have hpf : PF (Dl.drop A a b) p ↔ PF A p := by
    constructor
    · rintro ⟨q, w, v, hq, hv, e⟩; exact ⟨q, w, v, (S hq).2, hv, e⟩
    · rintro ⟨q, w, v, hq, hv, e⟩
      have := hin q w v hq
      have := (t.ok hq).min
      exact ⟨q, w, v, by rw [O q (by omega)]; exact hq, hv, e⟩
  have hp8 : mem' (p + 8) = mem (p + 8) := by
    apply ag
    have := sep _ _ _ hA
    omega
  have hpz : mem' (p + z) = mem (p + z) := by
    apply ag
    have := sep _ _ _ hA
    omega
  have hnx : Dl.drop A a b (p + z) = A (p + z) := by
    apply O
    have := sep _ _ _ hA
    omega
  exact ⟨o.pos, o.al, o.alz, o.min, o.min', by rw [hp8]; exact o.size, by rw [hp8]; exact o.cin,
    by rw [hp8, hpf]; exact o.pin, by rw [hpz]; exact o.foot, by rw [hnx]; exact o.next,
    by rw [hnx]; exact o.last, by rw [hnx]; exact o.nofree⟩

/-- Words that belong to no chunk's head or foot may change. -/
theorem Tags.other {mem mem' : Nat → Nat} {A : Chunks} (t : Tags mem A)
    (hd : ∀ p z u, A p = some (z, u) → mem' (p + 8) = mem (p + 8))
    (ft : ∀ p z u, A p = some (z, u) → u.isFree = true → mem' (p + z) = mem (p + z)) : Tags mem' A := by
  refine ⟨?_, t.disj⟩
  intro p z u h
  have o := t.ok h
  have e := hd p z u h
  exact ⟨o.pos, o.al, o.alz, o.min, o.min', by rw [e]; exact o.size, by rw [e]; exact o.cin,
    by rw [e]; exact o.pin, fun hu => by rw [ft p z u h hu]; exact o.foot hu, o.next, o.last, o.nofree⟩

end Verif.Dl
