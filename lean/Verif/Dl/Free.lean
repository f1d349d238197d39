import Verif.Dl.Trim

/-
Chunks become free: consolidation.
-/
namespace Verif.Dl
open Verif

/-- The chunk at `p` was given back; all others stay, with the words of their blocks. -/
structure Freed (P : Nat) (s : Hp) (A : Chunks) (p : Nat) (s' : Hp) (A' : Chunks) : Prop where
  inv : Inv P s' A'
  keep : ∀ q w, A q = some (w, .live) → q ≠ p → A' q = some (w, .live) ∧ ∀ x, q + 16 ≤ x → x < q + w + 8 → s'.mem x = s.mem x
  only : ∀ q w, A' q = some (w, .live) → A q = some (w, .live) ∧ q ≠ p

section
variable {P : Nat} {s : Hp} {A : Chunks}

/-- The outcome of `dlfree` without the system. -/
def FreesTo (P : Nat) (s : Hp) (A : Chunks) (p : Nat) (r : R (Hp × Then)) : Prop :=
  ∃ s' t, r = .ok (s', t) ∧ (t = .stop ∨ t = .trim) ∧ ∃ A', Freed P s A p s' A'

theorem then_ok {α β : Type} {x : R α} {f : α → R β} {b : β} (h : (x >>= f) = .ok b) : ∃ a, x = .ok a ∧ f a = .ok b := by
  cases x with
  | error e => cases h
  | ok a => exact ⟨a, rfl, h⟩

/-- What precedes: nothing, a chunk of a bin (now unlinked), or the designated victim. -/
structure Before (s : Hp) (A : Chunks) (p z a : Nat) (s1 : Hp) : Prop where
  live : A p = some (z, .live)
  le : a ≤ p
  cases : (a = p) ∨ (∃ y u, A a = some (y, u) ∧ a + y = p ∧ (u = .free ∨ u = .dv))
  npf : ¬ PF A a
  same : SameBut s s1
  bins : s1.Bins (delF (binF A) a)

/-- Rows of chunks that end with the chunk given back, and perhaps the one behind it. -/
theorem Before.span {p z a : Nat} {s1 : Hp} (b : Before s A p z a s1) {c : Nat} {l} (sp : Span A c (p + z) l) :
    ∃ x l', Span A c a (x :: l') ∧ ∀ y, y ∈ x :: l' →
      y = (p, z, .live) ∨ (y.1 = a ∧ a ≠ p ∧ (y.2.2 = .free ∨ y.2.2 = .dv)) ∨ y ∈ l := by
  rcases b.cases with rfl | ⟨y, u, h1, h2, h3⟩
  · refine ⟨_, _, .cons b.live sp, ?_⟩
    intro y hy
    rcases List.mem_cons.1 hy with h | h
    · exact .inl h
    · exact .inr (.inr h)
  · have hne : a ≠ p := by
      rintro rfl; rw [b.live] at h1; rcases h3 with rfl | rfl <;> cases h1
    refine ⟨(a, y, u), _, .cons h1 (by rw [h2]; exact .cons b.live sp), ?_⟩
    intro x hx
    simp only [List.mem_cons] at hx
    rcases hx with rfl | rfl | h
    · exact .inr (.inl ⟨rfl, hne, h3⟩)
    · exact .inl rfl
    · exact .inr (.inr h)

/-- The chunks of a row become one that is not in use. -/
theorem Inv.merge (i : Inv P s A) {a b p : Nat} {x l} (sp : Span A b a (x :: l))
    (pin : a ≤ p ∧ p < b)
    (nk : ∀ y ∈ x :: l, y.2.2 ≠ .link) (nl : ∀ y ∈ x :: l, y.2.2 = .live → y.1 = p) {v : Use} (hv : v.inuse = false)
    (h32 : 32 ≤ b - a) (npf : ¬ PF A a) {s' : Hp}
    (mp : s'.mapped = s.mapped) (ls : s'.least = s.least) (sg : s'.segs = s.segs)
    (tp : if v = .top then s'.top = a ∧ s'.topsize = b - a ∧ s.top + s.topsize = b ∧ s.segs ≠ [] ∧ a ≤ s.top
      else s'.top = s.top ∧ s'.topsize = s.topsize ∧ ∀ y ∈ x :: l, y.2.2 ≠ .top)
    (m1 : s'.mem (a + 8) = (b - a) ||| 1) (m2 : v.isFree = true → s'.mem b = b - a)
    (ag : ∀ x, x < a + 8 ∨ b + 8 < x → s'.mem x = s.mem x)
    (bh : Behind A s'.mem b v.isFree) (hb : v ≠ .top → A b ≠ none) (hb' : v = .top → A b = none)
    (bn : s'.Bins (binF (one A a b (b - a) v))) (dv : DvOk s'.dv s'.dvsize (one A a b (b - a) v)) :
    Freed P s A p s' (one A a b (b - a) v) := by
  have t := i.tags
  obtain ⟨pl, hA⟩ := sp.place t
  have lt := pl.lt
  have hvl : v ≠ .link := by rintro rfl; cases hv
  have hvv : v ≠ .live := by rintro rfl; cases hv
  have al : 8 ∣ b - a := by
    have h1 := pl.al
    have key : ∀ (l : List (Nat × Nat × Use)) (c : Nat), Span A b c l → 8 ∣ c → 8 ∣ b := by
      intro l
      induction l with
      | nil => intro c h h8; cases h; exact h8
      | cons y l ih =>
        intro c h h8
        cases h with
        | cons h1 h2 => exact ih _ h2 (by have := (t.ok h1).alz; omega)
    have := key _ _ sp h1
    omega
  have hab : a + (b - a) = b := by omega
  refine ⟨⟨?_, bn, dv, ?_, ?_⟩, ?_, ?_⟩
  · apply t.one pl (fun x hx => ag x hx) al (by omega) (fun _ => h32) (by omega)
    · intro _ h2; exact ⟨hab, hb h2⟩
    · rintro (h | h)
      · exact absurd h hvl
      · exact hb' h
    · rw [m1, chunksize_one al]
    · rw [m1, cinuse_one al, hv]
    · rw [m1, pinuse_one al]; simp; exact npf
    · rw [hab]; exact m2
    · intro h; exact absurd h npf
    · exact bh
  · intro q w
    rw [one_some lt, sg]
    by_cases hvt : v = .top
    · rw [if_pos hvt] at tp
      obtain ⟨h1, h2, h3, h4, h5⟩ := tp
      rw [h1, h2]
      constructor
      · rintro (c | c)
        · exact ⟨c.1, c.2.1, h4⟩
        · exfalso
          have := (i.top q w).1 c.2
          have := (t.ok c.2).min
          omega
      · rintro ⟨c1, c2, _⟩; exact .inl ⟨c1, c2, hvt.symm⟩
    · rw [if_neg hvt] at tp
      obtain ⟨h1, h2, h3⟩ := tp
      rw [h1, h2, ← i.top q w]
      constructor
      · rintro (c | c)
        · exact absurd c.2.2.symm hvt
        · exact c.2
      · intro h
        refine .inr ⟨?_, h⟩
        by_contra hc
        exact h3 _ (sp.mem t h (by omega) (by omega)).1 rfl
  · rw [sg, mp, ls]
    refine Segs.repl i sp nk (fun q hq => one_out hq lt) (by rw [one_a]; simp) ?_ ?_
    · intro q w v' hq h1 h2
      rcases (one_some lt).1 hq with c | c
      · exact ⟨by omega, by rw [c.2.2]; exact hvl⟩
      · omega
    · by_cases hvt : v = .top
      · rw [if_pos hvt] at tp
        obtain ⟨h1, h2, h3, h4, h5⟩ := tp
        exact .inr ⟨h4, by omega, by omega, by omega, by omega⟩
      · rw [if_neg hvt] at tp; exact .inl ⟨tp.1, tp.2.1⟩
  · intro q w hq hne
    have c : q < a ∨ b ≤ q := by
      by_contra h
      exact hne (nl _ (sp.mem t hq (by omega) (by omega)).1 rfl)
    refine ⟨by rw [one_out c lt]; exact hq, fun x h1 h2 => ag x ?_⟩
    rcases c with c | c
    · have := pl.sep _ _ _ hq c; omega
    · omega
  · intro q w hq
    rcases (one_some lt).1 hq with c | c
    · exact absurd c.2.2.symm hvv
    · exact ⟨c.2, by omega⟩

/-- Bins after chunks have become one. -/
theorem binF_merge {a b z : Nat} (lt : a < b) {v : Use} (hv : v ≠ .free) {F : Nat → Option Nat}
    (h : ∀ q x, F q = some x ↔ A q = some (x, .free) ∧ (q < a ∨ b ≤ q)) (q : Nat) : binF (one A a b z v) q = F q := by
  apply binF_ext
  intro q x
  rw [one_some lt, h]
  constructor
  · rintro (c | c)
    · exact absurd c.2.2.symm hv
    · exact ⟨c.2, c.1⟩
  · intro c; exact .inr ⟨c.2, c.1⟩

theorem binF_merge' {a b z : Nat} (lt : a < b) {F : Nat → Option Nat}
    (h : ∀ q x, F q = some x ↔ A q = some (x, .free) ∧ (q < a ∨ b ≤ q)) :
    F a = none ∧ ∀ q, binF (one A a b z .free) q = addF F a z q := by
  have hn : F a = none := by
    cases e : F a with
    | none => rfl
    | some x => have := (h a x).1 e; omega
  refine ⟨hn, fun q => ?_⟩
  apply binF_ext
  intro q x
  rw [one_some lt, addF_some hn, h]
  constructor
  · rintro (c | c)
    · exact .inl ⟨c.1, c.2.1⟩
    · exact .inr ⟨c.2, c.1⟩
  · rintro (c | c)
    · exact .inl ⟨c.1, c.2, rfl⟩
    · exact .inr ⟨c.2, c.1⟩

theorem dv_keep {a b z dv dvsize : Nat} {v : Use} (d : DvOk dv dvsize A) (lt : a < b) (hv : v ≠ .dv)
    (h : ∀ q w, A q = some (w, .dv) → q < a ∨ b ≤ q) : DvOk dv dvsize (one A a b z v) := by
  refine ⟨fun q w => ?_, d.zero⟩
  rw [one_some lt, ← d.iff]
  constructor
  · rintro (c | c)
    · exact absurd c.2.2.symm hv
    · exact c.2
  · intro c; exact .inr ⟨h q w c, c⟩

theorem dv_new {a b z : Nat} (lt : a < b) (hz : z ≠ 0) (h : ∀ q w, A q = some (w, .dv) → a ≤ q ∧ q < b) :
    DvOk a z (one A a b z .dv) := by
  refine ⟨fun q w => ?_, fun e => absurd e hz⟩
  rw [one_some lt]
  constructor
  · rintro (c | c)
    · exact ⟨c.1, c.2.1, hz⟩
    · have := h q w c.2; omega
  · intro c; exact .inl ⟨c.1, c.2.1, rfl⟩

theorem dv_gone {a b z : Nat} {v : Use} (lt : a < b) (hv : v ≠ .dv) (h : ∀ q w, A q = some (w, .dv) → a ≤ q ∧ q < b) :
    DvOk 0 0 (one A a b z v) := by
  refine ⟨fun q w => ⟨?_, fun c => absurd rfl c.2.2⟩, fun _ => rfl⟩
  rw [one_some lt]
  rintro (c | c)
  · exact absurd c.2.2.symm hv
  · have := h q w c.2; omega

theorem Inv.dvPos (i : Inv P s A) {a z : Nat} {u : Use} (h : A a = some (z, u)) (e : a = s.dv) : u = .dv ∧ z = s.dvsize ∧ s.dvsize ≠ 0 := by
  have hp := (i.tags.ok h).pos
  have h0 : s.dvsize ≠ 0 := by
    intro h0
    have := i.dv.zero h0
    omega
  have := (i.dv.iff s.dv s.dvsize).2 ⟨rfl, rfl, h0⟩
  rw [← e, h] at this
  cases this
  exact ⟨rfl, rfl, h0⟩

/-- The designated victim is not another chunk. -/
theorem Inv.dvNe (i : Inv P s A) {a z : Nat} {u : Use} (h : A a = some (z, u)) (hu : u ≠ .dv) : a ≠ s.dv := by
  intro e; exact hu (i.dvPos h e).1

theorem Inv.topNe (i : Inv P s A) {a z : Nat} {u : Use} (h : A a = some (z, u)) (hu : u ≠ .top) : a ≠ s.top := by
  intro e
  cases hs : s.segs with
  | nil => rw [i.empty hs] at h; cases h
  | cons g l =>
    have := (i.top s.top s.topsize).2 ⟨rfl, rfl, by rw [hs]; simp⟩
    rw [← e, h] at this; cases this; exact hu rfl

/-- What follows a chunk in use knows it. -/
theorem Tags.behind {mem mem' : Nat → Nat} (t : Tags mem A) {p z : Nat} {u : Use} (h : A p = some (z, u)) {b : Nat} (hb : p + z = b)
    (hm : mem' (b + 8) = mem (b + 8)) : Behind A mem' b u.isFree := by
  subst hb
  intro w v hw
  have o := t.ok hw
  rw [hm]
  refine ⟨o.size, o.cin, ?_, fun hf => (t.ok h).nofree hf w v hw⟩
  have := o.pin
  rw [PF.iff t h] at this
  cases hu : u.isFree <;> cases hp : pinuse (mem (p + z + 8)) <;> simp_all

theorem Tags.behindClear {mem mem' : Nat → Nat} (t : Tags mem A) {b : Nat}
    (hm : mem' (b + 8) = mem (b + 8) / 2 * 2) (hb : ∀ w v, A b = some (w, v) → v.inuse = true) : Behind A mem' b true := by
  intro w v hw
  have o := t.ok hw
  rw [hm, chunksize_clear, cinuse_clear, pinuse_clear]
  exact ⟨o.size, o.cin, rfl, fun _ => hb w v hw⟩

theorem Freed.after {p : Nat} {s' s'' : Hp} {A' A'' : Chunks} (f : Freed P s A p s' A') (i : Inv P s'' A'') (g : Grow s' A' s'' A'') :
    Freed P s A p s'' A'' := by
  refine ⟨i, fun q w h hne => ?_, fun q w h => f.only q w (g.only q w h)⟩
  obtain ⟨h1, h2⟩ := f.keep q w h hne
  obtain ⟨h3, h4⟩ := g.keep q w h1
  exact ⟨h3, fun x a b => (h4 x a b).trans (h2 x a b)⟩

theorem and_three (h : Nat) : h &&& 3 = h % 4 := Nat.and_two_pow_sub_one_eq_mod h 2

/-- What begins in the row. -/
theorem Before.inner (i : Inv P s A) {p z a : Nat} {s1 : Hp} (b : Before s A p z a s1) {c : Nat} {l} (sp : Span A c (p + z) l)
    {q w : Nat} {u : Use} (hq : A q = some (w, u)) (h1 : a ≤ q) (h2 : q < c) :
    (q = p ∧ u = .live) ∨ (q = a ∧ a ≠ p ∧ (u = .free ∨ u = .dv)) ∨ ((q, w, u) ∈ l) := by
  obtain ⟨x, l', sp', hx⟩ := b.span sp
  rcases hx _ (sp'.mem i.tags hq h1 h2).1 with h | h | h
  · cases h; exact .inl ⟨rfl, rfl⟩
  · exact .inr (.inl h)
  · exact .inr (.inr h)

/-- The chunk given back joins its neighbours. -/
theorem Inv.mergeB (i : Inv P s A) {p z a : Nat} {s1 : Hp} (b : Before s A p z a s1) {c : Nat} {l} (sp : Span A c (p + z) l)
    (hl : ∀ y ∈ l, y.2.2.inuse = false) {v : Use} (hv : v.inuse = false) {s' : Hp}
    (mp : s'.mapped = s.mapped) (ls : s'.least = s.least) (sg : s'.segs = s.segs)
    (tp : if v = .top then s'.top = a ∧ s'.topsize = c - a ∧ s.top + s.topsize = c ∧ s.segs ≠ [] ∧ a ≤ s.top
      else s'.top = s.top ∧ s'.topsize = s.topsize ∧ ∀ y ∈ l, y.2.2 ≠ .top)
    (m1 : s'.mem (a + 8) = (c - a) ||| 1) (m2 : v.isFree = true → s'.mem c = c - a)
    (ag : ∀ x, x < a + 8 ∨ c + 8 < x → s'.mem x = s.mem x)
    (bh : Behind A s'.mem c v.isFree) (hb : v ≠ .top → A c ≠ none) (hb' : v = .top → A c = none)
    (bn : s'.Bins (binF (one A a c (c - a) v))) (dv : DvOk s'.dv s'.dvsize (one A a c (c - a) v)) :
    Freed P s A p s' (one A a c (c - a) v) := by
  have t := i.tags
  have o := t.ok b.live
  have h32 := o.min' (by simp)
  have hle := b.le
  have hc := sp.le
  obtain ⟨x, l', sp', hx⟩ := b.span sp
  have nk : ∀ y ∈ x :: l', (y = (p, z, .live)) ∨ (y.2.2.inuse = false ∧ (y.2.2 = .top → y ∈ l)) := by
    intro y hy
    rcases hx y hy with h | ⟨h1, h2, h3⟩ | h
    · exact .inl h
    · right; rcases h3 with h | h <;> rw [h] <;> exact ⟨rfl, fun h => by cases h⟩
    · exact .inr ⟨hl y h, fun _ => h⟩
  refine i.merge sp' ⟨hle, by omega⟩ ?_ ?_ hv (by omega) b.npf mp ls sg ?_ m1 m2 ag bh hb hb' bn dv
  · intro y hy
    rcases nk y hy with rfl | h
    · simp
    · intro h'; rw [h'] at h; cases h.1
  · intro y hy hl
    rcases nk y hy with rfl | h
    · rfl
    · rw [hl] at h; cases h.1
  · by_cases c : v = .top
    · rw [if_pos c] at tp ⊢; exact tp
    · rw [if_neg c] at tp ⊢
      refine ⟨tp.1, tp.2.1, fun y hy => ?_⟩
      rcases nk y hy with rfl | h
      · simp
      · intro h'; exact tp.2.2 y (h.2 h') h'

/-- Words that may be accessed. -/
theorem Before.acc (i : Inv P s A) {p z a : Nat} {s1 : Hp} (b : Before s A p z a s1) :
    s1.mapped (a + 8) = true ∧ ∀ x, p ≤ x → x < p + z + 32 → s1.mapped x = true := by
  have t := i.tags
  rw [b.same.mapped]
  refine ⟨?_, fun x h1 h2 => i.mapped b.live h1 h2⟩
  have o := t.ok b.live
  have h8 := o.min
  rcases b.cases with rfl | ⟨y, u, h1, h2, h3⟩
  · exact i.mapped b.live (by omega) (by omega)
  · have := (t.ok h1).min
    exact i.mapped h1 (by omega) (by omega)

/-- The chunk becomes free; the one behind is in use. -/
theorem Inv.freeAlone (i : Inv P s A) {p z a : Nat} {s1 : Hp} (b : Before s A p z a s1) (ha : a ≠ s.dv)
    {w : Nat} {v : Use} (hn : A (p + z) = some (w, v)) (hv : v.inuse = true) :
    ∃ s', (do let s ← setFree s1 a (p + z - a) (p + z); return insertChunk s a (p + z - a) : R Hp) = .ok s' ∧
      ∃ A', Freed P s A p s' A' := by
  have t := i.tags
  have o := t.ok b.live
  have h32 := o.min' (by simp)
  have hle := b.le
  obtain ⟨hma, hmp⟩ := b.acc i
  have inner := fun {q w : Nat} {u : Use} => b.inner i .nil (q := q) (w := w) (u := u)
  have hac : a + (p + z - a) = p + z := by omega
  rw [setFree_ok hma (by rw [hac]; exact hmp _ (by omega) (by omega)) (hmp _ (by omega) (by omega)), hac, b.same.mem]
  simp only [bind, Except.bind]
  have hout : ∀ q x', delF (binF A) a q = some x' ↔ A q = some (x', .free) ∧ (q < a ∨ p + z ≤ q) := by
    intro q x'
    rw [delF_some, binF_some]
    constructor
    · rintro ⟨h1, h2⟩
      refine ⟨h2, ?_⟩
      by_contra hc
      rcases inner h2 (by omega) (by omega) with h | h | h
      · cases h.2
      · exact h1 h.1
      · cases h
    · rintro ⟨h1, h2⟩; exact ⟨by omega, h1⟩
  obtain ⟨f1, f2⟩ := binF_merge' (z := p + z - a) (show a < p + z by omega) hout
  refine ⟨_, rfl, _, i.mergeB b .nil (fun y hy => by cases hy) (v := .free) rfl ?_ ?_ ?_ ?_ ?_ ?_ ?_ ?_ ?_ ?_ ?_ ?_⟩
  · rw [(insertChunk_same _ _ _).mapped]; exact b.same.mapped
  · rw [(insertChunk_same _ _ _).least]; exact b.same.least
  · rw [(insertChunk_same _ _ _).segs]; exact b.same.segs
  · rw [if_neg (by simp), (insertChunk_same _ _ _).top, (insertChunk_same _ _ _).topsize]
    exact ⟨b.same.top, b.same.topsize, fun y hy => by cases hy⟩
  · rw [insertChunk_mem]
    show upd _ _ _ _ = _
    rw [upd_ne (by omega), upd_same]
  · intro _
    rw [insertChunk_mem]
    show upd _ _ _ _ = _
    rw [upd_same]
  · intro x hx'
    rw [insertChunk_mem]
    show upd _ _ _ _ = _
    rw [upd_ne (by omega), upd_ne (by omega), upd_ne (by omega)]
  · apply t.behindClear
    · rw [insertChunk_mem]
      show upd _ _ _ _ = _
      rw [upd_ne (by omega), upd_ne (by omega), upd_same]
    · intro w' v' hw; rw [hn] at hw; cases hw; exact hv
  · intro _; rw [hn]; simp
  · intro h; cases h
  · refine Bins.congr (F := addF (delF (binF A) a) a (p + z - a)) ?_ f2
    apply Bins.insertChunk _ f1 (by have := i.lt64 b.live; omega)
    on_goal 2 => exact b.bins
    intro q w' hq
    obtain ⟨q1, q2⟩ := (hout q w').1 hq
    have oq := t.ok q1
    have := oq.min' (by simp)
    have hqn : q ≠ p + z := by
      rintro rfl
      rw [hn] at q1; cases q1; cases hv
    have : q < p → q + w' ≤ p := t.disj q1 b.live
    show chunksize (upd _ _ _ _) = _
    rw [upd_ne (by omega), upd_ne (by omega), upd_ne (by omega)]
    exact oq.size
  · rw [(insertChunk_same _ _ _).dv, (insertChunk_same _ _ _).dvsize]
    show DvOk s1.dv s1.dvsize _
    rw [b.same.dv, b.same.dvsize]
    apply dv_keep i.dv (by omega) (by simp)
    intro q w' hq
    by_contra hc
    rcases inner hq (by omega) (by omega) with h | h | h
    · cases h.2
    · rw [h.1] at hq; exact ha ((i.dv.iff _ _).1 hq).1
    · cases h

/-- The chunk joins the designated victim before it; the one behind is in use. -/
theorem Inv.freeDvAlone (i : Inv P s A) {p z a : Nat} {s1 : Hp} (b : Before s A p z a s1) (ha : a = s.dv)
    {w : Nat} {v : Use} (hn : A (p + z) = some (w, v)) (hv : v.inuse = true) :
    ∃ s', setFree { s1 with dvsize := p + z - a } a (p + z - a) (p + z) = .ok s' ∧ ∃ A', Freed P s A p s' A' := by
  have t := i.tags
  have o := t.ok b.live
  have h32 := o.min' (by simp)
  have hle := b.le
  obtain ⟨hma, hmp⟩ := b.acc i
  have inner := fun {q w : Nat} {u : Use} => b.inner i .nil (q := q) (w := w) (u := u)
  have hac : a + (p + z - a) = p + z := by omega
  rw [setFree_ok (s := { s1 with dvsize := p + z - a }) hma (by rw [hac]; exact hmp _ (by omega) (by omega)) (hmp _ (by omega) (by omega)), hac]
  have hm := b.same.mem
  have hout : ∀ q x', delF (binF A) a q = some x' ↔ A q = some (x', .free) ∧ (q < a ∨ p + z ≤ q) := by
    intro q x'
    rw [delF_some, binF_some]
    constructor
    · rintro ⟨h1, h2⟩
      refine ⟨h2, ?_⟩
      by_contra hc
      rcases inner h2 (by omega) (by omega) with h | h | h
      · cases h.2
      · exact h1 h.1
      · cases h
    · rintro ⟨h1, h2⟩; exact ⟨by omega, h1⟩
  refine ⟨_, rfl, _, i.mergeB b .nil (fun y hy => by cases hy) (v := .dv) rfl b.same.mapped b.same.least b.same.segs ?_ ?_ ?_ ?_ ?_ ?_ ?_ ?_ ?_⟩
  · rw [if_neg (by simp)]
    exact ⟨b.same.top, b.same.topsize, fun y hy => by cases hy⟩
  · dsimp only; rw [upd_ne (by omega), upd_same]
  · intro _; dsimp only; rw [upd_same]
  · intro x hx'
    dsimp only; rw [upd_ne (by omega), upd_ne (by omega), upd_ne (by omega), hm]
  · apply t.behindClear
    · dsimp only; rw [upd_ne (by omega), upd_ne (by omega), upd_same, hm]
    · intro w' v' hw; rw [hn] at hw; cases hw; exact hv
  · intro _; rw [hn]; simp
  · intro h; cases h
  · refine Bins.congr (F := delF (binF A) a) b.bins (binF_merge (by omega) (by simp) hout)
  · dsimp only
    rw [b.same.dv, ← ha]
    apply dv_new (by omega) (by omega)
    intro q w' hq
    have := ((i.dv.iff _ _).1 hq).1
    omega

/-- The chunk behind is free, too. -/
theorem Inv.freeFree (i : Inv P s A) {p z a : Nat} {s1 : Hp} (b : Before s A p z a s1)
    {w : Nat} (hn : A (p + z) = some (w, .free)) :
    ∃ s', (do
        let s ← setSizeFree (unlinkChunk s1 (p + z) w) a (p + z - a + w)
        if a = s.dv then return { s with dvsize := p + z - a + w } else return insertChunk s a (p + z - a + w) : R Hp) = .ok s' ∧
      ∃ A', Freed P s A p s' A' := by
  have t := i.tags
  have o := t.ok b.live
  have o2 := t.ok hn
  have h32 := o.min' (by simp)
  have h32' := o2.min' (by simp)
  have hle := b.le
  obtain ⟨hma, hmp⟩ := b.acc i
  have inner := fun {q w' : Nat} {u : Use} => b.inner i (span1 hn) (q := q) (w := w') (u := u)
  have hac : a + (p + z - a + w) = p + z + w := by omega
  have hsz : p + z - a + w = p + z + w - a := by omega
  have us := unlinkChunk_same s1 (p + z) w
  have hmc : s1.mapped (p + z + w) = true := by rw [b.same.mapped]; exact i.mapped hn (by omega) (by omega)
  rw [setSizeFree_ok (by rw [us.mapped]; exact hma) (by rw [us.mapped, hac]; exact hmc), hac, hsz]
  simp only [bind, Except.bind]
  have hm := b.same.mem
  have hm' := us.mem
  have hda : delF (binF A) a (p + z) = some w := delF_some.2 ⟨by omega, binF_some.2 hn⟩
  have hout : ∀ q x', delF (delF (binF A) a) (p + z) q = some x' ↔ A q = some (x', .free) ∧ (q < a ∨ p + z + w ≤ q) := by
    intro q x'
    rw [delF_some, delF_some, binF_some]
    constructor
    · rintro ⟨h0, h1, h2⟩
      refine ⟨h2, ?_⟩
      by_contra hc
      rcases inner h2 (by omega) (by omega) with h | h | h
      · cases h.2
      · exact h1 h.1
      · simp at h; exact h0 h.1
    · rintro ⟨h1, h2⟩; exact ⟨by omega, by omega, h1⟩
  have hb3 : (unlinkChunk s1 (p + z) w).Bins (delF (delF (binF A) a) (p + z)) := b.bins.unlinkChunk hda
  have bhd : ∀ mem' : Nat → Nat, mem' (p + z + w + 8) = s.mem (p + z + w + 8) → Behind A mem' (p + z + w) true :=
    fun mem' h => t.behind hn rfl h
  have hA : A (p + z + w) ≠ none := o2.next (by simp) (by simp)
  by_cases hd : a = s.dv
  · rw [if_pos (by show a = (unlinkChunk s1 (p + z) w).dv; rw [us.dv, b.same.dv]; exact hd)]
    refine ⟨_, rfl, _, i.mergeB b (span1 hn) (fun y hy => by simp at hy; subst hy; rfl) (v := .dv) rfl
      (us.mapped.trans b.same.mapped) (us.least.trans b.same.least) (us.segs.trans b.same.segs) ?_ ?_ ?_ ?_ ?_ ?_ ?_ ?_ ?_⟩
    · rw [if_neg (by simp)]
      exact ⟨us.top.trans b.same.top, us.topsize.trans b.same.topsize, fun y hy => by simp at hy; subst hy; simp⟩
    · dsimp only; rw [upd_ne (by omega), upd_same]
    · intro _; dsimp only; rw [upd_same]
    · intro x hx'
      dsimp only; rw [upd_ne (by omega), upd_ne (by omega), hm', hm]
    · apply bhd; dsimp only; rw [upd_ne (by omega), upd_ne (by omega), hm', hm]
    · intro _; exact hA
    · intro h; cases h
    · exact Bins.congr (F := delF (delF (binF A) a) (p + z)) hb3 (binF_merge (by omega) (by simp) hout)
    · dsimp only
      rw [us.dv, b.same.dv, ← hd]
      apply dv_new (by omega) (by omega)
      intro q w' hq
      have := ((i.dv.iff _ _).1 hq).1
      omega
  · rw [if_neg (by show a ≠ (unlinkChunk s1 (p + z) w).dv; rw [us.dv, b.same.dv]; exact hd)]
    obtain ⟨f1, f2⟩ := binF_merge' (z := p + z + w - a) (show a < p + z + w by omega) hout
    refine ⟨_, rfl, _, i.mergeB b (span1 hn) (fun y hy => by simp at hy; subst hy; rfl) (v := .free) rfl ?_ ?_ ?_ ?_ ?_ ?_ ?_ ?_ ?_ ?_ ?_ ?_⟩
    · rw [(insertChunk_same _ _ _).mapped]; exact us.mapped.trans b.same.mapped
    · rw [(insertChunk_same _ _ _).least]; exact us.least.trans b.same.least
    · rw [(insertChunk_same _ _ _).segs]; exact us.segs.trans b.same.segs
    · rw [if_neg (by simp), (insertChunk_same _ _ _).top, (insertChunk_same _ _ _).topsize]
      exact ⟨us.top.trans b.same.top, us.topsize.trans b.same.topsize, fun y hy => by simp at hy; subst hy; simp⟩
    · rw [insertChunk_mem]; dsimp only; rw [upd_ne (by omega), upd_same]
    · intro _; rw [insertChunk_mem]; dsimp only; rw [upd_same]
    · intro x hx'
      rw [insertChunk_mem]; dsimp only; rw [upd_ne (by omega), upd_ne (by omega), hm', hm]
    · apply bhd; rw [insertChunk_mem]; dsimp only; rw [upd_ne (by omega), upd_ne (by omega), hm', hm]
    · intro _; exact hA
    · intro h; cases h
    · refine Bins.congr (F := addF (delF (delF (binF A) a) (p + z)) a (p + z + w - a)) ?_ f2
      apply Bins.insertChunk _ f1 (by have := i.lt64 hn; omega)
      on_goal 2 => exact hb3
      intro q w' hq
      obtain ⟨q1, q2⟩ := (hout q w').1 hq
      have oq := t.ok q1
      have := oq.min' (by simp)
      have : q < p → q + w' ≤ p := t.disj q1 b.live
      show chunksize (upd _ _ _ _) = _
      rw [upd_ne (by omega), upd_ne (by omega), hm', hm]
      exact oq.size
    · rw [(insertChunk_same _ _ _).dv, (insertChunk_same _ _ _).dvsize]
      show DvOk (unlinkChunk s1 (p + z) w).dv (unlinkChunk s1 (p + z) w).dvsize _
      rw [us.dv, us.dvsize, b.same.dv, b.same.dvsize]
      apply dv_keep i.dv (by omega) (by simp)
      intro q w' hq
      by_contra hc
      rcases inner hq (by omega) (by omega) with h | h | h
      · cases h.2
      · rw [h.1] at hq; exact hd ((i.dv.iff _ _).1 hq).1
      · simp at h

/-- The chunk behind is the designated victim. -/
theorem Inv.freeDv (i : Inv P s A) {p z a : Nat} {s1 : Hp} (b : Before s A p z a s1)
    {w : Nat} (hn : A (p + z) = some (w, .dv)) :
    ∃ s', setSizeFree { s1 with dvsize := w + (p + z - a), dv := a } a (w + (p + z - a)) = .ok s' ∧ ∃ A', Freed P s A p s' A' := by
  have t := i.tags
  have o := t.ok b.live
  have o2 := t.ok hn
  have h32 := o.min' (by simp)
  have h32' := o2.min' (by simp)
  have hle := b.le
  obtain ⟨hma, hmp⟩ := b.acc i
  have inner := fun {q w' : Nat} {u : Use} => b.inner i (span1 hn) (q := q) (w := w') (u := u)
  have hac : a + (w + (p + z - a)) = p + z + w := by omega
  have hsz : w + (p + z - a) = p + z + w - a := by omega
  have hmc : s1.mapped (p + z + w) = true := by rw [b.same.mapped]; exact i.mapped hn (by omega) (by omega)
  rw [setSizeFree_ok (s := { s1 with dvsize := w + (p + z - a), dv := a }) hma (by rw [hac]; exact hmc), hac, hsz]
  have hm := b.same.mem
  have hdn := (i.dv.iff _ _).1 hn
  have hout : ∀ q x', delF (binF A) a q = some x' ↔ A q = some (x', .free) ∧ (q < a ∨ p + z + w ≤ q) := by
    intro q x'
    rw [delF_some, binF_some]
    constructor
    · rintro ⟨h1, h2⟩
      refine ⟨h2, ?_⟩
      by_contra hc
      rcases inner h2 (by omega) (by omega) with h | h | h
      · cases h.2
      · exact h1 h.1
      · simp at h
    · rintro ⟨h1, h2⟩; exact ⟨by omega, h1⟩
  refine ⟨_, rfl, _, i.mergeB b (span1 hn) (fun y hy => by simp at hy; subst hy; rfl) (v := .dv) rfl
    b.same.mapped b.same.least b.same.segs ?_ ?_ ?_ ?_ ?_ ?_ ?_ ?_ ?_⟩
  · rw [if_neg (by simp)]
    exact ⟨b.same.top, b.same.topsize, fun y hy => by simp at hy; subst hy; simp⟩
  · dsimp only; rw [upd_ne (by omega), upd_same]
  · intro _; dsimp only; rw [upd_same]
  · intro x hx'
    dsimp only; rw [upd_ne (by omega), upd_ne (by omega), hm]
  · apply t.behind hn rfl; dsimp only; rw [upd_ne (by omega), upd_ne (by omega), hm]
  · intro _; exact o2.next (by simp) (by simp)
  · intro h; cases h
  · exact Bins.congr (F := delF (binF A) a) b.bins (binF_merge (by omega) (by simp) hout)
  · show DvOk a (p + z + w - a) _
    apply dv_new (by omega) (by omega)
    intro q w' hq
    have := ((i.dv.iff _ _).1 hq).1
    omega

/-- The chunk joins the top. -/
theorem Inv.freeTop (i : Inv P s A) {p z a : Nat} {s1 : Hp} (b : Before s A p z a s1)
    {w : Nat} (hn : A (p + z) = some (w, .top)) : FreesTo P s A p (Dl.freeTop s1 a (p + z - a)) := by
  have t := i.tags
  have o := t.ok b.live
  have o2 := t.ok hn
  have h32 := o.min' (by simp)
  have h8 := o2.min
  have hle := b.le
  obtain ⟨hma, hmp⟩ := b.acc i
  have inner := fun {q w' : Nat} {u : Use} => b.inner i (span1 hn) (q := q) (w := w') (u := u)
  obtain ⟨ht1, ht2, ht3⟩ := (i.top _ _).1 hn
  have hm := b.same.mem
  unfold Dl.freeTop
  simp only []
  rw [Hp.set_ok (s := { s1 with topsize := s1.topsize + (p + z - a), top := a }) _ hma]
  simp only [bind, Except.bind]
  have hsz : s1.topsize + (p + z - a) = p + z + w - a := by rw [b.same.topsize, ← ht2]; omega
  rw [hsz]
  have hout : ∀ q x', delF (binF A) a q = some x' ↔ A q = some (x', .free) ∧ (q < a ∨ p + z + w ≤ q) := by
    intro q x'
    rw [delF_some, binF_some]
    constructor
    · rintro ⟨h1, h2⟩
      refine ⟨h2, ?_⟩
      by_contra hc
      rcases inner h2 (by omega) (by omega) with h | h | h
      · cases h.2
      · exact h1 h.1
      · simp at h
    · rintro ⟨h1, h2⟩; exact ⟨by omega, h1⟩
  have main : ∀ s' : Hp, s'.mapped = s.mapped → s'.least = s.least → s'.segs = s.segs → s'.top = a → s'.topsize = p + z + w - a →
      s'.mem = upd s.mem (a + 8) (p + z + w - a ||| 1) → s'.Bins (delF (binF A) a) →
      DvOk s'.dv s'.dvsize (one A a (p + z + w) (p + z + w - a) .top) →
      Freed P s A p s' (one A a (p + z + w) (p + z + w - a) .top) := by
    intro s' h1 h2 h3 h4 h5 h6 h7 h8'
    have hl := o2.last (.inr rfl)
    refine i.mergeB b (span1 hn) (fun y hy => by simp at hy; subst hy; rfl) (v := .top) rfl h1 h2 h3 ?_ ?_ ?_ ?_ ?_ ?_ ?_ ?_ h8'
    · rw [if_pos rfl]; exact ⟨h4, h5, by omega, ht3, by omega⟩
    · rw [h6, upd_same]
    · intro h; cases h
    · intro x hx; rw [h6, upd_ne (by omega)]
    · intro w' v' hw; rw [hl] at hw; cases hw
    · intro h; exact absurd rfl h
    · intro _; exact hl
    · exact Bins.congr h7 (binF_merge (by omega) (by simp) hout)
  have fin : ∀ s' : Hp, Freed P s A p s' (one A a (p + z + w) (p + z + w - a) .top) →
      FreesTo P s A p (pure (s', if s'.trim < p + z + w - a then .trim else .stop)) := by
    intro s' f
    refine ⟨s', _, rfl, ?_, _, f⟩
    split
    · exact .inr rfl
    · exact .inl rfl
  by_cases hd : a = s.dv
  · rw [if_pos (c := a = s1.dv) (by rw [b.same.dv]; exact hd)]
    apply fin
    refine main _ b.same.mapped b.same.least b.same.segs rfl rfl (by dsimp only; rw [hm]) b.bins ?_
    apply dv_gone (by omega) (by simp)
    intro q w' hq
    have := ((i.dv.iff _ _).1 hq).1
    omega
  · rw [if_neg (c := a = s1.dv) (by rw [b.same.dv]; exact hd)]
    apply fin
    refine main _ b.same.mapped b.same.least b.same.segs rfl rfl (by dsimp only; rw [hm]) b.bins ?_
    dsimp only
    rw [b.same.dv, b.same.dvsize]
    apply dv_keep i.dv (by omega) (by simp)
    intro q w' hq
    by_contra hc
    rcases inner hq (by omega) (by omega) with h | h | h
    · cases h.2
    · rw [h.1] at hq; exact hd ((i.dv.iff _ _).1 hq).1
    · simp at h

/-- Forward consolidation; when the designated victim has grown, the next chunk is not in use. -/
theorem Inv.freeForward (i : Inv P s A) {p z a : Nat} {s1 : Hp} (b : Before s A p z a s1)
    (hd : a = s.dv → ∀ w v, A (p + z) = some (w, v) → v.inuse = false) :
    FreesTo P s A p (Dl.freeForward s1 a (p + z - a) (p + z)) := by
  have t := i.tags
  have o := t.ok b.live
  have h32 := o.min' (by simp)
  have hle := b.le
  obtain ⟨hma, hmp⟩ := b.acc i
  cases hn : A (p + z) with
  | none => exact absurd hn (o.next (by simp) (by simp))
  | some y =>
    obtain ⟨w, v⟩ := y
    have o2 := t.ok hn
    unfold Dl.freeForward
    have hg : s1.get (p + z + 8) = .ok (s.mem (p + z + 8)) := by rw [Hp.get_ok (hmp _ (by omega) (by omega)), b.same.mem]
    rw [hg]
    simp only [bind, Except.bind]
    have hpin : pinuse (s.mem (p + z + 8)) = true := by
      rw [o2.pin, PF.iff t b.live]; simp [Use.isFree]
    have tp := b.same.top
    have dp := b.same.dv
    rw [if_pos ⟨by omega, hpin⟩, o2.cin, o2.size]
    cases v with
    | live =>
      rw [if_neg (by simp [Use.inuse])]
      obtain ⟨s', h1, A', f⟩ := i.freeAlone b (fun h => by have := hd h _ _ hn; cases this) hn rfl
      obtain ⟨s2, h2, h3⟩ := then_ok h1
      rw [h2]
      cases h3
      exact ⟨_, _, rfl, .inl rfl, A', f⟩
    | link =>
      rw [if_neg (by simp [Use.inuse])]
      obtain ⟨s', h1, A', f⟩ := i.freeAlone b (fun h => by have := hd h _ _ hn; cases this) hn rfl
      obtain ⟨s2, h2, h3⟩ := then_ok h1
      rw [h2]
      cases h3
      exact ⟨_, _, rfl, .inl rfl, A', f⟩
    | top =>
      rw [if_pos (by simp [Use.inuse]), if_pos (tp ▸ ((i.top _ _).1 hn).1)]
      exact i.freeTop b hn
    | dv =>
      rw [if_pos (by simp [Use.inuse]), if_neg (tp ▸ i.topNe hn (by simp)), if_pos (dp ▸ ((i.dv.iff _ _).1 hn).1)]
      have h1 : s1.dvsize = w := by rw [b.same.dvsize]; exact ((i.dv.iff _ _).1 hn).2.1.symm
      rw [h1]
      obtain ⟨s', h1, A', f⟩ := i.freeDv b hn
      rw [h1]
      exact ⟨_, _, rfl, .inl rfl, A', f⟩
    | free =>
      rw [if_pos (by simp [Use.inuse]), if_neg (tp ▸ i.topNe hn (by simp)), if_neg (dp ▸ i.dvNe hn (by simp))]
      obtain ⟨s', h1, A', f⟩ := i.freeFree b hn
      obtain ⟨s2, h2, h3⟩ := then_ok h1
      rw [h2]
      refine ⟨s', .stop, ?_, .inl rfl, A', f⟩
      simp only [pure, Except.pure]
      split at h3
      · rename_i c; rw [if_pos c]; cases h3; rfl
      · rename_i c; rw [if_neg c]; cases h3; rfl

/-- `dlfree` without the system. -/
theorem Inv.freeChunk (i : Inv P s A) {p z : Nat} (h : A p = some (z, .live)) : FreesTo P s A p (Dl.freeChunk (p + 16) s) := by
  have t := i.tags
  have o := t.ok h
  have h32 := o.min' (by simp)
  have hm : ∀ x, p ≤ x → x < p + z + 32 → s.mapped x = true := fun x h1 h2 => i.mapped h h1 h2
  unfold Dl.freeChunk
  rw [if_neg (by omega), Nat.add_sub_cancel]
  simp only []
  rw [Hp.get_ok (hm _ (by omega) (by omega))]
  simp only [bind, Except.bind]
  rw [if_pos ⟨i.segs.least _ _ _ h, by rw [o.cin]; rfl⟩, o.size]
  by_cases hp : PF A p
  · have hpi : ¬ pinuse (s.mem (p + 8)) = true := fun c => o.pin.1 c hp
    rw [if_neg hpi]
    obtain ⟨q, y, u, hq, hu, rfl⟩ := hp
    have oq := t.ok hq
    have ul := isFree_ne hu
    have hy32 := oq.min' ul.2.1
    have hft := oq.foot hu
    have hal := oq.alz
    rw [Hp.get_ok (hm _ (by omega) (by omega)), hft]
    simp only []
    rw [if_neg (by omega), Nat.add_sub_cancel, if_pos (i.segs.least _ _ _ hq)]
    have hsz : z + y = q + y + z - q := by omega
    have hnpf : ¬ PF A q := t.notPF hq (isFree_inuse hu)
    rw [hsz]
    by_cases hd : q = s.dv
    · rw [if_neg (by simp [hd])]
      have hu' := (i.dvPos hq hd).1
      subst hu'
      have b : Before s A (q + y) z q s := by
        refine ⟨h, by omega, .inr ⟨y, .dv, hq, rfl, .inr rfl⟩, hnpf, ⟨rfl, rfl, rfl, rfl, rfl, rfl, rfl, rfl, rfl⟩, ?_⟩
        refine Bins.congr i.bins fun x => ?_
        unfold delF
        split
        · rename_i hx; subst hx; rw [binF_none]; intro w hw; rw [hq] at hw; cases hw
        · rfl
      rw [Hp.get_ok (hm _ (by omega) (by omega))]
      simp only []
      cases hn : A (q + y + z) with
      | none => exact absurd hn (o.next (by simp) (by simp))
      | some c =>
        obtain ⟨w, v⟩ := c
        have o2 := t.ok hn
        have hpin : pinuse (s.mem (q + y + z + 8)) = true := by
          rw [o2.pin, PF.iff t h]; simp [Use.isFree]
        have h3 : s.mem (q + y + z + 8) &&& 3 = 3 ↔ v.inuse = true := by
          rw [← o2.cin, and_three]
          rw [pinuse_eq, decide_eq_true_eq] at hpin
          rw [cinuse_eq, decide_eq_true_eq]
          omega
        by_cases hv : v.inuse = true
        · rw [if_pos (h3.2 hv)]
          obtain ⟨s', k1, A', f⟩ := i.freeDvAlone b hd hn hv
          rw [k1]
          exact ⟨_, _, rfl, .inl rfl, A', f⟩
        · rw [if_neg (fun c => hv (h3.1 c))]
          exact i.freeForward b (fun _ w' v' h' => by rw [hn] at h'; cases h'; simpa using hv)
    · rw [if_pos hd]
      have hu' : u = .free := by
        cases u <;> simp_all [Use.isFree]
        exact hd ((i.dv.iff _ _).1 hq).1
      subst hu'
      have b : Before s A (q + y) z q (unlinkChunk s q y) :=
        ⟨h, by omega, .inr ⟨y, .free, hq, rfl, .inl rfl⟩, hnpf, unlinkChunk_same _ _ _, i.bins.unlinkChunk (binF_some.2 hq)⟩
      exact i.freeForward b (fun c => absurd c hd)
  · rw [if_pos (o.pin.2 hp)]
    have b : Before s A p z p s := by
      refine ⟨h, Nat.le_refl _, .inl rfl, hp, ⟨rfl, rfl, rfl, rfl, rfl, rfl, rfl, rfl, rfl⟩, ?_⟩
      refine Bins.congr i.bins fun x => ?_
      unfold delF
      split
      · rename_i hx; subst hx; rw [binF_none]; intro w hw; rw [h] at hw; cases hw
      · rfl
    have := i.freeForward b (fun c => absurd c (i.dvNe h (by simp)))
    rw [Nat.add_sub_cancel_left] at this
    exact this

/-- `dlfree`. -/
theorem Inv.dlfree (i : Inv P s A) (hP : PageOk P) {e : Env} (he : e.page = P) {p z : Nat} (h : A p = some (z, .live)) :
    ∃ s', Dl.dlfree e (p + 16) s = .ok s' ∧ ∃ A', Freed P s A p s' A' := by
  obtain ⟨s1, t, h1, ht, A1, f⟩ := i.freeChunk h
  unfold Dl.dlfree
  rw [h1]
  rcases ht with rfl | rfl
  · exact ⟨s1, rfl, A1, f⟩
  · obtain ⟨s2, h2, A2, i2, g2⟩ := f.inv.sysTrim hP he
    exact ⟨s2, h2, A2, f.after i2 g2⟩

end

end Verif.Dl
