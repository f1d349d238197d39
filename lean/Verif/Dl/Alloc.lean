import Verif.Dl.Inv

/-
Allocation from free chunks: the whole chunk, or its beginning.
-/
namespace Verif.Dl
open Verif

/-- Chunks handed out stay, with the words of their blocks. -/
def Keep (s : Hp) (A : Chunks) (s' : Hp) (A' : Chunks) : Prop :=
  ∀ p z, A p = some (z, .live) → A' p = some (z, .live) ∧ ∀ x, p + 16 ≤ x → x < p + z + 8 → s'.mem x = s.mem x

theorem Keep.refl (s : Hp) (A : Chunks) : Keep s A s A := fun _ _ h => ⟨h, fun _ _ _ => rfl⟩

theorem Keep.trans {s s' s'' : Hp} {A A' A'' : Chunks} (h : Keep s A s' A') (h' : Keep s' A' s'' A'') :
    Keep s A s'' A'' := by
  intro p z hp
  obtain ⟨h1, h2⟩ := h p z hp
  obtain ⟨h3, h4⟩ := h' p z h1
  exact ⟨h3, fun x a b => (h4 x a b).trans (h2 x a b)⟩

/-- A chunk of at least `nb` bytes at `p` was handed out. -/
structure Got (P : Nat) (s : Hp) (A : Chunks) (nb p : Nat) (s' : Hp) (A' : Chunks) : Prop where
  inv : Inv P s' A'
  chunk : ∃ z, A' p = some (z, .live) ∧ nb ≤ z ∧ z < nb + 32
  fresh : ∀ z, A p ≠ some (z, .live)
  keep : Keep s A s' A'
  only : ∀ q w, A' q = some (w, .live) → q = p ∨ A q = some (w, .live)

theorem Keep.of {s s' : Hp} {A A' : Chunks} {a b : Nat} {l} (t : Tags s.mem A) (sp : Span A b a l)
    (nl : ∀ y ∈ l, y.2.2 ≠ .live)
    (out : ∀ p, p < a ∨ b ≤ p → A' p = A p)
    (ag : ∀ x, x < a + 8 ∨ b + 8 < x → s'.mem x = s.mem x) (ha : l ≠ []) : Keep s A s' A' := by
  intro p z hp
  have c : p < a ∨ b ≤ p := by
    by_contra h
    exact nl _ (sp.mem t hp (by omega) (by omega)).1 rfl
  refine ⟨by rw [out p c]; exact hp, fun x h1 h2 => ag x ?_⟩
  rcases c with c | c
  · have hpl : p + z ≤ a := by
      cases sp with
      | nil => exact absurd rfl ha
      | cons h _ => exact t.disj hp h c
    exact .inl (by omega)
  · exact .inr (by omega)

section
variable {mem : Nat → Nat} {A : Chunks} {p z : Nat} {u : Use}

theorem Tags.notPF (t : Tags mem A) (h : A p = some (z, u)) (hu : u.inuse = false) : ¬ PF A p := by
  rintro ⟨q, w, v, hq, hv, e⟩
  have := (t.ok hq).nofree hv z u (by rw [e]; exact h)
  rw [hu] at this; cases this

theorem span1 (h : A p = some (z, u)) : Span A (p + z) p [(p, z, u)] := .cons h .nil

theorem isFree_inuse {u : Use} (h : u.isFree = true) : u.inuse = false := by cases u <;> simp_all [Use.isFree, Use.inuse]
theorem isFree_ne {u : Use} (h : u.isFree = true) : u ≠ .link ∧ u ≠ .top ∧ u ≠ .live := by
  cases u <;> simp_all [Use.isFree]

/-- Nothing else begins in a chunk. -/
theorem one_single (t : Tags mem A) (h : A p = some (z, u)) (w : Nat) (v : Use) {q : Nat} (hq : q ≠ p) :
    one A p (p + z) w v q = A q := by
  by_cases c : p < q ∧ q < p + z
  · rw [one_in c.1 c.2]
    cases e : A q with
    | none => rfl
    | some y =>
      have := t.disj h (show A q = some (y.1, y.2) from e) c.1
      omega
  · exact one_out (by omega) (by have := (t.ok h).min; omega)

theorem two_single (t : Tags mem A) (h : A p = some (z, u)) {z1 w : Nat} (u1 : Use) (v : Use) {q : Nat}
    (hz : z1 < z) (h1 : 0 < z1) (hq : q ≠ p) (hq2 : q ≠ p + z1) : two A p (p + z) z1 u1 w v q = A q := by
  by_cases c : p < q ∧ q < p + z
  · rw [two_in c.1 c.2 hq2]
    cases e : A q with
    | none => rfl
    | some y =>
      have := t.disj h (show A q = some (y.1, y.2) from e) c.1
      omega
  · exact two_out (by omega) (by omega)

theorem none_inside (t : Tags mem A) (h : A p = some (z, u)) {q : Nat} (h1 : p < q) (h2 : q < p + z) : A q = none := by
  cases e : A q with
  | none => rfl
  | some y =>
    have := t.disj h (show A q = some (y.1, y.2) from e) h1
    omega

/-- The chunk is handed out as a whole. -/
theorem Tags.whole {mem' : Nat → Nat} (t : Tags mem A) (h : A p = some (z, u)) (hu : u.isFree = true)
    (m1 : mem' (p + 8) = z ||| 1 ||| 2) (m2 : mem' (p + z + 8) = mem (p + z + 8) ||| 1)
    (ag : ∀ x, x ≠ p + 8 → x ≠ p + z + 8 → mem' x = mem x) : Tags mem' (Dl.one A p (p + z) z .live) := by
  have o := t.ok h
  have hn := isFree_ne hu
  have h32 := o.min' hn.2.1
  apply t.one ((span1 h).place t).1 (u := .live)
  · intro x hx; exact ag x (by omega) (by omega)
  · exact o.alz
  · exact o.min
  · intro _; exact h32
  · exact Nat.le_refl _
  · intro _ _; exact ⟨rfl, o.next hn.1 hn.2.1⟩
  · intro h; simp at h
  · rw [m1, chunksize_three o.alz]
  · rw [m1, cinuse_three o.alz]; rfl
  · rw [m1, pinuse_three o.alz]; simp; exact t.notPF h (isFree_inuse hu)
  · intro h; cases h
  · intro _; rfl
  · intro w v hv
    have o2 := t.ok hv
    rw [m2, chunksize_or_one, cinuse_or_one, pinuse_or_one]
    exact ⟨o2.size, o2.cin, rfl, by intro h; cases h⟩

/-- The beginning of the chunk is handed out. -/
theorem Tags.split {mem' : Nat → Nat} (t : Tags mem A) (h : A p = some (z, u)) {nb rs : Nat} {v : Use}
    (hv : (u.isFree = true ∧ v.isFree = true ∧ 32 ≤ rs) ∨ (u = .top ∧ v = .top ∧ 8 ≤ rs)) (hnb : 8 ∣ nb) (h32 : 32 ≤ nb) (hz : nb + rs = z)
    (m1 : mem' (p + 8) = nb ||| 1 ||| 2) (m2 : mem' (p + nb + 8) = rs ||| 1)
    (m3 : v.isFree = true → mem' (p + z) = rs)
    (ag : ∀ x, x ≠ p + 8 → x ≠ p + nb + 8 → (v.isFree = true → x ≠ p + z) → mem' x = mem x) :
    Tags mem' (Dl.two A p (p + z) nb .live rs v) := by
  have o := t.ok h
  have hui : u.inuse = false := by rcases hv with h | h; · exact isFree_inuse h.1
                                   · rw [h.1]; rfl
  have hvi : v.inuse = false := by rcases hv with h | h; · exact isFree_inuse h.2.1
                                   · rw [h.2.1]; rfl
  have alr : 8 ∣ rs := by have := o.alz; omega
  apply t.two ((span1 h).place t).1 (u := .live)
  · intro x hx; exact ag x (by omega) (by omega) (by omega)
  · exact hnb
  · exact h32
  · simp
  · simp
  · exact alr
  · omega
  · intro hne
    rcases hv with h | h
    · exact h.2.2
    · exact absurd h.2.1 hne
  · omega
  · intro h1 h2
    refine ⟨by omega, ?_⟩
    rcases hv with h | h
    · exact o.next (isFree_ne h.1).1 (isFree_ne h.1).2.1
    · exact absurd h.2.1 h2
  · intro hl
    rcases hv with h | h
    · have := isFree_ne h.2.1
      rcases hl with e | e
      · exact absurd e this.1
      · exact absurd e this.2.1
    · exact o.last (.inr h.1)
  · rw [m1, chunksize_three hnb]
  · rw [m1, cinuse_three hnb]; rfl
  · rw [m1, pinuse_three hnb]; simp; exact t.notPF h hui
  · intro h; cases h
  · rw [m2, chunksize_one alr]
  · rw [m2, cinuse_one alr, hvi]
  · rw [m2, pinuse_one alr]; rfl
  · intro hf; rw [Nat.add_assoc, hz]; exact m3 hf
  · intro _; rfl
  · intro h; cases h
  · intro w v' hw
    rcases hv with hh | hh
    · have o2 := t.ok hw
      have e : mem' (p + z + 8) = mem (p + z + 8) := by
        apply ag <;> omega
      have hpf : PF A (p + z) := (PF.iff t h).2 hh.1
      rw [e, hh.2.1]
      refine ⟨o2.size, o2.cin, ?_, fun _ => o.nofree hh.1 w v' hw⟩
      have := o2.pin
      cases hp : pinuse (mem (p + z + 8)) with
      | false => rfl
      | true => exact absurd hpf (this.1 hp)
    · rw [o.last (.inr hh.1)] at hw; cases hw
end

theorem setInuse_ok {s : Hp} {p z : Nat} (h1 : s.mapped (p + 8) = true) (h2 : s.mapped (p + z + 8) = true) (hz : 0 < z) :
    setInuse s p z = .ok { s with mem := upd (upd s.mem (p + 8) (z ||| 1 ||| 2)) (p + z + 8) (s.mem (p + z + 8) ||| 1) } := by
  have hp8 : p + z + 8 ≠ p + 8 := by omega
  unfold setInuse
  rw [Hp.set_ok _ h1]
  simp only [bind, Except.bind]
  rw [Hp.get_ok (s := { s with mem := upd s.mem (p + 8) (z ||| 1 ||| 2) }) h2]
  simp only []
  rw [Hp.set_ok (s := { s with mem := upd s.mem (p + 8) (z ||| 1 ||| 2) }) _ h2]
  simp only [upd_ne hp8]

theorem setSizeInuse_ok {s : Hp} {p : Nat} (z : Nat) (h1 : s.mapped (p + 8) = true) :
    setSizeInuse s p z = .ok { s with mem := upd s.mem (p + 8) (z ||| 1 ||| 2) } := Hp.set_ok _ h1

theorem setSizeFree_ok {s : Hp} {p z : Nat} (h1 : s.mapped (p + 8) = true) (h2 : s.mapped (p + z) = true) :
    setSizeFree s p z = .ok { s with mem := upd (upd s.mem (p + 8) (z ||| 1)) (p + z) z } := by
  unfold setSizeFree
  rw [Hp.set_ok _ h1]
  simp only [bind, Except.bind]
  exact Hp.set_ok (s := { s with mem := upd s.mem (p + 8) (z ||| 1) }) _ h2

theorem setFree_ok {s : Hp} {p z n : Nat} (h1 : s.mapped (p + 8) = true) (h2 : s.mapped (p + z) = true)
    (h3 : s.mapped (n + 8) = true) : setFree s p z n =
      .ok { s with mem := upd (upd (upd s.mem (n + 8) (s.mem (n + 8) / 2 * 2)) (p + 8) (z ||| 1)) (p + z) z } := by
  unfold setFree
  rw [Hp.get_ok h3]
  simp only [bind, Except.bind]
  rw [Hp.set_ok _ h3]
  exact setSizeFree_ok (s := { s with mem := upd s.mem (n + 8) (s.mem (n + 8) / 2 * 2) }) h1 h2

section
variable {P : Nat} {s : Hp} {A : Chunks}

/-- Fields that the operations on bins and the designated victim leave. -/
structure Same (s s1 : Hp) : Prop where
  mem : s1.mem = s.mem
  mapped : s1.mapped = s.mapped
  top : s1.top = s.top
  topsize : s1.topsize = s.topsize
  least : s1.least = s.least
  segs : s1.segs = s.segs

theorem SameBut.same {s s' : Hp} (h : SameBut s s') : Same s s' := ⟨h.mem, h.mapped, h.top, h.topsize, h.least, h.segs⟩

theorem Inv.useWhole (i : Inv P s A) {p z : Nat} {u : Use} (h : A p = some (z, u)) (hu : u.isFree = true)
    {s1 : Hp} (e : Same s s1) (b : s1.Bins (delF (binF A) p)) (d : DvOk s1.dv s1.dvsize (one A p (p + z) z .live))
    {nb : Nat} (hnb : nb ≤ z ∧ z < nb + 32) :
    ∃ s', setInuse s1 p z = .ok s' ∧ Got P s A nb p s' (one A p (p + z) z .live) := by
  have t := i.tags
  have o := t.ok h
  have h32 := o.min' (isFree_ne hu).2.1
  have mp1 : s1.mapped (p + 8) = true := by rw [e.mapped]; exact i.mapped h (by omega) (by omega)
  have mp2 : s1.mapped (p + z + 8) = true := by rw [e.mapped]; exact i.mapped h (by omega) (by omega)
  have hp8 : p + z + 8 ≠ p + 8 := by omega
  refine ⟨{ s1 with mem := upd (upd s1.mem (p + 8) (z ||| 1 ||| 2)) (p + z + 8) (s1.mem (p + z + 8) ||| 1) }, ?_, ?_⟩
  · exact setInuse_ok mp1 mp2 (by omega)
  · have ag : ∀ x, x ≠ p + 8 → x ≠ p + z + 8 →
        upd (upd s1.mem (p + 8) (z ||| 1 ||| 2)) (p + z + 8) (s1.mem (p + z + 8) ||| 1) x = s.mem x := by
      intro x h1 h2; rw [upd_ne h2, upd_ne h1, e.mem]
    have sp := span1 h
    have nl : ∀ y ∈ [(p, z, u)], y.2.2 ≠ .link := by
      intro y hy; rw [List.mem_singleton] at hy; rw [hy]; exact (isFree_ne hu).1
    have nlv : ∀ y ∈ [(p, z, u)], y.2.2 ≠ .live := by
      intro y hy; rw [List.mem_singleton] at hy; rw [hy]; exact (isFree_ne hu).2.2
    have hlt : p < p + z := by omega
    refine ⟨⟨?_, ?_, d, ?_, ?_⟩, ⟨z, one_a .., hnb⟩, ?_, ?_, ?_⟩
    · exact t.whole h hu (by show upd _ _ _ _ = _; rw [upd_ne (by omega), upd_same])
        (by show upd _ _ _ _ = _; rw [upd_same, e.mem]) ag
    · refine b.congr ?_
      intro q
      by_cases c : q = p
      · subst c; simp [delF, binF, one_a]
      · simp only [delF, if_neg c, binF, one_single t h _ _ c]
    · intro q w
      dsimp only
      rw [e.segs, e.top, e.topsize, ← i.top q w]
      by_cases c : q = p
      · subst c; rw [one_a, h]
        constructor
        · intro h'; simp at h'
        · intro h'; cases h'; exact absurd rfl (isFree_ne hu).2.1
      · rw [one_single t h _ _ c]
    · have := Segs.repl (A' := one A p (p + z) z .live) (top := s.top) (topsize := s.topsize) i sp nl
        (fun q hq => one_out hq hlt) (by rw [one_a]; simp) ?_ (.inl ⟨rfl, rfl⟩)
      · dsimp only; rw [e.segs, e.mapped, e.top, e.topsize, e.least]; exact this
      · intro q w v hq h1 h2
        rcases (one_some hlt).1 hq with c | c
        · exact ⟨by omega, by simp [c.2.2]⟩
        · omega
    · intro w hw; rw [h] at hw; cases hw; exact absurd rfl (isFree_ne hu).2.2
    · exact Keep.of t sp nlv (fun q hq => one_out hq hlt) (fun x hx => ag x (by omega) (by omega)) (by simp)
    · intro q w hq
      rcases (one_some hlt).1 hq with c | c
      · exact .inl c.1
      · exact .inr c.2

/-- The state after a chunk was split. -/
theorem Inv.useSplit (i : Inv P s A) {p z : Nat} {u : Use} (h : A p = some (z, u)) {nb rs : Nat} {v : Use}
    (hv : (u.isFree = true ∧ v.isFree = true ∧ 32 ≤ rs) ∨ (u = .top ∧ v = .top ∧ 8 ≤ rs)) (hnb : 8 ∣ nb) (h32 : 32 ≤ nb)
    (hz : nb + rs = z) {s' : Hp}
    (mp : s'.mapped = s.mapped) (ls : s'.least = s.least) (sg : s'.segs = s.segs)
    (tp : if u = .top then s'.top = p + nb ∧ s'.topsize = rs else s'.top = s.top ∧ s'.topsize = s.topsize)
    (m1 : s'.mem (p + 8) = nb ||| 1 ||| 2) (m2 : s'.mem (p + nb + 8) = rs ||| 1)
    (m3 : v.isFree = true → s'.mem (p + z) = rs)
    (ag : ∀ x, x ≠ p + 8 → x ≠ p + nb + 8 → (v.isFree = true → x ≠ p + z) → s'.mem x = s.mem x)
    (b : s'.Bins (binF (two A p (p + z) nb .live rs v))) (d : DvOk s'.dv s'.dvsize (two A p (p + z) nb .live rs v)) :
    Got P s A nb p s' (two A p (p + z) nb .live rs v) := by
  have t := i.tags
  have o := t.ok h
  have sp := span1 h
  have une : u ≠ .link ∧ u ≠ .live := by
    rcases hv with g | g
    · exact ⟨(isFree_ne g.1).1, (isFree_ne g.1).2.2⟩
    · rw [g.1]; exact ⟨by simp, by simp⟩
  have nl : ∀ y ∈ [(p, z, u)], y.2.2 ≠ .link := by
    intro y hy; rw [List.mem_singleton] at hy; rw [hy]; exact une.1
  have nlv : ∀ y ∈ [(p, z, u)], y.2.2 ≠ .live := by
    intro y hy; rw [List.mem_singleton] at hy; rw [hy]; exact une.2
  have hlt : p + nb < p + z := by omega
  refine ⟨⟨t.split h hv hnb h32 hz m1 m2 m3 ag, b, d, ?_, ?_⟩, ⟨nb, two_a .., Nat.le_refl _, by omega⟩, ?_, ?_, ?_⟩
  · intro q w
    rw [two_some (by omega) hlt, sg]
    by_cases hut : u = .top
    · have hvt : v = .top := by
        rcases hv with g | g
        · rw [hut] at g; exact absurd g.1 (by simp [Use.isFree])
        · exact g.2.1
      rw [if_pos hut] at tp
      rw [tp.1, tp.2, hvt]
      subst hut
      have htop := (i.top p z).1 h
      constructor
      · rintro (c | c | c)
        · simp at c
        · exact ⟨c.1, c.2.1, htop.2.2⟩
        · have := (i.top q w).1 c.2
          omega
      · rintro ⟨rfl, rfl, _⟩; exact .inr (.inl ⟨rfl, rfl, rfl⟩)
    · have hvt : v ≠ .top := by
        rcases hv with g | g
        · exact (isFree_ne g.2.1).2.1
        · exact absurd g.1 hut
      rw [if_neg hut] at tp
      rw [tp.1, tp.2, ← i.top q w]
      constructor
      · rintro (c | c | c)
        · simp at c
        · exact absurd c.2.2.symm hvt
        · exact c.2
      · intro hq
        refine .inr (.inr ⟨?_, hq⟩)
        by_contra hc
        have := (sp.mem t hq (by omega) (by omega)).1
        rw [List.mem_singleton] at this
        simp only [Prod.mk.injEq] at this
        exact hut this.2.2.symm
  · have hin : ∀ q w v', two A p (p + z) nb .live rs v q = some (w, v') → p ≤ q → q < p + z → q + w ≤ p + z ∧ v' ≠ .link := by
      intro q w v' hq h1 h2
      rcases (two_some (by omega) hlt).1 hq with c | c | c
      · exact ⟨by omega, by simp [c.2.2]⟩
      · refine ⟨by omega, ?_⟩
        rintro rfl
        rcases hv with g | g
        · rw [← c.2.2] at g; exact absurd g.2.1 (by simp [Use.isFree])
        · rw [← c.2.2] at g; cases g.2.1
      · omega
    rw [sg, mp, ls]
    apply Segs.repl i sp nl (fun q hq => two_out hq hlt) (by rw [two_a]; simp) hin
    by_cases hut : u = .top
    · rw [if_pos hut] at tp
      right
      subst hut
      have htop := (i.top p z).1 h
      refine ⟨htop.2.2, by omega, by omega, by omega, by omega⟩
    · rw [if_neg hut] at tp; exact .inl tp
  · intro w hw; rw [h] at hw; cases hw; exact absurd rfl une.2
  · exact Keep.of t sp nlv (fun q hq => two_out hq hlt)
      (fun x hx => ag x (by omega) (by omega) (by omega)) (by simp)
  · intro q w hq
    rcases (two_some (by omega) hlt).1 hq with c | c | c
    · exact .inl c.1
    · exfalso
      rcases hv with g | g
      · rw [← c.2.2] at g; exact absurd g.2.1 (by simp [Use.isFree])
      · rw [← c.2.2] at g; cases g.2.1
    · exact .inr c.2

/-! ### Bins and the designated victim afterwards -/

theorem binF_two {p z : Nat} {u : Use} (i : Inv P s A) (h : A p = some (z, u)) {nb rs : Nat} {v : Use}
    (hnb : 0 < nb) (hlt : nb < z) (q : Nat) :
    binF (two A p (p + z) nb .live rs v) q =
      if v = .free then addF (delF (binF A) p) (p + nb) rs q else delF (binF A) p q := by
  have t := i.tags
  have hn : A (p + nb) = none := none_inside t h (by omega) (by omega)
  by_cases c : q = p
  · subst c
    have : ¬ q = q + nb := by omega
    simp [binF, two_a, delF, addF]; intros; omega
  · by_cases c2 : q = p + nb
    · subst c2
      cases v <;> simp [binF, two_z hnb, addF, delF, hn]
    · simp only [binF, two_single t h _ _ hlt hnb c c2, delF, addF, if_neg c, if_neg c2, ite_self]

theorem dvOk_two {p z : Nat} {u : Use} (i : Inv P s A) (h : A p = some (z, u)) {nb rs : Nat} {v : Use}
    (hnb : 0 < nb) (hlt : nb < z) (hu : u ≠ .dv) (hv : v ≠ .dv) :
    DvOk s.dv s.dvsize (two A p (p + z) nb .live rs v) := by
  refine ⟨?_, i.dv.zero⟩
  intro q w
  rw [← i.dv.iff q w, two_some hnb (by omega)]
  constructor
  · rintro (c | c | c)
    · simp at c
    · exact absurd c.2.2.symm hv
    · exact c.2
  · intro hq
    refine .inr (.inr ⟨?_, hq⟩)
    by_contra hc
    have := ((span1 h).mem i.tags hq (by omega) (by omega)).1
    rw [List.mem_singleton] at this
    simp only [Prod.mk.injEq] at this
    exact hu this.2.2.symm

theorem dvOk_one {p z : Nat} {u : Use} (i : Inv P s A) (h : A p = some (z, u)) (hu : u ≠ .dv) {v : Use} (hv : v ≠ .dv) {w : Nat} :
    DvOk s.dv s.dvsize (one A p (p + z) w v) := by
  refine ⟨?_, i.dv.zero⟩
  intro q y
  rw [← i.dv.iff q y]
  by_cases c : q = p
  · subst c; rw [one_a, h]
    constructor
    · intro e; cases e; exact absurd rfl hv
    · intro e; cases e; exact absurd rfl hu
  · rw [one_single i.tags h _ _ c]

/-- The designated victim is gone, or another. -/
theorem dvOk_none_one {p z : Nat} (i : Inv P s A) (h : A p = some (z, .dv)) {v : Use} (hv : v ≠ .dv) {w : Nat} :
    DvOk 0 0 (one A p (p + z) w v) := by
  refine ⟨?_, fun _ => rfl⟩
  intro q y
  have hd := (i.dv.iff p z).1 h
  constructor
  · intro e
    by_cases c : q = p
    · subst c; rw [one_a] at e; cases e; exact absurd rfl hv
    · rw [one_single i.tags h _ _ c] at e
      have := (i.dv.iff q y).1 e
      omega
  · rintro ⟨_, _, e⟩; exact absurd rfl e

theorem dvOk_two_dv {p z nb rs : Nat}
    (hnb : 0 < nb) (hlt : nb < z) (hrs : 0 < rs) (hd : ∀ q w, A q = some (w, .dv) → q = p) :
    DvOk (p + nb) rs (two A p (p + z) nb .live rs .dv) := by
  refine ⟨?_, fun h => by omega⟩
  intro q w
  rw [two_some hnb (by omega)]
  constructor
  · rintro (c | c | c)
    · simp at c
    · exact ⟨c.1, c.2.1, by omega⟩
    · have := hd q w c.2; omega
  · rintro ⟨rfl, rfl, _⟩; exact .inr (.inl ⟨rfl, rfl, rfl⟩)
end

end Verif.Dl
