import Verif.Dl.Hist

/-
The chunks of a segment, one behind the other.
-/
namespace Verif.Dl
open Verif

theorem Use.live_of {u : Use} (h : u ≠ .link) (e : u.inuse = true) : u = .live := by
  cases u with
  | live => rfl
  | link => exact absurd rfl h
  | _ => cases e

theorem Use.free_of {u : Use} (h : u ≠ .top) (e : u.inuse = false) : u.isFree = true := by
  cases u with
  | free => rfl
  | dv => rfl
  | top => exact absurd rfl h
  | _ => cases e

theorem Row.inv {mem : Nat → Nat} {b p : Nat} {l} (r : Row mem b p l) : (l = [] ∧ p = b) ∨
    ∃ l', l = (p, mem (p + 8) / 8 * 8, decide (mem (p + 8) / 2 % 2 = 1)) :: l' ∧ Row mem b (p + mem (p + 8) / 8 * 8) l' := by
  cases r with
  | nil => exact .inl ⟨rfl, rfl⟩
  | cons h r => exact .inr ⟨_, rfl, r⟩

section
variable {P : Nat} {s : Hp} {A : Chunks}

theorem Ok.word {mem : Nat → Nat} {p z : Nat} {u : Use} (o : Ok mem A p z u) :
    mem (p + 8) / 8 * 8 = z ∧ decide (mem (p + 8) / 2 % 2 = 1) = u.inuse := by
  have h1 := o.size
  have h2 := o.alz
  have h3 := o.cin
  rw [cinuse_eq] at h3
  unfold chunksize at h1
  exact ⟨by omega, h3⟩

/-- A segment is the first one or has a record. -/
theorem Inv.segKind (i : Inv P s A) {g : Seg} (hg : g ∈ s.segs) :
    (g.link = 0 ∧ s.segs.head? = some g) ∨ (g.link ≠ 0 ∧ g ∈ s.segs.tail) := by
  cases hs : s.segs with
  | nil => rw [hs] at hg; cases hg
  | cons a l =>
    rw [hs] at hg
    rcases List.mem_cons.1 hg with rfl | hg
    · exact .inl ⟨(i.segs.head g (by rw [hs]; rfl)).1, rfl⟩
    · refine .inr ⟨?_, hg⟩
      have := (i.segs.link g (by rw [hs]; exact hg)).1
      omega

/-- What ends a row of chunks. -/
theorem Inv.stopAt (i : Inv P s A) {g : Seg} (hg : g ∈ s.segs) {p z : Nat} {u : Use} (h : A p = some (z, u)) (h1 : g.base ≤ p)
    (h2 : p < g.base + g.size) : (u = .link ∨ u = .top) ↔ p = s.stop g := by
  have S := i.segs
  constructor
  · rintro (rfl | rfl)
    · obtain ⟨k, hk, e⟩ := S.own _ _ h
      have hl := S.link k hk
      have : k = g := pw_disj S.disj (List.mem_of_mem_tail hk) hg (x := p) (by omega) (by omega) h1 h2
      subst this
      unfold Hp.stop
      rw [if_neg (by omega)]; omega
    · obtain ⟨e1, e2, e3⟩ := (i.top _ _).1 h
      cases hs : s.segs with
      | nil => exact absurd hs e3
      | cons a l =>
        have hh := S.head a (by rw [hs]; rfl)
        have : a = g := pw_disj S.disj (by rw [hs]; simp) hg (x := p) (by omega) (by omega) h1 h2
        subst this
        unfold Hp.stop
        rw [if_pos hh.1]; exact e1
  · intro e
    unfold Hp.stop at e
    rcases i.segKind hg with ⟨k1, k2⟩ | ⟨k1, k2⟩
    · rw [if_pos k1] at e
      have : s.segs ≠ [] := by intro c; rw [c] at hg; cases hg
      have := (i.top s.top s.topsize).2 ⟨rfl, rfl, this⟩
      rw [← e, h] at this; cases this; exact .inr rfl
    · rw [if_neg k1] at e
      have := (S.link g k2).2.1
      rw [← e, h] at this; cases this; exact .inl rfl

/-- The row from a chunk on. -/
theorem Inv.row (i : Inv P s A) {g : Seg} (hg : g ∈ s.segs) (n : Nat) : ∀ p, A p ≠ none → g.base ≤ p → p < g.base + g.size →
    g.base + g.size - p ≤ n → ∃ l, Row s.mem (s.stop g) p l ∧
      (∀ y ∈ l, ∃ u, A y.1 = some (y.2.1, u) ∧ u ≠ .link ∧ u ≠ .top ∧ y.2.2 = u.inuse) ∧
      (∀ q w v, A q = some (w, v) → p ≤ q → q < s.stop g → (q, w, v.inuse) ∈ l) ∧
      l.IsChain (fun a b => a.2.2 = true ∨ b.2.2 = true) ∧
      (l = [] → p = s.stop g) ∧ (∀ y ∈ l.head?, y.1 = p) ∧
      (g.link = 0 → ∀ y ∈ l.getLast?, y.2.2 = true) := by
  induction n with
  | zero => intro p _ _ h1 h2; omega
  | succ n ih =>
    intro p hp h1 h2 h3
    have S := i.segs
    cases e : A p with
    | none => exact absurd e hp
    | some y =>
      obtain ⟨z, u⟩ := y
      have o := i.tags.ok e
      obtain ⟨w1, w2⟩ := o.word
      by_cases c : u = .link ∨ u = .top
      · have hst := (i.stopAt hg e h1 h2).1 c
        refine ⟨[], by rw [hst]; exact .nil, by simp, ?_, by simp, fun _ => hst, by simp, by simp⟩
        intro q w v _ h4 h5; omega
      · have hst := mt (i.stopAt hg e h1 h2).2 c
        have hu : u ≠ .link ∧ u ≠ .top := ⟨fun h => c (.inl h), fun h => c (.inr h)⟩
        have hmin := o.min
        have hpast := (S.past _ _ _ e g hg h1 h2).2 hu.1
        obtain ⟨l, r, l1, l2, l3, l4, l5, l6⟩ := ih (p + z) (o.next hu.1 hu.2) (by omega) (by omega) (by omega)
        refine ⟨(p, z, u.inuse) :: l, ?_, ?_, ?_, ?_, by simp, by simp, ?_⟩
        · have := Row.cons (mem := s.mem) (b := s.stop g) (p := p) (l := l) (by omega) (by rw [w1]; exact r)
          rwa [w1, w2] at this
        · intro y hy
          rcases List.mem_cons.1 hy with rfl | hy
          · exact ⟨u, e, hu.1, hu.2, rfl⟩
          · exact l1 y hy
        · intro q w v hq h4 h5
          by_cases d : q = p
          · subst d; rw [e] at hq; cases hq; exact List.mem_cons_self ..
          · have := i.tags.disj e hq (by omega)
            exact List.mem_cons_of_mem _ (l2 q w v hq this h5)
        · cases l with
          | nil => exact .singleton _
          | cons y l =>
            rw [List.isChain_cons_cons]
            refine ⟨?_, l3⟩
            obtain ⟨v, hv, _, _, v3⟩ := l1 y (List.mem_cons_self ..)
            rw [l5 y rfl] at hv
            cases hi : u.inuse with
            | true => exact .inl rfl
            | false =>
              have hf : u.isFree = true := Use.free_of hu.2 hi
              exact .inr (by rw [v3]; exact o.nofree hf _ _ hv)
        · intro hl y hy
          cases l with
          | nil =>
            simp only [List.getLast?_singleton, Option.mem_def, Option.some.injEq] at hy
            subst hy
            have hst' := l4 rfl
            cases hi : u.inuse with
            | true => rfl
            | false =>
              exfalso
              have hf : u.isFree = true := Use.free_of hu.2 hi
              unfold Hp.stop at hst'
              rw [if_pos hl] at hst'
              have hne : s.segs ≠ [] := by intro c; rw [c] at hg; cases hg
              have ht := (i.top s.top s.topsize).2 ⟨rfl, rfl, hne⟩
              rw [← hst'] at ht
              have := o.nofree hf _ _ ht
              cases this
          | cons a l =>
            rw [List.getLast?_cons_cons] at hy
            exact l6 hl y hy

theorem Inv.findable (i : Inv P s A) {p z : Nat} {u : Use} (h : A p = some (z, u)) (hu : u.isFree = true) : Findable s p z := by
  cases u with
  | free =>
    right
    have h' := binF_some.2 h
    split
    · rename_i c
      exact i.bins.smem.2 ⟨z, h', by rw [isSmall_iff]; exact c, rfl⟩
    · rename_i c
      refine i.bins.tmem.2 ⟨z, h', ?_, rfl⟩
      cases e : isSmall z with
      | false => rfl
      | true => rw [isSmall_iff] at e; omega
  | dv =>
    have := (i.dv.iff p z).1 h
    exact .inl ⟨this.1, this.2.1⟩
  | _ => cases hu
end

end Verif.Dl
