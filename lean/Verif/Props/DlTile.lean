import Verif.Dl.Tile
import Verif.Props.Dl

/-
C79: no memory of the heap is lost.
-/
namespace Verif.Props
open Verif Verif.Dl

/-- C79: the chunks of every segment, read from its base on by the sizes in the head words, end
exactly at the top or the record.  Of two neighbours one is in use, and so is the one before the
top.  Every chunk in use is a block that was handed out and not given back, at most 31 bytes
larger than needed; every other chunk is one that `dlmalloc` finds.  Every block is among the
chunks.  Behind them are the top, or the record, and at most 72 resp. 104 bytes. -/
theorem dl_tiled {P : Nat} (hP : PageOk P) {h : H} (r : Hist P h) :
    ∃ rows : Seg → List (Nat × Nat × Bool),
      (∀ g ∈ h.s.segs, Row h.s.mem (h.s.stop g) g.base (rows g) ∧
        (rows g).IsChain (fun a b => a.2.2 = true ∨ b.2.2 = true) ∧
        (g.link = 0 → ∀ y ∈ (rows g).getLast?, y.2.2 = true) ∧
        (∀ p z, (p, z, true) ∈ rows g → ∃ n, h.live (p + 16) = some n ∧ n + 8 ≤ z ∧ z < max 32 (n + 15) + 32) ∧
        (∀ p z, (p, z, false) ∈ rows g → Findable h.s p z) ∧
        (g.link = 0 → h.s.stop g + h.s.topsize + 72 = g.base + g.size ∧ h.s.mem (h.s.stop g + 8) = h.s.topsize + 1) ∧
        (g.link ≠ 0 → h.s.stop g + 72 ≤ g.base + g.size ∧ g.base + g.size ≤ h.s.stop g + 104)) ∧
      (∀ m n, h.live m = some n → ∃ g ∈ h.s.segs, ∃ z, (m - 16, z, true) ∈ rows g) := by
  obtain ⟨A, j⟩ := r.J hP
  have i := j.inv
  have S := i.segs
  have ex : ∀ g : Seg, ∃ l, g ∈ h.s.segs → Row h.s.mem (h.s.stop g) g.base l ∧
      (∀ y ∈ l, ∃ u, A y.1 = some (y.2.1, u) ∧ u ≠ .link ∧ u ≠ .top ∧ y.2.2 = u.inuse) ∧
      (∀ q w v, A q = some (w, v) → g.base ≤ q → q < h.s.stop g → (q, w, v.inuse) ∈ l) ∧
      l.IsChain (fun a b => a.2.2 = true ∨ b.2.2 = true) ∧
      (l = [] → g.base = h.s.stop g) ∧ (∀ y ∈ l.head?, y.1 = g.base) ∧
      (g.link = 0 → ∀ y ∈ l.getLast?, y.2.2 = true) := by
    intro g
    by_cases hg : g ∈ h.s.segs
    · have := (S.page g hg).2.2.2.1
      obtain ⟨l, hl⟩ := i.row hg _ g.base (S.first g hg) (Nat.le_refl _) (by omega) (Nat.le_refl _)
      exact ⟨l, fun _ => hl⟩
    · exact ⟨[], fun h => absurd h hg⟩
  choose rows hrows using ex
  refine ⟨rows, fun g hg => ?_, fun m n hm => ?_⟩
  · obtain ⟨r1, r2, r3, r4, r5, r6, r7⟩ := hrows g hg
    refine ⟨r1, r4, r7, ?_, ?_, ?_, ?_⟩
    · intro p z hy
      obtain ⟨u, h1, h2, h3, h4⟩ := r2 _ hy
      have hu : u = .live := Use.live_of h2 h4.symm
      subst hu
      have ho := j.only _ _ h1
      cases e : h.live (p + 16) with
      | none => exact absurd e ho
      | some n =>
        obtain ⟨k1, w, k2, k3, k4⟩ := j.live _ _ e
        rw [Nat.add_sub_cancel] at k2
        dsimp only at h1
        rw [h1] at k2
        cases k2
        exact ⟨n, rfl, k3, k4⟩
    · intro p z hy
      obtain ⟨u, h1, h2, h3, h4⟩ := r2 _ hy
      exact i.findable h1 (Use.free_of h3 h4.symm)
    · intro hl
      have hne : h.s.segs ≠ [] := by intro c; rw [c] at hg; cases hg
      have ht := (i.top h.s.top h.s.topsize).2 ⟨rfl, rfl, hne⟩
      unfold Hp.stop
      rw [if_pos hl]
      rcases i.segKind hg with ⟨k1, k2⟩ | ⟨k1, k2⟩
      · have := S.head g k2
        have o := i.tags.ok ht
        obtain ⟨w1, w2⟩ := o.word
        have hp := o.pin
        have hnp : ¬ PF A h.s.top := by
          rintro ⟨q, z, u, hq, hu, e⟩
          have := (i.tags.ok hq).nofree hu _ _ (by rw [e]; exact ht)
          cases this
        have hp1 := hp.2 hnp
        rw [pinuse_eq, decide_eq_true_iff] at hp1
        have ha := o.alz
        have hsz := o.size
        unfold chunksize at hsz
        have hc := of_decide_eq_false (p := h.s.mem (h.s.top + 8) / 2 % 2 = 1) w2
        exact ⟨this.2.2, by omega⟩
      · exact absurd hl k1
    · intro hl
      unfold Hp.stop
      rw [if_neg hl]
      rcases i.segKind hg with ⟨k1, k2⟩ | ⟨k1, k2⟩
      · exact absurd k1 hl
      · have := S.link g k2
        omega
  · obtain ⟨k1, w, k2, k3, k4⟩ := j.live _ _ hm
    obtain ⟨g, hg, g1, g2⟩ := S.hold _ _ _ k2
    obtain ⟨r1, r2, r3, -⟩ := hrows g hg
    refine ⟨g, hg, w, ?_⟩
    have hlt : m - 16 < h.s.stop g := by
      have hmin := (i.tags.ok k2).min
      unfold Hp.stop
      by_contra hc
      rcases i.segKind hg with ⟨q1, q2⟩ | ⟨q1, q2⟩
      · rw [if_pos q1] at hc
        have hne : h.s.segs ≠ [] := by intro c; rw [c] at hg; cases hg
        have ht := (i.top h.s.top h.s.topsize).2 ⟨rfl, rfl, hne⟩
        have hh := S.head g q2
        rcases Nat.lt_or_ge h.s.top (m - 16) with c | c
        · have h1 := i.tags.disj ht k2 c
          have h2 := S.past _ _ _ k2 g hg g1 (by omega)
          have := h2.1
          have := h2.2 (by simp)
          omega
        · have e : h.s.top = m - 16 := by omega
          rw [e, k2] at ht; cases ht
      · rw [if_neg q1] at hc
        have hh := S.link g q2
        rcases Nat.lt_or_ge (g.link - 16) (m - 16) with c | c
        · have h1 := i.tags.disj hh.2.1 k2 c
          have h2 := S.past _ _ _ k2 g hg g1 (by omega)
          have := h2.2 (by simp)
          omega
        · have e : g.link - 16 = m - 16 := by omega
          have := hh.2.1
          rw [e, k2] at this; cases this
    exact r3 _ _ _ k2 g1 hlt

/-- C79, when all blocks were given back: the first segment is nothing but top, and every other is
a single free chunk that `dlmalloc` finds, before its record. -/
theorem dl_all_freed {P : Nat} (hP : PageOk P) {h : H} (r : Hist P h) (hl : ∀ m, h.live m = none) {g : Seg} (hg : g ∈ h.s.segs) :
    (g.link = 0 → h.s.top = g.base ∧ h.s.topsize + 72 = g.size) ∧
    (g.link ≠ 0 → ∃ z, Findable h.s g.base z ∧ h.s.mem (g.base + 8) / 8 * 8 = z ∧ g.base + z + 16 = g.link ∧
      g.base + g.size ≤ g.link + 88) := by
  obtain ⟨rows, h1, -⟩ := dl_tiled hP r
  obtain ⟨r1, r2, r3, r4, r5, r6, r7⟩ := h1 g hg
  have allf : ∀ y ∈ rows g, y.2.2 = false := by
    intro y hy
    obtain ⟨p, z, b⟩ := y
    cases b with
    | false => rfl
    | true =>
      obtain ⟨n, hn, _⟩ := r4 p z hy
      rw [hl] at hn; cases hn
  constructor
  · intro h0
    have : rows g = [] := by
      by_contra hne
      have hm := List.getLast_mem hne
      have := r3 h0 _ (List.getLast?_eq_some_getLast hne)
      rw [allf _ hm] at this; cases this
    rw [this] at r1
    have e : g.base = h.s.stop g := by
      rcases r1.inv with ⟨_, e⟩ | ⟨_, e, _⟩
      · exact e
      · cases e
    have := (r6 h0).1
    unfold Hp.stop at e this
    rw [if_pos h0] at e this
    exact ⟨e.symm, by omega⟩
  · intro h0
    obtain ⟨A, j⟩ := r.J hP
    have hk : g ∈ h.s.segs.tail := by
      rcases j.inv.segKind hg with ⟨k1, _⟩ | ⟨_, k2⟩
      · exact absurd k1 h0
      · exact k2
    have hlk := j.inv.segs.link g hk
    have est : h.s.stop g = g.link - 16 := by unfold Hp.stop; rw [if_neg h0]
    rcases r1.inv with ⟨_, e⟩ | ⟨l, e, rr⟩
    · omega
    · rw [e] at r2 r5 allf
      cases l with
      | nil =>
        have : g.base + h.s.mem (g.base + 8) / 8 * 8 = h.s.stop g := by
          rcases rr.inv with ⟨_, e⟩ | ⟨_, e, _⟩
          · exact e
          · cases e
        exact ⟨_, r5 _ _ (by
          have := allf _ (List.mem_cons_self ..)
          dsimp only at this
          rw [this]; exact List.mem_cons_self ..), rfl, by omega, by omega⟩
      | cons y l =>
        exfalso
        rw [List.isChain_cons_cons] at r2
        have a1 := allf _ (List.mem_cons_self ..)
        have a2 := allf y (by simp)
        rcases r2.1 with c | c
        · rw [a1] at c; cases c
        · rw [a2] at c; cases c

/-! ## Examples -/

/-- A block is taken and given back: top, its size, segments. -/
def dlRunFree : Option (Nat × Nat × List Seg) := do
  let (_, s) ← (dlmalloc dlEnv 100 dlHp).toOption
  let s ← (dlfree dlEnv 0x100010 s).toOption
  return (s.top, s.topsize, s.segs)

example : dlRunFree = some (0x100000, 4096 - 72, [⟨0x100000, 4096, 0⟩]) := by decide +kernel

/-- Histories with a segment in which all blocks were given back. -/
example : ∃ h : H, Hist 4096 h ∧ (∀ m, h.live m = none) ∧ h.s.segs ≠ [] := by
  have hP : PageOk 4096 := ⟨12, by decide, by decide, by decide⟩
  have h0 : Hist 4096 ⟨dlHp, fun _ => none, fun _ => 0⟩ := .init _ _ _
  rcases dl_malloc hP h0 dlEnv_ok 100 with h1 | ⟨m, s', h1, _⟩
  · exfalso
    have := congrArg (fun r => r.toOption.map (·.1)) h1
    revert this
    decide +kernel
  · have r := Hist.malloc h0 dlEnv_ok h1
    have hm := congrArg (fun r => r.toOption.map (·.1)) h1
    have em : m = 0x100010 := by
      have : (dlmalloc ⟨4096, fun n => if n ≤ 2 ^ 20 then some 0x100000 else none, true, true, 0, fun _ _ => true⟩ 100 dlHp).toOption.map (·.1) =
        some (some 0x100010) := by decide +kernel
      have hm' : (dlmalloc ⟨4096, fun n => if n ≤ 2 ^ 20 then some 0x100000 else none, true, true, 0, fun _ _ => true⟩ 100 dlHp).toOption.map (·.1) =
        some (some m) := hm
      rw [this] at hm'
      cases hm'; rfl
    subst em
    obtain ⟨s1, h2, _⟩ := dl_free hP r (e := dlEnv) rfl (m := 0x100010) (n := 100) (by simp [H.set])
    refine ⟨_, .free r (m := 0x100010) (n := 100) (e := dlEnv) (by simp [H.set]) rfl h2, ?_, ?_⟩
    · intro m; simp only [H.set]; split <;> rfl
    · have hs : (do
          let (_, s) ← (dlmalloc ⟨4096, fun n => if n ≤ 2 ^ 20 then some 0x100000 else none, true, true, 0, fun _ _ => true⟩ 100 dlHp).toOption
          (dlfree dlEnv 0x100010 s).toOption.map Hp.segs) = some s1.segs := by
        rw [h1]
        show (dlfree dlEnv 0x100010 s').toOption.map Hp.segs = _
        have h2' : dlfree dlEnv 0x100010 s' = .ok s1 := h2
        rw [h2']; rfl
      intro c
      have c' : s1.segs = [] := c
      rw [c'] at hs
      revert hs
      decide +kernel

end Verif.Props
