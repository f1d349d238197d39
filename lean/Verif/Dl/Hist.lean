import Verif.Dl.Free

/-
The invariant along the histories.
-/
namespace Verif.Dl
open Verif

/-- The blocks handed out are the live chunks. -/
structure J (P : Nat) (h : H) (A : Chunks) : Prop where
  inv : Inv P h.s A
  live : ∀ m n, h.live m = some n → 16 < m ∧ ∃ z, A (m - 16) = some (z, .live) ∧ n + 8 ≤ z ∧ z < max 32 (n + 15) + 32
  only : ∀ p z, A p = some (z, .live) → h.live (p + 16) ≠ none
  val : ∀ m n, h.live m = some n → ∀ x, InBlock m n x → h.s.mem x = h.val x

section
variable {P : Nat}

theorem Got.J {h : H} {A : Chunks} (j : J P h A) {n p : Nat} {s' : Hp} {A' : Chunks} (g : Got P h.s A (need n) p s' A')
    (v : Nat → Nat) (hv : ∀ x, v x = if p + 16 ≤ x ∧ x < p + 16 + n then s'.mem x else h.val x) :
    J P (h.set (p + 16) (some n) s' v) A' ∧ h.live (p + 16) = none := by
  obtain ⟨z, hz, hnz⟩ := g.chunk
  have hlt := g.inv.lt64 hz
  have hnd := (need_ok (bytes := n)).2 (by omega)
  have hnone : h.live (p + 16) = none := by
    cases e : h.live (p + 16) with
    | none => rfl
    | some k =>
      obtain ⟨h1, w, h2, h3⟩ := j.live _ _ e
      rw [Nat.add_sub_cancel] at h2
      exact absurd h2 (g.fresh w)
  refine ⟨⟨g.inv, ?_, ?_, ?_⟩, hnone⟩
  · intro m k hm
    simp only [H.set] at hm
    split at hm
    · rename_i he; subst he
      cases hm
      have := (g.inv.tags.ok hz).pos
      exact ⟨by omega, z, by rw [Nat.add_sub_cancel]; exact hz, by omega⟩
    · obtain ⟨h1, w, h2, h3⟩ := j.live _ _ hm
      exact ⟨h1, w, (g.keep _ _ h2).1, h3⟩
  · intro q w hq
    simp only [H.set]
    split
    · simp
    · rcases g.only q w hq with c | c
      · subst c; rename_i hne; exact absurd rfl hne
      · exact j.only q w c
  · intro m k hm x hx
    simp only [H.set] at hm
    show s'.mem x = v x
    rw [hv]
    split at hm
    · rename_i he; subst he
      cases hm
      unfold InBlock at hx; rw [if_pos hx]
    · obtain ⟨h1, w, h2, h3⟩ := j.live _ _ hm
      obtain ⟨k1, k2⟩ := g.keep _ _ h2
      unfold InBlock at hx
      rw [k2 x (by omega) (by omega)]
      rw [if_neg]
      · exact j.val m k hm x hx
      · intro hc
        rcases Nat.lt_trichotomy (m - 16) p with c | c | c
        · have := g.inv.tags.disj k1 hz c; omega
        · rename_i hne; omega
        · have := g.inv.tags.disj hz k1 c; omega

theorem Freed.J {h : H} {A : Chunks} (j : J P h A) {p n : Nat} {s' : Hp} {A' : Chunks} (f : Freed P h.s A p s' A')
    (hl : h.live (p + 16) = some n) : J P (h.set (p + 16) none s' h.val) A' := by
  refine ⟨f.inv, ?_, ?_, ?_⟩
  · intro m k hm
    simp only [H.set] at hm
    split at hm
    · cases hm
    · obtain ⟨h1, w, h2, h3⟩ := j.live _ _ hm
      exact ⟨h1, w, (f.keep _ _ h2 (by omega)).1, h3⟩
  · intro q w hq
    obtain ⟨h1, h2⟩ := f.only q w hq
    simp only [H.set]
    rw [if_neg (by omega)]
    exact j.only q w h1
  · intro m k hm x hx
    simp only [H.set] at hm
    split at hm
    · cases hm
    · obtain ⟨h1, w, h2, h3⟩ := j.live _ _ hm
      unfold InBlock at hx
      show s'.mem x = _
      rw [(f.keep _ _ h2 (by omega)).2 x (by omega) (by omega)]
      exact j.val m k hm x hx

theorem J.malloc {h : H} {A : Chunks} (j : J P h A) (hP : PageOk P) {e : Env} (he : EnvOk P e h.s) (n : Nat) :
    (dlmalloc e n h.s = .ok (none, h.s) ∧ (reqSize e (need n) ≤ need n ∨ e.mmap (reqSize e (need n)) = none) ∧
      h.s.dvsize < need n ∧ h.s.topsize ≤ need n) ∨
    ∃ p s' A', dlmalloc e n h.s = .ok (some (p + 16), s') ∧ Got P h.s A (need n) p s' A' :=
  j.inv.dlmalloc hP he n

theorem J.free {h : H} {A : Chunks} (j : J P h A) (hP : PageOk P) {e : Env} (he : e.page = P) {m n : Nat} (hm : h.live m = some n) :
    ∃ s', dlfree e m h.s = .ok s' ∧ ∃ A', Freed P h.s A (m - 16) s' A' := by
  obtain ⟨h1, z, h2, h3⟩ := j.live m n hm
  have := j.inv.dlfree hP he h2
  rwa [show m - 16 + 16 = m by omega] at this

theorem J.store {h : H} {A : Chunks} (j : J P h A) {m n x v : Nat} (hm : h.live m = some n) (hx : InBlock m n x) (h8 : 8 ∣ x) :
    J P { h with s := { h.s with mem := upd h.s.mem x v }, val := upd h.val x v } A := by
  obtain ⟨h1, z, h2, h3⟩ := j.live m n hm
  unfold InBlock at hx
  have i := j.inv
  refine ⟨⟨?_, i.bins, i.dv, i.top, i.segs⟩, j.live, j.only, ?_⟩
  · exact i.tags.body h2 rfl (fun y hy => upd_ne (by omega))
  · intro m' n' hm' y hy
    show upd h.s.mem x v y = upd h.val x v y
    by_cases c : y = x
    · subst c; rw [upd_same, upd_same]
    · rw [upd_ne c, upd_ne c]; exact j.val m' n' hm' y hy

theorem J.other {h : H} {A : Chunks} (j : J P h A) {mem : Nat → Nat} {mapped : Nat → Bool}
    (ho : ∀ g ∈ h.s.segs, ∀ x, g.base ≤ x → x < g.base + g.size → mem x = h.s.mem x ∧ mapped x = h.s.mapped x) :
    J P { h with s := { h.s with mem := mem, mapped := mapped } } A := by
  have i := j.inv
  have S := i.segs
  refine ⟨⟨?_, i.bins, i.dv, i.top, ⟨S.page, S.disj, ?_, S.hold, S.past, S.first, S.link, S.head, S.least, S.nil, S.own⟩⟩, j.live, j.only, ?_⟩
  · apply i.tags.other
    · intro p z u hp
      obtain ⟨g, hg, h1, h2⟩ := S.hold _ _ _ hp
      exact (ho g hg _ (by omega) (by omega)).1
    · intro p z u hp _
      obtain ⟨g, hg, h1, h2⟩ := S.hold _ _ _ hp
      exact (ho g hg _ (by omega) (by omega)).1
  · intro g hg x h1 h2
    show mapped x = true
    rw [(ho g hg x h1 h2).2]; exact S.map g hg x h1 h2
  · intro m n hm x hx
    obtain ⟨h1, z, h2, h3⟩ := j.live m n hm
    obtain ⟨g, hg, h4, h5⟩ := S.hold _ _ _ h2
    have hx' := hx
    unfold InBlock at hx
    show mem x = h.val x
    rw [(ho g hg x (by omega) (by omega)).1]; exact j.val m n hm x hx'

theorem Hist.J (hP : PageOk P) {h : H} (r : Hist P h) : ∃ A, J P h A := by
  induction r with
  | init mem mapped val =>
    exact ⟨fun _ => none, Inv.init P mem mapped, fun m n h => by simp at h, fun p z h => by simp at h, fun m n h => by simp at h⟩
  | @malloc h e n m s' _ he hm ih =>
    obtain ⟨A, j⟩ := ih
    rcases j.malloc hP he n with ⟨h1, _⟩ | ⟨p, s1, A', h1, h2⟩
    · rw [h1] at hm; simp at hm
    · rw [h1] at hm
      simp only [Except.ok.injEq, Prod.mk.injEq, Option.some.injEq] at hm
      obtain ⟨rfl, rfl⟩ := hm
      exact ⟨A', (h2.J j _ fun _ => rfl).1⟩
  | @refused h e n s' _ he hm ih =>
    obtain ⟨A, j⟩ := ih
    rcases j.malloc hP he n with ⟨h1, _⟩ | ⟨p, s1, A', h1, h2⟩
    · rw [h1] at hm
      simp only [Except.ok.injEq, Prod.mk.injEq, true_and] at hm
      subst hm
      exact ⟨A, j⟩
    · rw [h1] at hm; simp at hm
  | @free h e m n s' _ hl he hm ih =>
    obtain ⟨A, j⟩ := ih
    obtain ⟨s1, h1, A', h2⟩ := j.free hP he hl
    rw [h1] at hm
    simp only [Except.ok.injEq] at hm
    subst hm
    have h16 := (j.live m n hl).1
    have := h2.J j (n := n) (by rw [show m - 16 + 16 = m by omega]; exact hl)
    rw [show m - 16 + 16 = m by omega] at this
    exact ⟨A', this⟩
  | @free0 h e s' _ hm ih =>
    obtain ⟨A, j⟩ := ih
    simp only [dlfree, freeChunk, if_true, pure, Except.pure, bind, Except.bind, Except.ok.injEq] at hm
    subst hm
    exact ⟨A, j⟩
  | store _ hl hx h8 ih =>
    obtain ⟨A, j⟩ := ih
    exact ⟨A, j.store hl hx h8⟩
  | other _ ho ih =>
    obtain ⟨A, j⟩ := ih
    exact ⟨A, j.other ho⟩

end

end Verif.Dl
