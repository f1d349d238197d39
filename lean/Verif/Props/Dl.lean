import Verif.Dl.Hist

/-
C76-C78: the heap behind ffi_closure_alloc, whatever its history.
-/
namespace Verif.Props
open Verif Verif.Dl

/-- Answers of a system: pages from 1 MiB on. -/
def dlEnv : Env := ⟨4096, fun _ => some 0x100000, true, true, 0, fun _ _ => true⟩

/-- Nothing is mapped. -/
def dlHp : Hp := hp0 (fun _ => 0) (fun _ => false)

theorem dlEnv_ok : EnvOk 4096 ⟨4096, fun n => if n ≤ 2 ^ 20 then some 0x100000 else none, true, true, 0, fun _ _ => true⟩ dlHp := by
  refine ⟨rfl, fun n b h => ?_⟩
  simp only [] at h
  split at h
  · cases h
    exact ⟨by decide, by decide, by omega, fun _ _ _ => rfl⟩
  · cases h

/-- C76, `dlmalloc`: it returns; a block is usable, new, and apart from all others, which keep
their contents; when it refuses, nothing has changed. -/
theorem dl_malloc {P : Nat} (hP : PageOk P) {h : H} (r : Hist P h) {e : Env} (he : EnvOk P e h.s) (n : Nat) :
    dlmalloc e n h.s = .ok (none, h.s) ∨
    ∃ m s', dlmalloc e n h.s = .ok (some m, s') ∧ Usable s' m n ∧ h.live m = none ∧
      ∀ m' n', h.live m' = some n' → m ≠ m' ∧ Apart m n m' n' ∧ Usable s' m' n' ∧ ∀ x, InBlock m' n' x → s'.mem x = h.s.mem x := by
  obtain ⟨A, j⟩ := r.J hP
  rcases j.malloc hP he n with ⟨h1, _⟩ | ⟨p, s', A', h1, g⟩
  · exact .inl h1
  · right
    obtain ⟨j', hn⟩ := g.J j (n := n) _ fun _ => rfl
    obtain ⟨z, hz, hnz⟩ := g.chunk
    have use : ∀ {m' n' w : Nat}, 16 < m' → A' (m' - 16) = some (w, .live) → n' + 8 ≤ w → Usable s' m' n' := by
      intro m' n' w h16 hw hle
      have o := g.inv.tags.ok hw
      have hal := o.al
      have := g.inv.lt64 hw
      exact ⟨by omega, by omega, by omega, fun x h1 h2 => g.inv.mapped hw (by omega) (by omega)⟩
    have hlt := g.inv.lt64 hz
    have hnd := (need_ok (bytes := n)).2 (by omega)
    have hpos := (g.inv.tags.ok hz).pos
    refine ⟨p + 16, s', h1, use (w := z) (by omega) (by rw [Nat.add_sub_cancel]; exact hz) (by omega), hn, ?_⟩
    intro m' n' hm'
    obtain ⟨k1, w, k2, k3⟩ := j.live _ _ hm'
    obtain ⟨k4, k5⟩ := g.keep _ _ k2
    have hne : p + 16 ≠ m' := by rintro rfl; rw [hn] at hm'; cases hm'
    refine ⟨hne, ?_, use k1 k4 k3.1, fun x hx => ?_⟩
    · unfold Apart
      rcases Nat.lt_trichotomy (m' - 16) p with c | c | c
      · have := g.inv.tags.disj k4 hz c; omega
      · omega
      · have := g.inv.tags.disj hz k4 c; omega
    · unfold InBlock at hx
      exact k5 x (by omega) (by omega)

/-- C76, `dlfree`: it returns; the other blocks stay usable and keep their contents. -/
theorem dl_free {P : Nat} (hP : PageOk P) {h : H} (r : Hist P h) {e : Env} (he : e.page = P) {m n : Nat} (hm : h.live m = some n) :
    ∃ s', dlfree e m h.s = .ok s' ∧
      ∀ m' n', h.live m' = some n' → m' ≠ m → Usable s' m' n' ∧ ∀ x, InBlock m' n' x → s'.mem x = h.s.mem x := by
  obtain ⟨A, j⟩ := r.J hP
  obtain ⟨s', h1, A', f⟩ := j.free hP he hm
  refine ⟨s', h1, fun m' n' hm' hne => ?_⟩
  obtain ⟨k1, w, k2, k3⟩ := j.live _ _ hm'
  have := (j.live _ _ hm).1
  obtain ⟨k4, k5⟩ := f.keep _ _ k2 (by omega)
  have o := f.inv.tags.ok k4
  have hal := o.al
  have := f.inv.lt64 k4
  refine ⟨⟨by omega, by omega, by omega, fun x h1 h2 => f.inv.mapped k4 (by omega) (by omega)⟩, fun x hx => ?_⟩
  unfold InBlock at hx
  exact k5 x (by omega) (by omega)

/-- C77: at any time all blocks are usable and apart from each other, and they contain what their
owners have stored. -/
theorem dl_blocks {P : Nat} (hP : PageOk P) {h : H} (r : Hist P h) {m n : Nat} (hm : h.live m = some n) :
    Usable h.s m n ∧ (∀ x, InBlock m n x → h.s.mem x = h.val x) ∧
      ∀ m' n', h.live m' = some n' → m' ≠ m → Apart m n m' n' := by
  obtain ⟨A, j⟩ := r.J hP
  obtain ⟨k1, w, k2, k3⟩ := j.live _ _ hm
  have o := j.inv.tags.ok k2
  have hal := o.al
  have := j.inv.lt64 k2
  refine ⟨⟨by omega, by omega, by omega, fun x h1 h2 => j.inv.mapped k2 (by omega) (by omega)⟩, j.val m n hm, ?_⟩
  intro m' n' hm' hne
  obtain ⟨k1', w', k2', k3'⟩ := j.live _ _ hm'
  unfold Apart
  rcases Nat.lt_trichotomy (m - 16) (m' - 16) with c | c | c
  · have := j.inv.tags.disj k2 k2' c; omega
  · omega
  · have := j.inv.tags.disj k2' k2 c; omega

/-- C76, refusals: only because the system refuses a little more than was asked for, or the
request is close to the size of the address space. -/
theorem dl_refused {P : Nat} (hP : PageOk P) {h : H} (r : Hist P h) {e : Env} (he : EnvOk P e h.s) {n : Nat} {s' : Hp}
    (hr : dlmalloc e n h.s = .ok (none, s')) :
    2 ^ 64 ≤ n + 2 * P ∨ ∃ k, n < k ∧ k ≤ n + 2 * P ∧ e.mmap k = none := by
  obtain ⟨A, j⟩ := r.J hP
  obtain ⟨p1, p2, p3⟩ := hP.facts
  obtain ⟨q1, q2⟩ := need_ok (bytes := n)
  rcases j.malloc hP he n with ⟨_, h2, _⟩ | ⟨p, s1, A', h1, _⟩
  · by_cases hbig : 2 ^ 64 ≤ n + 2 * P
    · exact .inl hbig
    right
    have hnd : need n + 1 < 2 ^ 64 := by
      unfold need padRequest at *
      split
      · decide
      · split <;> omega
    obtain ⟨-, -, n3, n4⟩ := q2 hnd
    have hreq : reqSize e (need n) = (need n + 73 + P) / P * P := by
      unfold reqSize
      rw [he.page]
      have hf : foot = 72 := rfl
      rw [hf, Nat.mod_eq_of_lt (a := need n + 72 + 1) (by omega), Nat.mod_eq_of_lt (a := need n + 72 + 1 + P) (by omega)]
    have hle : (need n + 73 + P) / P * P ≤ need n + 73 + P := Nat.div_mul_le_self _ _
    have hgt : need n + 73 + P < (need n + 73 + P) / P * P + P := by
      have := Nat.lt_div_mul_add (show 0 < P by omega) (a := need n + 73 + P)
      exact this
    rw [← hreq] at hle hgt
    rcases h2 with h2 | h2
    · omega
    · exact ⟨_, by omega, by omega, h2⟩
  · rw [h1] at hr; simp at hr

/-- C78: memory given back to the system holds no block; `dlfree`, which may trim or release
whole segments, never unmaps a byte of another block. -/
theorem dl_unmapped {P : Nat} (hP : PageOk P) {h : H} (r : Hist P h) {e : Env} (he : e.page = P) {m n : Nat} (hm : h.live m = some n)
    {s' : Hp} (hf : dlfree e m h.s = .ok s') {x : Nat} (hx : h.s.mapped x = true) (hx' : s'.mapped x = false) :
    ∀ m' n', h.live m' = some n' → m' ≠ m → ¬ InBlock m' n' x := by
  intro m' n' hm' hne hb
  obtain ⟨s1, h1, h2⟩ := dl_free hP r he hm
  rw [h1] at hf
  cases hf
  have := (h2 m' n' hm' hne).1.mapped x hb.1 hb.2
  rw [hx'] at this; cases this

/-! ## Examples -/

/-- A first block. -/
example : (dlmalloc dlEnv 100 dlHp).toOption.map (·.1) = some (some 0x100010) := by decide +kernel

/-- Two blocks; the first is given back and used again. -/
def dlRun : Option (List (Option Nat)) := do
  let (a, s) ← (dlmalloc dlEnv 100 dlHp).toOption
  let (b, s) ← (dlmalloc dlEnv 300 s).toOption
  let s ← (dlfree dlEnv 0x100010 s).toOption
  let (c, s) ← (dlmalloc dlEnv 40 s).toOption
  let s ← (dlfree dlEnv (0x100010 + 112) s).toOption
  let (d, _) ← (dlmalloc dlEnv 1000 s).toOption
  return [a, b, c, d]

example : dlRun = some [some 0x100010, some (0x100010 + 112), some 0x100010, some (0x100010 + 48)] := by decide +kernel

/-- The hypotheses of `dl_malloc` and `dl_free` hold in the histories that begin so. -/
example : ∃ h : H, Hist 4096 h ∧ ∃ m, h.live m = some 100 := by
  have h0 : Hist 4096 ⟨dlHp, fun _ => none, fun _ => 0⟩ := .init _ _ _
  rcases dl_malloc ⟨12, by decide, by decide, by decide⟩ h0 dlEnv_ok 100 with h1 | ⟨m, s', h1, _⟩
  · exfalso
    have := congrArg (fun r => r.toOption.map (·.1)) h1
    revert this
    decide +kernel
  · exact ⟨_, .malloc h0 dlEnv_ok h1, m, by simp [H.set]⟩

end Verif.Props
