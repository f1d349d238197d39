import Verif.Dl.Fit
import Verif.Dl.Tile
import Verif.Props.Dl

/-
C80: which free chunk serves a request, and when the system is asked.
-/
namespace Verif.Dl
open Verif

theorem Inv.freeChunk_iff {P : Nat} {s : Hp} {A : Chunks} (i : Inv P s A) {p z : Nat} :
    FreeChunk s p z ↔ ∃ u, A p = some (z, u) ∧ u.isFree = true := by
  constructor
  · rintro (⟨rfl, rfl, h⟩ | ⟨h1, ⟨j, h2⟩ | ⟨j, h2⟩⟩)
    · exact ⟨.dv, (i.dv.iff _ _).2 ⟨rfl, rfl, h⟩, rfl⟩
    · obtain ⟨h3, _⟩ := i.of_small h2
      have := (i.tags.ok h3).word.1
      exact ⟨.free, by rw [h1, this]; exact h3, rfl⟩
    · obtain ⟨w, h3, _⟩ := i.of_tree h2
      have := (i.tags.ok h3).word.1
      exact ⟨.free, by rw [h1, this]; exact h3, rfl⟩
  · rintro ⟨u, h1, h2⟩
    cases u <;> simp [Use.isFree] at h2
    · refine .inr ⟨(i.tags.ok h1).word.1.symm, ?_⟩
      by_cases c : z < 256
      · exact .inl ⟨_, i.in_small h1 c⟩
      · exact .inr ⟨_, i.in_tree h1 (by omega)⟩
    · obtain ⟨k1, k2, k3⟩ := (i.dv.iff _ _).1 h1
      exact .inl ⟨k1, k2, by rw [k2]; exact k3⟩

theorem need_padded {n : Nat} (h : n < 2 ^ 64 - 128) : need n = padded n := by
  unfold need padded padRequest
  split
  · omega
  · rw [if_neg (by omega)]; omega

/-- Chunks are far smaller than the address space. -/
theorem Inv.lt_space {P : Nat} {s : Hp} {A : Chunks} (i : Inv P s A) (hP : PageOk P) {p z : Nat} {u : Use} (h : A p = some (z, u)) :
    z + 4096 ≤ 2 ^ 64 := by
  obtain ⟨g, hg, h1, h2⟩ := i.segs.hold _ _ _ h
  obtain ⟨a, _, b, _, c⟩ := i.segs.page g hg
  have := Nat.le_of_dvd b a
  obtain ⟨k, hk, _, rfl⟩ := hP
  have := Nat.pow_le_pow_right (n := 2) (by decide) hk
  omega

end Verif.Dl

namespace Verif.Props
open Verif Verif.Dl

/-- C80: when a free chunk is large enough, `dlmalloc` succeeds without the system (what it
returns does not depend on any answer of it), and the block begins where a free chunk was that is
large enough.  For requests above 240 bytes no free chunk that is large enough is smaller; for
others this holds unless the designated victim was used, or compared with the designated victim
when the chunk used is at most 8 bytes too large. -/
theorem dl_fit {P : Nat} (hP : PageOk P) {h : H} (r : Hist P h) {n p z : Nat} (hc : FreeChunk h.s p z) (hz : padded n ≤ z) :
    ∃ q w s', (∀ e, dlmalloc e n h.s = .ok (some (q + 16), s')) ∧ FreeChunk h.s q w ∧ padded n ≤ w ∧
      (240 < n → ∀ p z, FreeChunk h.s p z → padded n ≤ z → w ≤ z) ∧
      (n ≤ 240 → ∀ p z, FreeChunk h.s p z → padded n ≤ z →
        w ≤ z ∨ q = h.s.dv ∨ (p = h.s.dv ∧ w ≤ padded n + 8)) := by
  obtain ⟨A, j⟩ := r.J hP
  have i := j.inv
  obtain ⟨u, h1, h2⟩ := i.freeChunk_iff.1 hc
  have := i.lt_space hP h1
  have hnd := need_padded (n := n) (by unfold padded at hz; omega)
  rw [← hnd] at hz ⊢
  obtain ⟨q, s', e1, ⟨w, v, e2, e3, e4, e5⟩⟩ := i.fit h1 h2 hz
  refine ⟨q, w, s', e1, i.freeChunk_iff.2 ⟨v, e2, e3⟩, e4, fun hn p z hp hz => ?_, fun hn p z hp hz => ?_⟩
  · obtain ⟨u, k1, k2⟩ := i.freeChunk_iff.1 hp
    rcases e5 p z u k1 k2 hz with c | ⟨c, _⟩
    · exact c
    · have := of_decide_eq_true c; omega
  · obtain ⟨u, k1, k2⟩ := i.freeChunk_iff.1 hp
    rcases e5 p z u k1 k2 hz with c | ⟨_, c⟩
    · exact .inl c
    · exact .inr c

/-- C80: the same when the top is large enough. -/
theorem dl_top {P : Nat} (hP : PageOk P) {h : H} (r : Hist P h) {n : Nat} (hz : padded n < h.s.topsize) :
    ∃ m s', ∀ e, dlmalloc e n h.s = .ok (some m, s') := by
  obtain ⟨A, j⟩ := r.J hP
  have i := j.inv
  have hne : h.s.segs ≠ [] := by intro e; have := (i.segs.nil e).2; omega
  have := i.lt_space hP ((i.top _ _).2 ⟨rfl, rfl, hne⟩)
  have hnd := need_padded (n := n) (by unfold padded at hz; omega)
  rw [← hnd] at hz
  have he : EnvOk P ⟨P, fun _ => none, false, false, 0, fun _ _ => false⟩ h.s := ⟨rfl, fun n b h => by cases h⟩
  rcases i.dlmalloc hP he n with ⟨_, _, _, k⟩ | ⟨p, s', A', k, _⟩
  · omega
  · exact ⟨p + 16, s', fun e => (dlmalloc_any (.inr hz) e _).trans k⟩

/-- C80: the answers of the system matter only when nothing is large enough. -/
theorem dl_system_last {P : Nat} (hP : PageOk P) {h : H} (r : Hist P h) {n : Nat} {e e' : Env} (hd : dlmalloc e n h.s ≠ dlmalloc e' n h.s) :
    h.s.topsize ≤ padded n ∧ ∀ p z, FreeChunk h.s p z → z < padded n := by
  constructor
  · by_contra c
    obtain ⟨m, s', k⟩ := dl_top hP r (n := n) (by omega)
    exact hd (by rw [k, k])
  · intro p z hp
    by_contra c
    obtain ⟨q, w, s', k, _⟩ := dl_fit hP r hp (show padded n ≤ z by omega)
    exact hd (by rw [k, k])

/-- C80: so `dlmalloc` refuses only when nothing is large enough. -/
theorem dl_refused_nofit {P : Nat} (hP : PageOk P) {h : H} (r : Hist P h) {n : Nat} {e : Env} {s' : Hp}
    (hr : dlmalloc e n h.s = .ok (none, s')) :
    h.s.topsize ≤ padded n ∧ ∀ p z, FreeChunk h.s p z → z < padded n := by
  constructor
  · by_contra c
    obtain ⟨m, s', k⟩ := dl_top hP r (n := n) (by omega)
    rw [k] at hr; cases hr
  · intro p z hp
    by_contra c
    obtain ⟨q, w, s', k, _⟩ := dl_fit hP r hp (show padded n ≤ z by omega)
    rw [k] at hr; cases hr

/-! ## Examples -/

/-- Five blocks; the second and the fourth are given back: chunks of 1008 and 608 bytes. -/
def dlRunFit : Option Hp := do
  let (_, s) ← (dlmalloc dlEnv 40 dlHp).toOption
  let (_, s) ← (dlmalloc dlEnv 1000 s).toOption
  let (_, s) ← (dlmalloc dlEnv 40 s).toOption
  let (_, s) ← (dlmalloc dlEnv 600 s).toOption
  let (_, s) ← (dlmalloc dlEnv 40 s).toOption
  let s ← (dlfree dlEnv (0x100010 + 48) s).toOption
  (dlfree dlEnv (0x100010 + 48 + 1008 + 48) s).toOption

/-- The first free chunk has room for 500 bytes too, the smaller one is used. -/
example : (dlRunFit.bind fun s => (dlmalloc dlEnv 500 s).toOption).map (·.1) = some (some (0x100010 + 48 + 1008 + 48)) := by decide +kernel
example : (dlRunFit.bind fun s => (dlmalloc dlEnv 700 s).toOption).map (·.1) = some (some (0x100010 + 48)) := by decide +kernel

/-- Without a free chunk the answers matter. -/
example : dlmalloc dlEnv 100 dlHp ≠ dlmalloc ⟨4096, fun _ => none, true, true, 0, fun _ _ => true⟩ 100 dlHp := by
  intro h
  have := congrArg (fun r => r.toOption.map (·.1)) h
  revert this
  decide +kernel

/-- Calls one after the other (a request or the address to give back); the system has one piece of
memory, for the first call. -/
def dlGo : List (Nat ⊕ Nat) → Env → H → Option H
  | [], _, h => some h
  | .inl n :: l, e, h =>
    match dlmalloc e n h.s with
    | .ok (some m, s') =>
      dlGo l ⟨4096, fun _ => none, true, true, 0, fun _ _ => true⟩
        (h.set m (some n) s' fun x => if m ≤ x ∧ x < m + n then s'.mem x else h.val x)
    | _ => none
  | .inr m :: l, e, h =>
    match h.live m with
    | none => none
    | some _ =>
      match dlfree e m h.s with
      | .ok s' => dlGo l ⟨4096, fun _ => none, true, true, 0, fun _ _ => true⟩ (h.set m none s' h.val)
      | _ => none

theorem dlGo_hist (l : List (Nat ⊕ Nat)) : ∀ {e : Env} {h h' : H}, Hist 4096 h → EnvOk 4096 e h.s → dlGo l e h = some h' → Hist 4096 h' := by
  induction l with
  | nil => intro e h h' r _ k; rw [dlGo] at k; cases k; exact r
  | cons o l ih =>
    intro e h h' r he k
    have hn : ∀ s, EnvOk 4096 ⟨4096, fun _ => none, true, true, 0, fun _ _ => true⟩ s := fun s => ⟨rfl, fun n b c => by cases c⟩
    rcases o with n | m
    · rw [dlGo] at k
      split at k
      · exact ih (.malloc r he (by assumption)) (hn _) k
      · cases k
    · rw [dlGo] at k
      split at k
      · cases k
      · split at k
        · exact ih (.free r (by assumption) he.page (by assumption)) (hn _) k
        · cases k

/-- The hypotheses hold at the end of the calls of `dlRunFit`: two free chunks in trees, the top. -/
example : ∃ h : H, Hist 4096 h ∧ FreeChunk h.s (0x100000 + 48) 1008 ∧ FreeChunk h.s (0x100000 + 48 + 1008 + 48) 608 ∧
    padded 1000 ≤ 1008 ∧ padded 2000 < h.s.topsize := by
  have h0 : Hist 4096 ⟨dlHp, fun _ => none, fun _ => 0⟩ := .init _ _ _
  have e : (dlGo [.inl 40, .inl 1000, .inl 40, .inl 600, .inl 40, .inr (0x100010 + 48), .inr (0x100010 + 48 + 1008 + 48)]
      ⟨4096, fun n => if n ≤ 2 ^ 20 then some 0x100000 else none, true, true, 0, fun _ _ => true⟩ ⟨dlHp, fun _ => none, fun _ => 0⟩).map
      (fun h => decide ((h.s.mem (0x100000 + 48 + 8) / 8 * 8 = 1008 ∧ 0x100000 + 48 ∈ (h.s.tree 3).chunks) ∧
        (h.s.mem (0x100000 + 48 + 1008 + 48 + 8) / 8 * 8 = 608 ∧ 0x100000 + 48 + 1008 + 48 ∈ (h.s.tree 2).chunks) ∧
        padded 2000 < h.s.topsize)) = some true := by decide +kernel
  rcases Option.map_eq_some_iff.1 e with ⟨h, h1, h2⟩
  obtain ⟨⟨a, b⟩, ⟨c, d⟩, f⟩ := of_decide_eq_true h2
  exact ⟨h, dlGo_hist _ h0 dlEnv_ok h1, .inr ⟨a.symm, .inr ⟨_, b⟩⟩, .inr ⟨c.symm, .inr ⟨_, d⟩⟩, by decide, f⟩

end Verif.Props
