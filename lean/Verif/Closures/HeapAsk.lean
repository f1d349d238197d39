import Verif.Closures.HeapSegs
import Verif.Dl.Top

/-
When the system is asked, and what it answers.
-/
namespace Verif.Heap
open Verif

theorem dvTopSys_ask {P nb : Nat} {s s0 : Dl.Hp} (h : Dl.dvTopSys (refuse P) s nb = .ok (none, s0)) (e : Dl.Env) :
    Dl.dvTopSys e s nb = Dl.sysAlloc e s nb := by
  unfold Dl.dvTopSys at h ⊢
  by_cases c : nb ≤ s.dvsize
  · rw [if_pos c] at h
    simp only [] at h
    split at h
    · obtain ⟨s1, h1, h⟩ := bindOk h
      obtain ⟨s2, h2, h⟩ := bindOk h
      cases h
    · obtain ⟨s1, h1, h⟩ := bindOk h
      cases h
  · rw [if_neg c] at h ⊢
    by_cases c2 : nb < s.topsize
    · rw [if_pos c2] at h
      obtain ⟨s1, h1, h⟩ := bindOk h
      cases h
    · rw [if_neg c2]

theorem smallRequest_ask {P nb : Nat} {s s0 : Dl.Hp} (h : Dl.smallRequest (refuse P) s nb = .ok (none, s0)) (e : Dl.Env) :
    Dl.smallRequest e s nb = Dl.sysAlloc e s nb := by
  unfold Dl.smallRequest at h ⊢
  simp only [] at h ⊢
  split at h
  · obtain ⟨x, h1, h⟩ := bindOk h; cases h
  · rename_i c1
    rw [if_neg c1]
    split at h
    · rename_i c2
      rw [if_pos c2]
      split at h
      · obtain ⟨x, h1, h⟩ := bindOk h; cases h
      · rename_i c3
        rw [if_neg c3]
        split at h
        · obtain ⟨x, h1, h⟩ := bindOk h; cases h
        · rename_i c4
          rw [if_neg c4]
          exact dvTopSys_ask h e
    · rename_i c2
      rw [if_neg c2]
      exact dvTopSys_ask h e

theorem tmallocLarge_none {s s' : Dl.Hp} {nb : Nat} (h : Dl.tmallocLarge s nb = .ok (none, s')) : s' = s := by
  unfold Dl.tmallocLarge at h
  split at h
  · cases h; rfl
  · split at h
    · split at h
      · obtain ⟨x, h1, h⟩ := bindOk h
        simp only [] at h
        split at h
        · obtain ⟨y, h2, h⟩ := bindOk h; cases h
        · obtain ⟨y, h2, h⟩ := bindOk h
          obtain ⟨z, h3, h⟩ := bindOk h; cases h
      · cases h
    · cases h; rfl

/-- When the chunks do not suffice, `dlmalloc` is `sys_alloc`. -/
theorem dlmalloc_ask {P n : Nat} {s s0 : Dl.Hp} (h : Dl.dlmalloc (refuse P) n s = .ok (none, s0)) (e : Dl.Env) :
    Dl.dlmalloc e n s = Dl.sysAlloc e s (nbOf n) := by
  unfold Dl.dlmalloc at h ⊢
  by_cases c : n ≤ 240
  · rw [if_pos c] at h ⊢
    have : (if n < 23 then 32 else Dl.padRequest n) = nbOf n := by
      unfold nbOf
      split
      · rfl
      · rw [if_neg (by omega)]
    rw [this] at h ⊢
    exact smallRequest_ask h e
  · rw [if_neg c] at h ⊢
    by_cases c2 : 2 ^ 64 - 128 ≤ n
    · rw [if_pos c2] at h ⊢
      have : nbOf n = 2 ^ 64 - 1 := by
        unfold nbOf
        rw [if_neg (by omega), if_pos c2]
      rw [this]
      exact dvTopSys_ask h e
    · rw [if_neg c2] at h ⊢
      have : nbOf n = Dl.padRequest n := by
        unfold nbOf
        rw [if_neg (by omega), if_neg c2]
      rw [this]
      simp only [] at h ⊢
      by_cases c3 : s.treemap ≠ 0
      · rw [if_pos c3] at h ⊢
        obtain ⟨⟨r, s1⟩, h1, h2⟩ := bindOk h
        rw [h1]
        cases r with
        | some m => cases h2
        | none =>
          rw [tmallocLarge_none h1] at h2 ⊢
          exact dvTopSys_ask h2 e
      · rw [if_neg c3] at h ⊢
        exact dvTopSys_ask h e

/-! ## Addresses -/

/-- An answer of `mmap`. -/
def Answer (w : Dual.World) (len a : Nat) : Prop := ∃ t vm, w.mmap t vm len = some a

theorem mmap_answer {w : Dual.World} {len a : Nat} {pg} {st st' : Dual.St} (h : st.mmap w len pg = (some a, st')) : Answer w len a := by
  unfold Dual.St.mmap at h
  split at h
  · simp at h
  · rename_i b hb
    simp only [Prod.mk.injEq, Option.some.injEq] at h
    exact ⟨_, _, h.1 ▸ hb⟩

theorem mapFile_answer {c : Dual.Cfg} {w : Dual.World} {fd len a : Nat} {st st' : Dual.St}
    (h : Dual.mapFile c w fd len st = .ok (some (some a), st')) : Answer w len a := by
  unfold Dual.mapFile at h
  simp only [bind, Except.bind, pure, Except.pure] at h
  repeat' split at h
  all_goals first
    | (simp only [Except.ok.injEq, Prod.mk.injEq, Option.some.injEq, reduceCtorEq, false_and] at h; done)
    | skip
  rename_i hm _ _ _
  simp only [Except.ok.injEq, Prod.mk.injEq, Option.some.injEq] at h
  rw [← h.1]
  exact mmap_answer hm

theorem retryOpen_answer {c : Dual.Cfg} {w : Dual.World} {len a : Nat} : ∀ {k : Nat} {st st' : Dual.St},
    Dual.retryOpen c w len k st = .ok (some a, st') → Answer w len a
  | 0, _, _, h => by cases h
  | k + 1, st, st', h => by
    unfold Dual.retryOpen at h
    obtain ⟨⟨fd, st1⟩, h1, h⟩ := bindOk h
    cases fd with
    | none => cases h
    | some fd =>
      obtain ⟨⟨r, st2⟩, h2, h⟩ := bindOk h
      cases r with
      | none => exact retryOpen_answer h
      | some r =>
        cases h
        exact mapFile_answer h2

theorem dlmmapLocked_answer {c : Dual.Cfg} {w : Dual.World} {len a k : Nat} {st st' : Dual.St}
    (h : Dual.dlmmapLocked c w k len st = .ok (some a, st')) : Answer w len a := by
  unfold Dual.dlmmapLocked at h
  split at h
  · exact retryOpen_answer h
  · obtain ⟨⟨r, st2⟩, h2, h⟩ := bindOk h
    cases r with
    | none => exact retryOpen_answer h
    | some r =>
      cases h
      exact mapFile_answer h2

theorem mmapAnon_answer {w : Dual.World} {len a : Nat} {x : Bool} {st : Dual.St} (h : (st.mmapAnon w len x).1 = some a) : Answer w len a := by
  unfold Dual.St.mmapAnon at h
  rcases hm : st.mmap w len (fun o => ⟨.anon st.clock o, true, x⟩) with ⟨r, st'⟩
  rw [hm] at h
  cases r with
  | none => cases h
  | some b => cases h; exact mmap_answer hm

/-- What `dlmmap` returns is an answer of `mmap`. -/
theorem dlmmap_answer {c : Dual.Cfg} {w : Dual.World} {y : Dual.Sys} {len a k : Nat} {st st' : Dual.St}
    (h : Dual.dlmmap c w y k len st = .ok (some a, st')) : Answer w len a := by
  have anon : ∀ {x}, (.ok (st.mmapAnon w len x) : Dual.R (Option Nat × Dual.St)) = .ok (some a, st') → Answer w len a := by
    intro x h
    exact mmapAnon_answer (x := x) (by rw [Except.ok.inj h])
  unfold Dual.dlmmap at h
  split at h
  · exact anon h
  · split at h
    · split at h
      · exact anon h
      · exact dlmmapLocked_answer h
    · split at h
      · split at h
        · rename_i b st1 hm
          cases h
          exact mmapAnon_answer (by rw [hm])
        · split at h
          · exact dlmmapLocked_answer h
          · cases h
      · exact dlmmapLocked_answer h

end Verif.Heap
