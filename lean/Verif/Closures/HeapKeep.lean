import Verif.Closures.HeapAsk

/-
What leaves the segments alone.
-/
namespace Verif.Heap
open Verif

variable {s s' : Dl.Hp}

theorem setInuse_segs {p z : Nat} (h : Dl.setInuse s p z = .ok s') : s'.segs = s.segs := by
  unfold Dl.setInuse at h
  obtain ⟨x, h1, h2⟩ := bindOk h
  obtain ⟨y, h3, h4⟩ := bindOk h2
  rw [(set_segs h4).1, (set_segs h1).1]

theorem replaceDv_segs (s : Dl.Hp) (p z : Nat) : (Dl.replaceDv s p z).segs = s.segs := by
  unfold Dl.replaceDv
  simp only []
  split <;> rfl

theorem tmallocLarge_segs {nb : Nat} {r} (h : Dl.tmallocLarge s nb = .ok (r, s')) : s'.segs = s.segs := by
  unfold Dl.tmallocLarge at h
  split at h
  · cases h; rfl
  · split at h
    · split at h
      · obtain ⟨x, h1, h2⟩ := bindOk h
        simp only [] at h2
        split at h2
        · obtain ⟨y, h3, h4⟩ := bindOk h2
          cases h4
          rw [setInuse_segs h3]; exact (unlinkLarge_segs s _ _).1
        · obtain ⟨y, h3, h4⟩ := bindOk h2
          obtain ⟨z, h5, h6⟩ := bindOk h4
          cases h6
          rw [(insertChunk_segs _ _ _).1, (setSizeFree_segs h5).1, (setSizeInuse_segs h3).1]; exact (unlinkLarge_segs s _ _).1
      · cases h
    · cases h; rfl

theorem tmallocSmall_segs {nb : Nat} {r} (h : Dl.tmallocSmall s nb = .ok (r, s')) : s'.segs = s.segs := by
  unfold Dl.tmallocSmall at h
  split at h
  · cases h
  · split at h
    · obtain ⟨x, h1, h2⟩ := bindOk h
      simp only [] at h2
      split at h2
      · obtain ⟨y, h3, h4⟩ := bindOk h2
        cases h4
        rw [setInuse_segs h3]; exact (unlinkLarge_segs s _ _).1
      · obtain ⟨y, h3, h4⟩ := bindOk h2
        obtain ⟨z, h5, h6⟩ := bindOk h4
        cases h6
        rw [replaceDv_segs, (setSizeFree_segs h5).1, (setSizeInuse_segs h3).1]; exact (unlinkLarge_segs s _ _).1
    · cases h

theorem exactSmall_segs {i : Nat} {r} (h : Dl.exactSmall s i = .ok (r, s')) : s'.segs = s.segs := by
  unfold Dl.exactSmall at h
  split at h
  · cases h
  · simp only [] at h
    obtain ⟨y, h3, h4⟩ := bindOk h
    cases h4
    rw [setInuse_segs h3]; rfl

theorem nextSmall_segs {nb i : Nat} {r} (h : Dl.nextSmall s nb i = .ok (r, s')) : s'.segs = s.segs := by
  unfold Dl.nextSmall at h
  split at h
  · cases h
  · simp only [] at h
    split at h
    · obtain ⟨y, h3, h4⟩ := bindOk h
      cases h4
      rw [setInuse_segs h3]; rfl
    · obtain ⟨y, h3, h4⟩ := bindOk h
      obtain ⟨z, h5, h6⟩ := bindOk h4
      cases h6
      rw [replaceDv_segs, (setSizeFree_segs h5).1, (setSizeInuse_segs h3).1]; rfl

theorem sysAlloc_refuse {P nb : Nat} {r} (h : Dl.sysAlloc (refuse P) s nb = .ok (r, s')) : s'.segs = s.segs := by
  unfold Dl.sysAlloc at h
  simp only [] at h
  by_cases c : Dl.reqSize (refuse P) nb ≤ nb
  · rw [if_pos c] at h; cases h; rfl
  · rw [if_neg c] at h; cases h; rfl

theorem dvTopSys_segs {P nb : Nat} {r} (h : Dl.dvTopSys (refuse P) s nb = .ok (r, s')) : s'.segs = s.segs := by
  unfold Dl.dvTopSys at h
  split at h
  · simp only [] at h
    split at h
    · obtain ⟨s1, h1, h2⟩ := bindOk h
      obtain ⟨s2, h3, h4⟩ := bindOk h2
      cases h4
      rw [(setSizeInuse_segs h3).1, (setSizeFree_segs h1).1]
    · obtain ⟨s1, h1, h2⟩ := bindOk h
      cases h2
      rw [setInuse_segs h1]
  · split at h
    · obtain ⟨⟨p, s1⟩, h1, h2⟩ := bindOk h
      cases h2
      exact (splitTop_segs h1).1
    · exact sysAlloc_refuse h

theorem smallRequest_segs {P nb : Nat} {r} (h : Dl.smallRequest (refuse P) s nb = .ok (r, s')) : s'.segs = s.segs := by
  unfold Dl.smallRequest at h
  simp only [] at h
  split at h
  · obtain ⟨⟨p, s1⟩, h1, h2⟩ := bindOk h
    cases h2; exact exactSmall_segs h1
  · split at h
    · split at h
      · obtain ⟨⟨p, s1⟩, h1, h2⟩ := bindOk h
        cases h2; exact nextSmall_segs h1
      · split at h
        · obtain ⟨⟨p, s1⟩, h1, h2⟩ := bindOk h
          cases h2; exact tmallocSmall_segs h1
        · exact dvTopSys_segs h
    · exact dvTopSys_segs h

/-- Without the system the segments stay. -/
theorem dlmalloc_segs {P n : Nat} {r} (h : Dl.dlmalloc (refuse P) n s = .ok (r, s')) : s'.segs = s.segs := by
  unfold Dl.dlmalloc at h
  split at h
  · exact smallRequest_segs h
  · split at h
    · exact dvTopSys_segs h
    · simp only [] at h
      split at h
      · obtain ⟨⟨r1, s1⟩, h1, h2⟩ := bindOk h
        cases r1 with
        | some m => cases h2; exact tmallocLarge_segs h1
        | none => rw [dvTopSys_segs h2]; exact tmallocLarge_segs h1
      · exact dvTopSys_segs h

theorem freeTop_segs {p z : Nat} {t} (h : Dl.freeTop s p z = .ok (s', t)) : s'.segs = s.segs := by
  unfold Dl.freeTop at h
  simp only [] at h
  obtain ⟨s1, h1, h2⟩ := bindOk h
  cases h2
  have := (set_segs h1).1
  split <;> exact this

theorem freeForward_segs {p z n : Nat} {t} (h : Dl.freeForward s p z n = .ok (s', t)) : s'.segs = s.segs := by
  unfold Dl.freeForward at h
  obtain ⟨x, h1, h2⟩ := bindOk h
  split at h2
  · split at h2
    · split at h2
      · exact freeTop_segs h2
      · split at h2
        · simp only [] at h2
          obtain ⟨s1, h3, h4⟩ := bindOk h2
          cases h4
          rw [(setSizeFree_segs h3).1]
        · simp only [] at h2
          obtain ⟨s1, h3, h4⟩ := bindOk h2
          cases h4
          have := (setSizeFree_segs h3).1
          rw [(unlinkChunk_segs _ _ _).1] at this
          split
          · exact this
          · rw [(insertChunk_segs _ _ _).1]; exact this
    · obtain ⟨s1, h3, h4⟩ := bindOk h2
      cases h4
      rw [(insertChunk_segs _ _ _).1]; exact (setFree_segs h3).1
  · cases h2

theorem freeChunk_segs {m : Nat} {t} (h : Dl.freeChunk m s = .ok (s', t)) : s'.segs = s.segs := by
  unfold Dl.freeChunk at h
  split at h
  · cases h; rfl
  · simp only [] at h
    obtain ⟨x, h1, h2⟩ := bindOk h
    split at h2
    · split at h2
      · exact freeForward_segs h2
      · obtain ⟨y, h3, h4⟩ := bindOk h2
        split at h4
        · cases h4; rfl
        · split at h4
          · split at h4
            · rw [freeForward_segs h4]; exact (unlinkChunk_segs _ _ _).1
            · obtain ⟨z, h5, h6⟩ := bindOk h4
              split at h6
              · obtain ⟨s1, h7, h8⟩ := bindOk h6
                cases h8
                rw [(setFree_segs h7).1]
              · exact freeForward_segs h6
          · cases h4
    · cases h2

end Verif.Heap
