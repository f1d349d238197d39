import Verif.Closures.TempLemmas

/-
Executions in which the search for a temporary file goes wrong.
-/
namespace Verif.Dual
open Verif

theorem allocSpace_true {c : Cfg} (hp : 0 < c.page) {w : World} (hwr : ∀ t f n, n ≤ w.write t f n) {fd : Nat} :
    ∀ (k len : Nat) (st : St), len ≤ k → st.files fd ≠ none → ∃ st', allocSpace c w fd k len st = .ok (true, st')
  | k, 0, st, _, _ => ⟨st, by cases k <;> rfl⟩
  | 0, len + 1, st, hk, _ => by omega
  | k + 1, len + 1, st, hk, hf => by
    unfold allocSpace
    have hn : 0 < (if len + 1 < c.page then len + 1 else c.page) := by split <;> omega
    generalize (if len + 1 < c.page then len + 1 else c.page) = n at *
    obtain ⟨r, st1, h1, h2, h3, h4⟩ := write_spec (w := w) (n := n) hf
    have hr : r = n := by
      obtain ⟨f, hf⟩ := Option.ne_none_iff_exists'.1 hf
      unfold St.write at h1
      simp only [hf, Except.ok.injEq, Prod.mk.injEq] at h1
      rw [← h1.1]
      exact Nat.min_eq_left (hwr _ _ _)
    simp only [h1, bind, Except.bind]
    rw [if_neg (by omega)]
    exact allocSpace_true hp hwr k _ st1 (by omega) h3

/-- A search that ends only misses fuel. -/
theorem search_fuel {c : Cfg} {w : World} : ∀ {k n : Nat} {st : St} {v e}, search c w n st = .ok v →
    search c w k st = .error e → e = .fuel
  | 0, _, _, _, _, _, h => by simp only [search, Except.error.injEq] at h; exact h.symm
  | k + 1, 0, _, _, _, h, _ => by simp [search] at h
  | k + 1, n + 1, st, v, e, h, he => by
    unfold search at h he
    cases ho : (opts c)[st.idx]? with
    | none => simp [ho] at h
    | some o =>
      simp only [ho] at h he
      rcases hc : o.call c w st with ⟨fd1, st1⟩
      rw [hc] at h he
      simp only [bind, Except.bind, pure, Except.pure] at h he
      by_cases h1 : o.rep = false ∨ fd1 = none
      · rw [if_pos h1] at h he
        cases hv : optsNext c w st1 with
        | error e => simp [hv] at h
        | ok x =>
          simp only [hv] at h he
          by_cases h2 : x.1 = true ∨ fd1 ≠ none
          · rw [if_pos h2] at he; simp at he
          · rw [if_neg h2] at h he; exact search_fuel h he
      · rw [if_neg h1] at he; simp at he

theorem retryOpen_mono {c : Cfg} {w : World} {len : Nat} : ∀ {k : Nat} {st : St} {v}, retryOpen c w len k st = .ok v →
    ∀ {n : Nat}, k ≤ n → retryOpen c w len n st = .ok v
  | 0, _, _, h, _, _ => by simp [retryOpen] at h
  | k + 1, st, v, h, n, hn => by
    obtain ⟨n, rfl⟩ : ∃ n', n = n' + 1 := ⟨n - 1, by omega⟩
    unfold retryOpen at h ⊢
    cases hs : search c w k st with
    | error e => simp [hs, bind, Except.bind] at h
    | ok x =>
      simp only [hs, search_mono hs (show k ≤ n by omega), bind, Except.bind] at h ⊢
      cases hx : x.1 with
      | none => simp only [hx] at h ⊢; exact h
      | some fd =>
        simp only [hx] at h ⊢
        cases hm : mapFile c w fd len { x.2 with execfd := some fd } with
        | error e => simp [hm] at h
        | ok y =>
          obtain ⟨y1, y2⟩ := y
          simp only [hm] at h ⊢
          cases y1 with
          | some r => exact h
          | none => exact retryOpen_mono h (by omega)

theorem dlmmapLocked_mono {c : Cfg} {w : World} {len : Nat} {k : Nat} {st : St} {v} (h : dlmmapLocked c w k len st = .ok v)
    {n : Nat} (hn : k ≤ n) : dlmmapLocked c w n len st = .ok v := by
  unfold dlmmapLocked at h ⊢
  cases he : st.execfd with
  | none =>
    simp only [he] at h ⊢
    exact retryOpen_mono h hn
  | some fd =>
    simp only [he] at h ⊢
    cases hm : mapFile c w fd len st with
    | error e => simp [hm, bind, Except.bind] at h
    | ok y =>
      obtain ⟨y1, y2⟩ := y
      simp only [hm, bind, Except.bind] at h ⊢
      cases y1 with
      | some r => exact h
      | none => exact retryOpen_mono h hn

/-- Without mounts files: the loop of `retry_open` does not end while the last directory can be
opened but not mapped. -/
theorem retryOpen_loops {c : Cfg} (hm : c.mntent = false) (hp : 0 < c.page) (hw : 0 < c.word) {w : World} {len : Nat}
    (hlen : c.word ≤ len) (hopen : ∀ st : St, (openEnv c w "HOME" st).1 ≠ none) (hwr : ∀ t f n, n ≤ w.write t f n)
    (hmap : ∀ t vm n, w.mmap t vm n = none) : ∀ (k : Nat) (st : St), st.idx < (opts c).length → Half w st.tr st →
    st.execsize = 0 → retryOpen c w len k st = .error .fuel
  | 0, _, _, _, _ => rfl
  | k + 1, st, hi, hh, hz => by
    obtain ⟨fd, st1, ext, h1, h2, h3, h4, h5, h6⟩ := search_spec (c := c) (w := w) _ st st.tr rfl hi hh
    unfold retryOpen
    cases hs : search c w k st with
    | error e =>
      have : e = .fuel := search_fuel (h1 _ le_rfl) hs
      subst this
      rfl
    | ok v =>
      have hv : v = (fd, st1) := by
        have a := search_mono hs (Nat.le_max_left k ((opts c).length - st.idx))
        rw [h1 _ (Nat.le_max_right _ _)] at a
        exact (Except.ok.inj a).symm
      subst hv
      have hg := search_grow hs
      simp only [bind, Except.bind]
      cases fd with
      | none => exact absurd rfl (search_last hm hopen hs)
      | some fd =>
        simp only
        obtain ⟨r1, st2, k1, k2, k3, k4, k5, k6, k7, k8, k9⟩ := mapFile_spec (c := c) hp hw (w := w) (fd := fd) hlen (st := { st1 with execfd := some fd }) (h6 fd rfl).1 h3
          (e := st1.tr) (Same.half (st := st1) ⟨rfl, rfl, rfl⟩ (by rw [h2]; exact h4))
        have hr : r1 = none := by
          obtain ⟨s, ha⟩ := allocSpace_true hp hwr (c := c) (fd := fd) len len { st1 with execfd := some fd } le_rfl (h6 fd rfl).1
          have hz' : st1.execsize = 0 := by rw [hg.execsize]; exact hz
          obtain ⟨_, _, ha', _, hf, _⟩ := allocSpace_spec hp (c := c) (w := w) (fd := fd) len len { st1 with execfd := some fd } le_rfl (h6 fd rfl).1
          rw [ha] at ha'
          simp only [Except.ok.injEq, Prod.mk.injEq] at ha'
          obtain ⟨_, rfl⟩ := ha'
          obtain ⟨f, hf⟩ := Option.ne_none_iff_exists'.1 hf
          unfold mapFile at k1
          simp only [ha] at k1
          simp only [bind, Except.bind, hf, St.mmap, hmap, hz', pure, Except.pure, if_true] at k1
          simp only [Bool.true_eq_false, if_false, Except.ok.injEq, Prod.mk.injEq] at k1
          exact k1.1.symm
        subst hr
        simp only [k1]
        exact retryOpen_loops hm hp hw hlen hopen hwr hmap k st2 k4 (by rw [k2]; exact k5)
          (by rw [k9 (by simp)]; show st1.execsize = 0; rw [hg.execsize]; exact hz)

/-- A file without space left: the request fails, nothing else is tried, and the file is kept. -/
theorem dlmmapLocked_full {c : Cfg} (hp : 0 < c.page) {w : World} {len : Nat} (hlen : 0 < len) {st : St} {fd : Nat} {f : File}
    (he : st.execfd = some fd) (hf : st.files fd = some f) (hfull : ∀ t f' n, f'.id = f.id → w.write t f' n = 0) (k : Nat) :
    ∃ st' f', dlmmapLocked c w k len st = .ok (none, st') ∧ st'.tr = st.tr ∧ st'.execfd = some fd ∧ st'.files fd = some f' ∧
      f'.id = f.id := by
  obtain ⟨len, rfl⟩ : ∃ l, len = l + 1 := ⟨len - 1, by omega⟩
  have hn : 0 < (if len + 1 < c.page then len + 1 else c.page) := by split <;> omega
  unfold dlmmapLocked
  simp only [he]
  unfold mapFile allocSpace
  generalize (if len + 1 < c.page then len + 1 else c.page) = n at *
  simp only [St.write, hf, hfull _ f _ rfl, bind, Except.bind, Nat.min_zero, hn, pure, Except.pure, if_true]
  exact ⟨_, _, rfl, rfl, he, if_pos rfl, rfl⟩

end Verif.Dual
