import Verif.Tramp.AllocLemmas

namespace Verif.Tramp
open Verif

/-- Trampoline `p` is in no free list. -/
def Live (s : St) (fr : Nat → List Nat) (p : TP) : Prop :=
  ∃ t x, s.tables t = some x ∧ p.1 = x.array ∧ p.2 < s.ntramp ∧ p.2 ∉ fr t

/-- The code of trampoline `p` is at `c`. -/
def At (s : St) (p : TP) (c : Nat) : Prop :=
  ∃ t x, s.tables t = some x ∧ p.1 = x.array ∧ c = x.code + p.2 * s.size

/-- After a successful initialisation. -/
structure Active (P : Plat) (other : Nat → Option Prot) (s : St) (fr : Nat → List Nat) : Prop where
  status : s.status = .passed
  arch : P.arch = some (s.size, s.mapSize, s.text)
  n : s.ntramp = s.mapSize / s.size
  sizeOk : 16 ≤ s.size
  ex : ∃ T gl, HInv other s T fr (fun _ => s.ntramp) ∧ LInv s gl ∧ GInv s.ntramp T fr gl

/-- Before, or after a failed one. -/
structure Idle (other : Nat → Option Prot) (s : St) : Prop where
  status : s.status ≠ .passed
  tables : ∀ t, s.tables t = none
  arrays : ∀ a, s.arrays a = none
  prot : s.prot = other
  fd : s.fd = false

/-- The constants are kept. -/
def SameC (s s' : St) : Prop :=
  s'.size = s.size ∧ s'.mapSize = s.mapSize ∧ s'.ntramp = s.ntramp ∧ s'.text = s.text

theorem HInv.empty {other : Nat → Option Prot} {s : St} (ht : ∀ t, s.tables t = none) (ha : ∀ a, s.arrays a = none)
    (hp : s.prot = other) (hn : 0 < s.ntramp) (hf : s.ntramp * s.size ≤ s.mapSize) (fr : Nat → List Nat) (k : Nat → Nat) :
    HInv other s [] fr k := by
  constructor
  · exact List.nodup_nil
  · intro t; simp [ht t]
  · intro t x h; simp [ht t] at h
  · intro t t' x x' h; simp [ht t] at h
  · intro a h; exact absurd (ha a) h
  · intro t t' x x' a h; simp [ht t] at h
  · intro t x o h; simp [ht t] at h
  · intro t x o h; simp [ht t] at h
  · intro a _; rw [hp]
  · intro t x a h; simp [ht t] at h
  · exact hn
  · exact hf

theorem TabEnvOk.congr {ms : Nat} {s s' : St} {e : TabEnv} (h : TabEnvOk ms s e) (h1 : s'.tables = s.tables)
    (h2 : s'.arrays = s.arrays) (h3 : s'.prot = s.prot) : TabEnvOk ms s' e :=
  ⟨by rw [h1]; exact h.table, by rw [h2]; exact h.array, by rw [h3]; exact h.map⟩

/-- One attempt of `tramp_table_alloc` during initialisation. -/
theorem tableAlloc_first {P : Plat} {other : Nat → Option Prot} {s : St} {e : TabEnv}
    (ht : ∀ t, s.tables t = none) (ha : ∀ a, s.arrays a = none) (hp : s.prot = other) (hn : 0 < s.ntramp)
    (hd : s.ntramp = s.mapSize / s.size) (hP : P.arch = some (s.size, s.mapSize, s.text)) (h16 : 16 ≤ s.size)
    (hft : s.freeTables = none) (hnf : s.nfreeTables = 0) (he : TabEnvOk s.mapSize s e) :
    ∃ s' b, tableAlloc e s = .ok (s', b) ∧ (∀ a, s.prot a ≠ none → s'.mem a = s.mem a) ∧ s'.fd = s.fd ∧
      s'.status = s.status ∧ SameC s s' ∧
      ((b = false ∧ s'.tables = s.tables ∧ s'.arrays = s.arrays ∧ s'.prot = s.prot ∧ s'.freeTables = none ∧
          s'.nfreeTables = 0 ∧ (e.table = none ∨ e.array = none ∨ e.map1 = none ∨ e.map2 = false)) ∨
       (b = true ∧ ∃ fr, Active P other { s' with status := .passed } fr ∧
          (∀ p, ¬ Live { s' with status := .passed } fr p) ∧ ∃ t x, s'.tables t = some x ∧ fr t ≠ [])) := by
  have hfit : s.ntramp * s.size ≤ s.mapSize := by rw [hd]; exact Nat.div_mul_le_self _ _
  have H := HInv.empty (other := other) ht ha hp hn hfit (fun _ => []) (fun _ => s.ntramp)
  have L : LInv s [] := ⟨hft, List.nodup_nil, by rw [hnf]; rfl⟩
  have Gi : GInv s.ntramp [] (fun _ => []) [] := ⟨by simp, by simp⟩
  obtain ⟨s', b, h1, h2, h3, h4, h5, h6⟩ := tableAlloc_inv H L Gi he
  refine ⟨s', b, h1, h2, h3, h4, h5, ?_⟩
  rcases h6 with ⟨h, _⟩ | ⟨_, c1, c2, c3, c4, c5, c6, c7⟩ | ⟨_, c1, _, _, _, _, t, _, c2, c3, c4, _, _⟩
  · exact absurd rfl h
  · exact .inl ⟨c1, c2, c3, c4, by rw [c5, hft], by rw [c6, hnf], c7⟩
  · obtain ⟨w1, w2, w3, w4⟩ := h5
    refine .inr ⟨c1, upd (fun _ => []) t (List.range s.ntramp).reverse, ⟨rfl, ?_, ?_, ?_, ⟨[t], [t], ?_, ⟨c3.seg, c3.nodup, c3.count⟩, ?_⟩⟩, ?_, ?_⟩
    · simp only [w1, w2, w4]; exact hP
    · simp only [w1, w2, w3]; exact hd
    · simp only [w1]; exact h16
    · rw [upd_self (fun _ => s.ntramp) t _ rfl] at c2
      have c2 : HInv other s' [t] (upd (fun _ => []) t (List.range s.ntramp).reverse) (fun _ => s'.ntramp) := by
        rw [w3]; exact c2
      exact ⟨c2.nodup, c2.dom, c2.body, c2.inj, c2.arrDom, c2.disj, c2.code, c2.data, c2.out, c2.fresh, c2.npos, c2.fit⟩
    · simp only [w3]; exact c4
    · rintro p ⟨u, x, hx, hp1, hp2, hp3⟩
      have hu : u = t := by
        have := (c2.dom u).1 (by simp only at hx; rw [hx]; simp)
        simpa using this
      subst hu
      rw [upd_same] at hp3
      simp only [w3] at hp2
      apply hp3
      simp [hp2]
    · obtain ⟨x, hx⟩ := Option.ne_none_iff_exists'.1 ((c2.dom t).2 (by simp))
      refine ⟨t, x, hx, ?_⟩
      rw [upd_same]
      simp only [ne_eq, List.reverse_eq_nil_iff, List.range_eq_nil]
      omega

/-- `ffi_tramp_init` on an uninitialised library. -/
theorem trampInit_idle {P : Plat} {other : Nat → Option Prot} {s : St} {v : Env} (hP : PlatOk P) (hI : Idle other s)
    (he : EnvOk P s v) :
    ∃ s' b, trampInit P v s = .ok (s', b) ∧ (∀ a, s.prot a ≠ none → s'.mem a = s.mem a) ∧
      ((b = false ∧ Idle other s' ∧
          (s.status = .failed ∨ P.arch = none ∨ (∃ size ms text p, P.arch = some (size, ms, text) ∧ P.page = some p ∧ ms < p) ∨
            ((v.libffi = false ∨ v.e1.table = none ∨ v.e1.array = none ∨ v.e1.map1 = none ∨ v.e1.map2 = false) ∧
             (v.temp = false ∨ v.e2.table = none ∨ v.e2.array = none ∨ v.e2.map1 = none ∨ v.e2.map2 = false)))) ∨
       (b = true ∧ s.status = .uninit ∧ s'.fd = true ∧ ∃ fr, Active P other s' fr ∧ (∀ p, ¬ Live s' fr p) ∧
          ∃ t x, s'.tables t = some x ∧ fr t ≠ [])) := by
  unfold trampInit
  rw [if_neg hI.status]
  by_cases hf : s.status = .failed
  · rw [if_pos hf]
    exact ⟨s, false, rfl, fun _ _ => rfl, .inl ⟨rfl, hI, .inl hf⟩⟩
  · rw [if_neg hf]
    have hun : s.status = .uninit := by
      have := hI.status
      cases h : s.status <;> simp_all
    cases hA : P.arch with
    | none =>
      exact ⟨_, false, rfl, fun _ _ => rfl, .inl ⟨rfl, ⟨by simp, hI.tables, hI.arrays, hI.prot, hI.fd⟩, .inr (.inl rfl)⟩⟩
    | some A =>
      obtain ⟨size, ms, text⟩ := A
      obtain ⟨h16, hms⟩ := hP size ms text hA
      obtain ⟨o1, o2, o3⟩ := he size ms text hA
      have hn : 0 < ms / size := Nat.div_pos hms (by omega)
      dsimp only
      by_cases hpg : (P.page.any fun p => decide (p > ms)) = true
      · rw [if_pos hpg]
        refine ⟨_, false, rfl, fun _ _ => rfl, .inl ⟨rfl, ⟨hI.status, hI.tables, hI.arrays, hI.prot, hI.fd⟩, .inr (.inr (.inl ?_))⟩⟩
        cases hpp : P.page with
        | none => rw [hpp] at hpg; simp at hpg
        | some p => exact ⟨size, ms, text, p, rfl, rfl, by rw [hpp] at hpg; simpa using hpg⟩
      · rw [if_neg hpg]
        -- the second attempt, from any state like the first
        have second : ∀ s1 : St, s1.tables = s.tables → s1.arrays = s.arrays → s1.prot = s.prot →
            s1.freeTables = none → s1.nfreeTables = 0 → s1.size = size → s1.mapSize = ms → s1.text = text →
            s1.ntramp = ms / size → s1.status = .uninit →
            ∃ s' b, getTempFile v s1 = .ok (s', b) ∧ (∀ a, s.prot a ≠ none → s'.mem a = s1.mem a) ∧
              ((b = false ∧ s'.tables = s.tables ∧ s'.arrays = s.arrays ∧ s'.prot = s.prot ∧ s'.fd = false ∧
                (v.temp = false ∨ v.e2.table = none ∨ v.e2.array = none ∨ v.e2.map1 = none ∨ v.e2.map2 = false)) ∨
               (b = true ∧ s'.fd = true ∧ ∃ fr, Active P other { s' with status := .passed } fr ∧
                 (∀ p, ¬ Live { s' with status := .passed } fr p) ∧ ∃ t x, s'.tables t = some x ∧ fr t ≠ [])) := by
          intro s1 e1 e2 e3 e4 e5 e6 e7 e8 e9 e10
          unfold getTempFile
          by_cases ht : v.temp = true
          · rw [if_pos ht]
            obtain ⟨s', b, g1, g2, g3, g4, g5, g6⟩ := tableAlloc_first (P := P) (other := other)
              (s := { s1 with fd := true }) (e := v.e2)
              (by simp only [e1]; exact hI.tables) (by simp only [e2]; exact hI.arrays)
              (by simp only [e3]; exact hI.prot) (by simp only [e9]; exact hn) (by simp only [e6, e7, e9])
              (by simp only [e6, e7, e8]; exact hA) (by simp only [e6]; exact h16) e4 e5
              (by simp only [e7]; exact o2.congr e1 e2 e3)
            simp only [bind, Except.bind, g1]
            rcases g6 with ⟨rfl, c1, c2, c3, c4, c5, c6⟩ | ⟨rfl, fr, c1, c2, c9⟩
            · refine ⟨_, false, rfl, fun a ha => g2 a (by simp only [e3]; exact ha), .inl ⟨rfl, c1.trans e1, c2.trans e2, c3.trans e3, rfl, .inr c6⟩⟩
            · exact ⟨_, true, rfl, fun a ha => g2 a (by simp only [e3]; exact ha), .inr ⟨rfl, g3, fr, c1, c2, c9⟩⟩
          · rw [if_neg ht]
            exact ⟨_, false, rfl, fun _ _ => rfl, .inl ⟨rfl, e1, e2, e3, rfl, .inl (by simpa using ht)⟩⟩
        unfold initOs getLibffi
        by_cases hL : v.libffi = true
        · rw [if_pos hL]
          obtain ⟨s', b, g1, g2, g3, g4, g5, g6⟩ := tableAlloc_first (P := P) (other := other)
            (s := { s with freeTables := none, nfreeTables := 0, size := size, mapSize := ms, text := text,
                           ntramp := ms / size, fd := true }) (e := v.e1)
            hI.tables hI.arrays hI.prot hn rfl hA h16 rfl rfl (o1.congr rfl rfl rfl)
          simp only [bind, Except.bind, g1]
          rcases g6 with ⟨rfl, c1, c2, c3, c4, c5, c6⟩ | ⟨rfl, fr, c1, c2, c9⟩
          · obtain ⟨w1, w2, w3, w4⟩ := g5
            obtain ⟨s2, b, k1, k2, k3⟩ := second { s' with fd := false } c1 c2 c3 c4 c5 w1 w2 w4 w3 (g4.trans hun)
            simp only [pure, Except.pure, k1]
            rcases k3 with ⟨rfl, d1, d2, d3, d4, d5⟩ | ⟨rfl, d4, fr, d1, d2, d9⟩
            · refine ⟨_, false, rfl, fun a ha => (k2 a ha).trans (g2 a ha), .inl ⟨rfl, ⟨by simp, ?_, ?_, ?_, d4⟩, .inr (.inr (.inr ⟨.inr c6, d5⟩))⟩⟩
              · intro t; simp only [d1]; exact hI.tables t
              · intro t; simp only [d2]; exact hI.arrays t
              · simp only [d3]; exact hI.prot
            · exact ⟨_, true, rfl, fun a ha => (k2 a ha).trans (g2 a ha), .inr ⟨rfl, hun, d4, fr, d1, d2, d9⟩⟩
          · exact ⟨_, true, rfl, fun a ha => g2 a ha, .inr ⟨rfl, hun, g3, fr, c1, c2, c9⟩⟩
        · rw [if_neg hL]
          obtain ⟨s2, b, k1, k2, k3⟩ := second { s with freeTables := none, nfreeTables := 0, size := size, mapSize := ms, text := text, ntramp := ms / size } rfl rfl rfl rfl rfl rfl rfl rfl rfl hun
          simp only [bind, Except.bind, pure, Except.pure, k1]
          rcases k3 with ⟨rfl, d1, d2, d3, d4, d5⟩ | ⟨rfl, d4, fr, d1, d2, d9⟩
          · refine ⟨_, false, rfl, fun a ha => k2 a ha, .inl ⟨rfl, ⟨by simp, ?_, ?_, ?_, d4⟩, .inr (.inr (.inr ⟨.inl (by simpa using hL), d5⟩))⟩⟩
            · intro t; simp only [d1]; exact hI.tables t
            · intro t; simp only [d2]; exact hI.arrays t
            · simp only [d3]; exact hI.prot
          · exact ⟨_, true, rfl, fun a ha => k2 a ha, .inr ⟨rfl, hun, d4, fr, d1, d2, d9⟩⟩

end Verif.Tramp
