import Verif.Core.PrepLemmas

namespace Verif
open Spec

/-! ### More fuel never changes a result -/

theorem guardInit_mono {f g : Heap → Addr → Except Abn (Status × Heap)}
    (hfg : ∀ h a r, f h a = .ok r → g h a = .ok r) {h a r} (hres : guardInit f h a = .ok r) :
    guardInit g h a = .ok r := by
  unfold guardInit at hres ⊢
  split at hres
  · cases hres
  · rename_i d hd
    split at hres
    · rename_i hz
      simp only [hz, if_true]
      exact hfg _ _ _ hres
    · rename_i hz
      simp only [hz, if_false]
      exact hres

theorem initLoop_mono {f g : Heap → Addr → Except Abn (Status × Heap)}
    (hfg : ∀ h a r, f h a = .ok r → g h a = .ok r) {a es h offs r}
    (hres : initLoop f a h es offs = .ok r) : initLoop g a h es offs = .ok r := by
  induction es generalizing h offs with
  | nil => exact hres
  | cons e es ih =>
    rw [initLoop] at hres ⊢
    cases hg : guardInit f h e with
    | error x => rw [hg] at hres; cases hres
    | ok v =>
      rw [hg] at hres
      rw [guardInit_mono hfg hg]
      simp only [bind, Except.bind] at hres ⊢
      split at hres
      · rename_i hc; rw [if_pos hc]; exact hres
      · rename_i hc
        rw [if_neg hc]
        cases hge : v.2.get e with
        | error x => rw [hge] at hres; cases hres
        | ok de =>
          cases hga : v.2.get a with
          | error x => rw [hge, hga] at hres; cases hres
          | ok da =>
            rw [hge, hga] at hres
            exact ih hres

theorem dropOffs_mono {f g : Heap → Addr → Except Abn (Status × Heap × List Nat)}
    (hfg : ∀ h a r, f h a = .ok r → g h a = .ok r) (h a r)
    (hres : dropOffs f h a = .ok r) : dropOffs g h a = .ok r := by
  unfold dropOffs at hres ⊢
  split at hres
  · cases hres
  · rename_i heq
    rw [hfg _ _ _ heq]
    exact hres

theorem initAggOffs_succ (n : Nat) : ∀ h a r, initAggOffs n h a = .ok r →
    initAggOffs (n + 1) h a = .ok r := by
  induction n with
  | zero => intro h a r hres; rw [initAggOffs] at hres; cases hres
  | succ n ih =>
    intro h a r hres
    rw [initAggOffs] at hres ⊢
    cases hg : h.get a with
    | error x => rw [hg] at hres; cases hres
    | ok d =>
      rw [hg] at hres
      simp only [bind, Except.bind] at hres ⊢
      split at hres
      · exact hres
      · rename_i es hes
        cases hl : initLoop (dropOffs (initAggOffs n)) a
            (h.set a { d with size := 0, align := 0 }) es [] with
        | error x => rw [hl] at hres; cases hres
        | ok v =>
          rw [hl] at hres
          rw [initLoop_mono (dropOffs_mono ih) hl]
          exact hres

theorem initAggOffs_mono {n m : Nat} (hnm : n ≤ m) {h a r} (hres : initAggOffs n h a = .ok r) :
    initAggOffs m h a = .ok r := by
  obtain ⟨k, rfl⟩ := Nat.exists_eq_add_of_le hnm
  induction k with
  | zero => exact hres
  | succ k ih => exact initAggOffs_succ _ _ _ _ (ih (by omega))

theorem initIfUnset_mono {n m : Nat} (hnm : n ≤ m) {h a r} (hres : initIfUnset n h a = .ok r) :
    initIfUnset m h a = .ok r :=
  guardInit_mono (fun _ _ _ => dropOffs_mono (fun _ _ _ => initAggOffs_mono hnm) _ _ _) hres

theorem prepArgs_mono {T : Target} {n m : Nat} (hnm : n ≤ m) {as h b r}
    (hres : prepArgs T n h as b = .ok r) : prepArgs T m h as b = .ok r := by
  induction as generalizing h b with
  | nil => exact hres
  | cons a as ih =>
    rw [prepArgs] at hres ⊢
    cases hg : initIfUnset n h a with
    | error x => rw [hg] at hres; cases hres
    | ok v =>
      rw [hg] at hres
      rw [initIfUnset_mono hnm hg]
      simp only [bind, Except.bind] at hres ⊢
      split at hres
      · rename_i hc; rw [if_pos hc]; exact hres
      · rename_i hc
        rw [if_neg hc]
        cases hge : v.2.get a with
        | error x => rw [hge] at hres; cases hres
        | ok d =>
          rw [hge] at hres
          simp only at hres ⊢
          split at hres
          · cases hres
          · rename_i hc2
            rw [if_neg hc2]
            exact ih hres

theorem prepCifCore_mono {T : Target} {n m : Nat} (hnm : n ≤ m) {h cif abi v nf rt as r}
    (hres : prepCifCore T n h cif abi v nf rt as = .ok r) :
    prepCifCore T m h cif abi v nf rt as = .ok r := by
  unfold prepCifCore at hres ⊢
  split at hres
  · rename_i hc; rw [if_pos hc]; exact hres
  · rename_i hc
    rw [if_neg hc]
    cases hg : initIfUnset n h rt with
    | error x => rw [hg] at hres; cases hres
    | ok v =>
      rw [hg] at hres
      rw [initIfUnset_mono hnm hg]
      simp only [bind, Except.bind] at hres ⊢
      split at hres
      · rename_i hc; rw [if_pos hc]; exact hres
      · rename_i hc
        rw [if_neg hc]
        cases hge : v.2.get rt with
        | error x => rw [hge] at hres; cases hres
        | ok d =>
          rw [hge] at hres
          simp only at hres ⊢
          split at hres
          · cases hres
          · rename_i hc2
            rw [if_neg hc2]
            split at hres
            · cases hres
            · rename_i v2 hpa
              rw [prepArgs_mono hnm hpa]
              exact hres

/-- `initialize_aggregate` called on an aggregate that was unset in `h0` and has
possibly been laid out since (as `ffi_get_struct_offsets` does). -/
theorem initAggOffs_again {h0 h : Heap} (hv : Valid h0) (hs : Settled h0 h) {a : Addr}
    (hu : Unset h0 a) : ∃ N, ∀ n, N ≤ n → ∃ st h' offs, initAggOffs n h a = .ok (st, h', offs) ∧
      ((∃ d es ms s al, h0 a = some d ∧ d.elements = some es ∧ Members h0 es ms ∧
        StructLayout ms offs s al ∧ Layout h0 a s al ∧ st = .ok ∧ Settled h0 h' ∧
        h' a = some { d with size := s, align := al })
      ∨ (¬ HasLayout h0 a ∧ st = .badTypedef)) := by
  obtain ⟨rk, hrk⟩ := hv.acyclic
  refine ⟨rk a + 1, fun n hn => ?_⟩
  obtain ⟨d, hd, hz⟩ := hu
  have hda : ∃ da, h a = some da ∧ da.elements = d.elements ∧ da.tc = d.tc := by
    rcases hs.good a with hg | ⟨d', s, al, h1, h2, h3, h4⟩
    · exact ⟨d, hg.trans hd, rfl, rfl⟩
    · rw [hd] at h1; cases h1
      exact ⟨_, h4, rfl, rfl⟩
  obtain ⟨da, hda, hel, htc⟩ := hda
  obtain ⟨st, h', offs, hres, hf, hmono, hcase⟩ :=
    initAggOffs_spec hv hrk n a (by omega) ⟨d, hd, hz⟩ h da (hs.inv rk _) hda
      (by simp [hd, hel]) (by simp [hd, htc])
  refine ⟨st, h', offs, hres, ?_⟩
  rcases hcase with ⟨d', es, ms, s, al, hd', he, hm, hsl, hl, hst, hinv, hcl, hh⟩ | hbad
  · left
    have hd'' := hd'
    rw [hd] at hd''; cases hd''
    refine ⟨d, es, ms, s, al, hd, he, hm, hsl, hl, hst, ?_, hh⟩
    have hmono' : ∀ b, IsSet h b → h' b = h b := by
      intro b hb
      by_cases hbe : b = a
      · subst hbe
        rcases hs.good b with hg | ⟨d2, s2, al2, h1, h2, h3, h4⟩
        · obtain ⟨d3, hd3, hn3⟩ := hb
          rw [hg, hd] at hd3; cases hd3
          exact absurd hz hn3
        · obtain ⟨rfl, rfl⟩ := h3.unique hl
          rw [hd] at h1; cases h1
          rw [hh, h4]
      · exact hmono b hbe hb
    have hga : GoodAt h0 h' a := .inr ⟨d, s, al, hd, hz, hl, hh⟩
    have hall : ∀ r, Inv rk r h0 h' := fun r =>
      (hs.inv rk r).frame hrk hf hmono' hinv hga hcl
    refine ⟨?_, ?_⟩
    · intro b
      by_cases hub : Unset h0 b
      · exact (hall (rk b + 1)).low b hub (Nat.lt_succ_self _)
      · exact .inl ((hall 0).set b hub)
    · intro b hb hsb
      exact (hall (rk b + 1)).done b hb (Nat.lt_succ_self _) hsb
  · exact .inr hbad

end Verif
