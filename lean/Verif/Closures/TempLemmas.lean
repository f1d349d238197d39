import Verif.Spec.Temp
import Verif.Base.Common

/-
Lemmas about the search for a temporary file.
-/
namespace Verif.Dual
open Verif

theorem opts_rep {c : Cfg} {i : Nat} {o : Opt} (h : (opts c)[i]? = some o) : o.rep = true ↔ o.func = .mnt := by
  have : ∀ a b, ∀ o ∈ optTable a b, (o.rep = true ↔ o.func = .mnt) := by decide
  exact this _ _ o (List.mem_of_getElem? h)

theorem opts_last {c : Cfg} (hc : c.mntent = true) {i : Nat} {o : Opt} (h : (opts c)[i]? = some o) (hr : o.rep = false) :
    i + 1 < (opts c).length := by
  have key : ∀ a, ∀ i, i < (optTable a true).length → ((optTable a true)[i]?).map (·.rep) = some false →
      i + 1 < (optTable a true).length := by decide
  obtain ⟨hi, _⟩ := List.getElem?_eq_some_iff.1 h
  unfold opts at *
  rw [hc] at *
  exact key _ i hi (by rw [h]; simp [hr])

/-- Same state except for the time, the events and the open files. -/
structure Same (st st' : St) : Prop where
  idx : st'.idx = st.idx
  lastMounts : st'.lastMounts = st.lastMounts
  lastMntent : st'.lastMntent = st.lastMntent

theorem Same.refl (st : St) : Same st st := ⟨rfl, rfl, rfl⟩

theorem Same.trans {a b d : St} (h : Same a b) (k : Same b d) : Same a d :=
  ⟨k.1.trans h.1, k.2.trans h.2, k.3.trans h.3⟩

/-! ## Opening files -/

theorem opened_same (st : St) (fd) : Same st (st.opened fd) ∧ (st.opened fd).tr = st.tr := by
  cases fd <;> exact ⟨⟨rfl, rfl, rfl⟩, rfl⟩

theorem opened_file (st : St) (fd : Nat) : (st.opened (some fd)).files fd ≠ none := by simp [St.opened]

theorem openName_spec (w : World) (name : String) (st : St) :
    Same st (openName w name st).2 ∧ (openName w name st).2.tr = st.tr ∧
      ∀ fd, (openName w name st).1 = some fd → (openName w name st).2.files fd ≠ none := by
  unfold openName
  refine ⟨(opened_same _ _).1, (opened_same _ _).2, fun fd h => ?_⟩
  simp only at h
  rw [h]
  exact opened_file _ _

theorem openDir_spec (c : Cfg) (w : World) (dir : String) (st : St) :
    Same st (openDir c w dir st).2 ∧ (openDir c w dir st).2.tr = st.tr ++ [.open dir] ∧
      ∀ fd, (openDir c w dir st).1 = some fd → (openDir c w dir st).2.files fd ≠ none := by
  unfold openDir
  simp only
  split
  · split
    · rename_i fd _
      obtain ⟨a, b⟩ := opened_same { st with tr := st.tr ++ [.open dir] } (some fd)
      refine ⟨⟨a.1, a.2, a.3⟩, b, fun k h => ?_⟩
      obtain rfl := Option.some.inj h
      exact opened_file _ _
    · split
      · obtain ⟨a, b, d⟩ := openName_spec w (dir ++ "/ffiXXXXXX") ({ st with tr := st.tr ++ [.open dir] } : St).tick
        exact ⟨⟨a.1, a.2, a.3⟩, b, d⟩
      · exact ⟨⟨rfl, rfl, rfl⟩, rfl, by simp⟩
  · obtain ⟨a, b, d⟩ := openName_spec w (dir ++ "/ffiXXXXXX") ({ st with tr := st.tr ++ [.open dir] } : St)
    exact ⟨⟨a.1, a.2, a.3⟩, b, d⟩

/-- The loop over the mount points: on failure all are tried; on success the rest is left. -/
theorem mntLoop_spec (c : Cfg) (w : World) : ∀ (l : List Mnt) (st : St), ∃ ext done rest,
    (mntLoop c w l st).2.tr = st.tr ++ ext ∧ l = done ++ rest ∧ (mntLoop c w l st).2.lastMntent = some rest ∧
    (mntLoop c w l st).2.idx = st.idx ∧ (mntLoop c w l st).2.lastMounts = st.lastMounts ∧
    (∀ m ∈ done, usable w m = true → Ev.open m.dir ∈ ext) ∧
    ((mntLoop c w l st).1 = none → rest = []) ∧
    ∀ fd, (mntLoop c w l st).1 = some fd → done ≠ [] ∧ (mntLoop c w l st).2.files fd ≠ none
  | [], st => ⟨[], [], [], by simp [mntLoop]⟩
  | m :: ms, st => by
    unfold mntLoop
    by_cases hu : usable w m = true
    · simp only [hu, if_true]
      obtain ⟨a, b, d⟩ := openDir_spec c w m.dir st
      rcases h : openDir c w m.dir st with ⟨fd, st1⟩
      rw [h] at a b d
      cases fd with
      | some fd =>
        refine ⟨[.open m.dir], [m], ms, b, rfl, rfl, a.1, a.2, ?_, by simp, ?_⟩
        · intro m' hm' _
          simp only [List.mem_singleton] at hm'
          subst hm'
          simp
        · intro k hk
          exact ⟨by simp, d k hk⟩
      | none =>
        obtain ⟨ext, done, rest, h1, h2, h3, h4, h5, h6, h7, h8⟩ := mntLoop_spec c w ms st1
        refine ⟨.open m.dir :: ext, m :: done, rest, ?_, by simp [h2], h3, h4.trans a.1, h5.trans a.2, ?_, h7, ?_⟩
        · show (mntLoop c w ms st1).2.tr = _
          rw [h1]; simp only at b; rw [b]; simp
        · intro m' hm' hu'
          rcases List.mem_cons.1 hm' with rfl | hm'
          · simp
          · exact List.mem_cons_of_mem _ (h6 m' hm' hu')
        · intro k hk
          exact ⟨by simp, (h8 k hk).2⟩
    · simp only [hu]
      obtain ⟨ext, done, rest, h1, h2, h3, h4, h5, h6, h7, h8⟩ := mntLoop_spec c w ms st
      refine ⟨ext, m :: done, rest, h1, by simp [h2], h3, h4, h5, ?_, h7, fun k hk => ⟨by simp, (h8 k hk).2⟩⟩
      intro m' hm' hu'
      rcases List.mem_cons.1 hm' with rfl | hm'
      · exact absurd hu' hu
      · exact h6 m' hm' hu'

/-! ## Progress of the search -/

/-- What was read of the mounts file being read, if any, was tried in `ext`. -/
def Half (w : World) (ext : List Ev) (st : St) : Prop :=
  (st.lastMounts = none ∧ st.lastMntent = none) ∨ ∃ a, st.lastMounts = some a ∧
    ((st.lastMntent = none ∧ Ev.setmntent a false ∈ ext) ∨
      ∃ done rest, st.lastMntent = some rest ∧ w.mounts a = done ++ rest ∧
        ∀ m ∈ done, usable w m = true → Ev.open m.dir ∈ ext)

/-- How much of the current entry is left. -/
def remaining (c : Cfg) (w : World) (st : St) : Nat :=
  match (opts c)[st.idx]? with
  | some o =>
    if o.func = .mnt then
      (if st.lastMounts = some o.arg then (st.lastMntent.getD []).length else (w.mounts o.arg).length + 1)
    else 0
  | none => 0

theorem Tried.mono {w : World} {tr tr' : List Ev} {o : Opt} (h : Tried w tr o) (hs : ∀ e ∈ tr, e ∈ tr') : Tried w tr' o := by
  unfold Tried at *
  split
  · rename_i e; rw [e] at h; exact hs _ h
  · rename_i e; rw [e] at h; exact hs _ h
  · rename_i e; rw [e] at h; exact fun d hd => hs _ (h d hd)
  · rename_i e; rw [e] at h
    exact h.imp (hs _) fun h m hm h1 h2 h3 => hs _ (h m hm h1 h2 h3)

theorem usable_iff (w : World) (m : Mnt) : usable w m = true ↔ m.ro = false ∧ m.noexec = false ∧ w.access m.dir = true := by
  simp [usable, and_assoc]

/-- One call of an entry's function. -/
theorem call_spec {c : Cfg} {w : World} {st : St} {o : Opt} (ho : (opts c)[st.idx]? = some o) {ext0 : List Ev}
    (hh : Half w ext0 st) :
    ∃ ext, (o.call c w st).2.tr = st.tr ++ ext ∧ (o.call c w st).2.idx = st.idx ∧
      ((o.call c w st).1 = none ∨ o.rep = false → Tried w (ext0 ++ ext) o) ∧
      (o.rep = false → Same st (o.call c w st).2) ∧
      (o.rep = true → Half w (ext0 ++ ext) (o.call c w st).2 ∧
        (∀ fd, (o.call c w st).1 = some fd → remaining c w (o.call c w st).2 < remaining c w st)) ∧
      ∀ fd, (o.call c w st).1 = some fd → (o.call c w st).2.files fd ≠ none := by
  have hrep := opts_rep ho
  cases hf : o.func with
  | memfd =>
    simp only [hf, reduceCtorEq, iff_false, Bool.not_eq_true] at hrep
    obtain ⟨a, b⟩ := opened_same st (st.newfd w (w.memfd st.clock))
    simp only [Opt.call, hf, openMemfd, hrep]
    refine ⟨[.memfd], rfl, a.1, fun _ => by simp [Tried, hf], fun _ => ⟨a.1, a.2, a.3⟩, by simp, ?_⟩
    intro fd h
    show (st.opened (st.newfd w (w.memfd st.clock))).files fd ≠ none
    rw [h]; exact opened_file _ _
  | dir =>
    simp only [hf, reduceCtorEq, iff_false, Bool.not_eq_true] at hrep
    obtain ⟨a, b, d⟩ := openDir_spec c w o.arg st
    simp only [Opt.call, hf, hrep]
    exact ⟨_, b, a.1, fun _ => by simp [Tried, hf], fun _ => ⟨a.1, a.2, a.3⟩, by simp, d⟩
  | env =>
    simp only [hf, reduceCtorEq, iff_false, Bool.not_eq_true] at hrep
    simp only [Opt.call, hf, hrep, openEnv]
    cases he : w.getenv o.arg with
    | none => exact ⟨[], by simp, rfl, fun _ => by simp [Tried, hf, he], fun _ => Same.refl st, by simp, by simp⟩
    | some dir =>
      obtain ⟨a, b, d⟩ := openDir_spec c w dir st
      exact ⟨_, b, a.1, fun _ => by simp [Tried, hf, he], fun _ => ⟨a.1, a.2, a.3⟩, by simp, d⟩
  | mnt =>
    simp only [hf, iff_true] at hrep
    simp only [Opt.call, hf, hrep]
    unfold openMnt
    simp only
    by_cases hl : st.lastMounts = some o.arg
    · -- the file is being read
      rw [if_neg (by simp [hl])]
      obtain ⟨a', ha', h⟩ := hh.resolve_left (by simp [hl])
      rw [hl] at ha'
      obtain rfl := Option.some.inj ha'
      rcases h with ⟨h1, h2⟩ | ⟨done, rest, h1, h2, h3⟩
      · simp only [h1]
        exact ⟨[], by simp, by simp, fun _ => by simp [Tried, hf, h2], by simp,
          fun _ => ⟨.inr ⟨o.arg, hl, .inl ⟨h1, by simpa using h2⟩⟩, by simp⟩, by simp⟩
      · simp only [h1]
        obtain ⟨ext, done', rest', k1, k2, k3, k4, k5, k6, k7, k8⟩ := mntLoop_spec c w rest st
        have hall : ∀ m ∈ done ++ done', usable w m = true → Ev.open m.dir ∈ ext0 ++ ext := by
          intro m hm hu
          rcases List.mem_append.1 hm with hm | hm
          · exact List.mem_append_left _ (h3 m hm hu)
          · exact List.mem_append_right _ (k6 m hm hu)
        refine ⟨ext, k1, k4, ?_, by simp, fun _ => ⟨?_, ?_⟩, fun fd h => (k8 fd h).2⟩
        · intro hn
          have hr := k7 (by simpa using hn)
          simp only [Tried, hf]
          right
          intro m hm m1 m2 m3
          rw [h2, k2, hr, List.append_nil] at hm
          exact hall m hm ((usable_iff w m).2 ⟨m1, m2, m3⟩)
        · refine .inr ⟨o.arg, k5.trans hl, .inr ⟨done ++ done', rest', k3, by rw [h2, k2]; simp, hall⟩⟩
        · intro fd h
          obtain ⟨hne, _⟩ := k8 fd h
          simp only [remaining, k4, ho, hf, k5, hl, k3, h1, if_true, Option.getD_some]
          rw [k2, List.length_append]
          have := List.length_pos_iff.2 hne
          omega
    · rw [if_pos (Ne.symm hl)]
      cases hs : w.setmntent st.clock o.arg with
      | false =>
        simp only [Bool.false_eq_true, if_false]
        refine ⟨[.setmntent o.arg false], by simp, by simp, fun _ => by simp [Tried, hf], by simp, fun _ => ⟨?_, by simp⟩, by simp⟩
        exact .inr ⟨o.arg, rfl, .inl ⟨rfl, by simp⟩⟩
      | true =>
        simp only [if_true]
        generalize hst1 : ({ st with clock := st.clock + 1, lastMounts := some o.arg, lastMntent := some (w.mounts o.arg), tr := st.tr ++ [.setmntent o.arg true] } : St) = st1
        obtain ⟨ext, done', rest', k1, k2, k3, k4, k5, k6, k7, k8⟩ := mntLoop_spec c w (w.mounts o.arg) st1
        have hi : st1.idx = st.idx := by rw [← hst1]
        have hm1 : st1.lastMounts = some o.arg := by rw [← hst1]
        refine ⟨.setmntent o.arg true :: ext, by rw [k1, ← hst1]; simp, k4.trans hi, ?_, by simp, fun _ => ⟨?_, ?_⟩, fun fd h => (k8 fd h).2⟩
        · intro hn
          have hr := k7 (by simpa using hn)
          simp only [Tried, hf]
          right
          intro m hm m1 m2 m3
          rw [k2, hr, List.append_nil] at hm
          have := k6 m hm ((usable_iff w m).2 ⟨m1, m2, m3⟩)
          simp [this]
        · refine .inr ⟨o.arg, k5.trans hm1, .inr ⟨done', rest', k3, k2, fun m hm hu => ?_⟩⟩
          simp [k6 m hm hu]
        · intro fd h
          obtain ⟨hne, _⟩ := k8 fd h
          simp only [remaining, k4, hi, ho, hf, k5, hm1, k3, if_true, Option.getD_some, hl, if_false]
          have := congrArg List.length k2
          rw [List.length_append] at this
          omega

theorem openMnt_none (c : Cfg) (w : World) {ext : List Ev} {st : St} (hh : Half w ext st) :
    (openMnt c w none st).2 = { st with lastMounts := none, lastMntent := none } := by
  unfold openMnt
  rcases hh with ⟨h1, h2⟩ | ⟨o, h1, _⟩
  · simp only [h1, ne_eq, not_true_eq_false, if_false, h2]
    rw [← h1, ← h2]
  · simp [h1]

theorem optsNext_spec {c : Cfg} {w : World} {ext : List Ev} {st : St} (hh : Half w ext st) (hi : st.idx < (opts c).length) :
    ∃ st', optsNext c w st = .ok (decide (st.idx + 1 = (opts c).length), st') ∧ Half w ext st' ∧
      st'.idx = (if st.idx + 1 = (opts c).length then 0 else st.idx + 1) ∧
      (c.mntent = true → st.idx + 1 = (opts c).length → st'.lastMounts = none ∧ st'.lastMntent = none) ∧
      (st.lastMounts = none → st'.lastMounts = none) ∧
      (∀ o, (opts c)[st.idx]? = some o → o.rep = true → st'.lastMounts = none) ∧
      st'.clock = st.clock ∧ st'.tr = st.tr ∧ st'.execfd = st.execfd ∧ st'.execsize = st.execsize ∧ st'.files = st.files ∧
      st'.vm = st.vm ∧ st'.words = st.words := by
  have ho : (opts c)[st.idx]? = some (opts c)[st.idx] := by simp [hi]
  unfold optsNext
  rw [ho]
  have hrep := opts_rep ho
  have hlast := fun hm => opts_last (c := c) hm ho
  generalize (opts c)[st.idx] = o at *
  simp only [bind, Except.bind, pure, Except.pure]
  cases hr : o.rep with
  | true =>
    rw [hr] at hrep
    rw [if_pos rfl, if_pos (hrep.1 rfl), openMnt_none c w hh]
    refine ⟨{ st with lastMounts := none, lastMntent := none, idx := if st.idx + 1 = (opts c).length then 0 else st.idx + 1 }, ?_, .inl ⟨rfl, rfl⟩, rfl, fun _ _ => ⟨rfl, rfl⟩, fun _ => rfl, fun _ _ _ => rfl, rfl, rfl, rfl, rfl, rfl, rfl, rfl⟩
    by_cases e : st.idx + 1 = (opts c).length <;> simp [e]
  | false =>
    simp only [Bool.false_eq_true, if_false]
    refine ⟨{ st with idx := if st.idx + 1 = (opts c).length then 0 else st.idx + 1 }, ?_, hh, rfl, fun hm e => ?_, fun h => h, fun o' ho' hr' => ?_, rfl, rfl, rfl, rfl, rfl, rfl, rfl⟩
    · by_cases e : st.idx + 1 = (opts c).length <;> simp [e]
    · have := hlast hm hr
      omega
    · rw [← Option.some.inj ho', hr] at hr'
      simp at hr'

/-- Every entry from `i` to below `j` was tried. -/
def TriedFrom (c : Cfg) (w : World) (ext : List Ev) (i j : Nat) : Prop :=
  ∀ n o, i ≤ n → n < j → (opts c)[n]? = some o → Tried w ext o

theorem Half.mono {w : World} {e e' : List Ev} {st : St} (h : Half w e st) (hs : ∀ x ∈ e, x ∈ e') : Half w e' st := by
  rcases h with h | ⟨a, h1, h4⟩
  · exact .inl h
  · refine .inr ⟨a, h1, ?_⟩
    rcases h4 with ⟨a, b⟩ | ⟨d, r, a, b, k⟩
    · exact .inl ⟨a, hs _ b⟩
    · exact .inr ⟨d, r, a, b, fun m hm hu => hs _ (k m hm hu)⟩

theorem Same.half {w : World} {e : List Ev} {st st' : St} (h : Same st st') (hh : Half w e st) : Half w e st' := by
  unfold Half
  rw [h.lastMounts, h.lastMntent]
  exact hh

theorem mono_append {e e' : List Ev} : ∀ x ∈ e, x ∈ e ++ e' := fun _ h => List.mem_append_left _ h

/-- `open_temp_exec_file`. -/
theorem search_spec {c : Cfg} {w : World} : ∀ (n : Nat) (st : St) (ext0 : List Ev), n = (opts c).length - st.idx →
    st.idx < (opts c).length → Half w ext0 st →
    ∃ fd st' ext, (∀ k, n ≤ k → search c w k st = .ok (fd, st')) ∧ st'.tr = st.tr ++ ext ∧ st'.idx < (opts c).length ∧
      Half w (ext0 ++ ext) st' ∧
      (fd = none → (c.mntent = true → st'.lastMounts = none ∧ st'.lastMntent = none) ∧ st'.idx = 0 ∧ TriedFrom c w (ext0 ++ ext) st.idx (opts c).length) ∧
      (∀ f, fd = some f → st'.files f ≠ none ∧ (c.mntent = true → st.idx ≤ st'.idx ∧
        TriedFrom c w (ext0 ++ ext) st.idx st'.idx ∧ (st'.idx = st.idx → remaining c w st' < remaining c w st)))
  | 0, st, _, hn, hi, _ => by omega
  | n + 1, st, ext0, hn, hi, hh => by
    have ho : (opts c)[st.idx]? = some (opts c)[st.idx] := by simp [hi]
    obtain ⟨ext, h1, h2, h3, h4, h5, h6⟩ := call_spec ho hh
    have hrep := opts_rep ho
    generalize hgo : (opts c)[st.idx] = o at *
    rcases hcall : o.call c w st with ⟨fd, st1⟩
    rw [hcall] at h1 h2 h3 h4 h5 h6
    simp only at h1 h2 h3 h4 h5 h6
    have hi1 : st1.idx < (opts c).length := by omega
    by_cases hcond : o.rep = false ∨ fd = none
    · -- advance
      have hhalf1 : Half w (ext0 ++ ext) st1 := by
        cases hr : o.rep with
        | true => exact (h5 hr).1
        | false => exact (h4 hr).half (hh.mono mono_append)
      have htried : Tried w (ext0 ++ ext) o := h3 hcond.symm
      have hone : TriedFrom c w (ext0 ++ ext) st.idx (st.idx + 1) := by
        intro m o' hm1 hm2 ho'
        have : m = st.idx := by omega
        subst this
        rw [ho] at ho'
        obtain rfl := Option.some.inj ho'
        exact htried
      obtain ⟨st2, hnext, c1, c5, c2, _, _, _, c3, _, _, c4, _, _⟩ := optsNext_spec (w := w) hhalf1 hi1
      rw [h1] at c3
      rw [h2] at hnext c5 c2
      by_cases hstop : st.idx + 1 = (opts c).length ∨ fd ≠ none
      · -- return
        refine ⟨fd, st2, ext, ?_, c3, ?_, c1, ?_, ?_⟩
        · intro k hk
          obtain ⟨k, rfl⟩ : ∃ k', k = k' + 1 := ⟨k - 1, by omega⟩
          unfold search
          simp only [ho, hcall, hcond, if_true, hnext, bind, Except.bind, decide_eq_true_eq, hstop, pure, Except.pure]
        · rw [c5]; split <;> omega
        · intro hfd
          have he : st.idx + 1 = (opts c).length := hstop.resolve_right (by simp [hfd])
          rw [he] at hone
          exact ⟨fun hm => c2 hm he, by rw [c5, if_pos he], hone⟩
        · intro f hf
          refine ⟨by rw [c4]; exact h6 f hf, fun hm => ?_⟩
          have hr : o.rep = false := hcond.resolve_right (by simp [hf])
          have hlast := opts_last hm ho hr
          rw [c5, if_neg (by omega)]
          exact ⟨by omega, hone, fun h => by omega⟩
      · -- next entry
        have hne : st.idx + 1 ≠ (opts c).length := fun h => hstop (.inl h)
        have hfd : fd = none := by
          by_contra h
          exact hstop (.inr h)
        rw [if_neg hne] at c5
        obtain ⟨fd', st', ext', k1, k2, k3, k4, k5, k6⟩ := search_spec (c := c) (w := w) n st2 (ext0 ++ ext) (by omega) (by omega) c1
        have hone' : TriedFrom c w (ext0 ++ (ext ++ ext')) st.idx (st.idx + 1) := fun m o' a b d =>
          (hone m o' a b d).mono (fun x hx => by rw [← List.append_assoc]; exact List.mem_append_left _ hx)
        have hjoin : ∀ j, TriedFrom c w (ext0 ++ ext ++ ext') st2.idx j → TriedFrom c w (ext0 ++ (ext ++ ext')) st.idx j := by
          intro j hj m o' a b d
          by_cases e : m < st.idx + 1
          · exact hone' m o' a e d
          · rw [← List.append_assoc]
            exact hj m o' (by omega) b d
        refine ⟨fd', st', ext ++ ext', ?_, by rw [k2, c3, List.append_assoc], k3, by rw [← List.append_assoc]; exact k4, ?_, ?_⟩
        · intro k hk
          obtain ⟨k, rfl⟩ : ∃ k', k = k' + 1 := ⟨k - 1, by omega⟩
          unfold search
          simp only [ho, hcall, hcond, if_true, hnext, bind, Except.bind, decide_eq_true_eq, hstop, if_false]
          exact k1 k (by omega)
        · intro hf
          obtain ⟨a, d, e⟩ := k5 hf
          exact ⟨a, d, hjoin _ e⟩
        · intro f hf
          obtain ⟨a, b⟩ := k6 f hf
          refine ⟨a, fun hm => ?_⟩
          obtain ⟨d1, d2, _⟩ := b hm
          exact ⟨by omega, hjoin _ d2, fun h => by omega⟩
    · -- found in a mounts file
      have hr : o.rep = true := by
        cases h : o.rep with
        | true => rfl
        | false => exact absurd (.inl h) hcond
      have hfd : fd ≠ none := fun h => hcond (.inr h)
      refine ⟨fd, st1, ext, ?_, h1, hi1, (h5 hr).1, fun h => absurd h hfd, ?_⟩
      · intro k hk
        obtain ⟨k, rfl⟩ : ∃ k', k = k' + 1 := ⟨k - 1, by omega⟩
        unfold search
        simp only [ho, hcall, hcond, if_false, pure, Except.pure]
      · intro f hf
        refine ⟨h6 f hf, fun _ => ⟨by omega, ?_, fun _ => (h5 hr).2 f hf⟩⟩
        intro m o' a b
        omega

/-! ## Mapping -/

/-- Same state as far as the search is concerned. -/
structure Keep (st st' : St) : Prop where
  same : Same st st'
  tr : st'.tr = st.tr
  execfd : st'.execfd = st.execfd
  execsize : st'.execsize = st.execsize

theorem Keep.refl (st : St) : Keep st st := ⟨Same.refl st, rfl, rfl, rfl⟩

theorem Keep.trans {a b d : St} (h : Keep a b) (k : Keep b d) : Keep a d :=
  ⟨h.same.trans k.same, k.tr.trans h.tr, k.execfd.trans h.execfd, k.execsize.trans h.execsize⟩

theorem Keep.half {w : World} {e : List Ev} {st st' : St} (h : Keep st st') (hh : Half w e st) : Half w e st' :=
  h.same.half hh

theorem Keep.remaining {c : Cfg} {w : World} {st st' : St} (h : Keep st st') : remaining c w st' = remaining c w st := by
  unfold Dual.remaining
  rw [h.same.idx, h.same.lastMounts, h.same.lastMntent]

theorem write_spec {w : World} {fd n : Nat} {st : St} (hf : st.files fd ≠ none) :
    ∃ r st', st.write w fd n = .ok (r, st') ∧ Keep st st' ∧ st'.files fd ≠ none ∧ st'.vm = st.vm := by
  obtain ⟨f, hf⟩ := Option.ne_none_iff_exists'.1 hf
  unfold St.write
  simp only [hf]
  exact ⟨_, _, rfl, ⟨⟨rfl, rfl, rfl⟩, rfl, rfl, rfl⟩, by simp, rfl⟩

theorem allocSpace_spec {c : Cfg} (hp : 0 < c.page) {w : World} {fd : Nat} : ∀ (k len : Nat) (st : St), len ≤ k → st.files fd ≠ none →
    ∃ ok st', allocSpace c w fd k len st = .ok (ok, st') ∧ Keep st st' ∧ st'.files fd ≠ none ∧ st'.vm = st.vm
  | k, 0, st, _, hf => by
    refine ⟨true, st, ?_, Keep.refl st, hf, rfl⟩
    cases k <;> rfl
  | 0, len + 1, st, hk, _ => by omega
  | k + 1, len + 1, st, hk, hf => by
    unfold allocSpace
    have hn : 0 < (if len + 1 < c.page then len + 1 else c.page) := by split <;> omega
    generalize (if len + 1 < c.page then len + 1 else c.page) = n at *
    obtain ⟨r, st1, h1, h2, h3, h4⟩ := write_spec (w := w) (n := n) hf
    simp only [h1, bind, Except.bind]
    split
    · exact ⟨false, _, rfl, h2, h3, h4⟩
    · obtain ⟨ok, st', k1, k2, k3, k4⟩ := allocSpace_spec hp (w := w) (fd := fd) k (len + 1 - n) st1 (by omega) h3
      exact ⟨ok, st', k1, h2.trans k2, k3, k4.trans h4⟩

theorem mmap_keep (w : World) (len : Nat) (pg : Nat → Pg) (st : St) :
    Keep st (st.mmap w len pg).2 ∧ (st.mmap w len pg).2.files = st.files := by
  unfold St.mmap
  split <;> exact ⟨⟨⟨rfl, rfl, rfl⟩, rfl, rfl, rfl⟩, rfl⟩

theorem munmap_keep (w : World) (a len : Nat) (st : St) :
    Keep st (st.munmap w a len).2 ∧ (st.munmap w a len).2.files = st.files := by
  unfold St.munmap
  split <;> exact ⟨⟨⟨rfl, rfl, rfl⟩, rfl, rfl, rfl⟩, rfl⟩

theorem ftruncate_spec (w : World) (fd len : Nat) (st : St) (hf : st.files fd ≠ none) :
    ∃ st', st.ftruncate w fd len = .ok st' ∧ Keep st st' ∧ st'.files fd ≠ none ∧ st'.vm = st.vm := by
  obtain ⟨f, hf⟩ := Option.ne_none_iff_exists'.1 hf
  unfold St.ftruncate
  simp only [hf]
  split
  · exact ⟨_, rfl, ⟨⟨rfl, rfl, rfl⟩, rfl, rfl, rfl⟩, by simp, rfl⟩
  · exact ⟨_, rfl, ⟨⟨rfl, rfl, rfl⟩, rfl, rfl, rfl⟩, by simp [St.tick, hf], rfl⟩

theorem leaveList_spec {c : Cfg} {w : World} {offset : Nat} {e : List Ev} {st : St} (hh : Half w e st)
    (hi : st.idx < (opts c).length) : ∃ st', leaveList c w offset st = .ok st' ∧ st'.tr = st.tr ∧ st'.execfd = st.execfd ∧
      st'.execsize = st.execsize ∧ st'.files = st.files ∧ st'.vm = st.vm ∧ st'.idx < (opts c).length ∧ Half w e st' ∧
      st'.words = st.words ∧ st'.clock = st.clock := by
  have ho : (opts c)[st.idx]? = some (opts c)[st.idx] := by simp [hi]
  unfold leaveList
  rw [ho]
  simp only
  split
  · obtain ⟨st', a1, a2, a3, _, _, _, a4, a5, a6, a7, a8, a9, a10⟩ := optsNext_spec (w := w) hh hi
    refine ⟨st', by rw [a1]; rfl, a5, a6, a7, a8, a9, ?_, a2, a10, a4⟩
    rw [a3]
    split <;> omega
  · exact ⟨st, rfl, rfl, rfl, rfl, rfl, rfl, hi, hh, rfl, rfl⟩

/-- The part of `dlmmap_locked` after the file is open does not fault. -/
theorem mapFile_spec {c : Cfg} (hp : 0 < c.page) (hw : 0 < c.word) {w : World} {fd len : Nat} (hlen : c.word ≤ len) {st : St}
    (hf : st.files fd ≠ none) (hi : st.idx < (opts c).length) {e : List Ev} (hh : Half w e st) :
    ∃ r st', mapFile c w fd len st = .ok (r, st') ∧ st'.tr = st.tr ∧ st'.execfd = st.execfd ∧
      st'.idx < (opts c).length ∧ Half w e st' ∧ (r = none → Keep st st' ∧ st.execsize = 0) ∧
      (r ≠ none → st'.files fd ≠ none) ∧ (∀ a, r = some (some a) → st'.execsize = st.execsize + len) ∧
      ((∀ a, r ≠ some (some a)) → st'.execsize = st.execsize) := by
  unfold mapFile
  obtain ⟨ok, st1, h1, h2, h3, h4⟩ := allocSpace_spec hp (w := w) (fd := fd) len len st le_rfl hf
  simp only [h1, bind, Except.bind]
  cases ok with
  | false =>
    refine ⟨some none, st1, rfl, h2.tr, h2.execfd, by rw [h2.same.idx]; exact hi, h2.half hh, by simp, fun _ => h3, by simp, fun _ => h2.execsize⟩
  | true =>
    obtain ⟨f, hf1⟩ := Option.ne_none_iff_exists'.1 h3
    simp only [hf1]
    obtain ⟨m1, m2⟩ := mmap_keep w len (fun o => ⟨.file f.id (st.execsize + o), false, true⟩) st1
    rcases hm : st1.mmap w len fun o => ⟨.file f.id (st.execsize + o), false, true⟩ with ⟨ptr, st2⟩
    rw [hm] at m1 m2
    simp only at m1 m2
    have k2 := h2.trans m1
    have hf2 : st2.files fd ≠ none := by rw [m2]; exact h3
    cases ptr with
    | none =>
      simp only
      by_cases hz : st.execsize = 0
      · simp only [hz, if_true]
        exact ⟨none, st2.close fd, rfl, k2.tr, k2.execfd, by show st2.idx < _; rw [k2.same.idx]; exact hi,
          Keep.half (st := st2) ⟨⟨rfl, rfl, rfl⟩, rfl, rfl, rfl⟩ (k2.half hh), fun _ => ⟨k2.trans ⟨⟨rfl, rfl, rfl⟩, rfl, rfl, rfl⟩, trivial⟩, by simp, by simp, fun _ => by show st2.execsize = 0; rw [k2.execsize, hz]⟩
      · simp only [hz, if_false]
        obtain ⟨st3, a1, a2, a3, a4⟩ := ftruncate_spec w fd st.execsize st2 hf2
        simp only [a1]
        have k3 := k2.trans a2
        exact ⟨some none, st3, rfl, k3.tr, k3.execfd, by rw [k3.same.idx]; exact hi, k3.half hh, by simp, fun _ => a3, by simp, fun _ => k3.execsize⟩
    | some ptr =>
      simp only
      have hi2 : st2.idx < (opts c).length := by rw [k2.same.idx]; exact hi
      obtain ⟨st3, g1, g2, g3, g4, g5, g6, g7, g8, _⟩ := leaveList_spec (w := w) (offset := st.execsize) (k2.half hh) hi2
      simp only [g1]
      obtain ⟨n1, n2⟩ := mmap_keep w len (fun o => ⟨.file f.id (st.execsize + o), true, false⟩) st3
      have hmap : ∀ a, (st3.mmap w len fun o => ⟨.file f.id (st.execsize + o), true, false⟩).1 = some a → ∀ o, o < len →
          (st3.mmap w len fun o => ⟨.file f.id (st.execsize + o), true, false⟩).2.vm (a + o) = some ⟨.file f.id (st.execsize + o), true, false⟩ := by
        intro a ha o ho
        unfold St.mmap at ha ⊢
        split at ha
        · simp at ha
        · simp only [Option.some.injEq] at ha
          subst ha
          simp only
          rw [if_pos ⟨by omega, by omega⟩]
          simp
      rcases hm' : st3.mmap w len fun o => ⟨.file f.id (st.execsize + o), true, false⟩ with ⟨start, st4⟩
      rw [hm'] at n1 n2 hmap
      simp only at n1 n2 hmap
      cases start with
      | none =>
        simp only
        obtain ⟨u1, u2⟩ := munmap_keep w ptr len st4
        rcases hu : st4.munmap w ptr len with ⟨b, st5⟩
        rw [hu] at u1 u2
        simp only at u1 u2
        obtain ⟨st6, a1, a2, a3, a4⟩ := ftruncate_spec w fd st.execsize st5 (by rw [u2, n2, g5]; exact hf2)
        simp only [a1]
        have k6 := (n1.trans u1).trans a2
        exact ⟨some none, st6, rfl, by rw [k6.tr, g2, k2.tr], by rw [k6.execfd, g3, k2.execfd], by rw [k6.same.idx]; exact g7, k6.half g8, by simp, fun _ => a3, by simp, fun _ => by rw [k6.execsize, g4, k2.execsize]⟩
      | some start =>
        simp only
        have hpg := hmap start rfl (len - c.word) (by omega)
        rw [← Nat.add_sub_assoc hlen] at hpg
        simp only [St.setW, hpg, if_true, pure, Except.pure]
        refine ⟨some (some start), _, rfl, ?_, ?_, ?_, ?_, by simp, ?_, ?_, ?_⟩
        · show st4.tr = _; rw [n1.tr, g2, k2.tr]
        · show st4.execfd = _; rw [n1.execfd, g3, k2.execfd]
        · show st4.idx < _; rw [n1.same.idx]; exact g7
        · exact Same.half (st := st3) ⟨n1.same.1, n1.same.2, n1.same.3⟩ g8
        · intro _; show st4.files fd ≠ none; rw [n2, g5]; exact hf2
        · intro a _; show st4.execsize + len = _; rw [n1.execsize, g4, k2.execsize]
        · intro h; exact absurd rfl (h start)

theorem Same.remaining {c : Cfg} {w : World} {st st' : St} (h : Same st st') : remaining c w st' = remaining c w st := by
  unfold Dual.remaining
  rw [h.idx, h.lastMounts, h.lastMntent]

/-- The retry loop ends. -/
theorem retryOpen_spec {c : Cfg} (hm : c.mntent = true) (hp : 0 < c.page) (hw : 0 < c.word) {w : World} {len : Nat}
    (hlen : c.word ≤ len) (st : St) (ext0 : List Ev) (hi : st.idx < (opts c).length) (hh : Half w ext0 st) :
    ∃ r st' ext N, (∀ k, N ≤ k → retryOpen c w len k st = .ok (r, st')) ∧ st'.tr = st.tr ++ ext ∧
      st'.idx < (opts c).length ∧ Half w (ext0 ++ ext) st' ∧
      (st'.execfd = none → r = none ∧ st'.lastMounts = none ∧ st'.lastMntent = none ∧ TriedFrom c w (ext0 ++ ext) st.idx (opts c).length) ∧
      (∀ fd, st'.execfd = some fd → st'.files fd ≠ none) := by
  obtain ⟨fd, st1, ext, h1, h2, h3, h4, h5, h6⟩ := search_spec (c := c) (w := w) _ st ext0 rfl hi hh
  cases fd with
  | none =>
    obtain ⟨a, b, d⟩ := h5 rfl
    refine ⟨none, { st1 with execfd := none }, ext, (opts c).length - st.idx + 1, ?_, h2, h3, Same.half (st := st1) ⟨rfl, rfl, rfl⟩ h4, fun _ => ⟨rfl, (a hm).1, (a hm).2, d⟩, by simp⟩
    intro k hk
    obtain ⟨k, rfl⟩ : ∃ k', k = k' + 1 := ⟨k - 1, by omega⟩
    unfold retryOpen
    simp only [h1 k (by omega), bind, Except.bind, pure, Except.pure]
  | some fd =>
    obtain ⟨hf, hprog⟩ := h6 fd rfl
    obtain ⟨q1, q2, q3⟩ := hprog hm
    obtain ⟨r, st2, k1, k2, k3, k4, k5, k6, k7, _, _⟩ := mapFile_spec (c := c) hp hw (w := w) (fd := fd) hlen (st := { st1 with execfd := some fd }) hf h3
      (e := ext0 ++ ext) (Same.half (st := st1) ⟨rfl, rfl, rfl⟩ h4)
    cases r with
    | some r =>
      refine ⟨r, st2, ext, (opts c).length - st.idx + 1, ?_, k2.trans h2, k4, k5, fun h => by rw [k3] at h; simp at h, ?_⟩
      · intro k hk
        obtain ⟨k, rfl⟩ : ∃ k', k = k' + 1 := ⟨k - 1, by omega⟩
        unfold retryOpen
        simp only [h1 k (by omega), bind, Except.bind, pure, Except.pure, k1]
      · intro fd' h
        rw [k3] at h
        obtain rfl := Option.some.inj h
        exact k7 (by simp)
    | none =>
      obtain ⟨hk, _⟩ := k6 rfl
      have hsame : Same st1 st2 := ⟨hk.same.1, hk.same.2, hk.same.3⟩
      have hidx : st2.idx = st1.idx := hsame.1
      have hrem : remaining c w st2 = remaining c w st1 := hsame.remaining
      have hdec : Prod.Lex (· < ·) (· < ·) ((opts c).length - st2.idx, remaining c w st2) ((opts c).length - st.idx, remaining c w st) := by
        by_cases e : st1.idx = st.idx
        · rw [hidx, hrem, e]
          exact Prod.Lex.right _ (q3 e)
        · apply Prod.Lex.left
          rw [hidx]; omega
      obtain ⟨r, st', ext', N, m1, m2, m3, m4, m5, m6⟩ := retryOpen_spec hm hp hw hlen st2 (ext0 ++ ext) k4 k5
      refine ⟨r, st', ext ++ ext', max N ((opts c).length - st.idx) + 1, ?_, by rw [m2, k2, h2, List.append_assoc], m3, by rw [← List.append_assoc]; exact m4, ?_, m6⟩
      · intro k hk
        obtain ⟨k, rfl⟩ : ∃ k', k = k' + 1 := ⟨k - 1, by omega⟩
        unfold retryOpen
        simp only [h1 k (by omega), bind, Except.bind, k1]
        exact m1 k (by omega)
      · intro h
        obtain ⟨a, b, b', d⟩ := m5 h
        refine ⟨a, b, b', fun n o n1 n2 n3 => ?_⟩
        rw [← List.append_assoc]
        by_cases e : n < st1.idx
        · exact (q2 n o n1 e n3).mono mono_append
        · exact d n o (by omega) n2 n3
termination_by ((opts c).length - st.idx, remaining c w st)
decreasing_by exact hdec

theorem dlmmapLocked_spec {c : Cfg} (hm : c.mntent = true) (hp : 0 < c.page) (hw : 0 < c.word) {w : World} {len : Nat}
    (hlen : c.word ≤ len) (st : St) (ext0 : List Ev) (hi : st.idx < (opts c).length) (hh : Half w ext0 st)
    (hf : ∀ fd, st.execfd = some fd → st.files fd ≠ none) :
    ∃ r st' ext N, (∀ k, N ≤ k → dlmmapLocked c w k len st = .ok (r, st')) ∧ st'.tr = st.tr ++ ext ∧
      st'.idx < (opts c).length ∧ Half w (ext0 ++ ext) st' ∧
      (st'.execfd = none → r = none ∧ st'.lastMounts = none ∧ st'.lastMntent = none ∧
        TriedFrom c w (ext0 ++ ext) (if st.execfd = none then 0 else st.idx) (opts c).length) ∧
      (∀ fd, st'.execfd = some fd → st'.files fd ≠ none) := by
  unfold dlmmapLocked
  cases he : st.execfd with
  | none =>
    simp only [if_true]
    exact retryOpen_spec hm hp hw hlen { st with idx := 0, execfd := none } ext0 (by simp only; omega) hh
  | some fd =>
    obtain ⟨r, st1, k1, k2, k3, k4, k5, k6, k7, _, _⟩ := mapFile_spec (c := c) hp hw (w := w) hlen (hf fd he) hi hh
    simp only [k1, bind, Except.bind, reduceCtorEq, if_false]
    cases r with
    | some r =>
      refine ⟨r, st1, [], 0, fun _ _ => rfl, by simp [k2], k4, by simpa using k5, fun h => by rw [k3, he] at h; simp at h, ?_⟩
      intro fd' h
      rw [k3, he] at h
      obtain rfl := Option.some.inj h
      exact k7 (by simp)
    | none =>
      obtain ⟨hk, _⟩ := k6 rfl
      obtain ⟨r, st', ext, N, m1, m2, m3, m4, m5, m6⟩ := retryOpen_spec hm hp hw hlen st1 ext0 k4 k5
      exact ⟨r, st', ext, N, m1, by rw [m2, k2], m3, m4, by rw [hk.same.idx] at m5; exact m5, m6⟩

/-! ## Reachable states -/

theorem Done.unique {α : Type} {f : Nat → R α} {a b : α} (h : Done f a) (k : Done f b) : a = b := by
  obtain ⟨N, h⟩ := h
  obtain ⟨M, k⟩ := k
  have := (h (max N M) (by omega)).symm.trans (k (max N M) (by omega))
  exact Except.ok.inj this

structure Inv (c : Cfg) (w : World) (st : St) : Prop where
  idx : st.idx < (opts c).length
  half : Half w st.tr st
  file : ∀ fd, st.execfd = some fd → st.files fd ≠ none

theorem opts_pos (c : Cfg) : 0 < (opts c).length := by
  have : ∀ a b, 0 < (optTable a b).length := by decide
  exact this _ _

/-- What a search leaves alone: the mappings, and the files that are open. -/
structure Grow (w : World) (st st' : St) : Prop where
  execfd : st'.execfd = st.execfd
  execsize : st'.execsize = st.execsize
  vm : st'.vm = st.vm
  words : st'.words = st.words
  clock : st.clock ≤ st'.clock
  files : ∀ fd, st.files fd ≠ none → st'.files fd ≠ none
  keep : FreshFd w → ∀ fd f, st.files fd = some f → st'.files fd = some f

theorem Grow.refl (w : World) (st : St) : Grow w st st := ⟨rfl, rfl, rfl, rfl, le_rfl, fun _ h => h, fun _ _ _ h => h⟩

theorem Grow.trans {w : World} {a b d : St} (h : Grow w a b) (k : Grow w b d) : Grow w a d :=
  ⟨k.1.trans h.1, k.2.trans h.2, k.3.trans h.3, k.4.trans h.4, h.5.trans k.5, fun fd hf => k.6 fd (h.6 fd hf),
    fun hw fd f hf => k.7 hw fd f (h.7 hw fd f hf)⟩

/-- Changes of the variables of the search only. -/
theorem Grow.sub {w : World} {a b b' : St} (h : Grow w a b) (h1 : b'.execfd = b.execfd := by rfl)
    (h2 : b'.execsize = b.execsize := by rfl) (h3 : b'.vm = b.vm := by rfl) (h4 : b'.words = b.words := by rfl)
    (h5 : b'.clock = b.clock := by rfl) (h6 : b'.files = b.files := by rfl) : Grow w a b' :=
  ⟨h1.trans h.1, h2.trans h.2, h3.trans h.3, h4.trans h.4, by rw [h5]; exact h.5, by rw [h6]; exact h.6, by rw [h6]; exact h.7⟩

theorem opened_grow (w : World) (st : St) (fd) (hfd : ∀ n, fd = some n → w.newfd st.clock st.files = some n) : Grow w st (st.opened fd) := by
  cases fd with
  | none => exact ⟨rfl, rfl, rfl, rfl, Nat.le_succ _, fun _ h => h, fun _ _ _ h => h⟩
  | some n =>
    refine ⟨rfl, rfl, rfl, rfl, Nat.le_succ _, fun k hk => ?_, fun hw k f hk => ?_⟩
    · simp only [St.opened]
      split
      · simp
      · exact hk
    · have := hw _ _ n (hfd n rfl)
      simp only [St.opened]
      rw [if_neg (by rintro rfl; rw [this] at hk; simp at hk)]
      exact hk

theorem newfd_some {w : World} {b : Bool} {st : St} : ∀ n, st.newfd w b = some n → w.newfd st.clock st.files = some n := by
  intro n h
  unfold St.newfd at h
  split at h
  · exact h
  · simp at h

theorem openDir_grow (c : Cfg) (w : World) (dir : String) (st : St) : Grow w st (openDir c w dir st).2 := by
  have h0 : Grow w st { st with tr := st.tr ++ [.open dir] } := (Grow.refl w st).sub
  have h1 : Grow w st ({ st with tr := st.tr ++ [.open dir] } : St).tick := ⟨rfl, rfl, rfl, rfl, Nat.le_succ _, fun _ h => h, fun _ _ _ h => h⟩
  unfold openDir openName
  simp only
  split
  · split
    · rename_i fd he
      refine h0.trans (opened_grow w _ (some fd) fun n hn => ?_)
      rw [← Option.some.inj hn]
      exact newfd_some (w := w) (st := { st with tr := st.tr ++ [.open dir] }) fd he
    · split
      · exact h1.trans (opened_grow w _ _ newfd_some)
      · exact h1
  · exact h0.trans (opened_grow w _ _ newfd_some)

theorem mntLoop_grow (c : Cfg) (w : World) : ∀ (l : List Mnt) (st : St), Grow w st (mntLoop c w l st).2
  | [], st => (Grow.refl w st).sub
  | m :: ms, st => by
    unfold mntLoop
    split
    · have := openDir_grow c w m.dir st
      rcases h : openDir c w m.dir st with ⟨fd, st1⟩
      rw [h] at this
      cases fd with
      | some fd => exact this.sub
      | none => exact this.trans (mntLoop_grow c w ms st1)
    · exact mntLoop_grow c w ms st

theorem openMnt_grow (c : Cfg) (w : World) (p) (st : St) : Grow w st (openMnt c w p st).2 := by
  have key : ∀ st1, Grow w st st1 → Grow w st (match st1.lastMntent with
      | none => ((none, st1) : Option Nat × St)
      | some l => mntLoop c w l st1).2 := by
    intro st1 h
    split
    · exact h
    · exact h.trans (mntLoop_grow c w _ _)
  unfold openMnt
  apply key
  split
  · split
    · exact ⟨rfl, rfl, rfl, rfl, Nat.le_succ _, fun _ h => h, fun _ _ _ h => h⟩
    · exact (Grow.refl w st).sub
  · exact Grow.refl w st

theorem call_grow (c : Cfg) (w : World) (o : Opt) (st : St) : Grow w st (o.call c w st).2 := by
  unfold Opt.call
  split
  · exact (opened_grow w st (st.newfd w (w.memfd st.clock)) newfd_some).sub
  · unfold openEnv
    split
    · exact (Grow.refl w st)
    · exact openDir_grow c w _ st
  · exact openDir_grow c w _ st
  · exact openMnt_grow c w _ st

theorem optsNext_grow {c : Cfg} {w : World} {st st' : St} {b} (h : optsNext c w st = .ok (b, st')) : Grow w st st' := by
  have key : ∀ s1 : St, Grow w st s1 → (if s1.idx + 1 = (opts c).length then (Except.ok (true, { s1 with idx := 0 }) : R (Bool × St))
      else .ok (false, { s1 with idx := s1.idx + 1 })) = .ok (b, st') → Grow w st st' := by
    intro s1 hg h
    split at h
    · simp only [Except.ok.injEq, Prod.mk.injEq] at h
      rw [← h.2]; exact hg.sub
    · simp only [Except.ok.injEq, Prod.mk.injEq] at h
      rw [← h.2]; exact hg.sub
  unfold optsNext at h
  split at h
  · simp at h
  · rename_i o _
    simp only [bind, Except.bind, pure, Except.pure] at h
    by_cases hr : o.rep = true
    · by_cases hf : o.func = .mnt
      · simp only [hr, hf, if_true] at h
        exact key _ (openMnt_grow c w none st) h
      · simp [hr, hf] at h
    · simp only [hr] at h
      exact key st (Grow.refl w st) h

theorem search_grow {c : Cfg} {w : World} : ∀ {k : Nat} {st st' : St} {fd}, search c w k st = .ok (fd, st') → Grow w st st'
  | 0, _, _, _, h => by simp [search] at h
  | k + 1, st, st', fd, h => by
    unfold search at h
    split at h
    · simp at h
    · rename_i o _
      have h1 := call_grow c w o st
      rcases hc : o.call c w st with ⟨fd1, st1⟩
      rw [hc] at h h1
      simp only [bind, Except.bind, pure, Except.pure] at h
      split at h
      · split at h
        · simp at h
        · rename_i v hv
          obtain ⟨b, st2⟩ := v
          have h2 := optsNext_grow hv
          split at h
          · simp only [Except.ok.injEq, Prod.mk.injEq] at h
            rw [← h.2]; exact h1.trans h2
          · exact (h1.trans h2).trans (search_grow h)
      · simp only [Except.ok.injEq, Prod.mk.injEq] at h
        rw [← h.2]; exact h1

theorem search_mono {c : Cfg} {w : World} : ∀ {k : Nat} {st : St} {v}, search c w k st = .ok v →
    ∀ {n : Nat}, k ≤ n → search c w n st = .ok v
  | 0, _, _, h, _, _ => by simp [search] at h
  | k + 1, st, v, h, n, hn => by
    obtain ⟨n, rfl⟩ : ∃ n', n = n' + 1 := ⟨n - 1, by omega⟩
    unfold search at h ⊢
    cases ho : (opts c)[st.idx]? with
    | none => simp [ho] at h
    | some o =>
      simp only [ho] at h ⊢
      rcases hc : o.call c w st with ⟨fd1, st1⟩
      rw [hc] at h
      simp only [bind, Except.bind, pure, Except.pure] at h ⊢
      by_cases h1 : o.rep = false ∨ fd1 = none
      · rw [if_pos h1] at h ⊢
        cases hv : optsNext c w st1 with
        | error e => simp [hv] at h
        | ok x =>
          simp only [hv] at h ⊢
          by_cases h2 : x.1 = true ∨ fd1 ≠ none
          · rw [if_pos h2] at h ⊢; exact h
          · rw [if_neg h2] at h ⊢; exact search_mono h (by omega)
      · rw [if_neg h1] at h ⊢; exact h

theorem call_idx {c : Cfg} {w : World} {o : Opt} {st : St} (h : o.func ≠ .mnt) : (o.call c w st).2.idx = st.idx := by
  unfold Opt.call
  split
  · exact (opened_same _ _).1.idx
  · unfold openEnv
    split
    · rfl
    · exact (openDir_spec c w _ st).1.idx
  · exact (openDir_spec c w _ st).1.idx
  · contradiction

/-- The retry loop keeps the invariant whenever it ends. -/
theorem retryOpen_inv {c : Cfg} (hp : 0 < c.page) (hw : 0 < c.word) {w : World} {len : Nat} (hlen : c.word ≤ len) :
    ∀ {k : Nat} {st : St} {r : Option Nat} {st' : St}, st.idx < (opts c).length → Half w st.tr st →
    retryOpen c w len k st = .ok (r, st') → Inv c w st'
  | 0, _, _, _, _, _, h => by simp [retryOpen] at h
  | k + 1, st, r, st', hi, hh, h => by
    obtain ⟨fd, st1, ext, h1, h2, h3, h4, h5, h6⟩ := search_spec (c := c) (w := w) _ st st.tr rfl hi hh
    unfold retryOpen at h
    have hs : search c w k st = .ok (fd, st1) ∨ ∃ e, search c w k st = .error e := by
      by_cases hk : (opts c).length - st.idx ≤ k
      · exact .inl (h1 k hk)
      · cases he : search c w k st with
        | error e => exact .inr ⟨e, rfl⟩
        | ok v => exact .inl (by rw [← search_mono he (Nat.le_of_not_le hk), h1 _ le_rfl])
    rcases hs with hs | ⟨e, hs⟩
    · simp only [hs, bind, Except.bind] at h
      cases fd with
      | none =>
        simp only [pure, Except.pure, Except.ok.injEq, Prod.mk.injEq] at h
        obtain ⟨rfl, rfl⟩ := h
        exact ⟨h3, by show Half w st1.tr _; rw [h2]; exact Same.half (st := st1) ⟨rfl, rfl, rfl⟩ h4, by simp⟩
      | some fd =>
        obtain ⟨r1, st2, k1, k2, k3, k4, k5, k6, k7, _, _⟩ := mapFile_spec (c := c) hp hw (w := w) (fd := fd) hlen (st := { st1 with execfd := some fd }) (h6 fd rfl).1 h3
          (e := st1.tr) (Same.half (st := st1) ⟨rfl, rfl, rfl⟩ (by rw [h2]; exact h4))
        simp only [k1] at h
        cases r1 with
        | some r1 =>
          simp only [pure, Except.pure, Except.ok.injEq, Prod.mk.injEq] at h
          obtain ⟨rfl, rfl⟩ := h
          refine ⟨k4, by rw [k2]; exact k5, fun fd' hfd => ?_⟩
          rw [k3] at hfd
          obtain rfl := Option.some.inj hfd
          exact k7 (by simp)
        | none => exact retryOpen_inv hp hw hlen k4 (by rw [k2]; exact k5) h
    · simp [hs, bind, Except.bind] at h

theorem dlmmapLocked_inv {c : Cfg} (hp : 0 < c.page) (hw : 0 < c.word) {w : World} {len : Nat} (hlen : c.word ≤ len)
    {k : Nat} {st : St} {r : Option Nat} {st' : St} (hinv : Inv c w st) (h : dlmmapLocked c w k len st = .ok (r, st')) :
    Inv c w st' := by
  unfold dlmmapLocked at h
  cases he : st.execfd with
  | none =>
    simp only [he] at h
    exact retryOpen_inv hp hw hlen (st := { st with idx := 0, execfd := none }) (opts_pos c) hinv.half h
  | some fd =>
    simp only [he] at h
    obtain ⟨r1, st1, k1, k2, k3, k4, k5, k6, k7, _, _⟩ := mapFile_spec (c := c) hp hw (w := w) hlen (hinv.file fd he) hinv.idx hinv.half
    simp only [k1, bind, Except.bind] at h
    cases r1 with
    | some r1 =>
      simp only [pure, Except.pure, Except.ok.injEq, Prod.mk.injEq] at h
      obtain ⟨rfl, rfl⟩ := h
      refine ⟨k4, by rw [k2]; exact k5, fun fd' hfd => ?_⟩
      rw [k3, he] at hfd
      obtain rfl := Option.some.inj hfd
      exact k7 (by simp)
    | none => exact retryOpen_inv hp hw hlen k4 (by rw [k2]; exact k5) h

theorem inv_reach {c : Cfg} (hp : 0 < c.page) (hw : 0 < c.word) {w : World} {st : St}
    (h : Reach c w st) : Inv c w st := by
  induction h with
  | init vm => exact ⟨opts_pos c, .inl ⟨rfl, rfl⟩, by simp [St.init]⟩
  | @search st fd st' _ hd ih =>
    obtain ⟨fd', st1, ext, h1, h2, h3, h4, _, _⟩ := search_spec (c := c) (w := w) _ st st.tr rfl ih.idx ih.half
    have := Done.unique hd ⟨_, h1⟩
    obtain ⟨rfl, rfl⟩ := Prod.mk.inj this
    have hg := search_grow (h1 _ le_rfl)
    exact ⟨h3, by rw [h2]; exact h4, fun fd hfd => hg.6 fd (ih.file fd (by rw [← hg.1]; exact hfd))⟩
  | @map st len r st' _ hlen hd ih =>
    obtain ⟨N, hN⟩ := hd
    exact dlmmapLocked_inv hp hw hlen ih (hN N le_rfl)
  | @other st st' _ h1 h2 h3 h4 h5 h6 ih =>
    refine ⟨by rw [h1]; exact ih.idx, ?_, fun fd hfd => h6 fd (by rw [← h5]; exact hfd) (ih.file fd (by rw [← h5]; exact hfd))⟩
    rw [h4]
    exact Same.half (st := st) ⟨h1, h2, h3⟩ ih.half

/-! ## The last directory without mounts files -/

/-- A search that gives up called the last entry last. -/
theorem search_last {c : Cfg} (hm : c.mntent = false) {w : World} (hopen : ∀ st : St, (openEnv c w "HOME" st).1 ≠ none) :
    ∀ {k : Nat} {st : St} {fd : Option Nat} {st' : St}, search c w k st = .ok (fd, st') → fd ≠ none
  | 0, _, _, _, h => by simp [search] at h
  | k + 1, st, fd, st', h => by
    unfold search at h
    split at h
    · simp at h
    · rename_i o ho
      rcases hcall : o.call c w st with ⟨fd1, st1⟩
      rw [hcall] at h
      simp only [bind, Except.bind, pure, Except.pure] at h
      split at h
      · split at h
        · simp at h
        · rename_i v hv
          obtain ⟨b, st2⟩ := v
          simp only at h
          split at h
          · rename_i hs
            simp only [Except.ok.injEq, Prod.mk.injEq] at h
            rw [← h.1]
            rcases hs with hs | hs
            · subst hs
              have hi : st1.idx = st.idx := by
                have hfun : o.func ≠ .mnt := by
                  have : ∀ a, ∀ o ∈ optTable a false, o.func ≠ .mnt := by decide
                  refine this c.memfd o ?_
                  have := List.mem_of_getElem? ho
                  unfold opts at this
                  rwa [hm] at this
                have := call_idx (c := c) (w := w) (o := o) (st := st) hfun
                rw [hcall] at this
                exact this
              have hl : st1.idx + 1 = (opts c).length := by
                by_contra hne
                have hb : o.rep = false := by
                  have : ∀ a, ∀ o ∈ optTable a false, o.rep = false := by decide
                  refine this c.memfd o ?_
                  have := List.mem_of_getElem? ho
                  unfold opts at this
                  rwa [hm] at this
                unfold optsNext at hv
                rw [hi, ho] at hv
                rw [hi] at hne
                simp [hb, bind, Except.bind, pure, Except.pure, hi, hne] at hv
              have hlast : ∀ a i, i < (optTable a false).length → i + 1 = (optTable a false).length →
                  (optTable a false)[i]? = some ⟨.env, "HOME", false⟩ := by decide
              have ho2 := hlast c.memfd st.idx (by unfold opts at hl; rw [hm] at hl; omega) (by unfold opts at hl; rw [hm] at hl; omega)
              unfold opts at ho
              rw [hm, ho2] at ho
              obtain rfl := Option.some.inj ho
              have := hopen st
              rw [show openEnv c w "HOME" st = (fd1, st1) from hcall] at this
              exact this
            · exact hs
          · exact search_last hm hopen h
      · rename_i hne
        simp only [Except.ok.injEq, Prod.mk.injEq] at h
        rw [← h.1]
        intro e
        exact hne (.inr e)

end Verif.Dual
