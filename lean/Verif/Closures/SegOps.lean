import Verif.Closures.SegInv

/-
The invariant of the segments holds in every history without a half-failed unmapping.
-/
namespace Verif.Dual
open Verif

theorem munmap_vm {w : World} {a len : Nat} {st st' : St} {b} (h : st.munmap w a len = (b, st')) :
    (b = false → st'.vm = st.vm) ∧ ∀ x, ¬ (a ≤ x ∧ x < a + len) → st'.vm x = st.vm x := by
  unfold St.munmap at h
  split at h
  · simp only [Prod.mk.injEq] at h
    obtain ⟨rfl, rfl⟩ := h
    exact ⟨by simp, fun x hx => if_neg hx⟩
  · simp only [Prod.mk.injEq] at h
    obtain ⟨rfl, rfl⟩ := h
    exact ⟨fun _ => rfl, fun _ _ => rfl⟩

theorem Keep.phys {st st' : St} (h : Keep st st') (hf : st'.files = st.files) (hc : st.clock ≤ st'.clock) {p : Phys} (hp : PhysOk st p) :
    PhysOk st' p := by
  cases p with
  | anon t o => exact Nat.lt_of_lt_of_le hp hc
  | file id o =>
    obtain ⟨fd, f, a1, a2, a3, a4⟩ := hp
    exact ⟨fd, f, by rw [h.execfd]; exact a1, by rw [hf]; exact a2, a3, by rw [h.execsize]; exact a4⟩

/-- `dlmunmap`: nothing else changes, and only the two ranges are unmapped. -/
structure Unmapped (a len : Nat) (b : Bool) (g g' : G) : Prop where
  segs : g'.segs = g.segs
  keep : Keep g.s g'.s
  files : g'.s.files = g.s.files
  clock : g.s.clock ≤ g'.s.clock
  half : g'.half = false → g.half = false
  fail : b = false → g'.half = false → g'.s.vm = g.s.vm
  vm : ∀ x, ¬ (a ≤ x ∧ x < a + len) → (∀ s, segHolding g.segs a = some s →
    ¬ (((a : Int) + s.off).toNat ≤ x ∧ x < ((a : Int) + s.off).toNat + len)) → g'.s.vm x = g.s.vm x

theorem dlmunmap_spec {w : World} {a len : Nat} {g g' : G} {b} (h : dlmunmap w a len g = (b, g')) : Unmapped a len b g g' := by
  have hplain : ∀ {b g'}, (let (b, st) := g.s.munmap w a len; ((b, { g with s := st }) : Bool × G)) = (b, g') → Unmapped a len b g g' := by
    intro b g' h
    have hk := munmap_keep w a len g.s
    have hc := munmap_clock w a len g.s
    rcases hm : g.s.munmap w a len with ⟨b1, st1⟩
    rw [hm] at hk hc h
    obtain ⟨hv1, hv2⟩ := munmap_vm hm
    simp only [Prod.mk.injEq] at h hk hc
    obtain ⟨rfl, rfl⟩ := h
    exact ⟨rfl, hk.1, hk.2, by show g.s.clock ≤ st1.clock; omega, id, fun hb _ => hv1 hb, fun x hx _ => hv2 x hx⟩
  unfold dlmunmap at h
  split at h
  · rename_i s hs
    split at h
    · have hk := munmap_keep w ((a : Int) + s.off).toNat len g.s
      have hc := munmap_clock w ((a : Int) + s.off).toNat len g.s
      rcases hm : g.s.munmap w ((a : Int) + s.off).toNat len with ⟨b1, st1⟩
      rw [hm] at hk hc h
      obtain ⟨hv1, hv2⟩ := munmap_vm hm
      cases b1 with
      | false =>
        simp only [Prod.mk.injEq] at h hk hc
        obtain ⟨rfl, rfl⟩ := h
        exact ⟨rfl, hk.1, hk.2, by show g.s.clock ≤ st1.clock; omega, id, fun _ _ => hv1 rfl, fun x _ hx => hv2 x (hx s hs)⟩
      | true =>
        have hk2 := munmap_keep w a len st1
        have hc2 := munmap_clock w a len st1
        rcases hm2 : st1.munmap w a len with ⟨b2, st2⟩
        rw [hm2] at hk2 hc2
        simp only [hm2, Prod.mk.injEq] at h hk hc hk2 hc2
        obtain ⟨hw1, hw2⟩ := munmap_vm hm2
        obtain ⟨rfl, rfl⟩ := h
        refine ⟨rfl, hk.1.trans hk2.1, hk2.2.trans hk.2, by show g.s.clock ≤ st2.clock; omega, ?_, ?_, fun x hx1 hx2 => (hw2 x hx1).trans (hv2 x (hx2 s hs))⟩
        · intro e
          simp only [Bool.or_eq_false_iff] at e
          exact e.1
        · rintro rfl e
          simp at e
    · exact hplain h
  · exact hplain h

/-- The upper part of a segment from byte `n` on. -/
def Seg.upper (s : Seg) (n : Nat) : Seg := ⟨s.base + n, s.size - n, s.off⟩

theorem upper_data {s : Seg} {n x : Nat} (hn : n ≤ s.size) : InData (s.upper n) x ↔ s.base + n ≤ x ∧ x < s.base + s.size := by
  simp only [InData, Seg.upper]; omega

theorem upper_code {s : Seg} {n x : Nat} (hn : n ≤ s.size) :
    InCode (s.upper n) x ↔ (s.base : Int) + n + s.off ≤ x ∧ (x : Int) < s.base + s.off + s.size := by
  simp only [InCode, Seg.upper]; omega

/-- Unmapping the upper part of a segment changes only its views. -/
theorem unmap_upper {y : Sys} {s : Seg} {n : Nat} {b : Bool} {g g' : G} (hv : Views y g.s g.segs) (hs : s ∈ g.segs) (hn : n ≤ s.size)
    (h : Unmapped (s.base + n) (s.size - n) b g g') {x : Nat} (hx : ¬ InV (s.upper n) x) : g'.s.vm x = g.s.vm x := by
  by_cases hz : n = s.size
  · subst hz
    refine h.vm x (by omega) fun t _ => by omega
  · have hd : InData s (s.base + n) := ⟨by omega, by omega⟩
    refine h.vm x (fun hh => hx (.inl ((upper_data hn).2 ⟨hh.1, by omega⟩))) fun t ht hh => hx (.inr ?_)
    rw [holding_of hd hv.disj hs] at ht
    obtain rfl := Option.some.inj ht
    obtain ⟨b', _, _, hb', _⟩ := hv.view s hs _ hd
    have he : ((s.base + n : Nat) : Int) + s.off = b' := hb'.symm
    rw [he] at hh
    refine (upper_code hn).2 ?_
    simp only [Int.toNat_natCast] at hh
    omega

/-- A segment without its upper part. -/
theorem Views.shrink {y : Sys} {s : Seg} {n : Nat} {st st' : St} {l : List Seg} (hv : Views y st (s :: l)) (hn : n ≤ s.size)
    (hvm : ∀ x, ¬ InV (s.upper n) x → st'.vm x = st.vm x) (hp : ∀ p, PhysOk st p → PhysOk st' p) :
    Views y st' ({ s with size := n } :: l) := by
  have hsub : ∀ x, InV (s.upper n) x → InV s x := by
    rintro x (h | h)
    · exact .inl (by rw [upper_data hn] at h; exact ⟨by omega, h.2⟩)
    · exact .inr (by rw [upper_code hn] at h; exact ⟨by omega, h.2⟩)
  refine (hv.sub (m := { s with size := n }) ?_ ?_ rfl).mono ?_ hp
  · intro x hx; simp only [InData] at hx ⊢; omega
  · intro x hx; simp only [InCode] at hx ⊢; omega
  · intro t ht x hx
    refine hvm x fun hu => ?_
    rcases List.mem_cons.1 ht with rfl | ht
    · have hd : InData { s with size := n } x → InData s x := by intro h; simp only [InData] at h ⊢; omega
      have hc : InCode { s with size := n } x → InCode s x := by intro h; simp only [InCode] at h ⊢; omega
      have hud : InData (s.upper n) x → InData s x := by intro h; rw [upper_data hn] at h; exact ⟨by omega, h.2⟩
      have huc : InCode (s.upper n) x → InCode s x := by intro h; rw [upper_code hn] at h; exact ⟨by omega, h.2⟩
      by_cases ho : s.off = 0
      · rcases hx with hx | hx <;> rcases hu with hu | hu
        all_goals simp only [InData, InCode, Seg.upper] at hx hu
        all_goals omega
      · rcases hx with hx | hx <;> rcases hu with hu | hu
        · simp only [InData, Seg.upper] at hx hu; omega
        · exact hv.self s (by simp) ho x (hd hx) (huc hu)
        · exact hv.self s (by simp) ho x (hud hu) (hc hx)
        · simp only [InCode, Seg.upper] at hx hu; omega
    · exact (List.pairwise_cons.1 hv.disj).1 t ht x (hsub x hu) hx

/-- The invariant. -/
structure SInv (c : Cfg) (w : World) (y : Sys) (g : G) : Prop where
  inv : Inv c w g.s
  zero : g.s.execfd = none → g.s.execsize = 0
  views : Views y g.s g.segs

theorem Inv.keep {c : Cfg} {w : World} {st st' : St} (h : Inv c w st) (hk : Keep st st') (hf : st'.files = st.files) : Inv c w st' :=
  ⟨by rw [hk.same.idx]; exact h.idx, by rw [hk.tr]; exact hk.half h.half, by rw [hk.execfd, hf]; exact h.file⟩

theorem SInv.unmap {c : Cfg} {w : World} {y : Sys} {g g' : G} {a len b} (h : SInv c w y g) (hu : Unmapped a len b g g')
    {l : List Seg} (hv : Views y g'.s l) : SInv c w y { g' with segs := l } :=
  ⟨h.inv.keep hu.keep hu.files, by show g'.s.execfd = none → g'.s.execsize = 0; rw [hu.keep.execfd, hu.keep.execsize]; exact h.zero, hv⟩

theorem releaseLoop_half {w : World} {empty : Seg → Bool} : ∀ {l pre : List Seg} {g : G}, (releaseLoop w empty pre l g).half = false → g.half = false
  | [], _, _, h => h
  | s :: l, pre, g, h => by
    unfold releaseLoop at h
    split at h
    · rcases hm : dlmunmap w s.base s.size { g with segs := pre ++ s :: l } with ⟨b, g1⟩
      rw [hm] at h
      have hu := dlmunmap_spec hm
      cases b with
      | true => exact hu.half (releaseLoop_half h)
      | false => exact hu.half (releaseLoop_half h)
    · exact releaseLoop_half h

theorem releaseLoop_inv {c : Cfg} {w : World} {y : Sys} {empty : Seg → Bool} : ∀ {l pre : List Seg} {g : G},
    SInv c w y { g with segs := pre ++ l } → (releaseLoop w empty pre l g).half = false → SInv c w y (releaseLoop w empty pre l g)
  | [], pre, g, h, _ => by simpa [releaseLoop] using h
  | s :: l, pre, g, h, hh => by
    unfold releaseLoop at hh ⊢
    split
    · rename_i he
      rw [if_pos he] at hh
      rcases hm : dlmunmap w s.base s.size { g with segs := pre ++ s :: l } with ⟨b, g1⟩
      rw [hm] at hh
      have hu := dlmunmap_spec hm
      cases b with
      | true =>
        simp only at hh ⊢
        refine releaseLoop_inv (h.unmap hu ?_) hh
        have hv := h.views.perm List.perm_middle
        have := hv.shrink (s := s) (n := 0) (Nat.zero_le _) (st' := g1.s)
          (fun x hx => unmap_upper (b := true) (g' := g1) h.views (by simp) (Nat.zero_le _) (by simpa using hu) hx)
          (fun p hp => hu.keep.phys hu.files hu.clock hp)
        exact this.tail
      | false =>
        simp only at hh ⊢
        refine releaseLoop_inv (pre := pre ++ [s]) (h.unmap hu ?_) hh
        have hvm := hu.fail rfl (releaseLoop_half hh)
        have := h.views.mono (st' := g1.s) (fun _ _ x _ => by rw [hvm]) (fun p hp => hu.keep.phys hu.files hu.clock hp)
        simpa using this
    · rename_i he
      rw [if_neg he] at hh
      exact releaseLoop_inv (pre := pre ++ [s]) (by simpa using h) hh

theorem releaseUnused_inv {c : Cfg} {w : World} {y : Sys} {empty : Seg → Bool} {g : G} (h : SInv c w y g)
    (hh : (releaseUnused w empty g).half = false) : SInv c w y (releaseUnused w empty g) := by
  unfold releaseUnused at hh ⊢
  split
  · exact h
  · rename_i s l hl
    simp only [hl] at hh
    refine releaseLoop_inv (pre := [s]) ?_ hh
    have : ({ g with segs := [s] ++ l } : G) = g := by
      rw [show [s] ++ l = g.segs from hl.symm]
    rw [this]
    exact h

theorem releaseUnused_half {w : World} {empty : Seg → Bool} {g : G} (h : (releaseUnused w empty g).half = false) : g.half = false := by
  unfold releaseUnused at h
  split at h
  · exact h
  · exact releaseLoop_half h

theorem sysTrim_half {w : World} {a extra : Nat} {pinned : Bool} {g g' : G} (h : sysTrim w a extra pinned g = .ok g') (hh : g'.half = false) :
    g.half = false := by
  unfold sysTrim at h
  split at h
  · simp at h
  · rename_i s hs
    split at h
    · rcases hm : dlmunmap w (s.base + (s.size - extra)) extra g with ⟨b, g1⟩
      rw [hm] at h
      have hu := dlmunmap_spec hm
      cases b with
      | true =>
        simp only [Except.ok.injEq] at h
        subst h
        exact hu.half hh
      | false =>
        simp only [Except.ok.injEq] at h
        subst h
        exact hu.half hh
    · simp only [Except.ok.injEq] at h
      subst h
      exact hh

theorem sysTrim_inv {c : Cfg} {w : World} {y : Sys} {a extra : Nat} {pinned : Bool} {g g' : G} (hi : SInv c w y g)
    (h : sysTrim w a extra pinned g = .ok g') (hh : g'.half = false) : SInv c w y g' := by
  unfold sysTrim at h
  split at h
  · simp at h
  · rename_i s hs
    split at h
    · rename_i hc
      rcases hm : dlmunmap w (s.base + (s.size - extra)) extra g with ⟨b, g1⟩
      rw [hm] at h
      have hu := dlmunmap_spec hm
      cases b with
      | true =>
        simp only [Except.ok.injEq] at h
        subst h
        obtain ⟨l1, l2, e1, e2, e3⟩ := find_upd (f := fun s => { s with size := s.size - extra }) hs
        refine hi.unmap hu ?_
        rw [hu.segs, e2]
        have hv := hi.views
        have hu' : Unmapped (s.base + (s.size - extra)) (s.size - (s.size - extra)) true g g1 := by
          rw [show s.size - (s.size - extra) = extra by omega]; exact hu
        have hvm : ∀ x, ¬ InV (s.upper (s.size - extra)) x → g1.s.vm x = g.s.vm x := fun x hx =>
          unmap_upper hv (by rw [e1]; simp) (by omega) hu' hx
        rw [e1] at hv
        exact ((hv.perm List.perm_middle).shrink (n := s.size - extra) (by omega) hvm (fun p hp => hu.keep.phys hu.files hu.clock hp)).perm
          List.perm_middle.symm
      | false =>
        simp only [Except.ok.injEq] at h
        subst h
        have hvm := hu.fail rfl hh
        have := hi.unmap hu (l := g1.segs) (by
          rw [hu.segs]
          exact hi.views.mono (fun _ _ x _ => by rw [hvm]) (fun p hp => hu.keep.phys hu.files hu.clock hp))
        exact this
    · simp only [Except.ok.injEq] at h
      subst h
      exact hi

/-! ## Allocation -/

theorem mmapAnon_keep (w : World) (len : Nat) (x : Bool) (st : St) :
    Keep st (st.mmapAnon w len x).2 ∧ (st.mmapAnon w len x).2.files = st.files := by
  have hk := mmap_keep w len (fun o => ⟨.anon st.clock o, true, x⟩) st
  unfold St.mmapAnon
  rcases hm : st.mmap w len (fun o => ⟨.anon st.clock o, true, x⟩) with ⟨r, st'⟩
  rw [hm] at hk
  exact ⟨⟨⟨hk.1.same.1, hk.1.same.2, hk.1.same.3⟩, hk.1.tr, hk.1.execfd, hk.1.execsize⟩, hk.2⟩

theorem retryOpen_err {c : Cfg} (hp : 0 < c.page) (hw : 0 < c.word) {w : World} {len : Nat} (hlen : c.word ≤ len) :
    ∀ {k : Nat} {st : St} {e}, st.idx < (opts c).length → Half w st.tr st → retryOpen c w len k st = .error e → e = .fuel
  | 0, _, _, _, _, h => by simp only [retryOpen, Except.error.injEq] at h; exact h.symm
  | k + 1, st, e, hi, hh, h => by
    obtain ⟨fd, st1, ext, h1, h2, h3, h4, h5, h6⟩ := search_spec (c := c) (w := w) _ st st.tr rfl hi hh
    unfold retryOpen at h
    cases hs : search c w k st with
    | error e' =>
      simp only [hs, bind, Except.bind, Except.error.injEq] at h
      rw [← h]
      exact search_fuel (h1 _ le_rfl) hs
    | ok v =>
      have a := (h1 _ (Nat.le_max_right k _)).symm.trans (search_mono hs (Nat.le_max_left k _))
      obtain rfl := Except.ok.inj a
      simp only [hs, bind, Except.bind] at h
      cases fd with
      | none => simp [pure, Except.pure] at h
      | some fd =>
        obtain ⟨r1, st2, k1, k2, k3, k4, k5, k6, k7, _, _⟩ := mapFile_spec (c := c) hp hw (w := w) (fd := fd) hlen (st := { st1 with execfd := some fd }) (h6 fd rfl).1 h3
          (e := st1.tr) (Same.half (st := st1) ⟨rfl, rfl, rfl⟩ (by rw [h2]; exact h4))
        simp only [k1] at h
        cases r1 with
        | some r1 => simp [pure, Except.pure] at h
        | none => exact retryOpen_err hp hw hlen k4 (by rw [k2]; exact k5) h

theorem dlmmapLocked_err {c : Cfg} (hp : 0 < c.page) (hw : 0 < c.word) {w : World} {len : Nat} (hlen : c.word ≤ len)
    {k : Nat} {st : St} {e} (hinv : Inv c w st) (h : dlmmapLocked c w k len st = .error e) : e = .fuel := by
  unfold dlmmapLocked at h
  cases he : st.execfd with
  | none =>
    simp only [he] at h
    exact retryOpen_err hp hw hlen (st := { st with idx := 0, execfd := none }) (opts_pos c) hinv.half h
  | some fd =>
    simp only [he] at h
    obtain ⟨r1, st1, k1, k2, k3, k4, k5, k6, k7, _, _⟩ := mapFile_spec (c := c) hp hw (w := w) hlen (hinv.file fd he) hinv.idx hinv.half
    simp only [k1, bind, Except.bind] at h
    cases r1 with
    | some r1 => simp [pure, Except.pure] at h
    | none => exact retryOpen_err hp hw hlen k4 (by rw [k2]; exact k5) h

theorem addSegment_half {c : Cfg} {y : Sys} {tb len : Nat} {g g' : G} (h : addSegment c y tb len g = .ok g') : g'.half = g.half := by
  unfold addSegment at h
  simp only [bind, Except.bind, pure, Except.pure] at h
  split at h
  · simp at h
  · split at h
    · simp at h
    · simp only [Except.ok.injEq] at h
      rw [← h]

theorem prependOrAdd_half {c : Cfg} {y : Sys} {tb len : Nat} {g g' : G} (h : prependOrAdd c y tb len g = .ok g') : g'.half = g.half := by
  unfold prependOrAdd at h
  split at h
  · simp only [bind, Except.bind, pure, Except.pure] at h
    split at h
    · simp at h
    · split at h
      · simp only [Except.ok.injEq] at h
        rw [← h]
      · exact addSegment_half h
  · exact addSegment_half h

theorem sysAlloc_half {c : Cfg} {w : World} {y : Sys} {top : Seg → Bool} {k nb : Nat} {g g' : G} {b}
    (h : sysAlloc c w y top k nb g = .ok (b, g')) : g'.half = g.half := by
  unfold sysAlloc at h
  cases hm : dlmmap c w y k (reqSize c y nb) g.s with
  | error e => simp [hm, bind, Except.bind] at h
  | ok x =>
    obtain ⟨r, st⟩ := x
    simp only [hm, bind, Except.bind] at h
    cases r with
    | none =>
      simp only [pure, Except.pure, Except.ok.injEq, Prod.mk.injEq] at h
      rw [← h.2]
    | some a =>
      simp only at h
      cases hp : placeNew c y top a (reqSize c y nb) { g with s := st } with
      | error e => simp [hp] at h
      | ok g2 =>
        simp only [hp, pure, Except.pure, Except.ok.injEq, Prod.mk.injEq] at h
        obtain ⟨_, rfl⟩ := h
        unfold placeNew at hp
        split at hp
        · simp only [bind, Except.bind, pure, Except.pure] at hp
          split at hp
          · simp at hp
          · split at hp
            · simp at hp
            · simp only [Except.ok.injEq] at hp
              rw [← hp]
        · split at hp
          · simp only [bind, Except.bind, pure, Except.pure] at hp
            split at hp
            · simp at hp
            · split at hp
              · simp only [Except.ok.injEq] at hp
                rw [← hp]
              · exact prependOrAdd_half (g := { g with s := st }) hp
          · exact prependOrAdd_half (g := { g with s := st }) hp

/-- `dlmmap` ends, or needs more fuel, and keeps the invariant of the search. -/
theorem dlmmap_ends {c : Cfg} {w : World} {y : Sys} (hp : 0 < c.page) (hw : 0 < c.word) {k len : Nat} (hlen : c.word ≤ len) {st : St} (hi : Inv c w st) :
    dlmmap c w y k len st = .error .fuel ∨ ∃ r st', dlmmap c w y k len st = .ok (r, st') ∧ Inv c w st' := by
  have hanon : ∀ x, Inv c w (st.mmapAnon w len x).2 := fun x =>
    hi.keep (mmapAnon_keep w len x st).1 (mmapAnon_keep w len x st).2
  have hlocked : ∀ st, Inv c w st → dlmmapLocked c w k len st = .error .fuel ∨ ∃ r st', dlmmapLocked c w k len st = .ok (r, st') ∧ Inv c w st' := by
    intro st hi
    cases h : dlmmapLocked c w k len st with
    | ok v => exact .inr ⟨v.1, v.2, rfl, dlmmapLocked_inv hp hw hlen hi (r := v.1) (by rw [h])⟩
    | error e =>
      left
      rw [dlmmapLocked_err hp hw hlen hi h]
  unfold dlmmap
  split
  · exact .inr ⟨_, _, rfl, hanon false⟩
  · split
    · split
      · exact .inr ⟨_, _, rfl, hanon false⟩
      · exact hlocked st hi
    · split
      · have hx := hanon true
        rcases hm : st.mmapAnon w len true with ⟨r, st1⟩
        rw [hm] at hx
        cases r with
        | some a => exact .inr ⟨_, _, rfl, hx⟩
        | none =>
          simp only
          split
          · exact hlocked st1 hx
          · exact .inr ⟨_, _, rfl, hx⟩
      · exact hlocked st hi

theorem sysAlloc_ok {c : Cfg} {w : World} {y : Sys} (hok : SizesOk c y) (hM : FreshMap w) (hF : FreshFd w) {top : Seg → Bool} {k nb : Nat} {g : G}
    (hi : SInv c w y g) : sysAlloc c w y top k nb g = .error .fuel ∨
      ∃ b g', sysAlloc c w y top k nb g = .ok (b, g') ∧ SInv c w y g' ∧ ∀ s ∈ g.segs, ∀ x, InV s x → g'.s.vm x = g.s.vm x := by
  have hfoot := hok.foot
  have hreq := reqSize_ge c y nb hok.page
  have hlen : c.word ≤ reqSize c y nb := by omega
  unfold sysAlloc
  rcases dlmmap_ends (y := y) hok.page hok.word (k := k) hlen hi.inv with h | ⟨r, st', h, hinv⟩
  · simp only [h, bind, Except.bind]
    exact .inl trivial
  · have hres := dlmmap_map hM hF hok.word hlen hi.zero h
    simp only [h, bind, Except.bind]
    right
    cases r with
    | none =>
      obtain ⟨e1, e2⟩ := hres.fail rfl
      have hvm : ∀ s ∈ g.segs, ∀ x, InV s x → st'.vm x = g.s.vm x := fun s hs x hx => by
        obtain ⟨pg, hpg⟩ := Option.ne_none_iff_exists'.1 (hi.views.mapped hs hx)
        rw [hpg, e1 x pg hpg]
      exact ⟨false, _, rfl, ⟨hinv, hres.zero, hi.views.mono hvm e2⟩, hvm⟩
    | some a =>
      obtain ⟨b, mk, hn⟩ := hres.ok a rfl
      have hv := hi.views.cons hn
      obtain ⟨g', p1, p2, p3, p4⟩ := placeNew_ok hok top (g := { g with s := st' }) hn.toFresh (by omega) hv
      simp only [p1, pure, Except.pure]
      refine ⟨true, g', rfl, ⟨?_, ?_, p3⟩, ?_⟩
      · exact hinv.keep ⟨p2.same, p2.tr, p2.execfd, p2.execsize⟩ p2.files
      · rw [p2.execfd, p2.execsize]; exact hres.zero
      · intro s hs x hx
        obtain ⟨pg, hpg⟩ := Option.ne_none_iff_exists'.1 (hi.views.mapped hs hx)
        rw [p2.vm, hpg]
        exact hn.ext x pg hpg

theorem sinv_reach {c : Cfg} {w : World} {y : Sys} (hok : SizesOk c y) (hM : FreshMap w) (hF : FreshFd w) {g : G} (h : SReach c w y g) :
    g.half = false → SInv c w y g := by
  induction h with
  | init vm => exact fun _ => ⟨inv_reach hok.page hok.word (.init vm), fun _ => rfl, Views.nil _ _⟩
  | @alloc g top k nb b g' _ hs ih =>
    intro hh
    have key : g.half = false → SInv c w y g' := by
      intro h0
      rcases sysAlloc_ok (top := top) (k := k) (nb := nb) hok hM hF (ih h0) with h | ⟨b', g2, h, h1, h2⟩
      · rw [hs] at h; simp at h
      · rw [hs] at h
        simp only [Except.ok.injEq, Prod.mk.injEq] at h
        obtain ⟨_, rfl⟩ := h
        exact h1
    exact key (by rw [← sysAlloc_half hs]; exact hh)
  | release empty _ ih => exact fun hh => releaseUnused_inv (ih (releaseUnused_half hh)) hh
  | trim _ hs ih => exact fun hh => sysTrim_inv (ih (sysTrim_half hs hh)) hs hh
  | @search g k fd st' _ hs ih =>
    intro hh
    have hi := ih hh
    have hg := search_grow hs
    refine ⟨?_, by show st'.execfd = none → st'.execsize = 0; rw [hg.execfd, hg.execsize]; exact hi.zero, ?_⟩
    · obtain ⟨fd', st1, ext, h1, h2, h3, h4, _, _⟩ := search_spec (c := c) (w := w) _ g.s g.s.tr rfl hi.inv.idx hi.inv.half
      have e := (h1 _ (Nat.le_max_right k _)).symm.trans (search_mono hs (Nat.le_max_left k _))
      simp only [Except.ok.injEq, Prod.mk.injEq] at e
      obtain ⟨rfl, rfl⟩ := e
      exact ⟨h3, by rw [h2]; exact h4, fun fd hfd => hg.files fd (hi.inv.file fd (by rw [← hg.execfd]; exact hfd))⟩
    · refine hi.views.mono (fun _ _ x _ => by show st'.vm x = _; rw [hg.vm]) fun p hp => ?_
      cases p with
      | anon t o => exact Nat.lt_of_lt_of_le hp hg.clock
      | file id o =>
        obtain ⟨fd, f, a1, a2, a3, a4⟩ := hp
        exact ⟨fd, f, hg.execfd.trans a1, hg.keep hF fd f a2, a3, by show o < st'.execsize; rw [hg.execsize]; exact a4⟩
  | @other g st' _ h1 h2 h3 h4 h5 h6 h7 h8 h9 ih =>
    intro hh
    have hi := ih hh
    refine ⟨⟨by show st'.idx < _; rw [h2]; exact hi.inv.idx, ?_, ?_⟩, by show st'.execfd = none → st'.execsize = 0; rw [h6, h7]; exact hi.zero, ?_⟩
    · show Half w st'.tr st'
      rw [h5]
      exact Same.half (st := g.s) ⟨h2, h3, h4⟩ hi.inv.half
    · intro fd hfd
      have hfd : st'.execfd = some fd := hfd
      rw [h6] at hfd
      show st'.files fd ≠ none
      rw [h8 fd hfd]
      exact hi.inv.file fd hfd
    · refine hi.views.mono (fun s hs x hx => h9 s hs x hx) fun p hp => ?_
      cases p with
      | anon t o => exact Nat.lt_of_lt_of_le hp h1
      | file id o =>
        obtain ⟨fd, f, a1, a2, a3, a4⟩ := hp
        exact ⟨fd, f, h6.trans a1, (h8 fd a1).trans a2, a3, by show o < st'.execsize; rw [h7]; exact a4⟩

end Verif.Dual
