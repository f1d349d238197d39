import Verif.Closures.HeapTrim
import Verif.Spec.Heap
import Verif.Props.Seg

/-
The two models along the histories.
-/
namespace Verif.Heap
open Verif

variable {c : Dual.Cfg} {w : Dual.World} {y : Dual.Sys}

theorem Good.sizes (h : Good c w y) : Dual.SizesOk c y := by
  obtain ⟨_, h1, _⟩ := h.page.facts
  exact ⟨by omega, by rw [h.word]; omega, by rw [h.word, h.foot]; omega⟩

/-- What holds in every state. -/
structure K (c : Dual.Cfg) (w : Dual.World) (y : Dual.Sys) (p : Pr) : Prop where
  hist : Dl.Hist c.page p.d
  reach : Dual.HReach c w y p.h
  segs : p.d.s.segs.map pr = p.h.g.segs.map pr'
  map : p.d.s.mapped = mapOf p.h.g
  live : ∀ a ∈ p.h.live, p.d.live a.ptr = some a.size
  only : ∀ m n, p.d.live m = some n → ∃ a ∈ p.h.live, a.ptr = m ∧ a.size = n

theorem seg_of {l : List Dl.Seg} {l' : List Dual.Seg} (hs : l.map pr = l'.map pr') {u : Dl.Seg} (hu : u ∈ l) :
    ∃ t ∈ l', t.base = u.base ∧ t.size = u.size := by
  have : pr u ∈ l'.map pr' := by rw [← hs]; exact List.mem_map_of_mem hu
  obtain ⟨t, ht, e⟩ := List.mem_map.1 this
  obtain ⟨e1, e2⟩ := Prod.mk.inj e
  exact ⟨t, ht, e1, e2⟩

/-- The page tables say what the chunk model says. -/
theorem remap (hg : Good c w y) {d : Dl.H} (hd : Dl.Hist c.page d) {g : Dual.G} (hi : Dual.SInv c w y g) (hs : d.s.segs.map pr = g.segs.map pr') :
    Dl.Hist c.page { d with s := { d.s with mapped := mapOf g } } := by
  obtain ⟨A, j⟩ := hd.J hg.page
  refine .other (mem := d.s.mem) hd ?_
  intro u hu x h1 h2
  refine ⟨rfl, ?_⟩
  rw [j.inv.segs.map u hu x h1 h2]
  obtain ⟨t, ht, e1, e2⟩ := seg_of hs hu
  have := hi.views.mapped ht (x := x) (.inl ⟨by omega, by omega⟩)
  unfold mapOf
  cases e : g.s.vm x with
  | none => exact absurd e this
  | some _ => rfl

theorem refuse_ok (P : Nat) (s : Dl.Hp) : Dl.EnvOk P (refuse P) s := ⟨rfl, by intro n b h; cases h⟩

theorem reqSize_eq (hg : Good c w y) {e : Dl.Env} (he : e.page = c.page) {n : Nat} (h : ¬ Dl.reqSize e (nbOf n) ≤ nbOf n) :
    Dl.reqSize e (nbOf n) = Dual.reqSize c y (nbOf n) := by
  have hn : nbOf n < 2 ^ 64 := (Dl.need_ok (bytes := n)).1
  obtain ⟨_, h2⟩ := Dl.reqSize_ok hg.page he hn h
  obtain ⟨_, p1, p2⟩ := hg.page.facts
  generalize nbOf n = nb at *
  unfold Dl.reqSize Dual.reqSize Dl.foot at *
  rw [he] at *
  rw [hg.foot]
  have := Nat.div_mul_le_self (((nb + 72 + 1) % 2 ^ 64 + c.page) % 2 ^ 64) c.page
  have e1 : (nb + 72 + 1) % 2 ^ 64 = nb + 72 + 1 := by
    apply Nat.mod_eq_of_lt; omega
  rw [e1] at *
  have e2 : (nb + 72 + 1 + c.page) % 2 ^ 64 = nb + 72 + 1 + c.page := by
    apply Nat.mod_eq_of_lt; omega
  rw [e2]

theorem answers_ok (hg : Good c w y) {k n : Nat} {s : Dl.Hp} {g : Dual.G} (hi : Dual.SInv c w y g) (hm : s.mapped = mapOf g) :
    Dl.EnvOk c.page (answers c w y k (Dual.reqSize c y n) g) s := by
  refine ⟨rfl, ?_⟩
  intro q b h
  simp only [answers] at h
  split at h
  · rename_i hq
    subst hq
    split at h
    · rename_i r st hd
      subst h
      have hlen : c.word ≤ Dual.reqSize c y n := by
        have := Dual.reqSize_ge c y n hg.sizes.page
        rw [hg.word]; rw [hg.foot] at this; omega
      obtain ⟨t, vm, ha⟩ := dlmmap_answer hd
      obtain ⟨a1, a2, a3⟩ := hg.addr _ _ _ _ ha
      refine ⟨a1, a2, a3, ?_⟩
      intro x h1 h2
      obtain ⟨b', mk, hn⟩ := (Dual.dlmmap_map hg.map hg.fd hg.sizes.word hlen hi.zero hd).ok b rfl
      rw [hm]
      unfold mapOf
      rw [hn.fresh x (.inl ⟨h1, h2⟩)]; rfl
    · cases h
  · cases h

theorem top_zero {P : Nat} {s : Dl.Hp} {A : Dl.Chunks} (i : Dl.Inv P s A) : s.top = 0 ↔ s.segs = [] := by
  constructor
  · intro h
    cases hd : s.segs with
    | nil => rfl
    | cons k rest =>
      have := i.headSeg hd
      have := (i.segs.page k this.1).2.2.1
      omega
  · exact fun h => (i.segs.nil h).1

theorem alloc_segs (hg : Good c w y) {k n : Nat} {s s' : Dl.Hp} {g g' : Dual.G} {A : Dl.Chunks} (i : Dl.Inv c.page s A)
    (hs : s.segs.map pr = g.segs.map pr') (hr : ¬ Dl.reqSize (refuse c.page) (nbOf n) ≤ nbOf n) {b}
    (h1 : Dual.sysAlloc c w y (fun t => t.holds s.top) k (nbOf n) g = .ok (b, g')) {r}
    (h2 : Dl.sysAlloc (answers c w y k (Dual.reqSize c y (nbOf n)) g) s (nbOf n) = .ok (r, s')) : s'.segs.map pr = g'.segs.map pr' := by
  have hq : Dl.reqSize (answers c w y k (Dual.reqSize c y (nbOf n)) g) (nbOf n) = Dual.reqSize c y (nbOf n) := reqSize_eq hg (e := refuse c.page) rfl hr
  have hr' : ¬ Dual.reqSize c y (nbOf n) ≤ nbOf n := by rw [← hq]; exact hr
  rw [sysAlloc_segs (top_zero i) h2, hq, if_neg hr', hs]
  unfold Dual.sysAlloc at h1
  simp only [] at h1
  obtain ⟨⟨r1, st⟩, h3, h4⟩ := bindOk h1
  cases r1 with
  | none =>
    cases h4
    simp only [answers, if_true, h3]
  | some tb =>
    obtain ⟨g1, h5, h6⟩ := bindOk h4
    cases h6
    rw [dual_place h5]
    have m1 : (answers c w y k (Dual.reqSize c y (nbOf n)) g).mmap (Dual.reqSize c y (nbOf n)) = some tb := by
      simp only [answers, if_true, h3]
    have m2 : (answers c w y k (Dual.reqSize c y (nbOf n)) g).append = match g.segs.find? fun s => tb == s.base + s.size with
        | some t => isTrue (Dual.mergeable c t tb (Dual.reqSize c y (nbOf n)) st)
        | none => false := by
      simp only [answers, h3]
      generalize g.segs.find? (fun s => tb == s.base + s.size) = o
      cases o <;> rfl
    have m3 : (answers c w y k (Dual.reqSize c y (nbOf n)) g).prepend = match g.segs.find? fun s => s.base == tb + Dual.reqSize c y (nbOf n) with
        | some t => isTrue (Dual.mergeable c t tb (Dual.reqSize c y (nbOf n)) st)
        | none => false := by
      simp only [answers, h3]
      generalize g.segs.find? (fun s => s.base == tb + Dual.reqSize c y (nbOf n)) = o
      cases o <;> rfl
    rw [m1, m2, m3]
    rfl

/-- `dlmalloc` in both models. -/
theorem malloc_both (hg : Good c w y) {p : Pr} (hK : K c w y p) (hh : p.h.g.half = false) (k n : Nat) :
    malloc c w y k n p.d.s p.h.g = .error .fuel ∨
    ∃ r s' g', malloc c w y k n p.d.s p.h.g = .ok (r, s', g') ∧ Dual.HReach c w y { p.h with g := g' } ∧ g'.half = false ∧
      s'.segs.map pr = g'.segs.map pr' ∧ s'.mapped = mapOf g' ∧
      (r = none → Dl.Hist c.page { p.d with s := s' }) ∧
      ∀ m, r = some m → p.d.live m = none ∧
        Dl.Hist c.page (p.d.set m (some n) s' fun x => if m ≤ x ∧ x < m + n then s'.mem x else p.d.val x) := by
  have hi := Dual.sinv_reach hg.sizes hg.map hg.fd (Dual.sreach_of hK.reach) hh
  obtain ⟨A, j⟩ := hK.hist.J hg.page
  unfold malloc
  rcases j.malloc hg.page (refuse_ok c.page p.d.s) n with ⟨h1, _⟩ | ⟨q, s', A', h1, h2⟩
  · rw [h1]
    simp only
    by_cases c1 : Dl.reqSize (refuse c.page) (nbOf n) ≤ nbOf n
    · rw [if_pos c1]
      right
      exact ⟨none, p.d.s, p.h.g, rfl, hK.reach, hh, hK.segs, hK.map, fun _ => hK.hist, by simp⟩
    · rw [if_neg c1]
      rcases Dual.sysAlloc_ok hg.sizes hg.map hg.fd (top := fun t => t.holds p.d.s.top) (k := k) (nb := nbOf n) hi with h3 | ⟨b, g', h3, hi', _⟩
      · rw [h3]; exact .inl rfl
      · right
        have he := answers_ok hg (k := k) (n := nbOf n) hi hK.map
        have ask := dlmalloc_ask h1 (answers c w y k (Dual.reqSize c y (nbOf n)) p.h.g)
        have hr : Dual.HReach c w y { p.h with g := g' } := .alloc hK.reach h3
        have hh' : g'.half = false := by rw [Dual.sysAlloc_half h3]; exact hh
        simp only [h3, bind, Except.bind]
        rcases j.malloc hg.page he n with ⟨h4, _⟩ | ⟨q, s', A', h4, h5⟩
        · have sg := alloc_segs hg j.inv hK.segs c1 h3 (ask ▸ h4)
          refine ⟨none, { p.d.s with mapped := mapOf g' }, g', by rw [h4]; rfl, hr, hh', sg, rfl, fun _ => remap hg hK.hist hi' sg, by simp⟩
        · have sg := alloc_segs hg j.inv hK.segs c1 h3 (ask ▸ h4)
          refine ⟨some (q + 16), { s' with mapped := mapOf g' }, g', by rw [h4]; rfl, hr, hh', sg, rfl, by simp, ?_⟩
          rintro m e
          cases e
          exact ⟨(h5.J j _ fun _ => rfl).2, remap hg (Dl.Hist.malloc hK.hist he h4) hi' sg⟩
  · rw [h1]
    simp only
    right
    have sg : s'.segs.map pr = p.h.g.segs.map pr' := by rw [dlmalloc_segs h1]; exact hK.segs
    refine ⟨some (q + 16), { s' with mapped := mapOf p.h.g }, p.h.g, rfl, hK.reach, hh, sg, rfl, by simp, ?_⟩
    rintro m e
    cases e
    exact ⟨(h2.J j _ fun _ => rfl).2, remap hg (Dl.Hist.malloc hK.hist (refuse_ok _ _) h1) hi sg⟩

/-- Where a block is. -/
theorem block_in (hg : Good c w y) {d : Dl.H} (hd : Dl.Hist c.page d) {l : List Dual.Seg} (hs : d.s.segs.map pr = l.map pr') {m n : Nat}
    (hm : d.live m = some n) : ∃ t ∈ l, t.base ≤ m ∧ m + n ≤ t.base + t.size ∧ m < t.base + t.size := by
  obtain ⟨A, j⟩ := hd.J hg.page
  obtain ⟨h1, z, h2, h3⟩ := j.live m n hm
  obtain ⟨u, hu, h4, h5⟩ := j.inv.segs.hold _ _ _ h2
  obtain ⟨t, ht, e1, e2⟩ := seg_of hs hu
  exact ⟨t, ht, by omega, by omega, by omega⟩

theorem apart_of (hg : Good c w y) {d : Dl.H} (hd : Dl.Hist c.page d) {m n m' n' : Nat} (hm : d.live m = some n) (hm' : d.live m' = some n') (hne : m' ≠ m) :
    m + n ≤ m' ∨ m' + n' ≤ m := by
  obtain ⟨A, j⟩ := hd.J hg.page
  obtain ⟨k1, z, k2, k3⟩ := j.live _ _ hm
  obtain ⟨k1', z', k2', k3'⟩ := j.live _ _ hm'
  rcases Nat.lt_trichotomy (m - 16) (m' - 16) with e | e | e
  · have := j.inv.tags.disj k2 k2' e; omega
  · omega
  · have := j.inv.tags.disj k2' k2 e; omega

/-- `ffi_closure_alloc`. -/
theorem alloc_both (hg : Good c w y) {p : Pr} (hK : K c w y p) (hh : p.h.g.half = false) (k n : Nat) (hn : 0 < n) :
    closureAlloc c w y k n p.d.s p.h.g = .error .fuel ∨
    (∃ s' g', closureAlloc c w y k n p.d.s p.h.g = .ok (none, s', g') ∧ K c w y ⟨{ p.d with s := s' }, { p.h with g := g' }⟩) ∨
    ∃ m code s' g', closureAlloc c w y k n p.d.s p.h.g = .ok (some (m, code), s', g') ∧ K c w y (p.alloc n m code s' g') := by
  unfold closureAlloc
  rcases malloc_both hg hK hh k n with h | ⟨r, s', g', h, hr, hh', sg, mp, h1, h2⟩
  · left; rw [h]; rfl
  · rw [h]
    right
    cases r with
    | none =>
      left
      exact ⟨s', g', rfl, h1 rfl, hr, sg, mp, hK.live, hK.only⟩
    | some m =>
      right
      obtain ⟨h3, h4⟩ := h2 m rfl
      have hi := Dual.sinv_reach hg.sizes hg.map hg.fd (Dual.sreach_of hr) hh'
      have hl : (p.d.set m (some n) s' fun x => if m ≤ x ∧ x < m + n then s'.mem x else p.d.val x).live m = some n := by simp [Dl.H.set]
      obtain ⟨t, ht, t1, t2, t3⟩ := block_in hg h4 (l := g'.segs) sg hl
      have hc : Dual.closureCode g'.segs m = .ok (m + t.off) := by
        unfold Dual.closureCode
        rw [Dual.holding_of ⟨t1, t3⟩ hi.views.disj ht]
      have hne : ∀ a ∈ p.h.live, a.ptr ≠ m := by
        intro a ha e
        have := hK.live a ha
        rw [e, h3] at this; cases this
      refine ⟨m, m + t.off, s', g', by simp only [bind, Except.bind, hc, pure, Except.pure], h4, ?_, sg, mp, ?_, ?_⟩
      · refine .malloc (h := { p.h with g := g' }) (s := t) hr ht t1 t2 hn ?_ hc
        intro a ha
        have la := hK.live a ha
        have la' : (p.d.set m (some n) s' fun x => if m ≤ x ∧ x < m + n then s'.mem x else p.d.val x).live a.ptr = some a.size := by
          simp only [Dl.H.set]; rw [if_neg (hne a ha)]; exact la
        exact apart_of hg h4 hl la' (hne a ha)
      · intro a ha
        rcases List.mem_cons.1 ha with rfl | ha
        · exact hl
        · simp only [Pr.alloc, Dl.H.set]; rw [if_neg (hne a ha)]; exact hK.live a ha
      · intro m' n' hm'
        simp only [Pr.alloc, Dl.H.set] at hm'
        split at hm'
        · rename_i e; subst e; cases hm'
          exact ⟨_, List.mem_cons_self .., rfl, rfl⟩
        · obtain ⟨a, ha, e⟩ := hK.only m' n' hm'
          exact ⟨a, List.mem_cons_of_mem _ ha, e⟩

/-! ## Free -/

theorem trimSegs_ok {P : Nat} {s : Dl.Hp} {A : Dl.Chunks} (i : Dl.Inv P s A) (w : Dual.World) {g : Dual.G} (hs : s.segs.map pr = g.segs.map pr') :
    ∃ g1, trimSegs c w s g = .ok g1 := by
  unfold trimSegs
  by_cases c0 : Dl.foot < s.topsize
  · rw [if_pos c0]
    cases hd : s.segs with
    | nil => have := (i.segs.nil hd).2; have : Dl.foot = 72 := rfl; omega
    | cons k rest =>
      obtain ⟨hkm, k0, k1, k2, k3⟩ := i.headSeg hd
      have hf : Dl.foot = 72 := rfl
      have hk : k.holds s.top = true := by unfold Dl.Seg.holds; simp; omega
      have hsh : Dl.segHolding (k :: rest) s.top = some k := by unfold Dl.segHolding; rw [List.find?_cons, hk]
      rw [hsh]
      simp only
      cases hg : g.segs with
      | nil => rw [hd, hg] at hs; simp at hs
      | cons k' rest' =>
      have hs' := hs
      rw [hd, hg, List.map_cons, List.map_cons, List.cons.injEq] at hs'
      obtain ⟨e1, e2⟩ := Prod.mk.inj hs'.1
      have hk' : k'.holds s.top = true := by unfold Dual.Seg.holds; simp; omega
      have hsh' : Dual.segHolding g.segs s.top = some k' := by unfold Dual.segHolding; rw [hg, List.find?_cons, hk']
      unfold Dual.sysTrim
      rw [hsh']
      simp only
      split
      · split <;> exact ⟨_, rfl⟩
      · exact ⟨_, rfl⟩
  · rw [if_neg c0]; exact ⟨g, rfl⟩

theorem trimSegs_half {s : Dl.Hp} {g g1 : Dual.G} (h : trimSegs c w s g = .ok g1) (hh : g1.half = false) : g.half = false := by
  unfold trimSegs at h
  split at h
  · split at h
    · cases h
    · exact Dual.sysTrim_half h hh
  · cases h; exact hh

/-- `dlfree` in both models, for a live closure. -/
theorem free_both (hg : Good c w y) {p : Pr} (hK : K c w y p) {l : Dual.Live} (hl : l ∈ p.h.live) :
    ∃ s' g', free c w l.ptr p.d.s p.h.g = .ok (s', g') ∧ (g'.half = false → p.h.g.half = false ∧
      K c w y ⟨p.d.set l.ptr none s' p.d.val, ⟨g', p.h.live.filter fun x => x.ptr ≠ l.ptr⟩⟩) := by
  obtain ⟨A, j⟩ := hK.hist.J hg.page
  have hl0 := hK.live l hl
  obtain ⟨l1, z, l2, l3⟩ := j.live _ _ hl0
  obtain ⟨s1, t, h1, ht, A1, f⟩ := j.inv.freeChunk l2
  have h16 : l.ptr - 16 + 16 = l.ptr := by omega
  rw [h16] at h1
  have j1 := f.J j (n := l.size) (by rw [h16]; exact hl0)
  rw [h16] at j1
  have hsub : (p.h.live.filter fun x => x.ptr ≠ l.ptr).Sublist p.h.live := List.filter_sublist
  have hfree : Dual.HReach c w y ⟨p.h.g, p.h.live.filter fun x => x.ptr ≠ l.ptr⟩ := .free hK.reach hsub
  have sg1 : s1.segs.map pr = p.h.g.segs.map pr' := by rw [freeChunk_segs h1]; exact hK.segs
  have klive : ∀ s', ∀ a ∈ p.h.live.filter (fun x => x.ptr ≠ l.ptr), (p.d.set l.ptr none s' p.d.val).live a.ptr = some a.size := by
    intro s' a ha
    rw [List.mem_filter] at ha
    simp only [Dl.H.set]
    rw [if_neg (by simpa using ha.2)]
    exact hK.live a ha.1
  have konly : ∀ s', ∀ m n, (p.d.set l.ptr none s' p.d.val).live m = some n →
      ∃ a ∈ p.h.live.filter (fun x => x.ptr ≠ l.ptr), a.ptr = m ∧ a.size = n := by
    intro s' m n hm
    simp only [Dl.H.set] at hm
    split at hm
    · cases hm
    · rename_i hne
      obtain ⟨a, ha, e1, e2⟩ := hK.only m n hm
      refine ⟨a, List.mem_filter.2 ⟨ha, ?_⟩, e1, e2⟩
      rw [e1]; simpa using hne
  unfold free
  rw [h1]
  rcases ht with rfl | rfl
  · refine ⟨_, _, rfl, fun hh => ⟨hh, ?_⟩⟩
    have hi := Dual.sinv_reach hg.sizes hg.map hg.fd (Dual.sreach_of hK.reach) hh
    have hf : Dl.dlfree (refuse c.page) l.ptr p.d.s = .ok s1 := by unfold Dl.dlfree; rw [h1]; rfl
    have hd := Dl.Hist.free (e := refuse c.page) hK.hist hl0 rfl hf
    exact ⟨remap hg hd hi sg1, hfree, sg1, rfl, klive _, konly _⟩
  · obtain ⟨g1, t1⟩ := trimSegs_ok (c := c) f.inv w sg1
    obtain ⟨b1, b2⟩ := trim_both f.inv rfl sg1 t1
    obtain ⟨n1, s2, u1, A2, i2, k2⟩ := f.inv.trimTop hg.page (e := gone c.page g1.segs) rfl
    have sg2 := b2 _ _ u1
    obtain ⟨n2, s3, v1, A3, i3, k3⟩ := i2.releaseUnused hg.page (gone c.page (Dual.releaseUnused w (emptyOf s2.mem) g1).segs)
    have sg3 := release_both i2 hg.page sg2 v1
    have htr : trim c w s1 p.h.g = .ok (if n1 + n2 = 0 then { s3 with trim := 2 ^ 64 - 1 } else s3, Dual.releaseUnused w (emptyOf s2.mem) g1) := by
      unfold trim
      simp only [t1, bind, Except.bind, u1, v1, pure, Except.pure]
    refine ⟨_, _, by simp only [bind, Except.bind, htr]; rfl, fun hh => ?_⟩
    have hg1 := Dual.releaseUnused_half hh
    refine ⟨trimSegs_half t1 hg1, ?_⟩
    obtain ⟨r1, r2⟩ := release_sub w (emptyOf s2.mem) g1
    have hst : Dl.sysTrim (gone c.page (Dual.releaseUnused w (emptyOf s2.mem) g1).segs) s1 =
        .ok (if n1 + n2 = 0 then { s3 with trim := 2 ^ 64 - 1 } else s3) := by
      unfold Dl.sysTrim
      rw [b1 _ r1 r2, u1]
      simp only [bind, Except.bind, v1, pure, Except.pure]
    have hf : Dl.dlfree (gone c.page (Dual.releaseUnused w (emptyOf s2.mem) g1).segs) l.ptr p.d.s =
        .ok (if n1 + n2 = 0 then { s3 with trim := 2 ^ 64 - 1 } else s3) := by
      unfold Dl.dlfree; rw [h1]; exact hst
    have hd := Dl.Hist.free hK.hist hl0 (e := gone c.page (Dual.releaseUnused w (emptyOf s2.mem) g1).segs) rfl hf
    have sgf : (if n1 + n2 = 0 then { s3 with trim := 2 ^ 64 - 1 } else s3).segs = s3.segs := by split <;> rfl
    have sg4 : (p.d.set l.ptr none (if n1 + n2 = 0 then { s3 with trim := 2 ^ 64 - 1 } else s3) p.d.val).s.segs.map pr =
        (Dual.releaseUnused w (emptyOf s2.mem) g1).segs.map pr' := by
      show List.map pr (if n1 + n2 = 0 then { s3 with trim := 2 ^ 64 - 1 } else s3).segs = _
      rw [sgf]; exact sg3
    have lv : ∀ a ∈ p.h.live.filter (fun x => x.ptr ≠ l.ptr), 16 < a.ptr ∧ ∃ z, A1 (a.ptr - 16) = some (z, .live) ∧ a.size + 8 ≤ z := by
      intro a ha
      obtain ⟨q1, q, q2, q3⟩ := j1.live _ _ (klive s1 a ha)
      exact ⟨q1, q, q2, q3.1⟩
    have hr1 : Dual.HReach c w y ⟨g1, p.h.live.filter fun x => x.ptr ≠ l.ptr⟩ := by
      unfold trimSegs at t1
      split at t1
      · rename_i c0
        split at t1
        · cases t1
        · refine .trim hfree ?_ t1
          intro t ht hin a ha
          obtain ⟨q1, q, q2, q3⟩ := lv a ha
          exact off_trim f.inv hg.page c0 sg1 ht hin q1 q2 q3
      · cases t1; exact hfree
    have hr2 : Dual.HReach c w y ⟨Dual.releaseUnused w (emptyOf s2.mem) g1, p.h.live.filter fun x => x.ptr ≠ l.ptr⟩ := by
      refine .release (h := ⟨g1, _⟩) hr1 ?_
      intro t ht he a ha
      obtain ⟨q1, q, q2, q3⟩ := lv a ha
      exact off_empty i2 sg2 ht he q1 (k2.keep _ _ q2).1 q3
    have hi := Dual.sinv_reach hg.sizes hg.map hg.fd (Dual.sreach_of hr2) hh
    exact ⟨remap hg hd hi sg4, hr2, sg4, rfl, klive _, konly _⟩

/-- `ffi_closure_free` finds the closure. -/
theorem free_arg (hg : Good c w y) {p : Pr} (hK : K c w y p) (hh : p.h.g.half = false) {l : Dual.Live} (hl : l ∈ p.h.live) {a : Nat}
    (ha : a = l.ptr ∨ (a : Int) = l.code) : closureFree c w a p.d.s p.h.g = free c w l.ptr p.d.s p.h.g := by
  obtain ⟨b, h1, _, h2, h3, _⟩ := Props.C34_serial_partial hg.sizes hg.map hg.fd hK.reach hh hl
  unfold closureFree
  rcases ha with rfl | ha
  · rw [h2]; simp
  · have : a = b := by rw [h1] at ha; exact_mod_cast ha
    rw [this, h3]; simp

theorem free_half {m : Nat} {s s' : Dl.Hp} {g g' : Dual.G} (h : free c w m s g = .ok (s', g')) (hh : g'.half = false) : g.half = false := by
  unfold free at h
  obtain ⟨⟨s1, t⟩, h1, h2⟩ := bindOk h
  cases t with
  | stop => cases h2; exact hh
  | unmap _ _ => cases h2
  | trim =>
    obtain ⟨⟨s2, g2⟩, h3, h4⟩ := bindOk h2
    cases h4
    unfold trim at h3
    obtain ⟨g1, h5, h6⟩ := bindOk h3
    obtain ⟨⟨n, s3⟩, h7, h8⟩ := bindOk h6
    obtain ⟨⟨k, s4⟩, h9, h10⟩ := bindOk h8
    cases h10
    exact trimSegs_half h5 (Dual.releaseUnused_half hh)

theorem malloc_half {k n : Nat} {r} {s s' : Dl.Hp} {g g' : Dual.G} (h : malloc c w y k n s g = .ok (r, s', g')) : g'.half = g.half := by
  unfold malloc at h
  split at h
  · cases h
  · cases h; rfl
  · split at h
    · cases h; rfl
    · obtain ⟨⟨b, g1⟩, h1, h2⟩ := bindOk h
      obtain ⟨⟨r1, s1⟩, h3, h4⟩ := bindOk h2
      cases h4
      exact Dual.sysAlloc_half h1

theorem closureAlloc_half {k n : Nat} {r} {s s' : Dl.Hp} {g g' : Dual.G} (h : closureAlloc c w y k n s g = .ok (r, s', g')) : g'.half = g.half := by
  unfold closureAlloc at h
  obtain ⟨⟨r1, s1, g1⟩, h1, h2⟩ := bindOk h
  cases r1 with
  | none => cases h2; exact malloc_half h1
  | some m =>
    obtain ⟨code, h3, h4⟩ := bindOk h2
    cases h4
    exact malloc_half h1

theorem Reach.K (hg : Good c w y) {p : Pr} (h : Reach c w y p) : p.h.g.half = false → K c w y p := by
  induction h with
  | init vm mem val =>
    intro _
    exact ⟨.init _ _ _, .init vm, rfl, rfl, by simp, by simp⟩
  | @alloc p k n m code s' g' _ hn ha ih =>
    intro hh
    have hh0 : p.h.g.half = false := by rw [← closureAlloc_half ha]; exact hh
    rcases alloc_both hg (ih hh0) hh0 k n hn with h | ⟨s1, g1, h, _⟩ | ⟨m1, c1, s1, g1, h, h2⟩
    · rw [h] at ha; cases ha
    · rw [h] at ha; cases ha
    · rw [h] at ha; cases ha; exact h2
  | @refused p k n s' g' _ ha ih =>
    intro hh
    have hh0 : p.h.g.half = false := by rw [← closureAlloc_half ha]; exact hh
    have hK := ih hh0
    unfold closureAlloc at ha
    rcases malloc_both hg hK hh0 k n with h | ⟨r, s1, g1, h, hr, hh', sg, mp, h1, h2⟩
    · rw [h] at ha; cases ha
    · rw [h] at ha
      cases r with
      | none => cases ha; exact ⟨h1 rfl, hr, sg, mp, hK.live, hK.only⟩
      | some m =>
        simp only [bind, Except.bind] at ha
        split at ha
        · cases ha
        · cases ha
  | @free p l a s' g' _ hl ha hf ih =>
    intro hh
    have hh0 : p.h.g.half = false := free_half hf hh
    have hK := ih hh0
    rw [free_arg hg hK hh0 hl ha] at hf
    obtain ⟨s1, g1, h1, h2⟩ := free_both hg hK hl
    rw [h1] at hf
    cases hf
    exact (h2 hh).2
  | @store p l x v _ hl hx h8 ih =>
    intro hh
    have hK := ih hh
    exact ⟨.store hK.hist (hK.live l hl) hx h8, hK.reach, hK.segs, hK.map, hK.live, hK.only⟩
  | @other p st' mem _ h1 h2 h3 h4 h5 h6 h7 h8 h9 h10 ih =>
    intro hh
    have hK := ih hh
    have hr : Dual.HReach c w y { p.h with g := { p.h.g with s := st' } } := .other hK.reach h1 h2 h3 h4 h5 h6 h7 h8 h9
    refine ⟨.other hK.hist ?_, hr, hK.segs, rfl, hK.live, hK.only⟩
    intro u hu x u1 u2
    obtain ⟨t, ht, e1, e2⟩ := seg_of hK.segs hu
    have hin : Dual.InData t x := ⟨by omega, by omega⟩
    refine ⟨h10 t ht x hin, ?_⟩
    rw [hK.map]
    show (st'.vm x).isSome = _
    rw [h9 t ht x (.inl hin)]; rfl

end Verif.Heap
