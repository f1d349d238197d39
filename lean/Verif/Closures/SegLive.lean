import Verif.Closures.SegOps

/-
Live closures keep their code address.
-/
namespace Verif.Dual
open Verif

/-- Old segments are parts of new ones. -/
def Covers (l l' : List Seg) : Prop := ∀ s ∈ l, ∃ t ∈ l', t.off = s.off ∧ ∀ x, InData s x → InData t x

theorem Covers.refl (l : List Seg) : Covers l l := fun s hs => ⟨s, hs, rfl, fun _ h => h⟩

theorem covers_cons (l : List Seg) (s : Seg) : Covers l (s :: l) := fun t ht => ⟨t, by simp [ht], rfl, fun _ h => h⟩

theorem covers_upd {p : Seg → Bool} {f : Seg → Seg} (hf : ∀ s, p s = true → (f s).off = s.off ∧ ∀ x, InData s x → InData (f s) x) :
    ∀ l : List Seg, Covers l (updFirst p f l)
  | [] => Covers.refl _
  | s :: l => by
    unfold updFirst
    by_cases hp : p s = true
    · rw [if_pos hp]
      intro t ht
      rcases List.mem_cons.1 ht with rfl | ht
      · exact ⟨f t, by simp, hf t hp⟩
      · exact ⟨t, by simp [ht], rfl, fun _ h => h⟩
    · rw [if_neg hp]
      intro t ht
      rcases List.mem_cons.1 ht with rfl | ht
      · exact ⟨t, by simp, rfl, fun _ h => h⟩
      · obtain ⟨t', h1, h2⟩ := covers_upd hf l t ht
        exact ⟨t', by simp [h1], h2⟩

theorem addSegment_covers {c : Cfg} {y : Sys} {tb len : Nat} {g g' : G} (h : addSegment c y tb len g = .ok g') : Covers g.segs g'.segs := by
  unfold addSegment at h
  simp only [bind, Except.bind, pure, Except.pure] at h
  split at h
  · simp at h
  · split at h
    · simp at h
    · simp only [Except.ok.injEq] at h
      rw [← h]
      exact covers_cons _ _

theorem prependOrAdd_covers {c : Cfg} {y : Sys} {tb len : Nat} {g g' : G} (h : prependOrAdd c y tb len g = .ok g') : Covers g.segs g'.segs := by
  unfold prependOrAdd at h
  split at h
  · simp only [bind, Except.bind, pure, Except.pure] at h
    split at h
    · simp at h
    · split at h
      · simp only [Except.ok.injEq] at h
        rw [← h]
        refine covers_upd ?_ _
        intro s hs
        simp only [beq_iff_eq] at hs
        refine ⟨rfl, fun x hx => ?_⟩
        simp only [InData] at hx ⊢
        omega
      · exact addSegment_covers h
  · exact addSegment_covers h

theorem sysAlloc_covers {c : Cfg} {w : World} {y : Sys} {top : Seg → Bool} {k nb : Nat} {g g' : G} {b}
    (h : sysAlloc c w y top k nb g = .ok (b, g')) : Covers g.segs g'.segs := by
  unfold sysAlloc at h
  cases hm : dlmmap c w y k (reqSize c y nb) g.s with
  | error e => simp [hm, bind, Except.bind] at h
  | ok x =>
    obtain ⟨r, st⟩ := x
    simp only [hm, bind, Except.bind] at h
    cases r with
    | none =>
      simp only [pure, Except.pure, Except.ok.injEq, Prod.mk.injEq] at h
      rw [← h.2]
      exact Covers.refl _
    | some a =>
      simp only at h
      cases hp : placeNew c y top a (reqSize c y nb) { g with s := st } with
      | error e => simp [hp] at h
      | ok g2 =>
        simp only [hp, pure, Except.pure, Except.ok.injEq, Prod.mk.injEq] at h
        obtain ⟨_, rfl⟩ := h
        unfold placeNew at hp
        split at hp
        · rename_i hn
          intro s hs
          have hn : g.segs = [] := hn
          rw [hn] at hs
          simp at hs
        · split at hp
          · simp only [bind, Except.bind, pure, Except.pure] at hp
            split at hp
            · simp at hp
            · split at hp
              · simp only [Except.ok.injEq] at hp
                rw [← hp]
                refine covers_upd ?_ _
                intro s hs
                refine ⟨rfl, fun x hx => ?_⟩
                simp only [InData] at hx ⊢
                omega
              · exact prependOrAdd_covers (g := { g with s := st }) hp
          · exact prependOrAdd_covers (g := { g with s := st }) hp

/-- Segments that are not released stay as they are. -/
theorem releaseLoop_keep {c : Cfg} {w : World} {y : Sys} {empty : Seg → Bool} : ∀ {l pre : List Seg} {g : G},
    SInv c w y { g with segs := pre ++ l } → (releaseLoop w empty pre l g).half = false →
      ∀ s, s ∈ pre ∨ (s ∈ l ∧ empty s = false) → s ∈ (releaseLoop w empty pre l g).segs ∧
        ∀ x, InV s x → (releaseLoop w empty pre l g).s.vm x = g.s.vm x
  | [], pre, g, h, _, s, hs => by
    rcases hs with hs | hs
    · exact ⟨hs, fun _ _ => rfl⟩
    · simp at hs
  | s :: l, pre, g, h, hh, t, ht => by
    unfold releaseLoop at hh ⊢
    split
    · rename_i he
      rw [if_pos he] at hh
      rcases hm : dlmunmap w s.base s.size { g with segs := pre ++ s :: l } with ⟨b, g1⟩
      rw [hm] at hh
      have hu := dlmunmap_spec hm
      have ht1 : t ∈ pre ∨ (t ∈ l ∧ empty t = false) := by
        rcases ht with ht | ⟨ht, h0⟩
        · exact .inl ht
        · rcases List.mem_cons.1 ht with rfl | ht
          · rw [he] at h0; simp at h0
          · exact .inr ⟨ht, h0⟩
      cases b with
      | true =>
        simp only at hh ⊢
        have hvm : ∀ x, ¬ InV (s.upper 0) x → g1.s.vm x = g.s.vm x :=
          fun x hx => unmap_upper (b := true) (g' := g1) h.views (by simp) (Nat.zero_le _) (by simpa using hu) hx
        have hv := h.views.perm List.perm_middle
        have hi1 : SInv c w y { g1 with segs := pre ++ l } := by
          refine h.unmap hu ?_
          have := hv.shrink (s := s) (n := 0) (Nat.zero_le _) (st' := g1.s) hvm (fun p hp => hu.keep.phys hu.files hu.clock hp)
          exact this.tail
        obtain ⟨k1, k2⟩ := releaseLoop_keep hi1 hh t ht1
        refine ⟨k1, fun x hx => (k2 x hx).trans (hvm x fun hx' => ?_)⟩
        refine (List.pairwise_cons.1 hv.disj).1 t ?_ x (by simpa [Seg.upper] using hx') hx
        rcases ht1 with ht1 | ht1 <;> simp [ht1]
      | false =>
        simp only at hh ⊢
        have hvm := hu.fail rfl (releaseLoop_half hh)
        have hi1 : SInv c w y { g1 with segs := (pre ++ [s]) ++ l } := by
          refine h.unmap hu ?_
          have := h.views.mono (st' := g1.s) (fun _ _ x _ => by rw [hvm]) (fun p hp => hu.keep.phys hu.files hu.clock hp)
          simpa using this
        obtain ⟨k1, k2⟩ := releaseLoop_keep hi1 hh t (by
          rcases ht1 with ht1 | ht1
          · exact .inl (by simp [ht1])
          · exact .inr ht1)
        exact ⟨k1, fun x hx => by rw [k2 x hx, hvm]⟩
    · rename_i he
      rw [if_neg he] at hh
      refine releaseLoop_keep (pre := pre ++ [s]) (by simpa using h) hh t ?_
      rcases ht with ht | ⟨ht, h0⟩
      · exact .inl (by simp [ht])
      · rcases List.mem_cons.1 ht with rfl | ht
        · exact .inl (by simp)
        · exact .inr ⟨ht, h0⟩

theorem releaseUnused_keep {c : Cfg} {w : World} {y : Sys} {empty : Seg → Bool} {g : G} (h : SInv c w y g)
    (hh : (releaseUnused w empty g).half = false) {s : Seg} (hs : s ∈ g.segs) (he : empty s = false) :
    s ∈ (releaseUnused w empty g).segs ∧ ∀ x, InV s x → (releaseUnused w empty g).s.vm x = g.s.vm x := by
  unfold releaseUnused at hh ⊢
  split
  · exact ⟨hs, fun _ _ => rfl⟩
  · rename_i t l hl
    simp only [hl] at hh
    refine releaseLoop_keep (c := c) (y := y) (pre := [t]) ?_ hh s ?_
    · have : ({ g with segs := [t] ++ l } : G) = g := by
        rw [show [t] ++ l = g.segs from hl.symm]
      rw [this]
      exact h
    · rw [hl] at hs
      rcases List.mem_cons.1 hs with rfl | hs
      · exact .inl (by simp)
      · exact .inr ⟨hs, he⟩

/-- What is left of a segment after trimming. -/
theorem sysTrim_keep {c : Cfg} {w : World} {y : Sys} {a extra : Nat} {pinned : Bool} {g g' : G} (hi : SInv c w y g)
    (h : sysTrim w a extra pinned g = .ok g') (hh : g'.half = false) {s : Seg} (hs : s ∈ g.segs) :
    ∃ t ∈ g'.segs, t.off = s.off ∧ ∀ x, InData s x → (InData s a → x < s.base + (s.size - extra)) → InData t x ∧ g'.s.vm x = g.s.vm x := by
  unfold sysTrim at h
  split at h
  · simp at h
  · rename_i u hu0
    split at h
    · rename_i hc
      rcases hm : dlmunmap w (u.base + (u.size - extra)) extra g with ⟨b, g1⟩
      rw [hm] at h
      have hu := dlmunmap_spec hm
      cases b with
      | true =>
        simp only [Except.ok.injEq] at h
        subst h
        obtain ⟨l1, l2, e1, e2, e3⟩ := find_upd (f := fun s => { s with size := s.size - extra }) hu0
        have hu' : Unmapped (u.base + (u.size - extra)) (u.size - (u.size - extra)) true g g1 := by
          rw [show u.size - (u.size - extra) = extra by omega]; exact hu
        have hum : u ∈ g.segs := by rw [e1]; simp
        have hvm : ∀ x, ¬ InV (u.upper (u.size - extra)) x → g1.s.vm x = g.s.vm x := fun x hx =>
          unmap_upper hi.views hum (by omega) hu' hx
        have hsub : ∀ x, InV (u.upper (u.size - extra)) x → InV u x := by
          rintro x (h | h)
          · exact .inl (by rw [upper_data (by omega)] at h; exact ⟨by omega, h.2⟩)
          · exact .inr (by rw [upper_code (by omega)] at h; exact ⟨by omega, h.2⟩)
        by_cases hsu : s = u
        · subst hsu
          refine ⟨{ s with size := s.size - extra }, by simp only; rw [hu.segs, e2]; simp, rfl, fun x hx hx2 => ?_⟩
          have hx2 := hx2 ((holds_iff _ _).1 e3)
          refine ⟨⟨hx.1, hx2⟩, hvm x fun hx3 => ?_⟩
          rcases hx3 with hx3 | hx3
          · rw [upper_data (by omega)] at hx3; omega
          · by_cases ho : s.off = 0
            · rw [upper_code (by omega)] at hx3; omega
            · refine hi.views.self s hs ho x hx ?_
              rw [upper_code (by omega)] at hx3
              exact ⟨by omega, hx3.2⟩
        · refine ⟨s, ?_, rfl, fun x hx _ => ⟨hx, hvm x fun hx3 => ?_⟩⟩
          · simp only
            rw [hu.segs, e2]
            rw [e1] at hs
            simp only [List.mem_append, List.mem_cons, hsu, false_or] at hs ⊢
            tauto
          · have hd := hi.views.disj
            rw [e1] at hd hs
            have hd := (List.perm_middle.pairwise_iff (fun h => Dis.symm h)).1 hd
            refine (List.pairwise_cons.1 hd).1 s ?_ x (hsub x hx3) (.inl hx)
            simp only [List.mem_append, List.mem_cons, hsu, false_or] at hs ⊢
            exact hs
      | false =>
        simp only [Except.ok.injEq] at h
        subst h
        have hvm := hu.fail rfl hh
        exact ⟨s, by rw [hu.segs]; exact hs, rfl, fun x hx _ => ⟨hx, by rw [hvm]⟩⟩
    · simp only [Except.ok.injEq] at h
      subst h
      exact ⟨s, hs, rfl, fun x hx _ => ⟨hx, rfl⟩⟩

/-- A live closure lies in a segment, its code address is at the distance of the segment, and
its bytes are mapped as they were. -/
def LiveOk (g : G) (a : Live) : Prop :=
  0 < a.size ∧ ∃ s ∈ g.segs, s.base ≤ a.ptr ∧ a.ptr + a.size ≤ s.base + s.size ∧ a.code = a.ptr + s.off ∧
    ∀ i, i < a.size → g.s.vm (a.ptr + i) = a.pgs i

theorem sreach_of {c : Cfg} {w : World} {y : Sys} {h : H} (hr : HReach c w y h) : SReach c w y h.g := by
  induction hr with
  | init vm => exact .init vm
  | malloc _ _ _ _ _ _ _ ih => exact ih
  | free _ _ ih => exact ih
  | alloc _ hs ih => exact .alloc ih hs
  | release _ _ ih => exact .release _ ih
  | trim _ _ hs ih => exact .trim ih hs
  | search _ hs ih => exact .search ih hs
  | other _ h1 h2 h3 h4 h5 h6 h7 h8 h9 ih => exact .other ih h1 h2 h3 h4 h5 h6 h7 h8 h9

theorem live_reach {c : Cfg} {w : World} {y : Sys} (hok : SizesOk c y) (hM : FreshMap w) (hF : FreshFd w) {h : H} (hr : HReach c w y h) :
    h.g.half = false → (∀ a ∈ h.live, LiveOk h.g a) ∧ h.live.Pairwise Apart := by
  induction hr with
  | init vm => exact fun _ => ⟨by simp, .nil⟩
  | @malloc h ptr size code s hr hs h1 h2 h3 h4 h5 ih =>
    intro hh
    obtain ⟨i1, i2⟩ := ih hh
    have hi := sinv_reach hok hM hF (sreach_of hr) hh
    refine ⟨fun a ha => ?_, List.pairwise_cons.2 ⟨h4, i2⟩⟩
    rcases List.mem_cons.1 ha with rfl | ha
    · refine ⟨h3, s, hs, h1, h2, ?_, fun _ _ => rfl⟩
      unfold closureCode at h5
      rw [holding_of ⟨h1, by omega⟩ hi.views.disj hs] at h5
      exact (Except.ok.inj h5).symm
    · exact i1 a ha
  | free hr hs ih =>
    intro hh
    obtain ⟨i1, i2⟩ := ih hh
    exact ⟨fun a ha => i1 a (hs.subset ha), i2.sublist hs⟩
  | @alloc h top k nb b g' hr hs ih =>
    intro hh
    have h0 : h.g.half = false := by rw [← sysAlloc_half hs]; exact hh
    obtain ⟨i1, i2⟩ := ih h0
    have hi := sinv_reach hok hM hF (sreach_of hr) h0
    refine ⟨fun a ha => ?_, i2⟩
    obtain ⟨h3, s, h4, h5, h6, h7, h8⟩ := i1 a ha
    obtain ⟨t, t1, t2, t3⟩ := sysAlloc_covers hs s h4
    rcases sysAlloc_ok (top := top) (k := k) (nb := nb) hok hM hF hi with e | ⟨b', g2, e, e1, e2⟩
    · rw [hs] at e; simp at e
    · rw [hs] at e
      simp only [Except.ok.injEq, Prod.mk.injEq] at e
      obtain ⟨_, rfl⟩ := e
      have q1 := t3 a.ptr ⟨h5, by omega⟩
      have q2 := t3 (a.ptr + a.size - 1) ⟨by omega, by omega⟩
      refine ⟨h3, t, t1, q1.1, by have := q2.2; omega, by rw [t2]; exact h7, fun i hi => ?_⟩
      show g'.s.vm _ = _
      rw [e2 s h4 _ (.inl ⟨by omega, by omega⟩), h8 i hi]
  | @release h empty hr he ih =>
    intro hh
    have h0 := releaseUnused_half hh
    obtain ⟨i1, i2⟩ := ih h0
    have hi := sinv_reach hok hM hF (sreach_of hr) h0
    refine ⟨fun a ha => ?_, i2⟩
    obtain ⟨h3, s, h4, h5, h6, h7, h8⟩ := i1 a ha
    have hne : empty s = false := by
      cases e : empty s with
      | false => rfl
      | true => have := he s h4 e a ha; unfold Off at this; omega
    obtain ⟨k1, k2⟩ := releaseUnused_keep hi hh h4 hne
    exact ⟨h3, s, k1, h5, h6, h7, fun i hi => (k2 _ (.inl ⟨by omega, by omega⟩)).trans (h8 i hi)⟩
  | @trim h a extra pinned g' hr he hs ih =>
    intro hh
    have h0 := sysTrim_half hs hh
    obtain ⟨i1, i2⟩ := ih h0
    have hi := sinv_reach hok hM hF (sreach_of hr) h0
    refine ⟨fun l hl => ?_, i2⟩
    obtain ⟨h3, s, h4, h5, h6, h7, h8⟩ := i1 l hl
    obtain ⟨t, t1, t2, t3⟩ := sysTrim_keep hi hs hh h4
    have key : ∀ i, i < l.size → InData t (l.ptr + i) ∧ g'.s.vm (l.ptr + i) = h.g.s.vm (l.ptr + i) := by
      intro i hi
      refine t3 _ ⟨by omega, by omega⟩ fun ha => ?_
      have := he s h4 ha l hl
      unfold Off at this
      omega
    have q1 := (key 0 h3).1
    have q2 := (key (l.size - 1) (by omega)).1
    refine ⟨h3, t, t1, q1.1, by have := q2.2; omega, by rw [t2]; exact h7, fun i hi => ((key i hi).2).trans (h8 i hi)⟩
  | @search h k fd st' hr hs ih =>
    intro hh
    obtain ⟨i1, i2⟩ := ih hh
    refine ⟨fun a ha => ?_, i2⟩
    obtain ⟨h3, s, h4, h5, h6, h7, h8⟩ := i1 a ha
    exact ⟨h3, s, h4, h5, h6, h7, fun i hi => by show st'.vm _ = _; rw [(search_grow hs).vm]; exact h8 i hi⟩
  | @other h st' hr h1 h2 h3 h4 h5 h6 h7 h8 h9 ih =>
    intro hh
    obtain ⟨i1, i2⟩ := ih hh
    refine ⟨fun a ha => ?_, i2⟩
    obtain ⟨j3, s, j4, j5, j6, j7, j8⟩ := i1 a ha
    exact ⟨j3, s, j4, j5, j6, j7, fun i hi => (h9 s j4 _ (.inl ⟨by omega, by omega⟩)).trans (j8 i hi)⟩

end Verif.Dual
