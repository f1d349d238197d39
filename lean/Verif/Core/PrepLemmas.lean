import Verif.Core.Lemmas

namespace Verif
open Spec

/-! ### From one aggregate to a whole signature -/

/-- All descriptors are untouched or laid out, and laid-out ones are closed. -/
structure Settled (h0 h : Heap) : Prop where
  good : ∀ b, GoodAt h0 h b
  done : ∀ b, Unset h0 b → IsSet h b → Closed h0 h b

theorem GoodAt.of_not_unset {h0 h : Heap} {b : Addr} (hg : GoodAt h0 h b) (hu : ¬ Unset h0 b) :
    h b = h0 b := by
  rcases hg with hg | ⟨d, s, al, h1, h2, _, _⟩
  · exact hg
  · exact absurd ⟨d, h1, h2⟩ hu

theorem Settled.inv {h0 h : Heap} (hs : Settled h0 h) (rk : Addr → Nat) (r : Nat) :
    Inv rk r h0 h where
  low b _ _ := hs.good b
  set b hb := (hs.good b).of_not_unset hb
  done b hb _ h1 := hs.done b hb h1

theorem Settled.refl (h0 : Heap) : Settled h0 h0 where
  good _ := .inl rfl
  done b hb hs := by
    obtain ⟨d, hd, h0⟩ := hb
    obtain ⟨d', hd', h1⟩ := hs
    rw [hd] at hd'; cases hd'
    exact absurd h0 h1

theorem Settled.valid_ptr {h0 h : Heap} (hs : Settled h0 h) {b : Addr} {d : Desc}
    (hd : h0 b = some d) : ∃ d', h b = some d' := by
  rcases hs.good b with hg | ⟨_, _, _, _, _, _, hg⟩
  · exact ⟨d, hg.trans hd⟩
  · exact ⟨_, hg⟩

theorem guardInit_spec {h0 : Heap} {rk : Addr → Nat} (hv : Valid h0)
    (hrk : ∀ a d es, h0 a = some d → d.size = 0 → d.elements = some es →
      ∀ e ∈ es, Unset h0 e → rk e < rk a) {n : Nat} {a : Addr} (hn : rk a < n)
    {d : Desc} (hd : h0 a = some d) {h : Heap} (hs : Settled h0 h) :
    ∃ st h', initIfUnset n h a = .ok (st, h') ∧
      ((HasLayout h0 a ∧ st = .ok ∧ Settled h0 h' ∧ Closed h0 h' a ∧
          (∀ b, IsSet h b → h' b = h b)) ∨
       (¬ HasLayout h0 a ∧ st = .badTypedef)) := by
  by_cases hu : Unset h0 a
  · obtain ⟨du, hdu, hdus⟩ := hu
    rw [hd] at hdu; cases hdu
    rcases hs.good a with hg | ⟨d', s, al, h1, h2, h3, h4⟩
    · have hspec := initAggOffs_spec hv hrk n a hn ⟨d, hd, hdus⟩ h d (hs.inv rk _)
        (hg.trans hd) (by simp [hd]) (by simp [hd])
      obtain ⟨st, h', offs, hres, hf, hmono, hcase⟩ := hspec
      refine ⟨st, h', ?_, ?_⟩
      · simp [initIfUnset, guardInit, hg.trans hd, hdus, initAgg, dropOffs, hres]
      · rcases hcase with ⟨d', es, ms, s, al, hd', he, hm, hsl, hl, hst, hinv, hcl, hh⟩ | hbad
        · left
          have hmono' : ∀ b, IsSet h b → h' b = h b := by
            intro b hb
            by_cases hbe : b = a
            · subst hbe
              obtain ⟨d2, hd2, hn2⟩ := hb
              rw [hg, hd] at hd2; cases hd2
              exact absurd hdus hn2
            · exact hmono b hbe hb
          have hga : GoodAt h0 h' a := by
            refine .inr ⟨d', s, al, hd', ?_, hl, hh⟩
            rw [hd] at hd'; cases hd'; exact hdus
          have hall : ∀ r, Inv rk r h0 h' := fun r =>
            (hs.inv rk r).frame hrk hf hmono' hinv hga hcl
          refine ⟨⟨s, al, hl⟩, hst, ⟨?_, ?_⟩, hcl, hmono'⟩
          · intro b
            by_cases hub : Unset h0 b
            · exact (hall (rk b + 1)).low b hub (Nat.lt_succ_self _)
            · exact .inl ((hall 0).set b hub)
          · intro b hb hsb
            exact (hall (rk b + 1)).done b hb (Nat.lt_succ_self _) hsb
        · exact .inr hbad
    · refine ⟨.ok, h, ?_, .inl ⟨⟨s, al, h3⟩, rfl, hs,
        hs.done a ⟨d, hd, hdus⟩ ⟨_, h4, h3.size_ne_zero⟩, fun _ _ => rfl⟩⟩
      simp [initIfUnset, guardInit, h4, h3.size_ne_zero]
  · have hg := (hs.good a).of_not_unset hu
    have hne : d.size ≠ 0 := fun hc => hu ⟨d, hd, hc⟩
    refine ⟨.ok, h, ?_, .inl ⟨⟨_, _, .preset hd hne⟩, rfl, hs, ?_, fun _ _ => rfl⟩⟩
    · simp [initIfUnset, guardInit, hg.trans hd, hne]
    · intro c hc
      cases hc with
      | refl => exact ⟨d, hg.trans hd, hne⟩
      | step hd' hs' => exact absurd ⟨_, hd', hs'⟩ hu

/-- The generic stack-space total over a list of descriptors. -/
def bytesFold (T : Target) (h : Heap) (bytes : Nat) (as : List Addr) : Nat :=
  as.foldl (fun b a => match h a with
    | some d => if T.specificStack then b else addArgBytes T.sizeofArg b d
    | none => b) bytes

theorem prepArgs_spec {h0 : Heap} {rk : Addr → Nat} (hv : Valid h0)
    (hrk : ∀ a d es, h0 a = some d → d.size = 0 → d.elements = some es →
      ∀ e ∈ es, Unset h0 e → rk e < rk a) (T : Target) {n : Nat} {as : List Addr}
    (hn : ∀ a ∈ as, rk a < n) (hptr : ∀ a ∈ as, ∃ d, h0 a = some d)
    (hcx : T.hasComplex = false → ∀ a ∈ as, ∀ d, h0 a = some d → d.tc ≠ .complex)
    {h : Heap} (hs : Settled h0 h) (bytes : Nat) :
    ((∀ a ∈ as, HasLayout h0 a) ∧ ∃ h', prepArgs T n h as bytes
        = .ok (true, h', bytesFold T h' bytes as) ∧
        Settled h0 h' ∧ (∀ a ∈ as, Closed h0 h' a) ∧ (∀ b, IsSet h b → h' b = h b)) ∨
    (¬ (∀ a ∈ as, HasLayout h0 a) ∧ ∃ h' b', prepArgs T n h as bytes = .ok (false, h', b')) := by
  induction as generalizing h bytes with
  | nil =>
    left
    exact ⟨by simp, h, by simp [prepArgs, bytesFold], hs, by simp, fun _ _ => rfl⟩
  | cons a as ih =>
    obtain ⟨d, hd⟩ := hptr a (by simp)
    obtain ⟨st, h1, hg, hcase⟩ := guardInit_spec hv hrk (hn a (by simp)) hd hs
    rcases hcase with ⟨hl, hst, hs1, hcl, hmono⟩ | ⟨hno, hst⟩
    · obtain ⟨d1, hd1⟩ := hs1.valid_ptr hd
      have htc : d1.tc = d.tc := by
        rcases hs1.good a with h2 | ⟨d2, s, al, h2, _, _, h3⟩
        · rw [h2, hd] at hd1; cases hd1; rfl
        · rw [hd] at h2; cases h2; rw [h3] at hd1; cases hd1; rfl
      have hnc : (!T.hasComplex && d1.tc == TC.complex) = false := by
        cases hT : T.hasComplex with
        | true => rfl
        | false =>
          have := hcx hT a (by simp) d hd
          rw [htc]
          simp [this]
      have unf : prepArgs T n h (a :: as) bytes = prepArgs T n h1 as
          (if T.specificStack then bytes else addArgBytes T.sizeofArg bytes d1) := by
        rw [prepArgs, hg]
        simp only [bind, Except.bind, hst, ne_eq, not_true_eq_false, if_false, Heap.get_ok hd1, hnc]
        rfl
      have := ih (fun x hx => hn x (by simp [hx])) (fun x hx => hptr x (by simp [hx]))
        (fun hT x hx => hcx hT x (by simp [hx])) hs1
        (if T.specificStack then bytes else addArgBytes T.sizeofArg bytes d1)
      rcases this with ⟨hall, h2, hr, hs2, hcl2, hmono2⟩ | ⟨hno, h2, b2, hr⟩
      · left
        refine ⟨?_, h2, ?_, hs2, ?_, ?_⟩
        · intro x hx
          rcases List.mem_cons.1 hx with rfl | hx
          · exact hl
          · exact hall x hx
        · rw [unf, hr]
          have hset : IsSet h1 a := hcl a (.refl a)
          have : h2 a = some d1 := (hmono2 a hset).trans hd1
          simp [bytesFold, this]
        · intro x hx
          rcases List.mem_cons.1 hx with rfl | hx
          · intro c hc
            have := hcl c hc
            exact this.of_eq (hmono2 c this)
          · exact hcl2 x hx
        · intro b hb
          have e1 := hmono b hb
          exact (hmono2 b (hb.of_eq e1)).trans e1
      · right
        refine ⟨?_, h2, b2, by rw [unf, hr]⟩
        intro hall
        exact hno (fun x hx => hall x (by simp [hx]))
    · right
      refine ⟨fun hall => hno (hall a (by simp)), h1, bytes, ?_⟩
      rw [prepArgs, hg]
      simp [bind, Except.bind, hst]

/-- Initial stack space: room for the return-structure pointer. -/
def retBytes (T : Target) (d : Desc) : Nat :=
  if !T.specificStack && d.tc == TC.struct then ffiAlign T.ptrSize T.sizeofArg else 0

theorem prepCifCore_spec {h0 : Heap} (hv : Valid h0) (T : Target)
    {rtype : Addr} {atypes : List Addr}
    (hptr : ∀ a ∈ rtype :: atypes, ∃ d, h0 a = some d)
    (hcx : T.hasComplex = false → ∀ a ∈ rtype :: atypes, ∀ d, h0 a = some d → d.tc ≠ .complex) :
    ∃ N, ∀ n, N ≤ n → ∀ cif abi isvar nfixed, T.firstAbi < abi → abi < T.lastAbi →
    ((∀ a ∈ rtype :: atypes, HasLayout h0 a) ∧ ∃ h' dr,
        prepCifCore T n h0 cif abi isvar nfixed rtype atypes =
          (match T.machdep isvar nfixed h' { cif with abi := abi, argTypes := atypes, nargs := atypes.length, rtype := rtype, flags := 0, bytes := bytesFold T h' (retBytes T dr) atypes } with
            | .error e => .error e
            | .ok (s, c) => .ok (s, h', c)) ∧ h' rtype = some dr ∧
        Settled h0 h' ∧ (∀ a ∈ rtype :: atypes, Closed h0 h' a)) ∨
    (¬ (∀ a ∈ rtype :: atypes, HasLayout h0 a) ∧ ∃ h' c',
      prepCifCore T n h0 cif abi isvar nfixed rtype atypes = .ok (.badTypedef, h', c')) := by
  obtain ⟨rk, hrk⟩ := hv.acyclic
  refine ⟨(rtype :: atypes).foldr (fun a m => max (rk a + 1) m) 0, ?_⟩
  intro n hN cif abi isvar nfixed habi1 habi2
  have hn : ∀ a ∈ rtype :: atypes, rk a < n := by
    intro a ha
    have : ∀ (l : List Addr), a ∈ l → rk a < l.foldr (fun a m => max (rk a + 1) m) 0 := by
      intro l
      induction l with
      | nil => simp
      | cons x l ih =>
        intro hx
        simp only [List.foldr_cons]
        rcases List.mem_cons.1 hx with rfl | hx
        · omega
        · have := ih hx; omega
    have := this _ ha
    omega
  obtain ⟨d, hd⟩ := hptr rtype (by simp)
  obtain ⟨st, h1, hg, hcase⟩ := guardInit_spec hv hrk (hn rtype (by simp)) hd (Settled.refl h0)
  rcases hcase with ⟨hl, hst, hs1, hcl, hmono⟩ | ⟨hno, hst⟩
  · obtain ⟨d1, hd1⟩ := hs1.valid_ptr hd
    have htc : d1.tc = d.tc := by
      rcases hs1.good rtype with h2 | ⟨d2, s, al, h2, _, _, h3⟩
      · rw [h2, hd] at hd1; cases hd1; rfl
      · rw [hd] at h2; cases h2; rw [h3] at hd1; cases hd1; rfl
    have hnc : (!T.hasComplex && d1.tc == TC.complex) = false := by
      cases hT : T.hasComplex with
      | true => rfl
      | false =>
        have := hcx hT rtype (by simp) d hd
        rw [htc]
        simp [this]
    rcases prepArgs_spec (as := atypes) hv hrk T (fun a ha => hn a (by simp [ha]))
      (fun a ha => hptr a (by simp [ha])) (fun hT a ha => hcx hT a (by simp [ha])) hs1
      (retBytes T d1) with ⟨hall, h2, hr, hs2, hcl2, hmono2⟩ | ⟨hno, h2, b2, hr⟩
    · left
      have hset : IsSet h1 rtype := hcl rtype (.refl _)
      refine ⟨?_, h2, d1, ?_, (hmono2 rtype hset).trans hd1, hs2, ?_⟩
      · intro x hx
        rcases List.mem_cons.1 hx with rfl | hx
        · exact hl
        · exact hall x hx
      · rw [prepCifCore, if_neg (by simp [habi1, habi2]), hg]
        simp only [retBytes] at hr
        simp only [bind, Except.bind, hst, ne_eq, not_true_eq_false, if_false, Heap.get_ok hd1, hnc,
          Bool.false_eq_true, hr, if_true, retBytes]
        generalize T.machdep _ _ _ _ = x
        cases x <;> rfl
      · intro x hx
        rcases List.mem_cons.1 hx with rfl | hx
        · intro c hc
          have := hcl c hc
          exact this.of_eq (hmono2 c this)
        · exact hcl2 x hx
    · right
      refine ⟨fun hall => hno (fun x hx => hall x (by simp [hx])), h2, ?_⟩
      rw [prepCifCore, if_neg (by simp [habi1, habi2]), hg]
      simp only [retBytes] at hr
      simp only [bind, Except.bind, hst, ne_eq, not_true_eq_false, if_false, Heap.get_ok hd1, hnc,
          Bool.false_eq_true, hr]
      exact ⟨_, rfl⟩
  · right
    refine ⟨fun hall => hno (hall rtype (by simp)), h1, ?_⟩
    rw [prepCifCore, if_neg (by simp [habi1, habi2]), hg]
    simp [bind, Except.bind, hst]

/-! ### Later calls -/

mutual
theorem Settled.layout_of {h0 h : Heap} (hs : Settled h0 h) {a s al} :
    Layout h0 a s al → Layout h a s al
  | .preset hd hne => by
    have hu : ¬ Unset h0 a := by
      rintro ⟨d', hd', h0'⟩; rw [hd] at hd'; cases hd'; exact hne h0'
    exact .preset (((hs.good a).of_not_unset hu).trans hd) hne
  | .agg hd h0' he hm hl hne => by
    rcases hs.good a with hg | ⟨d', s', al', h1, h2, h3, h4⟩
    · exact .agg (hg.trans hd) h0' he (Settled.members_of hs hm) hl hne
    · obtain ⟨rfl, rfl⟩ := h3.unique (.agg hd h0' he hm hl hne)
      have := Layout.preset h4 hne
      exact this
theorem Settled.members_of {h0 h : Heap} (hs : Settled h0 h) {es ms} :
    Members h0 es ms → Members h es ms
  | .nil => .nil
  | .cons hl hm => .cons (Settled.layout_of hs hl) (Settled.members_of hs hm)
end

mutual
theorem Settled.layout_back {h0 h : Heap} (hs : Settled h0 h) {a s al} :
    Layout h a s al → Layout h0 a s al
  | .preset hd hne => (hs.good a).layout hd hne
  | .agg hd h0' he hm hl hne => by
    rcases hs.good a with hg | ⟨d', s', al', h1, h2, h3, h4⟩
    · exact .agg (hg.symm.trans hd) h0' he (Settled.members_back hs hm) hl hne
    · rw [h4] at hd; cases hd
      exact absurd h0' h3.size_ne_zero
theorem Settled.members_back {h0 h : Heap} (hs : Settled h0 h) {es ms} :
    Members h es ms → Members h0 es ms
  | .nil => .nil
  | .cons hl hm => .cons (Settled.layout_back hs hl) (Settled.members_back hs hm)
end

theorem Settled.unset_back {h0 h : Heap} (hs : Settled h0 h) {a : Addr} (hu : Unset h a) :
    h a = h0 a := by
  obtain ⟨d, hd, h0'⟩ := hu
  rcases hs.good a with hg | ⟨d', s', al', h1, h2, h3, h4⟩
  · exact hg
  · rw [h4] at hd; cases hd
    exact absurd h0' h3.size_ne_zero

theorem Settled.valid {h0 h : Heap} (hv : Valid h0) (hs : Settled h0 h) : Valid h where
  pow2 a d hd hne := (hs.layout_back (.preset hd hne)).pow2 hv
  ptrs a d es hd h0' he e hmem := by
    have := hs.unset_back ⟨d, hd, h0'⟩
    obtain ⟨d', hd'⟩ := hv.ptrs a d es (this.symm.trans hd) h0' he e hmem
    exact hs.valid_ptr hd'
  acyclic := by
    obtain ⟨rk, hrk⟩ := hv.acyclic
    refine ⟨rk, fun a d es hd h0' he e hmem hu => ?_⟩
    have h1 := hs.unset_back ⟨d, hd, h0'⟩
    have h2 := hs.unset_back hu
    refine hrk a d es (h1.symm.trans hd) h0' he e hmem ?_
    obtain ⟨de, hde, hz⟩ := hu
    exact ⟨de, h2.symm.trans hde, hz⟩
  fits a s al hl := hv.fits a s al (hs.layout_back hl)

theorem Settled.visits {h0 h : Heap} (hs : Settled h0 h) {a c : Addr} (hv : Visits h a c) :
    Visits h0 a c := by
  induction hv with
  | refl a => exact .refl a
  | step hd h0' he hmem _ ih =>
    have := hs.unset_back ⟨_, hd, h0'⟩
    exact .step (this.symm.trans hd) h0' he hmem ih

theorem Settled.trans {h0 h1 h2 : Heap} (hs : Settled h0 h1) (hs' : Settled h1 h2) :
    Settled h0 h2 where
  good b := by
    rcases hs'.good b with hg | ⟨d, s, al, h3, h4, h5, h6⟩
    · rcases hs.good b with hg' | ⟨d, s, al, h3, h4, h5, h6⟩
      · exact .inl (hg.trans hg')
      · exact .inr ⟨d, s, al, h3, h4, h5, hg.trans h6⟩
    · have := hs.unset_back ⟨d, h3, h4⟩
      exact .inr ⟨d, s, al, this.symm.trans h3, h4, hs.layout_back h5, h6⟩
  done b hb hset := by
    -- visited nodes: by induction along the visit, staying in set nodes
    have key : ∀ {x c : Addr}, Visits h0 x c → IsSet h2 x → IsSet h2 c := by
      intro x c hvis
      induction hvis with
      | refl => exact id
      | @step x d es e c hd h0' he hmem hvis ih =>
        intro hx
        apply ih
        by_cases hx1 : IsSet h1 x
        · have hcl := hs.done x ⟨d, hd, h0'⟩ hx1 e (.step hd h0' he hmem (.refl e))
          obtain ⟨de, hde, hne⟩ := hcl
          have hnu : ¬ Unset h1 e := by
            rintro ⟨d', hd', hz⟩; rw [hde] at hd'; cases hd'; exact hne hz
          exact ⟨de, ((hs'.good e).of_not_unset hnu).trans hde, hne⟩
        · obtain ⟨d1, hd1⟩ := hs.valid_ptr hd
          have hux : Unset h1 x := by
            refine ⟨d1, hd1, ?_⟩
            by_contra hc
            exact hx1 ⟨d1, hd1, hc⟩
          have heq := hs.unset_back hux
          exact hs'.done x hux hx e (.step (heq.trans hd) h0' he hmem (.refl e))
    intro c hc
    exact key hc hset

/-! ### Frame property without any assumption on the heap -/

/-- Same type code and element list. -/
def SameShape (h h' : Heap) : Prop :=
  ∀ b, (h' b).map (fun d => (d.tc, d.elements)) = (h b).map (fun d => (d.tc, d.elements))

structure Agree (h0 h : Heap) : Prop where
  set : ∀ b, ¬ Unset h0 b → h b = h0 b
  shape : SameShape h0 h

theorem Agree.elements {h0 h : Heap} (ha : Agree h0 h) {a : Addr} {d : Desc} (hd : h a = some d) :
    ∃ d0, h0 a = some d0 ∧ d0.tc = d.tc ∧ d0.elements = d.elements := by
  have := ha.shape a
  rw [hd] at this
  cases h1 : h0 a with
  | none => rw [h1] at this; simp at this
  | some d0 =>
    rw [h1] at this
    simp only [Option.map_some, Option.some.injEq, Prod.mk.injEq] at this
    exact ⟨d0, rfl, this.1.symm, this.2.symm⟩

theorem Agree.unset {h0 h : Heap} (ha : Agree h0 h) {a : Addr} (hu : Unset h a) : Unset h0 a := by
  by_contra hc
  obtain ⟨d, hd, hz⟩ := hu
  rw [ha.set a hc] at hd
  exact hc ⟨d, hd, hz⟩

theorem Agree.set_desc {h0 h : Heap} (ha : Agree h0 h) {a : Addr} (hu : Unset h0 a) {d d' : Desc}
    (hd : h a = some d) (htc : d'.tc = d.tc) (hel : d'.elements = d.elements) :
    Agree h0 (h.set a d') where
  set b hb := by
    have : b ≠ a := by rintro rfl; exact hb hu
    exact (Heap.set_other this).trans (ha.set b hb)
  shape b := by
    by_cases hb : b = a
    · subst hb
      rw [← ha.shape, Heap.set_same, hd]
      simp [htc, hel]
    · rw [Heap.set_other hb]; exact ha.shape b

theorem Frame.set_unset {h0 : Heap} {a : Addr} (hu : Unset h0 a) (h : Heap) (d : Desc) :
    Frame h0 a h (h.set a d) := by
  intro b hb
  have : b = a := by
    by_contra hc; exact hb (Heap.set_other hc)
  subst this
  exact ⟨hu, .refl _⟩

theorem get_eq_ok {h : Heap} {a : Addr} {d : Desc} (hg : h.get a = .ok d) : h a = some d := by
  unfold Heap.get at hg
  split at hg
  · rename_i d' hd'
    cases hg; exact hd'
  · cases hg

theorem guardInit_frame {h0 : Heap}
    {init : Heap → Addr → Except Abn (Status × Heap × List Nat)}
    (hinit : ∀ h a st h' offs, Agree h0 h → Unset h0 a → init h a = .ok (st, h', offs) →
      Agree h0 h' ∧ Frame h0 a h h')
    {h : Heap} {a : Addr} {st h'} (ha : Agree h0 h)
    (hres : guardInit (dropOffs init) h a = .ok (st, h')) :
    Agree h0 h' ∧ Frame h0 a h h' := by
  unfold guardInit at hres
  split at hres
  · cases hres
  · rename_i d hd
    split at hres
    · rename_i hz
      unfold dropOffs at hres
      split at hres
      · cases hres
      · rename_i heq
        cases hres
        exact hinit h a _ _ _ ha (ha.unset ⟨d, hd, hz⟩) heq
    · cases hres
      exact ⟨ha, Frame.refl⟩

theorem initLoop_frame {h0 : Heap} {a : Addr} {d0 : Desc} {es0 : List Addr}
    (hd0 : h0 a = some d0) (hs0 : d0.size = 0) (he0 : d0.elements = some es0)
    {init : Heap → Addr → Except Abn (Status × Heap × List Nat)}
    (hinit : ∀ h a st h' offs, Agree h0 h → Unset h0 a → init h a = .ok (st, h', offs) →
      Agree h0 h' ∧ Frame h0 a h h')
    {es : List Addr} (hsub : ∀ e ∈ es, e ∈ es0) {h : Heap} {offs : List Nat} {fin h' offs'}
    (ha : Agree h0 h) (hres : initLoop (dropOffs init) a h es offs = .ok (fin, h', offs')) :
    Agree h0 h' ∧ Frame h0 a h h' := by
  induction es generalizing h offs with
  | nil =>
    rw [initLoop] at hres
    cases hres
    exact ⟨ha, Frame.refl⟩
  | cons e es ih =>
    rw [initLoop] at hres
    cases hg : guardInit (dropOffs init) h e with
    | error x => rw [hg] at hres; cases hres
    | ok v =>
      obtain ⟨st, h1⟩ := v
      rw [hg] at hres
      obtain ⟨ha1, hf1⟩ := guardInit_frame hinit ha hg
      have hf1' : Frame h0 a h h1 := Frame.step hd0 hs0 he0 (hsub e (by simp)) hf1
      simp only [bind, Except.bind] at hres
      split at hres
      · cases hres
        exact ⟨ha1, hf1'⟩
      · cases hge : h1.get e with
        | error x => rw [hge] at hres; cases hres
        | ok de =>
          cases hga : h1.get a with
          | error x => rw [hge, hga] at hres; cases hres
          | ok da =>
            rw [hge, hga] at hres
            simp only at hres
            have hda := get_eq_ok hga
            obtain ⟨ha2, hf2⟩ := ih (fun x hx => hsub x (by simp [hx]))
              (h := h1.set a { da with
                size := (ffiAlign da.size de.align + de.size) % 2 ^ 64,
                align := if da.align > de.align then da.align else de.align })
              (ha1.set_desc ⟨d0, hd0, hs0⟩ hda rfl rfl) hres
            exact ⟨ha2, hf1'.trans ((Frame.set_unset ⟨d0, hd0, hs0⟩ _ _).trans hf2)⟩

theorem initAggOffs_frame {h0 : Heap} (n : Nat) :
    ∀ h a st h' offs, Agree h0 h → Unset h0 a → initAggOffs n h a = .ok (st, h', offs) →
      Agree h0 h' ∧ Frame h0 a h h' := by
  induction n with
  | zero => intro h a st h' offs _ _ hres; rw [initAggOffs] at hres; cases hres
  | succ n ih =>
    intro h a st h' offs ha hu hres
    rw [initAggOffs] at hres
    cases hg : h.get a with
    | error x => rw [hg] at hres; cases hres
    | ok d =>
      rw [hg] at hres
      have hd := get_eq_ok hg
      obtain ⟨d0, hd0, htc, hel⟩ := ha.elements hd
      have hs0 : d0.size = 0 := by
        obtain ⟨d0', hd0', hz⟩ := hu
        rw [hd0] at hd0'; cases hd0'; exact hz
      simp only [bind, Except.bind] at hres
      split at hres
      · cases hres; exact ⟨ha, Frame.refl⟩
      · rename_i es hes
        have ha1 : Agree h0 (h.set a { d with size := 0, align := 0 }) :=
          ha.set_desc hu hd rfl rfl
        have hf1 := Frame.set_unset (h0 := h0) hu h { d with size := 0, align := 0 }
        cases hl : initLoop (dropOffs (initAggOffs n)) a
            (h.set a { d with size := 0, align := 0 }) es [] with
        | error x =>
          rw [hl] at hres; cases hres
        | ok v =>
          obtain ⟨fin, h1, offs1⟩ := v
          obtain ⟨ha2, hf2⟩ := initLoop_frame hd0 hs0 (hel.trans hes) ih (fun x hx => hx) ha1 hl
          rw [hl] at hres
          simp only at hres
          split at hres
          · cases hga : h1.get a with
            | error x => rw [hga] at hres; cases hres
            | ok da =>
              rw [hga] at hres
              simp only at hres
              cases hres
              exact ⟨ha2.set_desc hu (get_eq_ok hga) rfl rfl,
                hf1.trans (hf2.trans (Frame.set_unset hu _ _))⟩
          · cases hres
            exact ⟨ha2, hf1.trans hf2⟩

theorem initIfUnset_frame {h0 h : Heap} {n a st h'} (ha : Agree h0 h)
    (hres : initIfUnset n h a = .ok (st, h')) : Agree h0 h' ∧ Frame h0 a h h' := by
  have : initIfUnset n h a = guardInit (dropOffs (initAggOffs n)) h a := rfl
  rw [this] at hres
  exact guardInit_frame (initAggOffs_frame n) ha hres

/-- Frame for a set of roots. -/
def FrameL (h0 : Heap) (roots : List Addr) (h h' : Heap) : Prop :=
  ∀ b, h' b ≠ h b → Unset h0 b ∧ ∃ t ∈ roots, Visits h0 t b

theorem FrameL.trans {h0 r h h' h''} (h1 : FrameL h0 r h h') (h2 : FrameL h0 r h' h'') :
    FrameL h0 r h h'' := by
  intro b hb
  by_cases hc : h'' b = h' b
  · exact h1 b (by rw [← hc]; exact hb)
  · exact h2 b hc

theorem Frame.toL {h0 a h h'} {r : List Addr} (hf : Frame h0 a h h') (ha : a ∈ r) :
    FrameL h0 r h h' := fun b hb => ⟨(hf b hb).1, a, ha, (hf b hb).2⟩

theorem prepArgs_frame {h0 : Heap} (T : Target) (n : Nat) {roots as : List Addr}
    (hsub : ∀ a ∈ as, a ∈ roots) {h : Heap} {bytes : Nat} {fin h' b'}
    (ha : Agree h0 h) (hres : prepArgs T n h as bytes = .ok (fin, h', b')) :
    Agree h0 h' ∧ FrameL h0 roots h h' := by
  induction as generalizing h bytes with
  | nil =>
    rw [prepArgs] at hres; cases hres
    exact ⟨ha, fun _ hb => absurd rfl hb⟩
  | cons a as ih =>
    rw [prepArgs] at hres
    cases hg : initIfUnset n h a with
    | error x => rw [hg] at hres; cases hres
    | ok v =>
      obtain ⟨st, h1⟩ := v
      rw [hg] at hres
      obtain ⟨ha1, hf1⟩ := initIfUnset_frame ha hg
      have hf1' : FrameL h0 roots h h1 := hf1.toL (hsub a (by simp))
      simp only [bind, Except.bind] at hres
      split at hres
      · cases hres; exact ⟨ha1, hf1'⟩
      · cases hge : h1.get a with
        | error x => rw [hge] at hres; cases hres
        | ok d =>
          rw [hge] at hres
          simp only at hres
          split at hres
          · cases hres
          · obtain ⟨ha2, hf2⟩ := ih (fun x hx => hsub x (by simp [hx])) ha1 hres
            exact ⟨ha2, hf1'.trans hf2⟩

theorem prepCifCore_frame {h0 : Heap} (T : Target) (n : Nat) {cif abi isvar nfixed rtype atypes st h' c'}
    (hres : prepCifCore T n h0 cif abi isvar nfixed rtype atypes = .ok (st, h', c')) :
    Agree h0 h' ∧ FrameL h0 (rtype :: atypes) h0 h' := by
  have ha : Agree h0 h0 := ⟨fun _ _ => rfl, fun _ => rfl⟩
  have hrefl : FrameL h0 (rtype :: atypes) h0 h0 := fun _ hb => absurd rfl hb
  unfold prepCifCore at hres
  split at hres
  · cases hres; exact ⟨ha, hrefl⟩
  · cases hg : initIfUnset n h0 rtype with
    | error x => rw [hg] at hres; cases hres
    | ok v =>
      obtain ⟨st, h1⟩ := v
      rw [hg] at hres
      obtain ⟨ha1, hf1⟩ := initIfUnset_frame ha hg
      have hf1' : FrameL h0 (rtype :: atypes) h0 h1 := hf1.toL (by simp)
      simp only [bind, Except.bind] at hres
      split at hres
      · cases hres; exact ⟨ha1, hf1'⟩
      · cases hge : h1.get rtype with
        | error x => rw [hge] at hres; cases hres
        | ok d =>
          rw [hge] at hres
          simp only at hres
          split at hres
          · cases hres
          · split at hres
            · cases hres
            · rename_i v hpa
              obtain ⟨fin, h2, b2⟩ := v
              obtain ⟨ha2, hf2⟩ := prepArgs_frame T n (roots := rtype :: atypes)
                (fun x hx => by simp [hx]) ha1 hpa
              simp only at hres
              split at hres
              · split at hres
                · cases hres
                · cases hres
                  exact ⟨ha2, hf1'.trans hf2⟩
              · cases hres
                exact ⟨ha2, hf1'.trans hf2⟩

end Verif
