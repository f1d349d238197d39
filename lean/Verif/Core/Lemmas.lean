import Verif.Spec.Layout

namespace Verif
open Spec

/-! ### Least multiples and placements -/

theorem Spec.IsLeastMult.unique {a v m m' : Nat} (h : IsLeastMult a v m) (h' : IsLeastMult a v m') :
    m = m' :=
  Nat.le_antisymm (h.2.2 _ h'.1 h'.2.1) (h'.2.2 _ h.1 h.2.1)

theorem isLeastMult_roundUp {a v : Nat} (ha : 0 < a) : IsLeastMult a v (roundUp v a) :=
  ⟨dvd_roundUp v a, roundUp_ge ha, fun _ hd hm => roundUp_least ha hd hm⟩

theorem isLeastMult_ffiAlign {v k : Nat} (h : v + 2 ^ k < 2 ^ 64) :
    IsLeastMult (2 ^ k) v (ffiAlign v (2 ^ k)) := by
  rw [ffiAlign_eq_roundUp h]
  exact isLeastMult_roundUp (Nat.two_pow_pos k)

theorem Spec.Placed.le {e ms os e'} (h : Placed e ms os e') : e ≤ e' := by
  induction h with
  | nil => exact Nat.le_refl _
  | cons hl _ ih => have := hl.2.1; omega

theorem Spec.Placed.unique {e ms os e' os' e''} (h : Placed e ms os e') (h' : Placed e ms os' e'') :
    os = os' ∧ e' = e'' := by
  induction h generalizing os' e'' with
  | nil => cases h'; exact ⟨rfl, rfl⟩
  | cons hl _ ih =>
    cases h' with
    | cons hl' hp' =>
      obtain rfl := hl.unique hl'
      obtain ⟨rfl, rfl⟩ := ih hp'
      exact ⟨rfl, rfl⟩

theorem Spec.Placed.exists (ms : List (Nat × Nat)) (hp : ∀ m ∈ ms, 0 < m.2) (e : Nat) :
    ∃ os e', Placed e ms os e' := by
  induction ms generalizing e with
  | nil => exact ⟨[], e, .nil e⟩
  | cons m ms ih =>
    obtain ⟨s, a⟩ := m
    have ha : 0 < a := hp (s, a) (by simp)
    obtain ⟨os, e', h⟩ := ih (fun m hm => hp m (by simp [hm])) (roundUp e a + s)
    exact ⟨_, _, .cons (isLeastMult_roundUp ha) h⟩

theorem Spec.IsMaxAlign.unique {ms al al'} (h : IsMaxAlign ms al) (h' : IsMaxAlign ms al') : al = al' := by
  obtain ⟨⟨m, hm, rfl⟩, hle⟩ := h
  obtain ⟨⟨m', hm', rfl⟩, hle'⟩ := h'
  exact Nat.le_antisymm (hle' _ hm) (hle _ hm')

theorem Spec.IsMaxAlign.exists {ms : List (Nat × Nat)} (h : ms ≠ []) : ∃ al, IsMaxAlign ms al := by
  induction ms with
  | nil => exact absurd rfl h
  | cons m ms ih =>
    by_cases hms : ms = []
    · subst hms; exact ⟨m.2, ⟨m, by simp, rfl⟩, by simp⟩
    · obtain ⟨al, ⟨x, hx, hxa⟩, hle⟩ := ih hms
      by_cases hc : m.2 ≤ al
      · exact ⟨al, ⟨x, by simp [hx], hxa⟩, by
          intro y hy
          rcases List.mem_cons.1 hy with rfl | hy
          · exact hc
          · exact hle y hy⟩
      · exact ⟨m.2, ⟨m, by simp, rfl⟩, by
          intro y hy
          rcases List.mem_cons.1 hy with rfl | hy
          · exact Nat.le_refl _
          · have := hle y hy; omega⟩

theorem Spec.StructLayout.unique {ms offs s al offs' s' al'} (h : StructLayout ms offs s al)
    (h' : StructLayout ms offs' s' al') : offs = offs' ∧ s = s' ∧ al = al' := by
  obtain ⟨e, hp, hm, hl⟩ := h
  obtain ⟨e', hp', hm', hl'⟩ := h'
  obtain ⟨rfl, rfl⟩ := hp.unique hp'
  obtain rfl := hm.unique hm'
  exact ⟨rfl, hl.unique hl', rfl⟩

/-! ### Layouts are unique and have power-of-two alignment -/

mutual
theorem Spec.Layout.unique {h : Heap} {a s al s' al'} :
    Layout h a s al → Layout h a s' al' → s = s' ∧ al = al'
  | .preset hd hs, h' => by
    cases h' with
    | preset hd' _ => rw [hd] at hd'; cases hd'; exact ⟨rfl, rfl⟩
    | agg hd' hs' => rw [hd] at hd'; cases hd'; exact absurd hs' hs
  | .agg hd hs he hm hl _, h' => by
    cases h' with
    | preset hd' hs' => rw [hd] at hd'; cases hd'; exact absurd hs hs'
    | agg hd' hs' he' hm' hl' _ =>
      rw [hd] at hd'; cases hd'
      rw [he] at he'; cases he'
      obtain rfl := Members.unique hm hm'
      exact (hl.unique hl').2
theorem Spec.Members.unique {h : Heap} {es ms ms'} : Members h es ms → Members h es ms' → ms = ms'
  | .nil, h' => by cases h'; rfl
  | .cons hl hm, h' => by
    cases h' with
    | cons hl' hm' =>
      obtain ⟨rfl, rfl⟩ := Layout.unique hl hl'
      obtain rfl := Members.unique hm hm'
      rfl
end

mutual
theorem Spec.Layout.pow2 {h : Heap} (hv : Valid h) {a s al} :
    Layout h a s al → ∃ k, k < 16 ∧ al = 2 ^ k
  | .preset hd hs => hv.pow2 _ _ hd hs
  | .agg _ _ _ hm hl _ => by
    obtain ⟨e, _, ⟨⟨m, hmem, rfl⟩, _⟩, _⟩ := hl
    exact Members.pow2 hv hm m hmem
theorem Spec.Members.pow2 {h : Heap} (hv : Valid h) {es ms} :
    Members h es ms → ∀ m ∈ ms, ∃ k, k < 16 ∧ m.2 = 2 ^ k
  | .nil => by simp
  | .cons hl hm => by
    intro m hmem
    rcases List.mem_cons.1 hmem with rfl | hmem
    · exact Layout.pow2 hv hl
    · exact Members.pow2 hv hm m hmem
end

theorem Spec.Layout.size_ne_zero {h : Heap} {a s al} (hl : Layout h a s al) : s ≠ 0 := by
  cases hl <;> assumption

theorem Spec.Layout.size_pos_members {h : Heap} {es ms} (hm : Members h es ms) :
    ∀ m ∈ ms, m.1 ≠ 0 := by
  induction es generalizing ms with
  | nil => cases hm; simp
  | cons e es ih =>
    cases hm with
    | cons hl hm =>
      intro m hmem
      rcases List.mem_cons.1 hmem with rfl | hmem
      · exact hl.size_ne_zero
      · exact ih hm m hmem

theorem Spec.Members.length {h : Heap} {es ms} (hm : Members h es ms) : ms.length = es.length := by
  induction es generalizing ms with
  | nil => cases hm; rfl
  | cons e es ih => cases hm with | cons _ hm => simp [ih hm]

/-- Members exist exactly when every element has a layout. -/
theorem members_iff {h : Heap} {es : List Addr} :
    (∃ ms, Members h es ms) ↔ ∀ e ∈ es, HasLayout h e := by
  induction es with
  | nil => simp; exact ⟨[], .nil⟩
  | cons e es ih =>
    constructor
    · rintro ⟨ms, hm⟩ x hx
      cases hm with
      | cons hl hm =>
        rcases List.mem_cons.1 hx with rfl | hx
        · exact ⟨_, _, hl⟩
        · exact ih.1 ⟨_, hm⟩ x hx
    · intro hall
      obtain ⟨s, al, hl⟩ := hall e (by simp)
      obtain ⟨ms, hm⟩ := ih.2 (fun x hx => hall x (by simp [hx]))
      exact ⟨_, .cons hl hm⟩

/-- Characterisation of layout for an unset aggregate. -/
theorem hasLayout_agg_iff {h : Heap} (hv : Valid h) {a d es} (hd : h a = some d) (hs : d.size = 0)
    (he : d.elements = some es) : HasLayout h a ↔ es ≠ [] ∧ ∀ e ∈ es, HasLayout h e := by
  constructor
  · rintro ⟨s, al, hl⟩
    cases hl with
    | preset hd' hs' => rw [hd] at hd'; cases hd'; exact absurd hs hs'
    | agg hd' hs' he' hm hl hne =>
      rw [hd] at hd'; cases hd'; rw [he] at he'; cases he'
      refine ⟨?_, members_iff.1 ⟨_, hm⟩⟩
      rintro rfl
      cases hm
      obtain ⟨e, _, ⟨⟨m, hmem, _⟩, _⟩, _⟩ := hl
      simp at hmem
  · rintro ⟨hne, hall⟩
    obtain ⟨ms, hm⟩ := members_iff.2 hall
    have hms : ms ≠ [] := by
      intro hc; subst hc; have := hm.length; simp at this; exact hne (List.length_eq_zero_iff.1 this.symm)
    obtain ⟨al, hal⟩ := IsMaxAlign.exists hms
    have hpos : ∀ m ∈ ms, 0 < m.2 := by
      intro m hmem
      obtain ⟨k, _, hk⟩ := hm.pow2 hv m hmem
      rw [hk]; exact Nat.two_pow_pos k
    obtain ⟨os, e, hp⟩ := Placed.exists ms hpos 0
    have halp : 0 < al := by
      obtain ⟨⟨m, hmem, rfl⟩, _⟩ := hal
      exact hpos m hmem
    refine ⟨roundUp e al, al, .agg hd hs he hm ⟨e, hp, hal, isLeastMult_roundUp halp⟩ ?_⟩
    have he0 : 0 < e := by
      cases ms with
      | nil => exact absurd rfl hms
      | cons m ms =>
        have := Layout.size_pos_members hm m (by simp)
        cases hp with
        | cons hl hp => have := hp.le; simp at this ⊢; omega
    have := roundUp_ge (v := e) halp
    omega

theorem hasLayout_noElements {h : Heap} {a d} (hd : h a = some d) (hs : d.size = 0)
    (he : d.elements = none) : ¬ HasLayout h a := by
  rintro ⟨s, al, hl⟩
  cases hl with
  | preset hd' hs' => rw [hd] at hd'; cases hd'; exact hs' hs
  | agg hd' _ he' => rw [hd] at hd'; cases hd'; rw [he] at he'; cases he'

/-! ### Correctness of `initialize_aggregate` -/

@[simp] theorem Heap.set_same (h : Heap) (a : Addr) (d : Desc) : (h.set a d) a = some d := by
  simp [Heap.set]

theorem Heap.set_other {h : Heap} {a b : Addr} {d : Desc} (hb : b ≠ a) : (h.set a d) b = h b := by
  simp [Heap.set, hb]

theorem Heap.get_ok {h : Heap} {a : Addr} {d : Desc} (hd : h a = some d) : h.get a = .ok d := by
  simp [Heap.get, hd]

/-- State of descriptor `b` relative to the initial heap: untouched or laid out. -/
def GoodAt (h0 h : Heap) (b : Addr) : Prop :=
  h b = h0 b ∨ ∃ d s al, h0 b = some d ∧ d.size = 0 ∧ Layout h0 b s al ∧
    h b = some { d with size := s, align := al }

/-- Descriptor `b` has its size set. -/
def IsSet (h : Heap) (b : Addr) : Prop := ∃ d, h b = some d ∧ d.size ≠ 0

/-- Everything visited when laying out `a` is set. -/
def Closed (h0 h : Heap) (a : Addr) : Prop := ∀ c, Visits h0 a c → IsSet h c

/-- Set descriptors other than `a` do not change. -/
def Mono (a : Addr) (h h' : Heap) : Prop := ∀ b, b ≠ a → IsSet h b → h' b = h b

theorem IsSet.of_eq {h h' : Heap} {b : Addr} (hs : IsSet h b) (he : h' b = h b) : IsSet h' b := by
  obtain ⟨d, hd, hn⟩ := hs
  exact ⟨d, he.trans hd, hn⟩

/-- Invariant: unset descriptors of rank below `r` are untouched or laid out, and
descriptors that were set are untouched. -/
structure Inv (rk : Addr → Nat) (r : Nat) (h0 h : Heap) : Prop where
  low : ∀ b, Unset h0 b → rk b < r → GoodAt h0 h b
  set : ∀ b, ¬ Unset h0 b → h b = h0 b
  done : ∀ b, Unset h0 b → rk b < r → IsSet h b → Closed h0 h b

/-- Only unset descriptors visited from `a` change. -/
def Frame (h0 : Heap) (a : Addr) (h h' : Heap) : Prop :=
  ∀ b, h' b ≠ h b → Unset h0 b ∧ Visits h0 a b

theorem visits_rank {h0 : Heap} {rk : Addr → Nat}
    (hrk : ∀ a d es, h0 a = some d → d.size = 0 → d.elements = some es →
      ∀ e ∈ es, Unset h0 e → rk e < rk a) {a b : Addr} (hv : Visits h0 a b) (hb : Unset h0 b) :
    b = a ∨ rk b < rk a := by
  induction hv with
  | refl => exact .inl rfl
  | @step a d es e b hd hs he hmem hvis ih =>
    right
    have hue : Unset h0 e := by
      cases hvis with
      | refl => exact hb
      | step hd' hs' => exact ⟨_, hd', hs'⟩
    have h1 := hrk a d es hd hs he e hmem hue
    rcases ih hb with rfl | h2
    · exact h1
    · exact Nat.lt_trans h2 h1

theorem GoodAt.layout {h0 h : Heap} {b : Addr} (hg : GoodAt h0 h b) {d : Desc} (hd : h b = some d)
    (hs : d.size ≠ 0) : Layout h0 b d.size d.align := by
  rcases hg with hg | ⟨d', s, al, hd', _, hl, hh⟩
  · rw [hg] at hd; exact .preset hd hs
  · rw [hh] at hd; cases hd; exact hl

theorem Inv.goodAt_of_lt {rk r h0 h} (hi : Inv rk r h0 h) {e : Addr} (he : Unset h0 e → rk e < r) :
    GoodAt h0 h e := by
  by_cases hu : Unset h0 e
  · exact hi.low e hu (he hu)
  · exact .inl (hi.set e hu)

/-- What a (recursive) run of `initialize_aggregate` on an unset `a` guarantees. -/
def InitSpec (rk : Addr → Nat) (h0 h : Heap) (a : Addr)
    (res : Except Abn (Status × Heap × List Nat)) : Prop :=
  ∃ st h' offs, res = .ok (st, h', offs) ∧ Frame h0 a h h' ∧ Mono a h h' ∧
    ((∃ d es ms s al, h0 a = some d ∧ d.elements = some es ∧ Members h0 es ms ∧
        StructLayout ms offs s al ∧ Layout h0 a s al ∧ st = .ok ∧ Inv rk (rk a) h0 h' ∧
        Closed h0 h' a ∧ h' a = some { d with size := s, align := al })
      ∨ (¬ HasLayout h0 a ∧ st = .badTypedef))

theorem Inv.frame {rk r h0 h h' e} (hi : Inv rk r h0 h)
    (hrk : ∀ a d es, h0 a = some d → d.size = 0 → d.elements = some es →
      ∀ e ∈ es, Unset h0 e → rk e < rk a)
    (hf : Frame h0 e h h') (hmono : ∀ b, IsSet h b → h' b = h b)
    (hlow : Inv rk (rk e) h0 h') (hge : GoodAt h0 h' e) (hcl : Closed h0 h' e) :
    Inv rk r h0 h' where
  low b hb hr := by
    by_cases hbe : b = e
    · subst hbe; exact hge
    · by_cases hlt : rk b < rk e
      · exact hlow.low b hb hlt
      · have : h' b = h b := by
          by_contra hc
          obtain ⟨hu, hv⟩ := hf b hc
          rcases visits_rank hrk hv hu with h1 | h1
          · exact hbe h1
          · exact hlt h1
        rcases hi.low b hb hr with h1 | ⟨d, s, al, h1, h2, h3, h4⟩
        · exact .inl (this.trans h1)
        · exact .inr ⟨d, s, al, h1, h2, h3, this.trans h4⟩
  set b hb := hlow.set b hb
  done b hb hr hs := by
    by_cases hbe : b = e
    · subst hbe; exact hcl
    · by_cases hlt : rk b < rk e
      · exact hlow.done b hb hlt hs
      · have : h' b = h b := by
          by_contra hc
          obtain ⟨hu, hv⟩ := hf b hc
          rcases visits_rank hrk hv hu with h1 | h1
          · exact hbe h1
          · exact hlt h1
        intro c hc
        have h1 := hi.done b hb hr (hs.of_eq this.symm) c hc
        exact h1.of_eq (hmono c h1)

theorem Frame.trans {h0 a h h' h''} (h1 : Frame h0 a h h') (h2 : Frame h0 a h' h'') :
    Frame h0 a h h'' := by
  intro b hb
  by_cases hc : h'' b = h' b
  · exact h1 b (by rw [← hc]; exact hb)
  · exact h2 b hc

theorem Frame.refl {h0 a h} : Frame h0 a h h := fun _ hb => absurd rfl hb

theorem Frame.step {h0 : Heap} {a d es e h h'} (hd : h0 a = some d) (hs : d.size = 0)
    (he : d.elements = some es) (hmem : e ∈ es) (hf : Frame h0 e h h') : Frame h0 a h h' := by
  intro b hb
  obtain ⟨hu, hv⟩ := hf b hb
  exact ⟨hu, .step hd hs he hmem hv⟩

section
set_option linter.unusedSectionVars false
variable {h0 : Heap} {rk : Addr → Nat} (hv : Valid h0)
  (hrk : ∀ a d es, h0 a = some d → d.size = 0 → d.elements = some es →
      ∀ e ∈ es, Unset h0 e → rk e < rk a)
  {a : Addr} {d0 : Desc} {es0 : List Addr}
  (hd0 : h0 a = some d0) (hs0 : d0.size = 0) (he0 : d0.elements = some es0)
  {init : Heap → Addr → Except Abn (Status × Heap × List Nat)}
  (hinit : ∀ e ∈ es0, Unset h0 e → ∀ h, Inv rk (rk e) h0 h → h e = h0 e →
    InitSpec rk h0 h e (init h e))
include hv hrk hd0 hs0 he0 hinit

/-- The first two lines of the loop body on an element of the aggregate. -/
theorem initElem_spec {e : Addr} (hmem : e ∈ es0) {h : Heap} (hi : Inv rk (rk a) h0 h) :
    ∃ st h', guardInit (dropOffs init) h e = .ok (st, h') ∧ Frame h0 e h h' ∧
      (∀ b, IsSet h b → h' b = h b) ∧
      ((∃ s al d', Layout h0 e s al ∧ st = .ok ∧ Inv rk (rk a) h0 h' ∧ Closed h0 h' e ∧
          h' e = some d' ∧
          d'.size = s ∧ d'.align = al) ∨ (¬ HasLayout h0 e ∧ st = .badTypedef)) := by
  have hlt : Unset h0 e → rk e < rk a := hrk a d0 es0 hd0 hs0 he0 e hmem
  have hg := hi.goodAt_of_lt hlt
  obtain ⟨d', hd'⟩ := hv.ptrs a d0 es0 hd0 hs0 he0 e hmem
  by_cases hu : Unset h0 e
  · obtain ⟨du, hdu, hdus⟩ := hu
    rcases hg with hg | ⟨d, s, al, h1, h2, h3, h4⟩
    · -- untouched: recursive call
      have hspec := hinit e hmem ⟨du, hdu, hdus⟩ h
        ⟨fun b hb hr => hi.low b hb (Nat.lt_trans hr (hlt ⟨du, hdu, hdus⟩)), hi.set,
          fun b hb hr => hi.done b hb (Nat.lt_trans hr (hlt ⟨du, hdu, hdus⟩))⟩ hg
      obtain ⟨st, h', offs, hres, hf, hmono, hcase⟩ := hspec
      have hmono' : ∀ b, IsSet h b → h' b = h b := by
        intro b hb
        by_cases hbe : b = e
        · subst hbe
          obtain ⟨d, hd, hn⟩ := hb
          rw [hg, hdu] at hd; cases hd
          exact absurd hdus hn
        · exact hmono b hbe hb
      refine ⟨st, h', ?_, hf, hmono', ?_⟩
      · simp [guardInit, hg.trans hdu, hdus, dropOffs, hres]
      · rcases hcase with ⟨d, es, ms, s, al, hd, he, hm, hsl, hl, hst, hinv, hcl, hh⟩ | hbad
        · left
          refine ⟨s, al, _, hl, hst, ?_, hcl, hh, rfl, rfl⟩
          refine hi.frame hrk hf hmono' hinv (.inr ⟨d, s, al, hd, ?_, hl, hh⟩) hcl
          rw [hdu] at hd; cases hd; exact hdus
        · exact .inr hbad
    · -- already laid out earlier
      refine ⟨.ok, h, ?_, Frame.refl, fun _ _ => rfl, .inl ⟨s, al, _, h3, rfl, hi,
        hi.done e ⟨du, hdu, hdus⟩ (hlt ⟨du, hdu, hdus⟩) ⟨_, h4, h3.size_ne_zero⟩, h4, rfl, rfl⟩⟩
      simp [guardInit, h4, h3.size_ne_zero]
  · have hg' := hi.set e hu
    have hne : d'.size ≠ 0 := fun hc => hu ⟨d', hd', hc⟩
    refine ⟨.ok, h, ?_, Frame.refl, fun _ _ => rfl,
      .inl ⟨_, _, d', .preset hd' hne, rfl, hi, ?_, hg'.trans hd', rfl, rfl⟩⟩
    swap
    · intro c hc
      cases hc with
      | refl => exact ⟨d', hg'.trans hd', hne⟩
      | step hd'' hs'' => exact absurd ⟨_, hd'', hs''⟩ hu
    simp [guardInit, hg'.trans hd', hne]

theorem Inv.set_self {h : Heap} (hi : Inv rk (rk a) h0 h) (d : Desc) :
    Inv rk (rk a) h0 (h.set a d) where
  low b hb hr := by
    have hne : b ≠ a := by rintro rfl; exact Nat.lt_irrefl _ hr
    rcases hi.low b hb hr with h1 | ⟨d, s, al, h1, h2, h3, h4⟩
    · exact .inl ((Heap.set_other hne).trans h1)
    · exact .inr ⟨d, s, al, h1, h2, h3, (Heap.set_other hne).trans h4⟩
  set b hb := by
    have hne : b ≠ a := by rintro rfl; exact hb ⟨d0, hd0, hs0⟩
    exact (Heap.set_other hne).trans (hi.set b hb)
  done b hb hr hs := by
    have hne : b ≠ a := by rintro rfl; exact Nat.lt_irrefl _ hr
    intro c hc
    have h1 := hi.done b hb hr (hs.of_eq (Heap.set_other hne).symm) c hc
    have hca : c ≠ a := by
      rintro rfl
      rcases visits_rank hrk hc ⟨d0, hd0, hs0⟩ with h2 | h2
      · exact hne h2.symm
      · omega
    exact h1.of_eq (Heap.set_other hca)

theorem Frame.set_self (h : Heap) (d : Desc) : Frame h0 a h (h.set a d) := by
  intro b hb
  have : b = a := by
    by_contra hc; exact hb (Heap.set_other hc)
  subst this
  exact ⟨⟨d0, hd0, hs0⟩, .refl _⟩

/-- After the element was handled, the descriptor of `a` itself is unchanged. -/
theorem frame_elem_self {e : Addr} (hmem : e ∈ es0) {h h' : Heap} (hf : Frame h0 e h h') :
    h' a = h a := by
  by_contra hc
  obtain ⟨hu, hvis⟩ := hf a hc
  have hue : Unset h0 e := by
    cases hvis with
    | refl => exact hu
    | step hd' hs' => exact ⟨_, hd', hs'⟩
  have h1 := hrk a d0 es0 hd0 hs0 he0 e hmem hue
  rcases visits_rank hrk hvis hu with h2 | h2
  · subst h2; exact Nat.lt_irrefl _ h1
  · omega

theorem visits_elem_ne {e c : Addr} (hmem : e ∈ es0) (hc : Visits h0 e c) : c ≠ a := by
  rintro rfl
  have hue : Unset h0 e := by
    cases hc with
    | refl => exact ⟨_, hd0, hs0⟩
    | step hd' hs' => exact ⟨_, hd', hs'⟩
  have h1 := hrk _ d0 es0 hd0 hs0 he0 e hmem hue
  rcases visits_rank hrk hc ⟨_, hd0, hs0⟩ with h2 | h2
  · subst h2; exact Nat.lt_irrefl _ h1
  · omega

theorem Mono.set_self (h : Heap) (d : Desc) : Mono a h (h.set a d) :=
  fun _ hb _ => Heap.set_other hb

omit hv hrk hd0 hs0 he0 hinit in
theorem Mono.trans {h h' h'' : Heap} (h1 : Mono a h h') (h2 : Mono a h' h'') : Mono a h h'' := by
  intro b hb hs
  have e1 := h1 b hb hs
  exact (h2 b hb (hs.of_eq e1)).trans e1

/-- The loop succeeds when all remaining elements have a layout. -/
theorem initLoop_ok {es : List Addr} (hsub : ∀ e ∈ es, e ∈ es0) {ms offs e0 e1}
    (hm : Members h0 es ms) (hp : Placed e0 ms offs e1) (hfit : e1 < 2 ^ 63)
    {h : Heap} (hi : Inv rk (rk a) h0 h) {da : Desc} (hda : h a = some da) (hsz : da.size = e0)
    (offs0 : List Nat) :
    ∃ h', initLoop (dropOffs init) a h es offs0
        = .ok (true, h', offs0 ++ offs) ∧ Frame h0 a h h' ∧ Mono a h h' ∧ Inv rk (rk a) h0 h' ∧
      (∀ e ∈ es, Closed h0 h' e) ∧
      h' a = some { da with size := e1, align := ms.foldl (fun x m => max x m.2) da.align } := by
  induction es generalizing ms offs e0 h da offs0 with
  | nil =>
    cases hm; cases hp
    refine ⟨h, ?_, Frame.refl, fun _ _ _ => rfl, hi, by simp, ?_⟩
    · simp [initLoop]
    · rw [hda]; cases da; simp_all
  | cons e es ih =>
    cases hm with
    | @cons _ _ s al ms hl hm =>
    cases hp with
    | @cons _ o _ _ _ os _ hlm hp =>
    obtain ⟨st, h', hif, hf, hmono, hcase⟩ :=
      initElem_spec hv hrk hd0 hs0 he0 hinit (hsub e (by simp)) hi
    rcases hcase with ⟨s', al', d', hl', hst, hinv, hcl, hde, hds, hdal⟩ | ⟨hno, _⟩
    · obtain ⟨rfl, rfl⟩ := hl.unique hl'
      have hself : h' a = some da :=
        (frame_elem_self hv hrk hd0 hs0 he0 hinit (hsub e (by simp)) hf).trans hda
      have hpow := hl.pow2 hv
      obtain ⟨k, hk, hk'⟩ := hpow
      have hple := hp.le
      have hk2 : (2 : Nat) ^ k < 2 ^ 16 := Nat.pow_lt_pow_right (by decide) hk
      have he0o := hlm.2.1
      have hoff : ffiAlign e0 al = o := by
        subst hk'
        exact (isLeastMult_ffiAlign (by omega)).unique hlm
      have hmod : (o + s) % 2 ^ 64 = o + s := Nat.mod_eq_of_lt (by omega)
      let h1 := h'.set a { da with
          size := o + s, align := if da.align > al then da.align else al }
      have hi1 : Inv rk (rk a) h0 h1 := Inv.set_self hv hrk hd0 hs0 he0 hinit hinv _
      obtain ⟨h2, hr2, hf2, hmono2, hi2, hcl2, hh2⟩ := ih (fun x hx => hsub x (by simp [hx])) hm hp hi1
        (Heap.set_same _ _ _) rfl (offs0 ++ [o])
      have hm1 : Mono a h' h1 := Mono.set_self hv hrk hd0 hs0 he0 hinit h' _
      refine ⟨h2, ?_, ?_, ?_, hi2, ?_, ?_⟩
      · have e1 : initLoop (dropOffs init) a h (e :: es) offs0
            = initLoop (dropOffs init) a h1 es (offs0 ++ [o]) := by
          rw [initLoop, hif]
          simp only [bind, Except.bind]
          simp only [hst, ne_eq, not_true_eq_false, if_false, Heap.get_ok hde, Heap.get_ok hself,
            hsz, hdal, hds, hoff, hmod]
          rfl
        rw [e1, hr2]
        simp
      · exact (Frame.step hd0 hs0 he0 (hsub e (by simp)) hf).trans
          ((Frame.set_self hv hrk hd0 hs0 he0 hinit h' _).trans hf2)
      · exact Mono.trans (fun b _ hb => hmono b hb) (Mono.trans hm1 hmono2)
      · intro x hx
        rcases List.mem_cons.1 hx with rfl | hx
        · intro c hc
          have hca := visits_elem_ne hv hrk hd0 hs0 he0 hinit (hsub x (by simp)) hc
          have h3 := hcl c hc
          exact h3.of_eq ((Mono.trans hm1 hmono2) c hca h3)
        · exact hcl2 x hx
      · rw [hh2]
        simp only [List.foldl_cons]
        congr 3
        rw [Nat.max_def]
        split <;> split <;> omega
    · exact absurd ⟨_, _, hl⟩ hno

/-- The loop fails when some remaining element has no layout. -/
theorem initLoop_bad {es : List Addr} (hsub : ∀ e ∈ es, e ∈ es0)
    (hno : ¬ ∀ e ∈ es, HasLayout h0 e)
    {h : Heap} (hi : Inv rk (rk a) h0 h) {da : Desc} (hda : h a = some da)
    (offs0 : List Nat) :
    ∃ h' offs, initLoop (dropOffs init) a h es offs0
        = .ok (false, h', offs) ∧ Frame h0 a h h' ∧ Mono a h h' := by
  induction es generalizing h da offs0 with
  | nil => exact absurd (by simp) hno
  | cons e es ih =>
    obtain ⟨st, h', hif, hf, hmono, hcase⟩ :=
      initElem_spec hv hrk hd0 hs0 he0 hinit (hsub e (by simp)) hi
    rcases hcase with ⟨s', al', d', hl', hst, hinv, hcl, hde, hds, hdal⟩ | ⟨hne, hst⟩
    · have hself : h' a = some da :=
        (frame_elem_self hv hrk hd0 hs0 he0 hinit (hsub e (by simp)) hf).trans hda
      let h1 := h'.set a { da with
          size := (ffiAlign da.size al' + s') % 2 ^ 64,
          align := if da.align > al' then da.align else al' }
      have hi1 : Inv rk (rk a) h0 h1 := Inv.set_self hv hrk hd0 hs0 he0 hinit hinv _
      obtain ⟨h2, offs, hr2, hf2, hmono2⟩ := ih (fun x hx => hsub x (by simp [hx]))
        (by
          intro hall
          apply hno
          intro x hx
          rcases List.mem_cons.1 hx with rfl | hx
          · exact ⟨_, _, hl'⟩
          · exact hall x hx) hi1
        (Heap.set_same _ _ _) (offs0 ++ [ffiAlign da.size al'])
      refine ⟨h2, offs, ?_, ?_, Mono.trans (fun b _ hb => hmono b hb)
        (Mono.trans (Mono.set_self hv hrk hd0 hs0 he0 hinit h' _) hmono2)⟩
      · rw [initLoop, hif]
        simp only [bind, Except.bind]
        simp only [hst, ne_eq, not_true_eq_false, if_false, Heap.get_ok hde, Heap.get_ok hself,
            hdal, hds]
        exact hr2
      · exact (Frame.step hd0 hs0 he0 (hsub e (by simp)) hf).trans
          ((Frame.set_self hv hrk hd0 hs0 he0 hinit h' _).trans hf2)
    · refine ⟨h', offs0, ?_, Frame.step hd0 hs0 he0 (hsub e (by simp)) hf,
        fun b _ hb => hmono b hb⟩
      rw [initLoop, hif]
      simp [bind, Except.bind, hst]

end

theorem foldl_max_isMax {ms : List (Nat × Nat)} (hne : ms ≠ []) :
    IsMaxAlign ms (ms.foldl (fun x m => max x m.2) 0) := by
  have gen : ∀ (ms : List (Nat × Nat)) (x : Nat),
      (x ≤ ms.foldl (fun x m => max x m.2) x) ∧
      (∀ m ∈ ms, m.2 ≤ ms.foldl (fun x m => max x m.2) x) ∧
      (ms.foldl (fun x m => max x m.2) x = x ∨
        ∃ m ∈ ms, m.2 = ms.foldl (fun x m => max x m.2) x) := by
    intro ms
    induction ms with
    | nil => intro x; simp
    | cons m ms ih =>
      intro x
      obtain ⟨h1, h2, h3⟩ := ih (max x m.2)
      simp only [List.foldl_cons]
      refine ⟨by omega, ?_, ?_⟩
      · intro y hy
        rcases List.mem_cons.1 hy with rfl | hy
        · omega
        · exact h2 y hy
      · rcases h3 with h3 | ⟨y, hy, h3⟩
        · rw [h3]
          by_cases hc : m.2 ≤ x
          · left; omega
          · right; exact ⟨m, by simp, by omega⟩
        · right; exact ⟨y, by simp [hy], h3⟩
  obtain ⟨_, h2, h3⟩ := gen ms 0
  refine ⟨?_, h2⟩
  rcases h3 with h3 | h3
  · cases ms with
    | nil => exact absurd rfl hne
    | cons m ms =>
      have := h2 m (by simp)
      exact ⟨m, by simp, by omega⟩
  · exact h3

/-- Main lemma: with fuel above the rank, `initialize_aggregate` on an unset,
untouched aggregate either lays it out or fails because it has no layout. -/
theorem initAggOffs_spec {h0 : Heap} {rk : Addr → Nat} (hv : Valid h0)
    (hrk : ∀ a d es, h0 a = some d → d.size = 0 → d.elements = some es →
      ∀ e ∈ es, Unset h0 e → rk e < rk a) (n : Nat) :
    ∀ a, rk a < n → Unset h0 a → ∀ h da, Inv rk (rk a) h0 h → h a = some da →
      da.elements = (h0 a).bind (·.elements) → da.tc = ((h0 a).map (·.tc)).getD .void →
      InitSpec rk h0 h a (initAggOffs n h a) := by
  induction n with
  | zero => intro a hlt; omega
  | succ n ih =>
    intro a hlt hu h da hi hda hel htc
    obtain ⟨d, hd, hs⟩ := hu
    rw [hd] at hel htc
    simp only [Option.bind_some, Option.map_some, Option.getD_some] at hel htc
    cases hes : d.elements with
    | none =>
      refine ⟨.badTypedef, h, [], ?_, Frame.refl, fun _ _ _ => rfl, .inr ⟨hasLayout_noElements hd hs hes, rfl⟩⟩
      rw [initAggOffs, Heap.get_ok hda]
      simp [bind, Except.bind, hel, hes]
    | some es =>
      have hinit : ∀ e ∈ es, Unset h0 e → ∀ h, Inv rk (rk e) h0 h → h e = h0 e →
          InitSpec rk h0 h e (initAggOffs n h e) := by
        intro e hmem hue h' hi' hh'
        obtain ⟨de, hde, hdes⟩ := hue
        have hlt' := hrk a d es hd hs hes e hmem ⟨de, hde, hdes⟩
        exact ih e (by omega) ⟨de, hde, hdes⟩ h' de hi' (hh'.trans hde)
          (by simp [hde]) (by simp [hde])
      let h1 := h.set a { da with size := 0, align := 0 }
      have hi1 : Inv rk (rk a) h0 h1 := Inv.set_self hv hrk hd hs hes hinit hi _
      have hf1 : Frame h0 a h h1 := Frame.set_self hv hrk hd hs hes hinit h _
      have hm1 : Mono a h h1 := Mono.set_self hv hrk hd hs hes hinit h _
      have hda1 : h1 a = some { da with size := 0, align := 0 } := Heap.set_same _ _ _
      have unf : initAggOffs (n + 1) h a = (do
          let (fin, h, offs) ← initLoop
            (dropOffs (initAggOffs n)) a h1 es []
          if fin then do
            let d ← h.get a
            let sz := ffiAlign d.size d.align
            let h := h.set a { d with size := sz }
            .ok (if sz = 0 then .badTypedef else .ok, h, offs)
          else .ok (.badTypedef, h, offs)) := by
        rw [initAggOffs, Heap.get_ok hda]
        have hel' : da.elements = some es := hel.trans hes
        simp only [bind, Except.bind, hel', h1]
      by_cases hall : ∀ e ∈ es, HasLayout h0 e
      · obtain ⟨ms, hm⟩ := members_iff.2 hall
        by_cases hne : es = []
        · -- no members
          subst hne
          refine ⟨.badTypedef, h1.set a { da with size := ffiAlign 0 0, align := 0 }, [], ?_, ?_,
            hm1.trans (Mono.set_self hv hrk hd hs hes hinit h1 _),
            .inr ⟨fun hl => ((hasLayout_agg_iff hv hd hs hes).1 hl).1 rfl, rfl⟩⟩
          · rw [unf]
            simp only [initLoop, bind, Except.bind, if_true, Heap.get_ok hda1]
            have : ffiAlign 0 0 = 0 := by decide
            simp [this]
          · exact hf1.trans (Frame.set_self hv hrk hd hs hes hinit h1 _)
        · obtain ⟨s, al, hl⟩ := (hasLayout_agg_iff hv hd hs hes).2 ⟨hne, hall⟩
          cases hl with
          | preset hd' hs' => rw [hd] at hd'; cases hd'; exact absurd hs hs'
          | @agg _ d' es' ms' offs _ _ hd' hs' he' hm' hsl hne' =>
            have hd'' := hd'
            rw [hd] at hd''; cases hd''
            have he'' := he'
            rw [hes] at he''; cases he''
            obtain rfl := hm.unique hm'
            have hl : Layout h0 a s al := .agg hd' hs' he' hm' hsl hne'
            have hfit := hv.fits a s al hl
            obtain ⟨e, hp, hmax, hlm⟩ := hsl
            have hes2 := hlm.2.1
            obtain ⟨h2, hr2, hf2, hmono2, hi2, hcl2, hh2⟩ := initLoop_ok hv hrk hd hs hes hinit
              (fun x hx => hx) hm hp (by omega) hi1 hda1 rfl []
            have hmsne : ms ≠ [] := by
              rintro rfl
              have := hm.length
              simp at this
              exact hne (List.length_eq_zero_iff.1 this.symm)
            have hfold : ms.foldl (fun x m => max x m.2) 0 = al :=
              (foldl_max_isMax hmsne).unique hmax
            simp only [hfold] at hh2
            obtain ⟨k, hk, hk'⟩ := hl.pow2 hv
            have hk2 : (2 : Nat) ^ k < 2 ^ 16 := Nat.pow_lt_pow_right (by decide) hk
            have hsz : ffiAlign e al = s := by
              subst hk'
              exact (isLeastMult_ffiAlign (by omega)).unique hlm
            refine ⟨.ok, h2.set a { da with size := s, align := al }, offs, ?_, ?_,
              (hm1.trans hmono2).trans (Mono.set_self hv hrk hd hs hes hinit h2 _), .inl ?_⟩
            · rw [unf, hr2]
              simp only [bind, Except.bind, if_true, Heap.get_ok hh2, hsz, hne', if_false,
                List.nil_append]
            · exact hf1.trans (hf2.trans (Frame.set_self hv hrk hd hs hes hinit h2 _))
            · refine ⟨d, es, ms, s, al, hd, hes, hm, ⟨e, hp, hmax, hlm⟩, hl, rfl,
                Inv.set_self hv hrk hd hs hes hinit hi2 _, ?_, ?_⟩
              · intro c hc
                cases hc with
                | refl => exact ⟨_, Heap.set_same _ _ _, hne'⟩
                | step hd3 hs3 he3 hmem3 hv3 =>
                  rw [hd] at hd3; cases hd3
                  rw [hes] at he3; cases he3
                  have hca := visits_elem_ne hv hrk hd hs hes hinit hmem3 hv3
                  exact (hcl2 _ hmem3 c hv3).of_eq (Heap.set_other hca)
              · rw [Heap.set_same]
                cases da; cases d; simp_all
      · obtain ⟨h2, offs, hr2, hf2, hmono2⟩ := initLoop_bad hv hrk hd hs hes hinit
          (fun x hx => hx) hall hi1 hda1 []
        refine ⟨.badTypedef, h2, offs, ?_, hf1.trans hf2, hm1.trans hmono2,
          .inr ⟨fun hl => hall ((hasLayout_agg_iff hv hd hs hes).1 hl).2, rfl⟩⟩
        rw [unf, hr2]
        simp [bind, Except.bind]

end Verif
