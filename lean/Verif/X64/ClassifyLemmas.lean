import Verif.X64.Model
import Verif.Spec.X64
import Verif.Spec.TypeLemmas

namespace Verif.X64
open Verif Spec Spec.X64

/-- How the class of an eightbyte relates to the components touching it. -/
structure Match (L : List Leaf) (i : Nat) (c : Cls) : Prop where
  no : c = .no ↔ ¬ ∃ l ∈ L, touches l i
  int : (c = .integer ∨ c = .integersi) ↔ ∃ l ∈ L, isInt l = true ∧ touches l i
  sf : c = .ssesf → ∀ l ∈ L, touches l i → l.off = 8 * i ∧ l.size = 4
  full : (c = .sse ∨ c = .ssedf) → ∃ l ∈ L, touches l i ∧ 8 * i + 8 ≤ l.off + l.size
  rng : c = .no ∨ c = .integer ∨ c = .integersi ∨ c = .sse ∨ c = .ssesf ∨ c = .ssedf

theorem Match.merge {L L1 L2 : List Leaf} (hL : ∀ l, l ∈ L ↔ l ∈ L1 ∨ l ∈ L2) {i c1 c2}
    (h1 : Match L1 i c1) (h2 : Match L2 i c2) : Match L i (merge c1 c2) := by
  have hex : ∀ P : Leaf → Prop, (∃ l ∈ L, P l) ↔ (∃ l ∈ L1, P l) ∨ (∃ l ∈ L2, P l) := by
    intro P
    constructor
    · rintro ⟨l, hl, hp⟩
      rcases (hL l).1 hl with h | h
      · exact .inl ⟨l, h, hp⟩
      · exact .inr ⟨l, h, hp⟩
    · rintro (⟨l, hl, hp⟩ | ⟨l, hl, hp⟩)
      · exact ⟨l, (hL l).2 (.inl hl), hp⟩
      · exact ⟨l, (hL l).2 (.inr hl), hp⟩
  have hall : ∀ P : Leaf → Prop, (∀ l ∈ L, P l) ↔ (∀ l ∈ L1, P l) ∧ (∀ l ∈ L2, P l) := by
    intro P
    constructor
    · intro h
      exact ⟨fun l hl => h l ((hL l).2 (.inl hl)), fun l hl => h l ((hL l).2 (.inr hl))⟩
    · rintro ⟨ha, hb⟩ l hl
      rcases (hL l).1 hl with h | h
      · exact ha l h
      · exact hb l h
  obtain ⟨n1, i1, s1, f1, r1⟩ := h1
  obtain ⟨n2, i2, s2, f2, r2⟩ := h2
  have ti1 : (∃ l ∈ L1, isInt l = true ∧ touches l i) → ∃ l ∈ L1, touches l i :=
    fun ⟨l, a, _, b⟩ => ⟨l, a, b⟩
  have ti2 : (∃ l ∈ L2, isInt l = true ∧ touches l i) → ∃ l ∈ L2, touches l i :=
    fun ⟨l, a, _, b⟩ => ⟨l, a, b⟩
  have nt1 : (¬ ∃ l ∈ L1, touches l i) → ∀ l ∈ L1, touches l i → l.off = 8 * i ∧ l.size = 4 :=
    fun h l a b => absurd ⟨l, a, b⟩ h
  have nt2 : (¬ ∃ l ∈ L2, touches l i) → ∀ l ∈ L2, touches l i → l.off = 8 * i ∧ l.size = 4 :=
    fun h l a b => absurd ⟨l, a, b⟩ h
  constructor
  · rw [hex]
    generalize (∃ l ∈ L1, touches l i) = t1 at *
    generalize (∃ l ∈ L2, touches l i) = t2 at *
    clear s1 s2 f1 f2 i1 i2 ti1 ti2 nt1 nt2 hex hall hL
    rcases r1 with rfl | rfl | rfl | rfl | rfl | rfl <;>
      rcases r2 with rfl | rfl | rfl | rfl | rfl | rfl <;> simp_all [X64.merge]
  · rw [hex]
    generalize (∃ l ∈ L1, isInt l = true ∧ touches l i) = t1 at *
    generalize (∃ l ∈ L2, isInt l = true ∧ touches l i) = t2 at *
    clear s1 s2 f1 f2 n1 n2 ti1 ti2 nt1 nt2 hex hall hL
    rcases r1 with rfl | rfl | rfl | rfl | rfl | rfl <;>
      rcases r2 with rfl | rfl | rfl | rfl | rfl | rfl <;> simp_all [X64.merge]
  · rw [hall]
    generalize (∀ l ∈ L1, touches l i → l.off = 8 * i ∧ l.size = 4) = t1 at *
    generalize (∀ l ∈ L2, touches l i → l.off = 8 * i ∧ l.size = 4) = t2 at *
    generalize (∃ l ∈ L1, touches l i) = u1 at *
    generalize (∃ l ∈ L2, touches l i) = u2 at *
    clear f1 f2 i1 i2 ti1 ti2 hex hall hL
    rcases r1 with rfl | rfl | rfl | rfl | rfl | rfl <;>
      rcases r2 with rfl | rfl | rfl | rfl | rfl | rfl <;> simp_all [X64.merge]
  · rw [hex]
    generalize (∃ l ∈ L1, touches l i ∧ 8 * i + 8 ≤ l.off + l.size) = t1 at *
    generalize (∃ l ∈ L2, touches l i ∧ 8 * i + 8 ≤ l.off + l.size) = t2 at *
    clear s1 s2 i1 i2 ti1 ti2 nt1 nt2 hex hall hL n1 n2
    rcases r1 with rfl | rfl | rfl | rfl | rfl | rfl <;>
      rcases r2 with rfl | rfl | rfl | rfl | rfl | rfl <;> simp_all [X64.merge]
  · clear s1 s2 f1 f2 i1 i2 ti1 ti2 nt1 nt2 hex hall hL n1 n2
    rcases r1 with rfl | rfl | rfl | rfl | rfl | rfl <;>
      rcases r2 with rfl | rfl | rfl | rfl | rfl | rfl <;> decide

/-- Adding components that do not touch the eightbyte. -/
theorem Match.congr {L L' : List Leaf} {i c} (h : Match L i c)
    (hL : ∀ l, (l ∈ L' ∧ touches l i) ↔ (l ∈ L ∧ touches l i)) : Match L' i c := by
  obtain ⟨n1, i1, s1, f1, r1⟩ := h
  refine ⟨?_, ?_, ?_, ?_, r1⟩
  · rw [n1, not_iff_not]
    constructor <;> rintro ⟨l, hl, ht⟩
    · exact ⟨l, ((hL l).2 ⟨hl, ht⟩).1, ht⟩
    · exact ⟨l, ((hL l).1 ⟨hl, ht⟩).1, ht⟩
  · rw [i1]
    constructor <;> rintro ⟨l, hl, hi, ht⟩
    · exact ⟨l, ((hL l).2 ⟨hl, ht⟩).1, hi, ht⟩
    · exact ⟨l, ((hL l).1 ⟨hl, ht⟩).1, hi, ht⟩
  · intro hc l hl ht
    exact s1 hc l ((hL l).1 ⟨hl, ht⟩).1 ht
  · intro hc
    obtain ⟨l, hl, ht, hf⟩ := f1 hc
    exact ⟨l, ((hL l).2 ⟨hl, ht⟩).1, ht, hf⟩

theorem Match.empty (i : Nat) : Match [] i .no := by
  constructor <;> simp

/-- Translation by whole eightbytes. -/
theorem Match.shift {L : List Leaf} {i c} (h : Match L i c) (p : Nat) :
    Match (L.map fun l => { l with off := l.off + 8 * p }) (i + p) c := by
  have ht : ∀ l : Leaf, touches { l with off := l.off + 8 * p } (i + p) ↔ touches l i := by
    intro l; unfold touches; constructor <;> rintro ⟨a, b⟩ <;> constructor <;> simp at * <;> omega
  have hi : ∀ l : Leaf, isInt { l with off := l.off + 8 * p } = isInt l := fun l => rfl
  obtain ⟨n1, i1, s1, f1, r1⟩ := h
  refine ⟨?_, ?_, ?_, ?_, r1⟩
  · rw [n1]; simp [ht]
  · rw [i1]; simp [ht, hi]
  · intro hc l hl htl
    rw [List.mem_map] at hl
    obtain ⟨l', hl', rfl⟩ := hl
    have := s1 hc l' hl' ((ht l').1 htl)
    simp; omega
  · intro hc
    obtain ⟨l, hl, htl, hf⟩ := f1 hc
    exact ⟨_, List.mem_map.2 ⟨l, hl, rfl⟩, (ht l).2 htl, by simp; omega⟩

/-! ### The member loop -/

theorem mergeAt_length (pos sub cls) : (mergeAt pos sub cls).length = cls.length := by
  simp [mergeAt]

theorem mergeAt_getElem {pos : Nat} {sub cls : List Cls} {k : Nat} (hk : k < cls.length)
    (hk' : k < (mergeAt pos sub cls).length) :
    (mergeAt pos sub cls)[k] =
      if pos ≤ k ∧ k - pos < sub.length then merge (sub.getD (k - pos) .no) cls[k] else cls[k] := by
  simp [mergeAt]

theorem merge_no_sseup {a b : Cls} (ha : a ≠ .sseup) (hb : b ≠ .sseup) : merge a b ≠ .sseup := by
  cases a <;> cases b <;> first | exact absurd rfl ha | exact absurd rfl hb | decide

/-- What is known about the classification of a member or argument. -/
structure ClsSpec (t : FType) (bo : Nat) (cls : List Cls) : Prop where
  nosseup : ∀ c ∈ cls, c ≠ .sseup
  small : t.align ≤ 8 → t.size + bo ≤ 16 → cls.length = (t.size + bo + 7) / 8 ∧
    ∀ i (hi : i < cls.length), Match (leaves t bo) i cls[i] ∧ cls[i] ≠ .no
  large : 16 < t.size + bo → t.tc = .struct → cls = []
  x87 : t.align = 16 → t.size + bo ≤ 16 → cls = [.x87, .x87up]
  cx87 : t.tc ≠ .struct → 16 < t.size + bo → cls = [.complexX87]

theorem roundUp_add_of_dvd {a bo rel : Nat} (ha : 0 < a) (hd : a ∣ bo) :
    roundUp (bo + rel) a = bo + roundUp rel a := by
  obtain ⟨c, rfl⟩ := hd
  unfold roundUp
  rw [show a * c + rel + (a - 1) = (rel + (a - 1)) + a * c by omega, Nat.add_mul_div_left _ _ ha,
    Nat.add_mul, Nat.mul_comm c a, Nat.add_comm]

theorem ffiAlign_small {v a : Nat} (ha : a = 1 ∨ a = 2 ∨ a = 4 ∨ a = 8 ∨ a = 16)
    (hv : v + 16 < 2 ^ 64) : ffiAlign v a = roundUp v a := by
  have : ∃ k, a = 2 ^ k ∧ k ≤ 4 := by
    rcases ha with rfl | rfl | rfl | rfl | rfl
    · exact ⟨0, rfl, by omega⟩
    · exact ⟨1, rfl, by omega⟩
    · exact ⟨2, rfl, by omega⟩
    · exact ⟨3, rfl, by omega⟩
    · exact ⟨4, rfl, by omega⟩
  obtain ⟨k, rfl, hk⟩ := this
  apply ffiAlign_eq_roundUp
  have : 2 ^ k ≤ 2 ^ 4 := Nat.pow_le_pow_right (by decide) hk
  omega

theorem dvd_mod8 {a o : Nat} (ha : a = 1 ∨ a = 2 ∨ a = 4 ∨ a = 8 ∨ a = 16) (hd : a ∣ o) :
    a ∣ o % 8 := by
  rcases ha with rfl | rfl | rfl | rfl | rfl <;> omega

/-- Hypotheses on the members of a struct. -/
structure MembersOk (es : List FType) (bo : Nat) : Prop where
  wf : ∀ e ∈ es, WF lp64 e
  spec : ∀ e ∈ es, ∀ b, b < 8 → e.align ∣ b → (e.size ≤ 32 → e.size + b ≤ 32) →
    ∃ cls, classify e b = .ok cls ∧ ClsSpec e b cls
  dvd : ∀ e ∈ es, e.align ∣ bo

theorem MembersOk.tail {e es bo} (h : MembersOk (e :: es) bo) : MembersOk es bo :=
  ⟨fun x hx => h.wf x (by simp [hx]), fun x hx => h.spec x (by simp [hx]),
   fun x hx => h.dvd x (by simp [hx])⟩

/-- Totality of the member loop. -/
theorem fields_total {es : List FType} {bo : Nat} (hm : MembersOk es bo)
    {rel offs e'} (hp : Placed rel (es.map fun e => (e.size, e.align)) offs e')
    (hfit : bo + e' ≤ 32) {cls : List Cls} (hns : ∀ c ∈ cls, c ≠ .sseup) :
    ∃ r, classifyFields es (bo + rel) cls = .ok r ∧
      ∀ cls', r = some cls' → cls'.length = cls.length ∧ ∀ c ∈ cls', c ≠ .sseup := by
  induction es generalizing rel offs cls with
  | nil => exact ⟨_, by rw [classifyFields], by rintro _ ⟨⟩; exact ⟨rfl, hns⟩⟩
  | cons e es ih =>
    simp only [List.map_cons] at hp
    cases hp with
    | @cons _ o _ _ _ os _ hlm hp =>
    have hac := (hm.wf e (by simp)).align_cases lp64_ok
    have hpos := (hm.wf e (by simp)).align_pos lp64_ok
    have ho := hlm.eq_roundUp hpos
    have hle := hp.le
    have hdvd := hm.dvd e (by simp)
    rw [classifyFields]
    have hal : ffiAlign (bo + rel) e.align = bo + o := by
      have := roundUp_ge (v := rel) hpos
      rw [ffiAlign_small hac (by omega), roundUp_add_of_dvd hpos hdvd, ho]
    simp only [hal]
    have hdo : e.align ∣ bo + o := Nat.dvd_add hdvd hlm.1
    obtain ⟨sub, hs, hspec⟩ := hm.spec e (by simp) ((bo + o) % 8) (by omega)
      (dvd_mod8 hac hdo) (by omega)
    rw [hs]
    simp only
    split
    · exact ⟨none, rfl, by rintro _ ⟨⟩⟩
    · rw [show bo + o + e.size = bo + (o + e.size) by omega]
      have hns' : ∀ c ∈ mergeAt ((bo + o) / 8) sub cls, c ≠ .sseup := by
        intro c hc
        obtain ⟨k, hk, rfl⟩ := List.mem_iff_getElem.1 hc
        rw [mergeAt_length] at hk
        rw [mergeAt_getElem hk]
        split
        · rename_i hin
          apply merge_no_sseup
          · rw [List.getD_eq_getElem?_getD, List.getElem?_eq_getElem hin.2]
            exact hspec.nosseup _ (List.getElem_mem _)
          · exact hns _ (List.getElem_mem _)
        · exact hns _ (List.getElem_mem _)
      obtain ⟨r, hr, hr'⟩ := ih hm.tail hp hns'
      refine ⟨r, hr, fun cls' h => ?_⟩
      have := hr' cls' h
      rw [mergeAt_length] at this
      exact this

/-- The member loop for structs that fit two eightbytes and have no x87
component. -/
theorem fields_small {es : List FType} {bo : Nat} (hm : MembersOk es bo)
    (h8 : ∀ e ∈ es, e.align ≤ 8)
    {rel offs e'} (hp : Placed rel (es.map fun e => (e.size, e.align)) offs e')
    (hfit : bo + e' ≤ 16) {cls : List Cls} {L : List Leaf}
    (hlen : (bo + e' + 7) / 8 ≤ cls.length)
    (hL : ∀ i (hi : i < cls.length), Match L i cls[i])
    (hbo : bo < 8)
    (hcov : 0 < rel → ∀ i, i < (bo + rel + 7) / 8 → ∃ l ∈ L, touches l i) :
    ∃ cls', classifyFields es (bo + rel) cls = .ok (some cls') ∧ cls'.length = cls.length ∧
      (∀ i (hi : i < cls'.length), Match (L ++ leavesL es bo rel) i cls'[i]) ∧
      (0 < e' → ∀ i, i < (bo + e' + 7) / 8 → ∃ l ∈ L ++ leavesL es bo rel, touches l i) := by
  induction es generalizing rel offs cls L with
  | nil =>
    cases hp
    exact ⟨cls, by rw [classifyFields], rfl, by simpa [leavesL] using hL, by simpa [leavesL] using hcov⟩
  | cons e es ih =>
    simp only [List.map_cons] at hp
    cases hp with
    | @cons _ o _ _ _ os _ hlm hp =>
    have hwf := hm.wf e (by simp)
    have hac := hwf.align_cases lp64_ok
    have hpos := hwf.align_pos lp64_ok
    have hspos := hwf.size_pos lp64_ok
    have ho := hlm.eq_roundUp hpos
    have hle := hp.le
    have hdvd := hm.dvd e (by simp)
    have hrel := roundUp_ge (v := rel) hpos
    rw [classifyFields]
    have hal : ffiAlign (bo + rel) e.align = bo + o := by
      rw [ffiAlign_small hac (by omega), roundUp_add_of_dvd hpos hdvd, ho]
    simp only [hal]
    have hdo : e.align ∣ bo + o := Nat.dvd_add hdvd hlm.1
    obtain ⟨sub, hs, hspec⟩ := hm.spec e (by simp) ((bo + o) % 8) (by omega)
      (dvd_mod8 hac hdo) (by omega)
    obtain ⟨hsl, hsm⟩ := hspec.small (h8 e (by simp)) (by omega)
    rw [hs]
    simp only
    have hne : sub ≠ [] := by
      intro h; rw [h] at hsl; simp at hsl; omega
    rw [if_neg hne, show bo + o + e.size = bo + (o + e.size) by omega]
    -- the member's components
    have hsh : leaves e (bo + o) = (leaves e ((bo + o) % 8)).map
        (fun l => { l with off := l.off + 8 * ((bo + o) / 8) }) := by
      rw [← leaves_shift]; congr 1; omega
    have hbnd := hwf.leaves_bounds lp64_ok (bo + o)
    have hstep : ∀ i (hi : i < (mergeAt ((bo + o) / 8) sub cls).length),
        Match (L ++ leaves e (bo + o)) i (mergeAt ((bo + o) / 8) sub cls)[i] := by
      intro i hi
      have hi' : i < cls.length := by rwa [mergeAt_length] at hi
      rw [mergeAt_getElem hi']
      split
      · rename_i hin
        have h1 := (hsm (i - (bo + o) / 8) hin.2).1.shift ((bo + o) / 8)
        rw [← hsh, Nat.sub_add_cancel hin.1] at h1
        rw [List.getD_eq_getElem?_getD, List.getElem?_eq_getElem hin.2]
        exact Match.merge (by intro l; simp; tauto) h1 (hL i hi')
      · rename_i hin
        apply (hL i hi').congr
        intro l
        constructor
        · rintro ⟨hl, ht⟩
          rw [List.mem_append] at hl
          rcases hl with hl | hl
          · exact ⟨hl, ht⟩
          · exfalso
            have := hbnd l hl
            unfold touches at ht
            apply hin
            rw [hsl]
            omega
        · rintro ⟨hl, ht⟩
          exact ⟨by simp [hl], ht⟩
    have hcov' : ∀ i, i < (bo + (o + e.size) + 7) / 8 → ∃ l ∈ L ++ leaves e (bo + o), touches l i := by
      intro i hi
      by_cases hlt : 0 < rel ∧ i < (bo + rel + 7) / 8
      · obtain ⟨l, hl, ht⟩ := hcov hlt.1 i hlt.2
        exact ⟨l, by simp [hl], ht⟩
      · have hin : (bo + o) / 8 ≤ i := by
          by_cases hr0 : rel = 0
          · have : o = 0 := by
              rw [ho, hr0]; exact roundUp_of_dvd hpos (Nat.dvd_zero _)
            omega
          have hd8 : e.align ∣ 8 := pow2_dvd_of_le hac (by simp) (h8 e (by simp))
          have h1 : roundUp (bo + rel) e.align ≤ roundUp (bo + rel) 8 :=
            roundUp_least hpos (Nat.dvd_trans hd8 (dvd_roundUp _ _)) (roundUp_ge (by omega))
          rw [roundUp_add_of_dvd hpos hdvd, ← ho] at h1
          have h2 : roundUp (bo + rel) 8 = (bo + rel + 7) / 8 * 8 := rfl
          rw [h2] at h1
          omega
        have hin2 : i - (bo + o) / 8 < sub.length := by rw [hsl]; omega
        obtain ⟨hmt, hno⟩ := hsm _ hin2
        have : ∃ l ∈ leaves e ((bo + o) % 8), touches l (i - (bo + o) / 8) := by
          by_contra hc
          exact hno (hmt.no.2 hc)
        obtain ⟨l, hl, ht⟩ := this
        refine ⟨{ l with off := l.off + 8 * ((bo + o) / 8) }, ?_, ?_⟩
        · rw [hsh]; simp only [List.mem_append, List.mem_map]
          exact .inr ⟨l, hl, rfl⟩
        · unfold touches at ht ⊢
          simp only
          omega
    obtain ⟨cls', h1, h2, h3, h4⟩ := ih hm.tail (fun x hx => h8 x (by simp [hx])) hp
      (cls := mergeAt ((bo + o) / 8) sub cls) (L := L ++ leaves e (bo + o))
      (by rw [mergeAt_length]; exact hlen) hstep (fun _ => hcov')
    refine ⟨cls', h1, by rw [h2, mergeAt_length], ?_, ?_⟩
    · simpa [leavesL, ho, List.append_assoc] using h3
    · simpa [leavesL, ho, List.append_assoc] using h4

theorem finish_long {cls : List Cls} (hlen : 2 < cls.length) (hns : ∀ c ∈ cls, c ≠ .sseup) :
    finish cls = [] := by
  unfold finish
  rw [if_pos]
  refine ⟨hlen, .inr ?_⟩
  match cls, hlen with
  | a :: b :: cs, _ =>
    simp only [List.tail_cons, List.any_cons, Bool.or_eq_true, decide_eq_true_eq]
    exact .inl (hns b (by simp))

theorem cleanup_id {cls : List Cls} : ∀ {i p}, i + cls.length ≤ 2 →
    (∀ c ∈ cls, c ≠ .memory) → cleanup i p cls = some cls := by
  induction cls with
  | nil => intro i p _ _; rfl
  | cons c cs ih =>
    intro i p hlen hm
    simp only [List.length_cons] at hlen
    rw [cleanup, if_neg (hm c (by simp))]
    have h1 : ¬ (1 < i) := by omega
    simp only [h1, false_and, if_false]
    rw [ih (by omega) (fun x hx => hm x (by simp [hx]))]
    rfl

theorem finish_short {cls : List Cls} (hlen : cls.length ≤ 2) (hm : ∀ c ∈ cls, c ≠ .memory) :
    finish cls = cls := by
  unfold finish
  rw [if_neg (by omega), cleanup_id (by omega) hm]
  rfl

/-! ### Scalars -/

theorem classify_int {tc s a bo} (htab : lp64 tc = some (s, a)) (hint : isInt ⟨0, s, tc⟩ = true) :
    classify (.mk s a tc []) bo = .ok (doInteger s bo) ∧ leaves (.mk s a tc []) bo = [⟨bo, s, tc⟩] ∧
      s = a ∧ (s = 1 ∨ s = 2 ∨ s = 4 ∨ s = 8) := by
  cases tc <;> simp [lp64, isInt] at htab hint <;> obtain ⟨rfl, rfl⟩ := htab <;>
    simp [classify, leaves]

theorem match_single {bo s : Nat} {tc : TC} {c : Cls} (h : bo + s ≤ 8) (hs : 0 < s)
    (hi : (c = .integer ∨ c = .integersi) ↔ isInt ⟨bo, s, tc⟩ = true)
    (hsf : c = .ssesf → bo = 0 ∧ s = 4) (hfull : c = .sse ∨ c = .ssedf → 8 ≤ bo + s)
    (hr : c = .integer ∨ c = .integersi ∨ c = .sse ∨ c = .ssesf ∨ c = .ssedf) :
    Match [⟨bo, s, tc⟩] 0 c ∧ c ≠ .no := by
  have hne : c ≠ .no := by rcases hr with rfl | rfl | rfl | rfl | rfl <;> decide
  have ht : touches ⟨bo, s, tc⟩ 0 := by unfold touches; simp; omega
  refine ⟨⟨?_, ?_, ?_, ?_, .inr hr⟩, hne⟩
  · simp [hne, ht]
  · simp [ht, hi]
  · intro hc; simpa [ht] using hsf hc
  · intro hc; simpa [ht] using hfull hc

theorem spec_scalar {tc s a} (htab : lp64 tc = some (s, a)) {bo : Nat} (hbo : bo < 8)
    (hd : a ∣ bo) : ∃ cls, classify (.mk s a tc []) bo = .ok cls ∧ ClsSpec (.mk s a tc []) bo cls := by
  by_cases hint : isInt ⟨0, s, tc⟩ = true
  · obtain ⟨h1, h2, h3, h4⟩ := classify_int (bo := bo) htab hint
    refine ⟨_, h1, ?_⟩
    have hle : bo + s ≤ 8 := by subst h3; rcases h4 with rfl | rfl | rfl | rfl <;> omega
    have hcls : ∃ c, doInteger s bo = [c] ∧ (c = .integer ∨ c = .integersi) := by
      unfold doInteger
      by_cases h5 : bo + s ≤ 4
      · exact ⟨.integersi, by simp [h5], .inr rfl⟩
      · exact ⟨.integer, by simp [h5, hle], .inl rfl⟩
    obtain ⟨c, hc, hc'⟩ := hcls
    rw [hc]
    have hint' : isInt ⟨bo, s, tc⟩ = true := hint
    have hm := match_single (bo := bo) (s := s) (tc := tc) (c := c) hle (by omega) (by simp [hc', hint'])
      (by rcases hc' with rfl | rfl <;> simp) (by rcases hc' with rfl | rfl <;> simp)
      (by rcases hc' with rfl | rfl <;> simp)
    refine ⟨?_, ?_, ?_, ?_, ?_⟩
    · intro x hx; simp at hx; subst hx; rcases hc' with rfl | rfl <;> decide
    · intro _ _
      refine ⟨by simp; omega, ?_⟩
      intro i hi
      simp at hi
      subst hi
      rw [h2]
      exact hm
    · intro h; simp at h; omega
    · intro h; simp at h; omega
    · intro _ h; simp at h; omega
  · cases tc <;> simp [lp64, isInt] at htab hint <;> obtain ⟨rfl, rfl⟩ := htab
    · -- float
      have hb : bo = 0 ∨ bo = 4 := by omega
      refine ⟨_, by rw [classify], ?_⟩
      refine ⟨?_, ?_, ?_, ?_, ?_⟩
      · rcases hb with rfl | rfl <;> simp
      · intro _ _
        refine ⟨by rcases hb with rfl | rfl <;> simp, ?_⟩
        intro i hi
        have : i = 0 := by rcases hb with rfl | rfl <;> simp at hi <;> omega
        subst this
        simp only [leaves]
        rcases hb with rfl | rfl <;> simp only [Nat.reduceMod, if_true, List.getElem_cons_zero] <;>
          exact match_single (by omega) (by omega) (by simp [isInt]) (by simp) (by simp) (by simp)
      · intro h; simp at h; omega
      · intro h; simp at h
      · intro _ h; simp at h; omega
    · -- double
      have hb : bo = 0 := by omega
      subst hb
      refine ⟨_, by rw [classify], ?_⟩
      refine ⟨by simp, ?_, by simp, by simp, by simp⟩
      intro _ _
      refine ⟨by simp, ?_⟩
      intro i hi
      simp at hi
      subst hi
      simp only [leaves, List.getElem_cons_zero]
      exact match_single (by omega) (by omega) (by simp [isInt]) (by simp) (by simp) (by simp)
    · -- long double
      have hb : bo = 0 := by omega
      subst hb
      refine ⟨_, by rw [classify], ?_⟩
      exact ⟨by simp, by simp, by simp, by simp, by simp⟩

theorem match_pair0 {b1 b2 s : Nat} {tc : TC} {c : Cls} {i : Nat}
    (ht : touches ⟨b1, s, tc⟩ i ∨ touches ⟨b2, s, tc⟩ i)
    (hi : (c = .integer ∨ c = .integersi) ↔ isInt ⟨0, s, tc⟩ = true)
    (hsf : c = .ssesf → (touches ⟨b1, s, tc⟩ i → b1 = 8 * i ∧ s = 4) ∧
      (touches ⟨b2, s, tc⟩ i → b2 = 8 * i ∧ s = 4))
    (hfull : c = .sse ∨ c = .ssedf → (touches ⟨b1, s, tc⟩ i ∧ 8 * i + 8 ≤ b1 + s) ∨
      (touches ⟨b2, s, tc⟩ i ∧ 8 * i + 8 ≤ b2 + s))
    (hr : c = .integer ∨ c = .integersi ∨ c = .sse ∨ c = .ssesf ∨ c = .ssedf) :
    Match [⟨b1, s, tc⟩, ⟨b2, s, tc⟩] i c ∧ c ≠ .no := by
  have hne : c ≠ .no := by rcases hr with rfl | rfl | rfl | rfl | rfl <;> decide
  have hint : ∀ b, isInt ⟨b, s, tc⟩ = isInt ⟨0, s, tc⟩ := fun _ => rfl
  refine ⟨⟨?_, ?_, ?_, ?_, .inr hr⟩, hne⟩
  · simp only [hne, false_iff, not_not]
    rcases ht with h | h
    · exact ⟨_, by simp, h⟩
    · exact ⟨_, List.mem_cons_of_mem _ (List.mem_singleton.2 rfl), h⟩
  · rw [hi]
    constructor
    · intro h
      rcases ht with h' | h'
      · exact ⟨_, List.mem_cons_self .., (hint _).trans h, h'⟩
      · exact ⟨_, List.mem_cons_of_mem _ (List.mem_singleton.2 rfl), (hint _).trans h, h'⟩
    · rintro ⟨l, hl, h, _⟩
      simp only [List.mem_cons, List.not_mem_nil, or_false] at hl
      rcases hl with rfl | rfl <;> exact h
  · intro hc
    obtain ⟨h1, h2⟩ := hsf hc
    simp only [List.mem_cons, List.not_mem_nil, or_false]
    rintro l (rfl | rfl)
    · exact h1
    · exact h2
  · intro hc
    rcases hfull hc with ⟨h, h'⟩ | ⟨h, h'⟩
    · exact ⟨_, List.mem_cons_self .., h, h'⟩
    · exact ⟨_, List.mem_cons_of_mem _ (List.mem_singleton.2 rfl), h, h'⟩

theorem spec_complex {tc s a} (hb : complexBase tc = true) (htab : lp64 tc = some (s, a)) {bo : Nat}
    (hbo : bo < 8) (hd : a ∣ bo) :
    ∃ cls, classify (.mk (2 * s) a .complex [.mk s a tc []]) bo = .ok cls ∧
      ClsSpec (.mk (2 * s) a .complex [.mk s a tc []]) bo cls := by
  by_cases hint : isInt ⟨0, s, tc⟩ = true
  · have hcl : classify (.mk (2 * s) a .complex [.mk s a tc []]) bo = .ok (doInteger (2 * s) bo) := by
      cases tc <;> simp [isInt, complexBase] at hint hb <;> simp [classify]
    have hsa : s = a ∧ (s = 1 ∨ s = 2 ∨ s = 4 ∨ s = 8) := by
      cases tc <;> simp [lp64, isInt] at htab hint <;> omega
    obtain ⟨rfl, h4⟩ := hsa
    refine ⟨_, hcl, ?_⟩
    have h16 : bo + 2 * s ≤ 16 := by rcases h4 with rfl | rfl | rfl | rfl <;> omega
    have hall : ∀ c ∈ doInteger (2 * s) bo, c = .integer ∨ c = .integersi := by
      unfold doInteger
      simp only [h16, if_true]
      split
      · simp
      · split
        · simp
        · split <;> simp
    have hlen : (doInteger (2 * s) bo).length = (2 * s + bo + 7) / 8 := by
      unfold doInteger
      simp only [h16, if_true]
      split
      · simp; omega
      · split
        · simp; omega
        · split <;> simp <;> omega
    refine ⟨?_, ?_, ?_, ?_, ?_⟩
    · intro c hc; rcases hall c hc with rfl | rfl <;> decide
    · intro _ _
      refine ⟨hlen, ?_⟩
      intro i hi
      have hc := hall _ (List.getElem_mem hi)
      simp only [leaves]
      rw [hlen] at hi
      apply match_pair0
      · unfold touches
        simp only
        rcases h4 with rfl | rfl | rfl | rfl <;> omega
      · simp [hc, hint]
      · rcases hc with h | h <;> rw [h] <;> simp
      · rcases hc with h | h <;> rw [h] <;> simp
      · rcases hc with h | h <;> rw [h] <;> simp
    · simp
    · intro h; simp at h; omega
    · intro _ h; simp at h; omega
  · cases tc <;> simp [lp64, isInt, complexBase] at htab hint hb <;> obtain ⟨rfl, rfl⟩ := htab
    · -- complex float
      have hb : bo = 0 ∨ bo = 4 := by omega
      refine ⟨_, by rw [classify], ?_⟩
      refine ⟨?_, ?_, ?_, ?_, ?_⟩
      · rcases hb with rfl | rfl <;> simp
      · intro _ _
        refine ⟨by rcases hb with rfl | rfl <;> simp, ?_⟩
        intro i hi
        simp only [leaves]
        rcases hb with rfl | rfl
        · have : i = 0 := by simp at hi; omega
          subst this
          exact match_pair0 (by simp [touches]) (by simp [isInt]) (by simp) (by simp [touches]) (by simp)
        · have : i = 0 ∨ i = 1 := by simp at hi; omega
          rcases this with rfl | rfl
          · exact match_pair0 (by simp [touches]) (by simp [isInt]) (by simp) (by simp [touches]) (by simp)
          · exact match_pair0 (by simp [touches]) (by simp [isInt]) (by simp [touches]) (by simp) (by simp)
      · simp
      · intro h; simp at h
      · intro _ h; simp at h; omega
    · -- complex double
      have hb : bo = 0 := by omega
      subst hb
      refine ⟨_, by rw [classify], ?_⟩
      refine ⟨by simp, ?_, by simp, by simp, by simp⟩
      intro _ _
      refine ⟨by simp, ?_⟩
      intro i hi
      have : i = 0 ∨ i = 1 := by simp at hi; omega
      simp only [leaves]
      rcases this with rfl | rfl
      · exact match_pair0 (by simp [touches]) (by simp [isInt]) (by simp) (by simp [touches]) (by simp)
      · exact match_pair0 (by simp [touches]) (by simp [isInt]) (by simp) (by simp [touches]) (by simp)
    · have hb : bo = 0 := by omega
      subst hb
      refine ⟨_, by rw [classify], ?_⟩
      exact ⟨by simp, by simp, by simp, by simp, by simp⟩

/-- A struct of at most 16 bytes with 16-byte alignment has a single member, of
the same size and alignment, at offset 0. -/
theorem struct_x87_single {es : List FType} {s a offs} (hwf : ∀ e ∈ es, WF lp64 e)
    (hl : StructLayout (es.map fun e => (e.size, e.align)) offs s a) (ha : a = 16) (hs : s ≤ 16) :
    ∃ e, es = [e] ∧ e.align = 16 ∧ e.size = 16 ∧ s = 16 := by
  subst ha
  obtain ⟨end_, hp, ⟨⟨m, hm, hma⟩, hmx⟩, hle⟩ := hl
  rw [List.mem_map] at hm
  obtain ⟨x, hx, rfl⟩ := hm
  simp only at hma
  have hend : end_ ≤ 16 := by have := hle.2.1; omega
  have key : ∀ (es : List FType) cur offs end_, (∀ e ∈ es, WF lp64 e) →
      Placed cur (es.map fun e => (e.size, e.align)) offs end_ → end_ ≤ 16 → x ∈ es →
      cur = 0 ∧ es = [x] ∧ x.size = 16 := by
    intro es
    induction es with
    | nil => intro _ _ _ _ _ _ h; cases h
    | cons e es ih =>
      intro cur offs end_ hwf hp hend hx
      simp only [List.map_cons] at hp
      cases hp with
      | @cons _ o _ _ _ os _ hlm hp =>
        have hpl := hp.le
        have hep := (hwf e (by simp)).size_pos lp64_ok
        rcases List.mem_cons.1 hx with rfl | hx'
        · have h1 := hlm.1
          have h2 := hlm.2.1
          have h3 := (hwf x (by simp)).align_dvd_size lp64_ok
          rw [hma] at h1 h3
          have : x.size = 16 ∧ o = 0 := by omega
          refine ⟨by omega, ?_, this.1⟩
          cases es with
          | nil => rfl
          | cons y ys =>
            exfalso
            simp only [List.map_cons] at hp
            cases hp with
            | cons hlm2 hp2 =>
              have := hp2.le
              have := hlm2.2.1
              have := (hwf y (by simp)).size_pos lp64_ok
              omega
        · have := ih (o + e.size) os end_ (fun y hy => hwf y (by simp [hy])) hp hend hx'
          omega
  obtain ⟨_, h2, h3⟩ := key es 0 offs end_ hwf hp hend hx
  refine ⟨x, h2, hma, h3, ?_⟩
  have := hle.1
  have hpl : 0 < s := by
    have := hle.2.1
    subst h2
    simp only [List.map_cons, List.map_nil] at hp
    cases hp with
    | cons _ hp => have := hp.le; omega
  omega

/-- Classification of every well-formed type at every admissible position. -/
theorem classify_spec {t : FType} (hwf : WF lp64 t) : ∀ bo, bo < 8 → t.align ∣ bo →
    (t.size ≤ 32 → t.size + bo ≤ 32) → ∃ cls, classify t bo = .ok cls ∧ ClsSpec t bo cls := by
  induction hwf with
  | scalar h => intro bo hbo hd _; exact spec_scalar h hbo hd
  | complex hb h => intro bo hbo hd _; exact spec_complex hb h hbo hd
  | @struct es s a offs hwf hl ih =>
    intro bo hbo hd hfit
    simp only [FType.align_mk, FType.size_mk] at hd hfit
    have hwf' : WF lp64 (.mk s a .struct es) := .struct hwf hl
    have hspos := hwf'.size_pos lp64_ok
    have hac := hwf'.align_cases lp64_ok
    simp only [FType.size_mk, FType.align_mk] at hspos hac
    rw [classify]
    by_cases h32 : 32 < s
    · refine ⟨[], by simp [h32], ?_⟩
      exact ⟨by simp, by intro _ h; simp at h; omega, by simp, by intro _ h; simp at h; omega,
        by simp⟩
    have hfit' := hfit (by omega)
    have hw4 : ¬ 4 < (s + bo + 7) / 8 := by omega
    have hw0 : (s + bo + 7) / 8 ≠ 0 := by omega
    simp only [h32, hw4, hw0, if_false]
    have hl' := hl
    obtain ⟨e', hp, hmx, hle⟩ := hl
    have hmax : ∀ e ∈ es, e.align ≤ a := fun e he =>
      hmx.2 (e.size, e.align) (List.mem_map.2 ⟨e, he, rfl⟩)
    have hm : MembersOk es bo := ⟨hwf, ih, fun e he =>
      Nat.dvd_trans (pow2_dvd_of_le ((hwf e he).align_cases lp64_ok) hac (hmax e he)) hd⟩
    have hes := hle.2.1
    by_cases h16 : 16 < s + bo
    · obtain ⟨r, hr, hr'⟩ := fields_total hm hp (by omega)
        (cls := List.replicate ((s + bo + 7) / 8) .no) (by simp)
      rw [Nat.add_zero] at hr
      have hres : ∃ cls, (match classifyFields es bo (List.replicate ((s + bo + 7) / 8) .no) with
          | .error e => .error e
          | .ok none => .ok []
          | .ok (some cls) => .ok (finish cls)) = Except.ok (ε := Abn) cls ∧ cls = [] := by
        rw [hr]
        cases r with
        | none => exact ⟨[], rfl, rfl⟩
        | some cls =>
          obtain ⟨h1, h2⟩ := hr' cls rfl
          rw [List.length_replicate] at h1
          exact ⟨_, rfl, finish_long (by omega) h2⟩
      obtain ⟨cls, h1, rfl⟩ := hres
      refine ⟨[], h1, ?_⟩
      exact ⟨by simp, by intro _ h; simp at h; omega, by simp, by intro _ h; simp at h; omega, by simp⟩
    · by_cases h8 : a ≤ 8
      · obtain ⟨cls, h1, h2, h3, h4⟩ := fields_small hm (fun e he => Nat.le_trans (hmax e he) h8) hp
          (by omega) (cls := List.replicate ((s + bo + 7) / 8) .no) (L := [])
          (by rw [List.length_replicate]; omega)
          (by intro i hi; rw [List.getElem_replicate]; exact Match.empty i) hbo
          (fun h => absurd h (Nat.lt_irrefl 0))
        rw [Nat.add_zero] at h1
        rw [List.length_replicate] at h2
        have he0 : 0 < e' := by
          by_contra hc
          have : IsLeastMult a e' 0 := ⟨Nat.dvd_zero _, by omega, fun _ _ _ => Nat.zero_le _⟩
          have := hle.unique this
          omega
        have h4 := h4 he0
        have hceil : (bo + e' + 7) / 8 = (s + bo + 7) / 8 := by
          have hd8 : a ∣ 8 := pow2_dvd_of_le hac (by simp) h8
          have hpos : 0 < a := by omega
          have h1 : roundUp (bo + e') a ≤ roundUp (bo + e') 8 :=
            roundUp_least hpos (Nat.dvd_trans hd8 (dvd_roundUp _ _)) (roundUp_ge (by omega))
          rw [roundUp_add_of_dvd hpos hd, ← hle.eq_roundUp hpos] at h1
          have h2 : roundUp (bo + e') 8 = (bo + e' + 7) / 8 * 8 := rfl
          rw [h2] at h1
          omega
        simp only [List.nil_append] at h3 h4
        have hnomem : ∀ c ∈ cls, c ≠ .memory ∧ c ≠ .sseup := by
          intro c hc
          obtain ⟨i, hi, rfl⟩ := List.mem_iff_getElem.1 hc
          rcases (h3 i hi).rng with h | h | h | h | h | h <;> rw [h] <;> decide
        refine ⟨cls, ?_, ?_⟩
        · rw [h1]
          simp only
          rw [finish_short (by omega) (fun c hc => (hnomem c hc).1)]
        · refine ⟨fun c hc => (hnomem c hc).2, ?_, ?_, ?_, ?_⟩
          · intro _ _
            refine ⟨h2, ?_⟩
            intro i hi
            refine ⟨?_, ?_⟩
            · simpa only [leaves] using h3 i hi
            · intro hc
              exact (h3 i hi).no.1 hc (h4 i (by omega))
          · intro h; simp at h; omega
          · intro h; simp at h; omega
          · simp
      · have ha : a = 16 := by omega
        subst ha
        have hbo0 : bo = 0 := by omega
        subst hbo0
        obtain ⟨e, rfl, hea, hes', rfl⟩ := struct_x87_single hwf hl' rfl (by omega)
        obtain ⟨sub, hs, hspec⟩ := ih e (by simp) 0 (by omega) (Nat.dvd_zero _) (by omega)
        have := hspec.x87 hea (by omega)
        subst this
        refine ⟨[.x87, .x87up], ?_, ?_⟩
        · have hal : ffiAlign 0 e.align = 0 := by rw [hea]; decide
          simp only [classifyFields, hal, Nat.zero_mod, hs]
          simp only [Nat.zero_div, reduceCtorEq, if_false]
          decide
        · exact ⟨by simp, by simp, by simp, by simp, by simp⟩

end Verif.X64
