import Verif.Closures.SegMap
import Mathlib.Data.List.Perm.Basic

/-
The invariant of the segments: both views of every segment show the same storage, views do not
overlap and storage is not shared.
-/
namespace Verif.Dual
open Verif

/-- An address of either view. -/
def InV (s : Seg) (x : Nat) : Prop := InData s x ∨ InCode s x

def Dis (s t : Seg) : Prop := ∀ x, InV s x → InV t x → False

theorem Dis.symm {s t : Seg} (h : Dis s t) : Dis t s := fun x a b => h x b a

/-- The data address `x` and its code address. -/
def ViewAt (y : Sys) (st : St) (off : Int) (x : Nat) : Prop :=
  ∃ b d p, ((b : Nat) : Int) = x + off ∧ st.vm x = some d ∧ st.vm b = some p ∧ p.phys = d.phys ∧ d.w = true ∧
    (off ≠ 0 → p.x = true ∧ p.w = false ∧ d.x = false) ∧
    (off = 0 → d.x = true ∨ y.tramp = true ∨ (y.mprotect = true ∧ y.emutramp = true)) ∧ PhysOk st d.phys

structure Views (y : Sys) (st : St) (l : List Seg) : Prop where
  view : ∀ s ∈ l, ∀ x, InData s x → ViewAt y st s.off x
  disj : l.Pairwise Dis
  self : ∀ s ∈ l, s.off ≠ 0 → ∀ x, InData s x → InCode s x → False
  store : ∀ s ∈ l, ∀ t ∈ l, ∀ x z, InData s x → InData t z → ∀ d e, st.vm x = some d → st.vm z = some e → d.phys = e.phys → x = z

theorem Views.nil (y : Sys) (st : St) : Views y st [] := ⟨by simp, .nil, by simp, by simp⟩

theorem Views.perm {y : Sys} {st : St} {l l' : List Seg} (h : Views y st l) (hp : l.Perm l') : Views y st l' :=
  ⟨fun s hs => h.view s (hp.mem_iff.2 hs), (hp.pairwise_iff (fun h => Dis.symm h)).1 h.disj,
    fun s hs => h.self s (hp.mem_iff.2 hs), fun s hs t ht => h.store s (hp.mem_iff.2 hs) t (hp.mem_iff.2 ht)⟩

/-- The code address of a data address lies in the code view. -/
theorem inCode_of {s : Seg} {x b : Nat} (hx : InData s x) (hb : (b : Int) = x + s.off) : InCode s b := by
  unfold InData at hx
  unfold InCode
  omega

/-- Changes elsewhere. -/
theorem Views.mono {y : Sys} {st st' : St} {l : List Seg} (h : Views y st l) (hv : ∀ s ∈ l, ∀ x, InV s x → st'.vm x = st.vm x)
    (hp : ∀ p, PhysOk st p → PhysOk st' p) : Views y st' l := by
  refine ⟨fun s hs x hx => ?_, h.disj, h.self, fun s hs t ht x z hx hz d e hd he => ?_⟩
  · obtain ⟨b, d, p, h1, h2, h3, h4, h5, h6, h7, h8⟩ := h.view s hs x hx
    exact ⟨b, d, p, h1, by rw [hv s hs x (.inl hx)]; exact h2, by rw [hv s hs b (.inr (inCode_of hx h1))]; exact h3, h4, h5, h6, h7, hp _ h8⟩
  · rw [hv s hs x (.inl hx)] at hd
    rw [hv t ht z (.inl hz)] at he
    exact h.store s hs t ht x z hx hz d e hd he

/-- Every address of a view is mapped. -/
theorem Views.mapped {y : Sys} {st : St} {l : List Seg} (h : Views y st l) {s : Seg} (hs : s ∈ l) {x : Nat} (hx : InV s x) :
    st.vm x ≠ none := by
  rcases hx with hx | hx
  · obtain ⟨b, d, p, h1, h2, _⟩ := h.view s hs x hx
    rw [h2]; simp
  · unfold InCode at hx
    obtain ⟨a, ha⟩ : ∃ a : Nat, (a : Int) = x - s.off := ⟨(x - s.off).toNat, by omega⟩
    obtain ⟨b, d, p, h1, h2, h3, _⟩ := h.view s hs a (by unfold InData; omega)
    have : b = x := by omega
    rw [← this, h3]; simp

theorem Views.cons {y : Sys} {st st' : St} {wd a len b : Nat} {mk : Nat → Phys} {l : List Seg} (h : Views y st l)
    (hn : NewMap y st st' wd a len b mk) : Views y st' (⟨a, len, (b : Int) - a⟩ :: l) := by
  have hnew : ∀ x, InData ⟨a, len, (b : Int) - a⟩ x → ∃ o, o < len ∧ x = a + o := by
    rintro x ⟨h1, h2⟩
    simp only at h1 h2
    exact ⟨x - a, by omega, by omega⟩
  have hfresh : ∀ x, InV ⟨a, len, (b : Int) - a⟩ x → st.vm x = none := by
    intro x hx
    refine hn.fresh x ?_
    rcases hx with ⟨h1, h2⟩ | ⟨h1, h2⟩
    · exact .inl ⟨h1, h2⟩
    · simp only at h1 h2
      exact .inr ⟨by omega, by omega⟩
  have hd0 : ∀ s ∈ l, Dis ⟨a, len, (b : Int) - a⟩ s := fun s hs x hx hsx => h.mapped hs hsx (hfresh x hx)
  have hm : Views y st' l := h.mono (fun s hs x hx => by
      obtain ⟨pg, hpg⟩ := Option.ne_none_iff_exists'.1 (h.mapped hs hx)
      rw [hpg, hn.ext x pg hpg]) fun p hp => (hn.old p hp).1
  have hold : ∀ s ∈ l, ∀ x, InData s x → ∃ d, st'.vm x = some d ∧ PhysOk st d.phys := by
    intro s hs x hx
    obtain ⟨_, d, _, _, h2, _, _, _, _, _, h8⟩ := h.view s hs x hx
    exact ⟨d, hn.ext x d h2, h8⟩
  refine ⟨fun s hs x hx => ?_, List.pairwise_cons.2 ⟨hd0, hm.disj⟩, fun s hs ho x hx hx' => ?_, ?_⟩
  · rcases List.mem_cons.1 hs with rfl | hs
    · obtain ⟨o, ho, rfl⟩ := hnew x hx
      obtain ⟨d, d1, d2, d3, d4, d5⟩ := hn.data o ho
      obtain ⟨p, p1, p2, p3⟩ := hn.code o ho
      refine ⟨b + o, d, p, by simp only; omega, d1, p1, by rw [p2, d2], d3, fun h => ?_, fun h => d5 ?_, ?_⟩
      · simp only at h
        have hba : b ≠ a := by omega
        exact ⟨(p3 hba).1, (p3 hba).2, d4 hba⟩
      · simp only at h; omega
      · rw [d2]; exact hn.new o ho
    · exact hm.view s hs x hx
  · rcases List.mem_cons.1 hs with rfl | hs
    · simp only at ho
      rcases hn.dis with e | hd
      · omega
      · refine hd x ⟨hx, ?_⟩
        unfold InCode at hx'
        simp only at hx'
        omega
    · exact hm.self s hs ho x hx hx'
  · intro s hs t ht x z hx hz d e hd he hde
    rcases List.mem_cons.1 hs with rfl | hs
    · obtain ⟨o, ho, rfl⟩ := hnew x hx
      obtain ⟨d', d1, d2, _⟩ := hn.data o ho
      rw [hd] at d1
      obtain rfl := Option.some.inj d1
      rcases List.mem_cons.1 ht with rfl | ht
      · obtain ⟨o', ho', rfl⟩ := hnew z hz
        obtain ⟨e', e1, e2, _⟩ := hn.data o' ho'
        rw [he] at e1
        obtain rfl := Option.some.inj e1
        rw [d2, e2] at hde
        rw [hn.inj _ _ hde]
      · obtain ⟨e', e1, e2⟩ := hold t ht z hz
        rw [he] at e1
        obtain rfl := Option.some.inj e1
        exact absurd (hde.symm.trans d2) ((hn.old _ e2).2 o)
    · rcases List.mem_cons.1 ht with rfl | ht
      · obtain ⟨o', ho', rfl⟩ := hnew z hz
        obtain ⟨e', e1, e2, _⟩ := hn.data o' ho'
        rw [he] at e1
        obtain rfl := Option.some.inj e1
        obtain ⟨d', d1, d2⟩ := hold s hs x hx
        rw [hd] at d1
        obtain rfl := Option.some.inj d1
        exact absurd (hde.trans e2) ((hn.old _ d2).2 o')
      · exact hm.store s hs t ht x z hx hz d e hd he hde

/-- A segment that covers two. -/
theorem Views.merge {y : Sys} {st : St} {n s m : Seg} {l : List Seg} (h : Views y st (n :: s :: l)) (hm : ∀ x, InData m x → InData n x ∨ InData s x)
    (hc : ∀ x, InCode m x → InCode n x ∨ InCode s x) (h1 : m.off = n.off) (h2 : m.off = s.off) : Views y st (m :: l) := by
  have hp := List.pairwise_cons.1 h.disj
  have hp2 := List.pairwise_cons.1 hp.2
  have hv : ∀ x, InV m x → InV n x ∨ InV s x := by
    rintro x (hx | hx)
    · exact (hm x hx).imp .inl .inl
    · exact (hc x hx).imp .inr .inr
  have hmem : ∀ t ∈ m :: l, ∀ x, InData t x → ∃ t' ∈ n :: s :: l, InData t' x ∧ t'.off = t.off := by
    intro t ht x hx
    rcases List.mem_cons.1 ht with rfl | ht
    · rcases hm x hx with hx | hx
      · exact ⟨n, by simp, hx, h1.symm⟩
      · exact ⟨s, by simp, hx, h2.symm⟩
    · exact ⟨t, by simp [ht], hx, rfl⟩
  refine ⟨fun t ht x hx => ?_, List.pairwise_cons.2 ⟨fun t ht x hx hxt => ?_, hp2.2⟩, fun t ht ho x hx hx' => ?_, ?_⟩
  · obtain ⟨t', ht', hx', ho⟩ := hmem t ht x hx
    rw [← ho]
    exact h.view t' ht' x hx'
  · rcases hv x hx with hx | hx
    · exact hp.1 t (by simp [ht]) x hx hxt
    · exact hp2.1 t ht x hx hxt
  · rcases List.mem_cons.1 ht with rfl | ht
    · rcases hm x hx with a | a <;> rcases hc x hx' with b | b
      · exact h.self n (by simp) (by rw [← h1]; exact ho) x a b
      · exact hp.1 s (by simp) x (.inl a) (.inr b)
      · exact hp.1 s (by simp) x (.inr b) (.inl a)
      · exact h.self s (by simp) (by rw [← h2]; exact ho) x a b
    · exact h.self t (by simp [ht]) ho x hx hx'
  · intro t ht u hu x z hx hz
    obtain ⟨t', ht', hx', _⟩ := hmem t ht x hx
    obtain ⟨u', hu', hz', _⟩ := hmem u hu z hz
    exact h.store t' ht' u' hu' x z hx' hz'

/-- Part of a segment. -/
theorem Views.sub {y : Sys} {st : St} {s m : Seg} {l : List Seg} (h : Views y st (s :: l)) (hm : ∀ x, InData m x → InData s x)
    (hc : ∀ x, InCode m x → InCode s x) (h1 : m.off = s.off) : Views y st (m :: l) := by
  have hp := List.pairwise_cons.1 h.disj
  have hv : ∀ x, InV m x → InV s x := fun x hx => hx.imp (hm x) (hc x)
  have hmem : ∀ t ∈ m :: l, ∀ x, InData t x → ∃ t' ∈ s :: l, InData t' x ∧ t'.off = t.off := by
    intro t ht x hx
    rcases List.mem_cons.1 ht with rfl | ht
    · exact ⟨s, by simp, hm x hx, h1.symm⟩
    · exact ⟨t, by simp [ht], hx, rfl⟩
  refine ⟨fun t ht x hx => ?_, List.pairwise_cons.2 ⟨fun t ht x hx hxt => hp.1 t ht x (hv x hx) hxt, hp.2⟩, fun t ht ho x hx hx' => ?_, ?_⟩
  · obtain ⟨t', ht', hx', ho⟩ := hmem t ht x hx
    rw [← ho]
    exact h.view t' ht' x hx'
  · rcases List.mem_cons.1 ht with rfl | ht
    · exact h.self s (by simp) (by rw [← h1]; exact ho) x (hm x hx) (hc x hx')
    · exact h.self t (by simp [ht]) ho x hx hx'
  · intro t ht u hu x z hx hz
    obtain ⟨t', ht', hx', _⟩ := hmem t ht x hx
    obtain ⟨u', hu', hz', _⟩ := hmem u hu z hz
    exact h.store t' ht' u' hu' x z hx' hz'

theorem Views.tail {y : Sys} {st : St} {s : Seg} {l : List Seg} (h : Views y st (s :: l)) : Views y st l :=
  ⟨fun t ht => h.view t (by simp [ht]), (List.pairwise_cons.1 h.disj).2, fun t ht => h.self t (by simp [ht]),
    fun t ht u hu => h.store t (by simp [ht]) u (by simp [hu])⟩

theorem holds_iff (s : Seg) (x : Nat) : s.holds x = true ↔ InData s x := by simp [Seg.holds, InData]

/-- The segment holding an address is unique. -/
theorem holding_of {x : Nat} {s : Seg} (hx : InData s x) : ∀ {l : List Seg}, l.Pairwise Dis → s ∈ l → segHolding l x = some s
  | [], _, hs => by simp at hs
  | t :: l, hp, hs => by
    have hp := List.pairwise_cons.1 hp
    unfold segHolding
    rw [List.find?_cons]
    by_cases ht : t.holds x = true
    · simp only [ht]
      rcases List.mem_cons.1 hs with rfl | hs
      · rfl
      · exact absurd (.inl hx) (hp.1 s hs x (.inl ((holds_iff t x).1 ht)))
    · rcases List.mem_cons.1 hs with rfl | hs
      · exact absurd ((holds_iff s x).2 hx) ht
      · simp only [ht]
        exact holding_of hx hp.2 hs

theorem code_iff (s : Seg) (x : Nat) :
    (decide ((s.base : Int) + s.off ≤ x) && decide ((x : Int) < s.base + s.off + s.size)) = true ↔ InCode s x := by
  simp [InCode]

theorem holdingCode_of {x : Nat} {s : Seg} (hx : InCode s x) : ∀ {l : List Seg}, l.Pairwise Dis → s ∈ l → segHoldingCode l x = some s
  | [], _, hs => by simp at hs
  | t :: l, hp, hs => by
    have hp := List.pairwise_cons.1 hp
    unfold segHoldingCode
    rw [List.find?_cons]
    by_cases ht : InCode t x
    · rw [(code_iff t x).2 ht]
      rcases List.mem_cons.1 hs with rfl | hs
      · rfl
      · exact absurd (.inr hx) (hp.1 s hs x (.inr ht))
    · rcases List.mem_cons.1 hs with rfl | hs
      · exact absurd hx ht
      · rw [Bool.eq_false_iff.2 (fun h => ht ((code_iff t x).1 h))]
        exact holdingCode_of hx hp.2 hs

theorem find_upd {p : Seg → Bool} {f : Seg → Seg} : ∀ {l : List Seg} {s : Seg}, l.find? p = some s →
    ∃ l1 l2, l = l1 ++ s :: l2 ∧ updFirst p f l = l1 ++ f s :: l2 ∧ p s = true
  | [], s, h => by simp at h
  | t :: l, s, h => by
    rw [List.find?_cons] at h
    unfold updFirst
    by_cases ht : p t = true
    · simp only [ht, Option.some.injEq] at h
      subst h
      exact ⟨[], l, rfl, by simp [ht], ht⟩
    · simp only [ht] at h
      obtain ⟨l1, l2, h1, h2, h3⟩ := find_upd (f := f) h
      exact ⟨t :: l1, l2, by simp [h1], by simp [ht, h2], h3⟩

/-! ## Use of new memory -/

/-- Stores do not change the views. -/
theorem Views.setW {y : Sys} {st st' : St} {a : Nat} {v : Int} {l : List Seg} (h : Views y st l) (hs : st.setW a v = .ok st') : Views y st' l := by
  obtain ⟨w1, w2, w3, w4, w5, w6⟩ := setW_spec hs
  refine h.mono (fun _ _ x _ => by rw [w1]) fun p hp => ?_
  cases p with
  | anon t o => exact Nat.lt_of_lt_of_le hp (Nat.le_of_eq w6.symm)
  | file id o =>
    obtain ⟨fd, f, a1, a2, a3, a4⟩ := hp
    exact ⟨fd, f, by rw [w2]; exact a1, by rw [w4]; exact a2, a3, by rw [w3]; exact a4⟩

/-- What stores keep, apart from the words. -/
structure Stored (st st' : St) : Prop where
  vm : st'.vm = st.vm
  same : Same st st'
  tr : st'.tr = st.tr
  execfd : st'.execfd = st.execfd
  execsize : st'.execsize = st.execsize
  files : st'.files = st.files
  clock : st'.clock = st.clock

theorem Stored.refl (st : St) : Stored st st := ⟨rfl, Same.refl _, rfl, rfl, rfl, rfl, rfl⟩

theorem Stored.trans {a b d : St} (h : Stored a b) (k : Stored b d) : Stored a d :=
  ⟨k.1.trans h.1, h.2.trans k.2, k.3.trans h.3, k.4.trans h.4, k.5.trans h.5, k.6.trans h.6, k.7.trans h.7⟩

theorem Stored.phys {st st' : St} (h : Stored st st') {p : Phys} (hp : PhysOk st p) : PhysOk st' p := by
  cases p with
  | anon t o => exact Nat.lt_of_lt_of_le hp (Nat.le_of_eq h.clock.symm)
  | file id o =>
    obtain ⟨fd, f, a1, a2, a3, a4⟩ := hp
    exact ⟨fd, f, by rw [h.execfd]; exact a1, by rw [h.files]; exact a2, a3, by rw [h.execsize]; exact a4⟩

theorem Stored.views {y : Sys} {st st' : St} {l : List Seg} (hs : Stored st st') (h : Views y st l) : Views y st' l :=
  h.mono (fun _ _ x _ => by rw [hs.vm]) fun _ => hs.phys

/-- A store to a writable address. -/
theorem setW_ok {st : St} {a : Nat} {d : Pg} (h : st.vm a = some d) (hw : d.w = true) (v : Int) :
    ∃ st', st.setW a v = .ok st' ∧ Stored st st' ∧ ∀ p, st'.words p = if p = d.phys then v else st.words p := by
  unfold St.setW
  simp only [h, hw, if_true]
  exact ⟨_, rfl, ⟨rfl, ⟨rfl, rfl, rfl⟩, rfl, rfl, rfl, rfl, rfl⟩, fun p => rfl⟩

theorem getW_ok {st : St} {a : Nat} {d : Pg} (h : st.vm a = some d) : st.getW a = .ok (st.words d.phys) := by
  unfold St.getW
  simp only [h]

/-- The new memory as seen by `set_segment_flags`: mapped at both addresses with the same
storage, different for different bytes, and the distance in the last word. -/
structure Fresh (c : Cfg) (st : St) (a len b : Nat) (mk : Nat → Phys) : Prop where
  data : ∀ o, o < len → ∃ d, st.vm (a + o) = some d ∧ d.phys = mk o ∧ d.w = true
  code : ∀ o, o < len → ∃ d, st.vm (b + o) = some d ∧ d.phys = mk o
  word : st.words (mk (len - c.word)) = (b : Int) - a
  inj : ∀ o o', mk o = mk o' → o = o'

theorem NewMap.toFresh {c : Cfg} {y : Sys} {st st' : St} {a len b : Nat} {mk : Nat → Phys} (h : NewMap y st st' c.word a len b mk) :
    Fresh c st' a len b mk :=
  ⟨fun o ho => by obtain ⟨d, h1, h2, h3, _⟩ := h.data o ho; exact ⟨d, h1, h2, h3⟩,
    fun o ho => by obtain ⟨d, h1, h2, _⟩ := h.code o ho; exact ⟨d, h1, h2⟩, h.word, h.inj⟩

theorem setFlags_ok {c : Cfg} {st : St} {a len b : Nat} {mk : Nat → Phys} (h : Fresh c st a len b mk) (hw : 0 < c.word) (hlen : c.word ≤ len) :
    ∃ st', setFlags c a len st = .ok (⟨a, len, (b : Int) - a⟩, st') ∧ Stored st st' := by
  obtain ⟨d, d1, d2, d3⟩ := h.data (len - c.word) (by omega)
  obtain ⟨p, p1, p2⟩ := h.code (len - c.word) (by omega)
  have e : a + (len - c.word) = a + len - c.word := by omega
  rw [e] at d1
  have g1 := getW_ok d1
  rw [d2, h.word] at g1
  have g2 : st.getWI ((a : Int) + ((b : Int) - a) + len - c.word) = .ok ((b : Int) - a) := by
    unfold St.getWI
    rw [if_neg (by omega), show ((a : Int) + ((b : Int) - a) + len - c.word).toNat = b + (len - c.word) by omega]
    rw [getW_ok p1, p2, h.word]
  obtain ⟨st', s1, s2, _⟩ := setW_ok d1 d3 0
  refine ⟨st', ?_, s2⟩
  unfold setFlags
  simp only [g1, g2, s1, bind, Except.bind, pure, Except.pure, ne_eq, not_true, if_false]

theorem initTop_ok {c : Cfg} {y : Sys} {st : St} {a len b : Nat} {mk : Nat → Phys} (h : Fresh c st a len b mk)
    (hfoot : 2 * c.word < y.foot) (hlen : y.foot ≤ len) :
    ∃ st', initTop c y a len st = .ok st' ∧ Stored st st' ∧ Fresh c st' a len b mk := by
  obtain ⟨d, d1, d2, d3⟩ := h.data c.word (by omega)
  obtain ⟨e, e1, e2, e3⟩ := h.data (len - y.foot + c.word) (by omega)
  rw [show a + (len - y.foot + c.word) = a + len - y.foot + c.word by omega] at e1
  obtain ⟨st1, s1, s2, s3⟩ := setW_ok d1 d3 ((len - y.foot : Nat) + 1)
  obtain ⟨st2, t1, t2, t3⟩ := setW_ok (st := st1) (by rw [s2.vm]; exact e1) e3 y.foot
  refine ⟨st2, ?_, s2.trans t2, ?_⟩
  · unfold initTop
    simp only [s1, t1, bind, Except.bind]
  · refine ⟨?_, ?_, ?_, h.inj⟩
    · rw [(s2.trans t2).vm]; exact h.data
    · rw [(s2.trans t2).vm]; exact h.code
    · rw [t3, s3, d2, e2, if_neg (fun hh => by have := h.inj _ _ hh; omega), if_neg (fun hh => by have := h.inj _ _ hh; omega), h.word]

theorem mergeable_ok {c : Cfg} {st : St} {a len b : Nat} {mk : Nat → Phys} (h : Fresh c st a len b mk) (hw : 0 < c.word) (hlen : c.word ≤ len) (s : Seg) :
    mergeable c s a len st = .ok (decide ((b : Int) - a = s.off)) := by
  obtain ⟨d, d1, d2, d3⟩ := h.data (len - c.word) (by omega)
  rw [show a + (len - c.word) = a + len - c.word by omega] at d1
  have g1 := getW_ok d1
  rw [d2, h.word] at g1
  unfold mergeable
  simp only [g1, bind, Except.bind, pure, Except.pure]

theorem reqSize_ge (c : Cfg) (y : Sys) (nb : Nat) (hp : 0 < c.page) : nb + y.foot + 1 ≤ reqSize c y nb := by
  unfold reqSize
  have h := Nat.div_add_mod (nb + y.foot + 1 + c.page) c.page
  have h2 := Nat.mod_lt (nb + y.foot + 1 + c.page) hp
  rw [Nat.mul_comm] at h
  omega

/-- What `placeNew` gives. -/
def Placed (y : Sys) (g g' : G) : Prop := Stored g.s g'.s ∧ Views y g'.s g'.segs ∧ g'.half = g.half

theorem addSegment_ok {c : Cfg} {y : Sys} (hok : SizesOk c y) {g : G} {a len b : Nat} {mk : Nat → Phys} (hfr : Fresh c g.s a len b mk)
    (hlen : y.foot ≤ len) (hv : Views y g.s (⟨a, len, (b : Int) - a⟩ :: g.segs)) :
    ∃ g', addSegment c y a len g = .ok g' ∧ Placed y g g' := by
  have h1 := hok.word
  have h2 := hok.foot
  obtain ⟨st1, i1, i2, i3⟩ := initTop_ok hfr h2 hlen
  obtain ⟨st2, f1, f2⟩ := setFlags_ok i3 h1 (by omega)
  refine ⟨⟨st2, ⟨a, len, (b : Int) - a⟩ :: g.segs, g.half⟩, ?_, i2.trans f2, (i2.trans f2).views hv, rfl⟩
  unfold addSegment
  simp only [i1, f1, bind, Except.bind, pure, Except.pure]

theorem prependOrAdd_ok {c : Cfg} {y : Sys} (hok : SizesOk c y) {g : G} {a len b : Nat} {mk : Nat → Phys} (hfr : Fresh c g.s a len b mk)
    (hlen : y.foot ≤ len) (hv : Views y g.s (⟨a, len, (b : Int) - a⟩ :: g.segs)) :
    ∃ g', prependOrAdd c y a len g = .ok g' ∧ Placed y g g' := by
  have h1 := hok.word
  have h2 := hok.foot
  unfold prependOrAdd
  cases hf : g.segs.find? fun s => s.base == a + len with
  | none => exact addSegment_ok hok hfr hlen hv
  | some s =>
    simp only [mergeable_ok hfr h1 (by omega), bind, Except.bind]
    by_cases ho : (b : Int) - a = s.off
    · simp only [ho, decide_true, if_true, pure, Except.pure]
      obtain ⟨l1, l2, e1, e2, e3⟩ := find_upd (f := fun s => { s with base := a, size := s.size + len }) hf
      refine ⟨_, rfl, Stored.refl _, ?_, rfl⟩
      simp only [beq_iff_eq] at e3
      simp only
      rw [e2]
      rw [e1] at hv
      refine (Views.merge (n := ⟨a, len, (b : Int) - a⟩) (s := s) (m := { s with base := a, size := s.size + len }) (l := l1 ++ l2)
        (hv.perm (List.Perm.cons _ List.perm_middle)) ?_ ?_ ho.symm rfl).perm List.perm_middle.symm
      · intro x hx
        simp only [InData] at hx ⊢
        omega
      · intro x hx
        simp only [InCode] at hx ⊢
        omega
    · simp only [ho, decide_false]
      exact addSegment_ok hok hfr hlen hv

theorem placeNew_ok {c : Cfg} {y : Sys} (hok : SizesOk c y) (top : Seg → Bool) {g : G} {a len b : Nat} {mk : Nat → Phys} (hfr : Fresh c g.s a len b mk)
    (hlen : y.foot ≤ len) (hv : Views y g.s (⟨a, len, (b : Int) - a⟩ :: g.segs)) :
    ∃ g', placeNew c y top a len g = .ok g' ∧ Placed y g g' := by
  have h1 := hok.word
  have h2 := hok.foot
  unfold placeNew
  cases hl : g.segs with
  | nil =>
    obtain ⟨st1, f1, f2⟩ := setFlags_ok hfr h1 (by omega)
    have hfr1 : ∃ st', initTop c y a len st1 = .ok st' ∧ Stored st1 st' := by
      obtain ⟨d, d1, d2, d3⟩ := hfr.data c.word (by omega)
      obtain ⟨e, e1, e2, e3⟩ := hfr.data (len - y.foot + c.word) (by omega)
      rw [show a + (len - y.foot + c.word) = a + len - y.foot + c.word by omega] at e1
      obtain ⟨st2, s1, s2, _⟩ := setW_ok (st := st1) (by rw [f2.vm]; exact d1) d3 ((len - y.foot : Nat) + 1)
      obtain ⟨st3, t1, t2, _⟩ := setW_ok (st := st2) (by rw [s2.vm, f2.vm]; exact e1) e3 y.foot
      refine ⟨st3, ?_, s2.trans t2⟩
      unfold initTop
      simp only [s1, t1, bind, Except.bind]
    obtain ⟨st2, i1, i2⟩ := hfr1
    simp only [f1, i1, bind, Except.bind, pure, Except.pure]
    rw [hl] at hv
    exact ⟨_, rfl, f2.trans i2, (f2.trans i2).views hv, rfl⟩
  | cons t l =>
    simp only
    cases hf : (t :: l).find? fun s => a == s.base + s.size with
    | none => exact prependOrAdd_ok hok hfr hlen hv
    | some s =>
      simp only [mergeable_ok hfr h1 (by omega), bind, Except.bind]
      by_cases ho : (b : Int) - a = s.off ∧ top s = true
      · simp only [ho.1, ho.2, decide_true, Bool.and_self, if_true, pure, Except.pure]
        obtain ⟨l1, l2, e1, e2, e3⟩ := find_upd (f := fun s => { s with size := s.size + len }) hf
        refine ⟨_, rfl, Stored.refl _, ?_, rfl⟩
        simp only [beq_iff_eq] at e3
        simp only
        rw [e2]
        rw [hl, e1] at hv
        refine (Views.merge (n := ⟨a, len, (b : Int) - a⟩) (s := s) (m := { s with size := s.size + len }) (l := l1 ++ l2)
          (hv.perm (List.Perm.cons _ List.perm_middle)) ?_ ?_ ho.1.symm rfl).perm List.perm_middle.symm
        · intro x hx
          simp only [InData] at hx ⊢
          omega
        · intro x hx
          simp only [InCode] at hx ⊢
          omega
      · rw [if_neg (by simpa using ho)]
        exact prependOrAdd_ok hok hfr hlen hv

end Verif.Dual
