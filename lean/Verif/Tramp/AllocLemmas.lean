import Verif.Tramp.DelLemmas
import Verif.Spec.Tramp

namespace Verif.Tramp
open Verif

/-- A new table with an empty free list. -/
theorem HInv.new {prot0 : Nat → Option Prot} {s s' : St} {T : List Nat} {fr : Nat → List Nat} {k : Nat → Nat}
    (h : HInv prot0 s T fr k) {t a m : Nat} {x : Table} {arr : Nat → Tramp}
    (ht : s.tables t = none) (ha : s.arrays a = none) (hm : ∀ o, o < 2 * s.mapSize → s.prot (m + o) = none)
    (xc : x.code = m) (xp : x.parm = m + s.mapSize) (xa : x.array = a) (xf : x.free = none) (xn : x.nfree = 0)
    (et : s'.tables = upd s.tables t (some x)) (ea : s'.arrays = upd s.arrays a (some arr))
    (ep : ∀ b, s'.prot b = if m ≤ b ∧ b < m + s.mapSize then some .rx
      else if m ≤ b ∧ b < m + s.mapSize * 2 then some .rw else s.prot b)
    (em : ∀ b, s'.mem b = if m ≤ b ∧ b < m + s.mapSize then s.text (b - m)
      else if m ≤ b ∧ b < m + s.mapSize * 2 then 0 else s.mem b)
    (hs : s'.size = s.size ∧ s'.mapSize = s.mapSize ∧ s'.ntramp = s.ntramp ∧ s'.text = s.text) :
    HInv prot0 s' (t :: T) (upd fr t []) (upd k t 0) := by
  obtain ⟨s1, s2, s3, s4⟩ := hs
  have htT : t ∉ T := fun e => (h.dom t).2 e ht
  have back : ∀ u y, s'.tables u = some y → (u = t ∧ y = x) ∨ (u ≠ t ∧ s.tables u = some y) := by
    intro u y hy
    rw [et] at hy
    by_cases hu : u = t
    · subst hu
      rw [upd_same, Option.some.injEq] at hy
      exact .inl ⟨rfl, hy.symm⟩
    · rw [upd_other _ _ hu] at hy
      exact .inr ⟨hu, hy⟩
  have mapped : ∀ u y b, s.tables u = some y → InReg s.mapSize y b → s.prot b ≠ none := by
    intro u y b hy hr
    unfold InReg at hr
    by_cases hb : b < y.code + s.mapSize
    · have := (h.code u y (b - y.code) hy (by omega)).1
      rw [show y.code + (b - y.code) = b by omega] at this
      rw [this]; simp
    · have := h.data u y (b - y.code - s.mapSize) hy (by omega)
      rw [show y.code + s.mapSize + (b - y.code - s.mapSize) = b by omega] at this
      rw [this]; simp
  have unm : ∀ b, InReg s.mapSize x b → s.prot b = none := by
    intro b hr
    unfold InReg at hr
    have := hm (b - m) (by omega)
    rwa [show m + (b - m) = b by omega] at this
  have notin : ∀ u y b, s.tables u = some y → InReg s.mapSize y b → ¬ InReg s.mapSize x b :=
    fun u y b hy hr hx => mapped u y b hy hr (unm b hx)
  have prot_old : ∀ b, ¬ InReg s.mapSize x b → s'.prot b = s.prot b := by
    intro b hb
    unfold InReg at hb
    rw [ep, if_neg (by omega), if_neg (by omega)]
  have mem_old : ∀ b, ¬ InReg s.mapSize x b → s'.mem b = s.mem b := by
    intro b hb
    unfold InReg at hb
    rw [em, if_neg (by omega), if_neg (by omega)]
  have arr_ne : ∀ u y, s.tables u = some y → y.array ≠ a := by
    intro u y hy e
    obtain ⟨_, hb, _⟩ := h.body u y hy
    rw [e, ha] at hb
    exact absurd hb (by simp)
  constructor
  · exact List.nodup_cons.2 ⟨htT, h.nodup⟩
  · intro u
    rw [et, List.mem_cons, ← h.dom u]
    by_cases hu : u = t
    · subst hu; simp
    · rw [upd_other _ _ hu]; simp [hu]
  · intro u y hy
    rw [s1, s2, s3, ea]
    rcases back u y hy with ⟨rfl, rfl⟩ | ⟨hu, hy⟩
    · rw [xa, upd_same, upd_same, upd_same]
      refine ⟨arr, rfl, ?_⟩
      constructor
      · exact xf
      · exact List.nodup_nil
      · simp
      · omega
      · simp [xn]
      · rw [xp, xc]
      · intro i hi; omega
    · rw [upd_other _ _ hu, upd_other _ _ hu, upd_other _ _ (arr_ne u y hy)]
      exact h.body u y hy
  · intro u u' y y' h1 h2 h3
    rcases back u y h1 with ⟨rfl, rfl⟩ | ⟨hu, hy⟩ <;> rcases back u' y' h2 with ⟨rfl, rfl⟩ | ⟨hu', hy'⟩
    · rfl
    · exact absurd (h3.symm.trans xa) (arr_ne u' y' hy')
    · exact absurd (h3.trans xa) (arr_ne u y hy)
    · exact h.inj u u' y y' hy hy' h3
  · intro b hb
    rw [ea] at hb
    by_cases hba : b = a
    · exact ⟨t, x, by rw [et, upd_same], by rw [xa, hba]⟩
    · rw [upd_other _ _ hba] at hb
      obtain ⟨u, y, e1, e2⟩ := h.arrDom b hb
      have hu : u ≠ t := by
        intro e; subst e; rw [ht] at e1; simp at e1
      exact ⟨u, y, by rw [et, upd_other _ _ hu, e1], e2⟩
  · intro u u' y y' b h1 h2 h3 h4
    rw [s2] at h3 h4
    rcases back u y h1 with ⟨rfl, rfl⟩ | ⟨hu, hy⟩ <;> rcases back u' y' h2 with ⟨rfl, rfl⟩ | ⟨hu', hy'⟩
    · rfl
    · exact absurd h3 (notin u' y' b hy' h4)
    · exact absurd h4 (notin u y b hy h3)
    · exact h.disj u u' y y' b hy hy' h3 h4
  · intro u y o h1 h2
    rw [s2] at h2
    rw [s4]
    rcases back u y h1 with ⟨rfl, rfl⟩ | ⟨hu, hy⟩
    · rw [ep, em, xc, if_pos (by omega), if_pos (by omega)]
      simp
    · have hr : ¬ InReg s.mapSize x (y.code + o) := notin u y _ hy (by unfold InReg; omega)
      rw [prot_old _ hr, mem_old _ hr]
      exact h.code u y o hy h2
  · intro u y o h1 h2
    rw [s2] at h2
    rw [s2]
    rcases back u y h1 with ⟨rfl, rfl⟩ | ⟨hu, hy⟩
    · rw [ep, xc, if_neg (by omega), if_pos (by omega)]
    · have hr : ¬ InReg s.mapSize x (y.code + s.mapSize + o) := notin u y _ hy (by unfold InReg; omega)
      rw [prot_old _ hr]
      exact h.data u y o hy h2
  · intro b hout
    rw [s2] at hout
    rw [prot_old b (hout t x (by rw [et, upd_same]))]
    refine h.out b fun u y h1 => ?_
    refine hout u y ?_
    rw [et, upd_other, h1]
    intro e; subst e; rw [ht] at h1; simp at h1
  · intro u y b h1 h2
    rw [s2] at h2
    rcases back u y h1 with ⟨rfl, rfl⟩ | ⟨hu, hy⟩
    · rw [← h.out b fun u' y' hy' hr => notin u' y' b hy' hr h2]
      exact unm b h2
    · exact h.fresh u y b hy h2
  · rw [s3]; exact h.npos
  · rw [s1, s2, s3]; exact h.fit

/-- Entry `i` filled in. -/
theorem fill_body {size ms n t : Nat} {x : Table} {arr : Nat → Tramp} {fr : List Nat} {i : Nat} (f : Tramp)
    (h : Body size ms n t x arr fr i) (hi : i < n)
    (ft : f.table = t) (fc : f.code = x.code + i * size) (fp : f.parm = x.parm + i * size) :
    Body size ms n t x (upd arr i f) fr (i + 1) := by
  constructor
  · refine h.seg.congr fun q hq => ?_
    obtain ⟨j, hj, rfl⟩ := List.mem_map.1 hq
    have : j ≠ i := Nat.ne_of_lt (h.lt j hj)
    simp only [upd_other _ _ this, and_self]
  · exact h.nodup
  · exact fun j hj => Nat.lt_succ_of_lt (h.lt j hj)
  · omega
  · exact h.nfree
  · exact h.parm
  · intro j hj
    by_cases hji : j = i
    · subst hji; rw [upd_same]; exact ⟨ft, fc, fp⟩
    · rw [upd_other _ _ hji]; exact h.ent j (by omega)

/-- The loop of `tramp_table_alloc` puts all entries into the free list. -/
theorem fillLoop_inv {prot0 : Nat → Option Prot} {T : List Nat} {t : Nat} :
    ∀ (m i : Nat) {s : St} {fr : Nat → List Nat} {k : Nat → Nat} {gl : List Nat} {x : Table},
      HInv prot0 s T fr k → LInv s gl → GInv s.ntramp T fr gl → s.tables t = some x →
      fr t = (List.range i).reverse → k t = i → (gl = if i = 0 then [] else [t]) → i + m = s.ntramp →
      ∃ s', fillLoop t x.array m i (x.code + i * s.size) (x.parm + i * s.size) s = .ok s' ∧
        HInv prot0 s' T (upd fr t (List.range s.ntramp).reverse) (upd k t s.ntramp) ∧
        (∃ gl', LInv s' gl' ∧ GInv s.ntramp T (upd fr t (List.range s.ntramp).reverse) gl' ∧
          (gl' = if i + m = 0 then [] else [t])) ∧
        s'.prot = s.prot ∧ s'.mem = s.mem ∧ s'.fd = s.fd ∧ s'.status = s.status ∧
        (s'.size = s.size ∧ s'.mapSize = s.mapSize ∧ s'.ntramp = s.ntramp ∧ s'.text = s.text) ∧
        (∀ u y, s'.tables u = some y → ∃ y', s.tables u = some y' ∧ y.array = y'.array ∧ y.code = y'.code)
  | 0, i, s, fr, k, gl, x, h, hl, hg, hx, hf, hk, hgl, hn => by
    refine ⟨s, rfl, ?_, ⟨gl, hl, ?_, hgl⟩, rfl, rfl, rfl, rfl, ⟨rfl, rfl, rfl, rfl⟩, fun u y hy => ⟨y, hy, rfl, rfl⟩⟩
    · rw [upd_self fr t _ (by rw [hf, ← hn]; rfl), upd_self k t _ (by rw [hk, ← hn]; rfl)]
      exact h
    · rw [upd_self fr t _ (by rw [hf, ← hn]; rfl)]
      exact hg
  | m + 1, i, s, fr, k, gl, x, h, hl, hg, hx, hf, hk, hgl, hn => by
    obtain ⟨arr, ha, hb⟩ := h.body t x hx
    have hi : i < s.ntramp := by omega
    rw [hk] at hb
    let f : Tramp := { arr i with table := t, code := x.code + i * s.size, parm := x.parm + i * s.size }
    let s1 : St := { s with arrays := upd s.arrays x.array (some (upd arr i f)) }
    have e1 : ∀ g : St → R St, (do
        let z ← s.setR (x.array, i) fun x => { x with table := t }
        let z ← z.setR (x.array, i) fun y => { y with code := x.code + i * s.size }
        let z ← z.setR (x.array, i) fun y => { y with parm := x.parm + i * s.size }
        g z) = g s1 := by
      intro g
      simp only [St.setR, ha, hi, if_true, bind, Except.bind, upd_same, upd_upd]
      rfl
    have H1 : HInv prot0 s1 T fr (upd k t (i + 1)) := by
      have := h.setBody (s' := s1) (x' := x) (l := fr t) hx ⟨rfl, rfl⟩ (upd_self _ _ _ hx).symm rfl rfl rfl
        ⟨rfl, rfl, rfl, rfl⟩ (fill_body f hb hi rfl rfl rfl)
      rwa [upd_self fr t _ rfl] at this
    have L1 : LInv s1 gl := hl.congr (fun _ _ => ⟨rfl, rfl⟩) rfl rfl
    have hnf : i ∉ fr t := by rw [hf]; simp
    obtain ⟨s2, c1, c2, c3, c4, c5, c6⟩ := trampAdd_inv (i := i) (t := t) H1 L1 hg hx (by rw [upd_same]; omega) hnf
    have hlt : ∀ u ∈ gl, u = t := by
      intro u hu
      rw [hgl] at hu
      split_ifs at hu
      · simp at hu
      · simpa using hu
    rcases c6 with ⟨d1, ⟨gl', d2, d3, d4, d5, d6⟩, d7, d8⟩ | ⟨_, _, _, ⟨u, hu, hne⟩, _⟩
    · have hgl' : gl' = if i + 1 = 0 then [] else [t] := by
        rw [if_neg (by omega)]
        by_cases hi0 : i = 0
        · exact d5 (by rw [hgl, if_pos hi0])
        · exact d6 (by rw [hgl, if_neg hi0])
      obtain ⟨x2, hx2⟩ := Option.ne_none_iff_exists'.1 ((d1.dom t).2 ((h.dom t).1 (by rw [hx]; simp)))
      obtain ⟨y', f1, f2, f3⟩ := d8 t x2 hx2
      have : y' = x := by
        have f1' : s.tables t = some y' := f1
        rw [hx] at f1'
        exact (Option.some.inj f1').symm
      subst this
      have hpx : x2.parm = y'.parm := by
        obtain ⟨_, _, hb2⟩ := d1.body t x2 hx2
        rw [hb2.parm, hb.parm, f3, c5.2.1]
      obtain ⟨s', g1, g2, ⟨gl'', g3, g4, g5⟩, g6, g7, g8, g9, g10, g11⟩ := fillLoop_inv m (i + 1)
        (s := s2) (fr := upd fr t (i :: fr t)) (k := upd k t (i + 1)) (gl := gl') (x := x2) d1 d2
        (by rw [c5.2.2.1]; exact d3) hx2
        (by rw [upd_same, hf, List.range_succ, List.reverse_append]; rfl) (by rw [upd_same])
        hgl' (by rw [c5.2.2.1]; show i + 1 + m = s.ntramp; omega)
      rw [upd_upd, upd_upd, show s2.ntramp = s.ntramp from c5.2.2.1] at g2
      rw [upd_upd, show s2.ntramp = s.ntramp from c5.2.2.1] at g4
      refine ⟨s', ?_, g2, ⟨gl'', g3, g4, ?_⟩, by rw [g6, d7], by rw [g7, c2], by rw [g8, c3], by rw [g9, c4], ?_, ?_⟩
      · unfold fillLoop
        rw [e1]
        simp only [c1, bind, Except.bind]
        rw [f2, f3, hpx, show s2.size = s.size from c5.1] at g1
        rw [← g1]
        congr 1
        · rw [show s2.size = s.size from c5.1]; ring
        · rw [show s2.size = s.size from c5.1]; ring
      · rw [g5]; congr 1
        simp
      · obtain ⟨w1, w2, w3, w4⟩ := g10
        obtain ⟨v1, v2, v3, v4⟩ := c5
        exact ⟨w1.trans v1, w2.trans v2, w3.trans v3, w4.trans v4⟩
      · intro u y hy
        obtain ⟨y1, b1, b2, b3⟩ := g11 u y hy
        obtain ⟨y2, b4, b5, b6⟩ := d8 u y1 b1
        exact ⟨y2, b4, b2.trans b5, b3.trans b6⟩
    · exact absurd (hlt u hu) hne

/-- `tramp_table_alloc`. -/
theorem tableAlloc_inv {prot0 : Nat → Option Prot} {s : St} {T : List Nat} {fr : Nat → List Nat} {k : Nat → Nat}
    {gl : List Nat} {e : TabEnv} (h : HInv prot0 s T fr k) (hl : LInv s gl) (hg : GInv s.ntramp T fr gl)
    (he : TabEnvOk s.mapSize s e) :
    ∃ s' b, tableAlloc e s = .ok (s', b) ∧
      (∀ a, s.prot a ≠ none → s'.mem a = s.mem a) ∧ s'.fd = s.fd ∧ s'.status = s.status ∧
      (s'.size = s.size ∧ s'.mapSize = s.mapSize ∧ s'.ntramp = s.ntramp ∧ s'.text = s.text) ∧
      ((gl ≠ [] ∧ s' = s ∧ b = true) ∨
       (gl = [] ∧ b = false ∧ s'.tables = s.tables ∧ s'.arrays = s.arrays ∧ s'.prot = s.prot ∧
          s'.freeTables = s.freeTables ∧ s'.nfreeTables = s.nfreeTables ∧
          (e.table = none ∨ e.array = none ∨ e.map1 = none ∨ e.map2 = false)) ∨
       (gl = [] ∧ b = true ∧ e.table ≠ none ∧ e.array ≠ none ∧ e.map1 ≠ none ∧ e.map2 = true ∧
          ∃ t, t ∉ T ∧ HInv prot0 s' (t :: T) (upd fr t (List.range s.ntramp).reverse) (upd k t s.ntramp) ∧
            LInv s' [t] ∧ GInv s.ntramp (t :: T) (upd fr t (List.range s.ntramp).reverse) [t] ∧
            (∀ u y, u ≠ t → s'.tables u = some y →
              ∃ y', s.tables u = some y' ∧ y.array = y'.array ∧ y.code = y'.code) ∧
            (∀ a, s.prot a ≠ none → s'.prot a = s.prot a))) := by
  unfold tableAlloc
  by_cases hgl : gl = []
  · have hz : ¬ s.nfreeTables > 0 := by rw [hl.count, hgl]; simp
    rw [if_neg hz]
    cases hT : e.table with
    | none =>
      exact ⟨s, false, rfl, fun _ _ => rfl, rfl, rfl, ⟨rfl, rfl, rfl, rfl⟩,
        .inr (.inl ⟨hgl, rfl, rfl, rfl, rfl, rfl, rfl, .inl rfl⟩)⟩
    | some tx =>
      obtain ⟨t, tj⟩ := tx
      have htn := he.table t tj hT
      cases hA : e.array with
      | none =>
        refine ⟨s, false, ?_, fun _ _ => rfl, rfl, rfl, ⟨rfl, rfl, rfl, rfl⟩,
          .inr (.inl ⟨hgl, rfl, rfl, rfl, rfl, rfl, rfl, .inr (.inl rfl)⟩)⟩
        simp only [St.freeTable, upd_same, upd_upd, upd_self _ _ _ htn, bind, Except.bind, pure, Except.pure]
      | some ax =>
        obtain ⟨a, aj⟩ := ax
        have han := he.array a aj hA
        cases hM : e.map1 with
        | none =>
          refine ⟨s, false, ?_, fun _ _ => rfl, rfl, rfl, ⟨rfl, rfl, rfl, rfl⟩,
            .inr (.inl ⟨hgl, rfl, rfl, rfl, rfl, rfl, rfl, .inr (.inr (.inl rfl))⟩)⟩
          simp only [tableMap, hM, St.freeTable, St.freeArray, upd_same, upd_upd, upd_self _ _ _ htn,
            upd_self _ _ _ han, bind, Except.bind, pure, Except.pure]
        | some m =>
          have hmn := he.map m hM
          have unm : ∀ b, m ≤ b → b < m + s.mapSize * 2 → s.prot b = none := by
            intro b h1 h2
            have := hmn (b - m) (by omega)
            rwa [show m + (b - m) = b by omega] at this
          by_cases hM2 : e.map2 = true
          · -- success
            let x : Table := { tj with code := m, parm := m + s.mapSize, array := a, free := none, nfree := 0 }
            let s1 : St := { s with
              tables := upd s.tables t (some x)
              arrays := upd s.arrays a (some aj)
              prot := fun b => if m ≤ b ∧ b < m + s.mapSize then some .rx
                else if m ≤ b ∧ b < m + s.mapSize * 2 then some .rw else s.prot b
              mem := fun b => if m ≤ b ∧ b < m + s.mapSize then s.text (b - m)
                else if m ≤ b ∧ b < m + s.mapSize * 2 then 0 else s.mem b }
            have H1 : HInv prot0 s1 (t :: T) (upd fr t []) (upd k t 0) :=
              h.new (x := x) (arr := aj) htn han hmn rfl rfl rfl rfl rfl rfl rfl (fun _ => rfl) (fun _ => rfl)
                ⟨rfl, rfl, rfl, rfl⟩
            have L1 : LInv s1 gl := by
              refine hl.congr ?_ rfl rfl
              rw [hgl]; simp
            have htT : t ∉ T := fun e => (h.dom t).2 e htn
            have fre : ∀ u, u ∈ T → fr u = [] := by
              intro u hu
              by_contra hne
              have := (hg.mem u).2 ⟨hu, hne⟩
              rw [hgl] at this; simp at this
            have G1 : GInv s1.ntramp (t :: T) (upd fr t []) gl := by
              have hp := h.npos
              have all : ∀ u ∈ t :: T, upd fr t [] u = [] := by
                intro u hu
                by_cases hut : u = t
                · subst hut; rw [upd_same]
                · rw [upd_other _ _ hut]
                  exact fre u ((List.mem_cons.1 hu).resolve_left hut)
              constructor
              · intro u
                constructor
                · intro hu; rw [hgl] at hu; simp at hu
                · rintro ⟨h1, h2⟩
                  exact absurd (all u h1) h2
              · intro u hu u' hu' e1 e2
                rw [all u hu] at e1
                have : s1.ntramp = s.ntramp := rfl
                simp at e1
                omega
            obtain ⟨s', g1, g2, ⟨gl', g3, g4, g5⟩, g6, g7, g8, g9, g10, g11⟩ := fillLoop_inv s1.ntramp 0 (x := x)
              H1 L1 G1 (show s1.tables t = some x from upd_same _ _ _) (by rw [upd_same]; rfl) (by rw [upd_same])
              (by rw [hgl]; rfl) (by omega)
            have hp : s1.ntramp ≠ 0 := by
              have := h.npos
              show s.ntramp ≠ 0
              omega
            rw [if_neg (by omega)] at g5
            subst g5
            refine ⟨s', true, ?_, ?_, g8, g9, g10, .inr (.inr ⟨hgl, rfl, by simp, by simp, by simp, hM2, t, htT, ?_, g3, ?_, ?_, ?_⟩)⟩
            · simp only [Nat.zero_mul, Nat.add_zero] at g1
              simp only [tableMap, hM, hM2, if_true, St.setProt, St.setT, upd_same, upd_upd, bind, Except.bind, pure,
                Except.pure, St.getT]
              have g1' : fillLoop t a s.ntramp 0 m (m + s.mapSize) s1 = .ok s' := g1
              have e1 : ∀ z : St, z = s1 → fillLoop t a s.ntramp 0 m (m + s.mapSize) z = .ok s' := by
                intro z hz; rw [hz]; exact g1'
              rw [e1]
              rfl
            · intro b hb
              rw [g7]
              show (if m ≤ b ∧ b < m + s.mapSize then s.text (b - m)
                else if m ≤ b ∧ b < m + s.mapSize * 2 then 0 else s.mem b) = s.mem b
              have : ¬ (m ≤ b ∧ b < m + s.mapSize * 2) := fun hc => hb (unm b hc.1 hc.2)
              rw [if_neg (by omega), if_neg this]
            · rw [upd_upd, upd_upd] at g2
              exact g2
            · rw [upd_upd] at g4
              exact g4
            · intro u y hu hy
              obtain ⟨y', b1, b2, b3⟩ := g11 u y hy
              refine ⟨y', ?_, b2, b3⟩
              rw [← b1]
              exact (upd_other _ _ hu).symm
            · intro b hb
              rw [g6]
              show (if m ≤ b ∧ b < m + s.mapSize then some .rx
                else if m ≤ b ∧ b < m + s.mapSize * 2 then some .rw else s.prot b) = s.prot b
              have : ¬ (m ≤ b ∧ b < m + s.mapSize * 2) := fun hc => hb (unm b hc.1 hc.2)
              rw [if_neg (by omega), if_neg this]
          · rw [Bool.not_eq_true] at hM2
            refine ⟨{ s with mem := fun b => if m ≤ b ∧ b < m + s.mapSize * 2 then 0 else s.mem b }, false, ?_, ?_,
              rfl, rfl, ⟨rfl, rfl, rfl, rfl⟩,
              .inr (.inl ⟨hgl, rfl, rfl, rfl, rfl, rfl, rfl, .inr (.inr (.inr hM2))⟩)⟩
            · have hpr : (fun x => if m ≤ x ∧ x < m + s.mapSize * 2 then none
                  else if m ≤ x ∧ x < m + s.mapSize * 2 then some Prot.rw else s.prot x) = s.prot := by
                funext b
                split_ifs with h1
                · exact (unm b h1.1 h1.2).symm
                · rfl
              simp only [tableMap, hM, hM2, St.setProt, St.freeTable, St.freeArray, upd_same, upd_upd,
                upd_self _ _ _ htn, upd_self _ _ _ han, bind, Except.bind, pure, Except.pure, Bool.false_eq_true,
                if_false, hpr]
            · intro b hb
              have : ¬ (m ≤ b ∧ b < m + s.mapSize * 2) := fun hc => hb (unm b hc.1 hc.2)
              simp only [if_neg this]
  · have hz : s.nfreeTables > 0 := by
      rw [hl.count]
      have := List.length_pos_iff.2 hgl
      omega
    rw [if_pos hz]
    exact ⟨s, true, rfl, fun _ _ => rfl, rfl, rfl, ⟨rfl, rfl, rfl, rfl⟩, .inl ⟨hgl, rfl, rfl⟩⟩

end Verif.Tramp
