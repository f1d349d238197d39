import Verif.Tramp.Inv
import Mathlib.Data.List.Nodup

namespace Verif.Tramp
open Verif

instance (ms : Nat) (x : Table) (a : Nat) : Decidable (InReg ms x a) := by
  unfold InReg; infer_instance

/-- Rewriting the contents of one table and its array. -/
theorem HInv.setBody {prot0 : Nat → Option Prot} {s s' : St} {T : List Nat} {fr : Nat → List Nat} {k : Nat → Nat}
    (h : HInv prot0 s T fr k) {t : Nat} {x x' : Table} {arr' : Nat → Tramp} {l : List Nat} {kk : Nat}
    (hx : s.tables t = some x) (hc : x'.code = x.code ∧ x'.array = x.array)
    (ht : s'.tables = upd s.tables t (some x')) (ha : s'.arrays = upd s.arrays x.array (some arr'))
    (hp : s'.prot = s.prot) (hm : s'.mem = s.mem)
    (hs : s'.size = s.size ∧ s'.mapSize = s.mapSize ∧ s'.ntramp = s.ntramp ∧ s'.text = s.text)
    (hb : Body s.size s.mapSize s.ntramp t x' arr' l kk) :
    HInv prot0 s' T (upd fr t l) (upd k t kk) := by
  obtain ⟨s1, s2, s3, s4⟩ := hs
  have back : ∀ u y', s'.tables u = some y' → ∃ y, s.tables u = some y ∧ y'.code = y.code ∧ y'.array = y.array ∧
      (u ≠ t → y' = y) := by
    intro u y' hy
    rw [ht] at hy
    by_cases hu : u = t
    · subst hu
      rw [upd_same, Option.some.injEq] at hy
      subst hy
      exact ⟨x, hx, hc.1, hc.2, fun h => absurd rfl h⟩
    · rw [upd_other _ _ hu] at hy
      exact ⟨y', hy, rfl, rfl, fun _ => rfl⟩
  have fwd : ∀ u y, s.tables u = some y → ∃ y', s'.tables u = some y' ∧ y'.code = y.code ∧ y'.array = y.array := by
    intro u y hy
    rw [ht]
    by_cases hu : u = t
    · subst hu
      rw [hx, Option.some.injEq] at hy
      subst hy
      exact ⟨x', upd_same _ _ _, hc⟩
    · exact ⟨y, (upd_other _ _ hu).trans hy, rfl, rfl⟩
  have creg : ∀ {y y' : Table} {a : Nat}, y'.code = y.code → (InReg s.mapSize y' a ↔ InReg s.mapSize y a) := by
    intro y y' a e
    unfold InReg; rw [e]
  constructor
  · exact h.nodup
  · intro u
    rw [ht, ← h.dom u]
    by_cases hu : u = t
    · subst hu; simp [hx]
    · rw [upd_other _ _ hu]
  · intro u y' hy
    rw [s1, s2, s3, ha]
    by_cases hu : u = t
    · subst hu
      rw [ht, upd_same, Option.some.injEq] at hy
      subst hy
      rw [hc.2, upd_same, upd_same, upd_same]
      exact ⟨arr', rfl, hb⟩
    · rw [ht, upd_other _ _ hu] at hy
      obtain ⟨arr, a1, a2⟩ := h.body u y' hy
      rw [upd_other _ _ hu, upd_other _ _ hu, upd_other]
      · exact ⟨arr, a1, a2⟩
      · intro e
        exact hu (h.inj u t y' x hy hx e)
  · intro u u' y y' h1 h2 h3
    obtain ⟨z, e1, _, e3, _⟩ := back u y h1
    obtain ⟨z', e1', _, e3', _⟩ := back u' y' h2
    exact h.inj u u' z z' e1 e1' (by rw [← e3, ← e3', h3])
  · intro a hx'
    rw [ha] at hx'
    by_cases haa : a = x.array
    · obtain ⟨y', e1, _, e3⟩ := fwd t x hx
      exact ⟨t, y', e1, e3.trans haa.symm⟩
    · rw [upd_other _ _ haa] at hx'
      obtain ⟨u, y, e1, e2⟩ := h.arrDom a hx'
      obtain ⟨y', e3, _, e4⟩ := fwd u y e1
      exact ⟨u, y', e3, e4.trans e2⟩
  · intro u u' y y' a h1 h2 h3 h4
    obtain ⟨z, e1, e2, _, _⟩ := back u y h1
    obtain ⟨z', e1', e2', _, _⟩ := back u' y' h2
    rw [s2] at h3 h4
    exact h.disj u u' z z' a e1 e1' ((creg e2).1 h3) ((creg e2').1 h4)
  · intro u y o h1 h2
    obtain ⟨z, e1, e2, _, _⟩ := back u y h1
    rw [s2] at h2
    rw [hp, hm, s4, e2]
    exact h.code u z o e1 h2
  · intro u y o h1 h2
    obtain ⟨z, e1, e2, _, _⟩ := back u y h1
    rw [s2] at h2
    rw [hp, s2, e2]
    exact h.data u z o e1 h2
  · intro a hout
    rw [hp]
    refine h.out a fun u y h1 h2 => ?_
    obtain ⟨y', e3, e4, _⟩ := fwd u y h1
    have := hout u y' e3
    rw [s2] at this
    exact this ((creg e4).2 h2)
  · intro u y a h1 h2
    obtain ⟨z, e1, e2, _, _⟩ := back u y h1
    rw [s2] at h2
    exact h.fresh u z a e1 ((creg e2).1 h2)
  · rw [s3]; exact h.npos
  · rw [s1, s2, s3]; exact h.fit

/-- Links of the table list survive a change of other fields. -/
theorem LInv.congr {s s' : St} {gl : List Nat} (h : LInv s gl)
    (ht : ∀ u ∈ gl, (s'.tables u).bind Table.next = (s.tables u).bind Table.next ∧
      (s'.tables u).bind Table.prev = (s.tables u).bind Table.prev)
    (hf : s'.freeTables = s.freeTables) (hn : s'.nfreeTables = s.nfreeTables) : LInv s' gl :=
  ⟨by rw [hf]; exact h.seg.congr ht, h.nodup, hn.trans h.count⟩

/-- `tramp_table_free` of a table not in the list. -/
theorem tableFree_inv {prot0 : Nat → Option Prot} {s : St} {T : List Nat} {fr : Nat → List Nat} {k : Nat → Nat}
    {gl : List Nat} {t : Nat} {x : Table} (h : HInv prot0 s T fr k) (hl : LInv s gl) (hx : s.tables t = some x)
    (hnt : t ∉ gl) :
    ∃ s', tableFree t s = .ok s' ∧ HInv prot0 s' (T.erase t) fr k ∧ LInv s' gl ∧
      s'.mem = s.mem ∧ s'.fd = s.fd ∧ s'.status = s.status ∧
      (s'.size = s.size ∧ s'.mapSize = s.mapSize ∧ s'.ntramp = s.ntramp ∧ s'.text = s.text) ∧
      s'.tables = upd s.tables t none ∧ s'.arrays = upd s.arrays x.array none ∧
      (∀ a, s'.prot a = if InReg s.mapSize x a then none else s.prot a) := by
  obtain ⟨arr, harr, hbody⟩ := h.body t x hx
  have htT : t ∈ T := (h.dom t).1 (by rw [hx]; simp)
  have hprot : ∀ a, (if x.parm ≤ a ∧ a < x.parm + s.mapSize then none
      else if x.code ≤ a ∧ a < x.code + s.mapSize then none else s.prot a) =
      if InReg s.mapSize x a then none else s.prot a := by
    intro a
    have := hbody.parm
    by_cases hr : InReg s.mapSize x a
    · rw [if_pos hr]
      unfold InReg at hr
      split_ifs <;> first | rfl | omega
    · rw [if_neg hr]
      unfold InReg at hr
      rw [if_neg (by omega), if_neg (by omega)]
  refine ⟨{ s with
      tables := upd s.tables t none
      arrays := upd s.arrays x.array none
      prot := fun a => if x.parm ≤ a ∧ a < x.parm + s.mapSize then none
        else if x.code ≤ a ∧ a < x.code + s.mapSize then none else s.prot a }, ?_, ?_, ?_, rfl, rfl, rfl,
      ⟨rfl, rfl, rfl, rfl⟩, rfl, rfl, hprot⟩
  · unfold tableFree tableUnmap
    simp only [St.getT, hx, bind, Except.bind, pure, Except.pure, St.setProt, St.freeArray, harr, St.freeTable]
    rfl
  · have sub : ∀ u y, upd s.tables t none u = some y → u ≠ t ∧ s.tables u = some y := by
      intro u y hy
      by_cases hu : u = t
      · subst hu; simp at hy
      · rw [upd_other _ _ hu] at hy; exact ⟨hu, hy⟩
    have notin : ∀ u y a, u ≠ t → s.tables u = some y → InReg s.mapSize y a → ¬ InReg s.mapSize x a := by
      intro u y a hu hy h1 h2
      exact hu (h.disj u t y x a hy hx h1 h2)
    constructor
    · exact h.nodup.erase t
    · intro u
      rw [List.Nodup.mem_erase_iff h.nodup, ← h.dom u]
      by_cases hu : u = t
      · subst hu; simp
      · simp [upd_other _ _ hu, hu]
    · intro u y hy
      obtain ⟨hu, hy⟩ := sub u y hy
      obtain ⟨arr, a1, a2⟩ := h.body u y hy
      refine ⟨arr, ?_, a2⟩
      rw [← a1]
      exact upd_other _ _ fun e => hu (h.inj u t y x hy hx e)
    · intro u u' y y' h1 h2
      exact h.inj u u' y y' (sub u y h1).2 (sub u' y' h2).2
    · intro a ha
      have haa : a ≠ x.array := by
        intro e; subst e; simp at ha
      simp only [upd_other _ _ haa] at ha
      obtain ⟨u, y, e1, e2⟩ := h.arrDom a ha
      have hu : u ≠ t := by
        intro e; subst e
        rw [hx, Option.some.injEq] at e1
        subst e1
        exact haa e2.symm
      exact ⟨u, y, (upd_other _ _ hu).trans e1, e2⟩
    · intro u u' y y' a h1 h2
      exact h.disj u u' y y' a (sub u y h1).2 (sub u' y' h2).2
    · intro u y o h1 h2
      obtain ⟨hu, hy⟩ := sub u y h1
      simp only at h2 ⊢
      rw [hprot, if_neg (notin u y _ hu hy ⟨by omega, by omega⟩)]
      exact h.code u y o hy h2
    · intro u y o h1 h2
      obtain ⟨hu, hy⟩ := sub u y h1
      simp only at h2 ⊢
      rw [hprot, if_neg (notin u y _ hu hy ⟨by omega, by omega⟩)]
      exact h.data u y o hy h2
    · intro a hout
      simp only at hout ⊢
      rw [hprot]
      split_ifs with hr
      · exact (h.fresh t x a hx hr).symm
      · refine h.out a fun u y h1 => ?_
        by_cases hu : u = t
        · subst hu
          rw [hx, Option.some.injEq] at h1
          subst h1
          exact hr
        · exact hout u y ((upd_other _ _ hu).trans h1)
    · intro u y a h1
      exact h.fresh u y a (sub u y h1).2
    · exact h.npos
    · exact h.fit
  · refine hl.congr ?_ rfl rfl
    intro u hu
    have : u ≠ t := fun e => hnt (e ▸ hu)
    simp only [upd_other _ _ this, and_self]

/-! ## Trampoline lists -/

/-- The array after pushing entry `i` in front of `h`. -/
def pushArr (a i : Nat) (h : Option TP) (arr : Nat → Tramp) : Nat → Tramp := fun j =>
  if j = i then { arr i with next := h, prev := none }
  else if h = some (a, j) then { arr j with prev := some (a, i) } else arr j

/-- The second half of `tramp_add`, src/tramp.c:562-573. -/
def trampAddTail (t : Nat) (s : St) : R St := do
  let s ← if (← s.getT t).nfree = 1 then tableAdd t s else pure s
  if (← s.getT t).nfree = (s.ntramp : Int) ∧ s.nfreeTables > 1 then
    let s ← tableDel t s
    tableFree t s
  else return s

/-- The end of `tramp_add`, src/tramp.c:568-573. -/
def dropIfFree (t : Nat) (s : St) : R St := do
  if (← s.getT t).nfree = (s.ntramp : Int) ∧ s.nfreeTables > 1 then
    let s ← tableDel t s
    tableFree t s
  else return s

/-- The state after the first half of `tramp_add`. -/
def pushed (s : St) (t i : Nat) (x : Table) (arr : Nat → Tramp) : St :=
  { s with tables := upd s.tables t (some { x with free := some (x.array, i), nfree := x.nfree + 1 })
           arrays := upd s.arrays x.array (some (pushArr x.array i x.free arr)) }

theorem upd_upd {α β : Type} [DecidableEq α] (f : α → β) (a : α) (b b' : β) : upd (upd f a b) a b' = upd f a b' := by
  funext x; unfold upd; split_ifs <;> rfl

theorem trampAdd_eq {s : St} {t i : Nat} {x : Table} {arr : Nat → Tramp} (hx : s.tables t = some x)
    (ha : s.arrays x.array = some arr) (hi : i < s.ntramp) (ht : (arr i).table = t)
    (hh : ∀ q, x.free = some q → q.1 = x.array ∧ q.2 < s.ntramp ∧ q.2 ≠ i) :
    trampAdd (x.array, i) s = trampAddTail t (pushed s t i x arr) := by
  unfold trampAdd trampAddTail
  simp only [St.getR, ha, hi, if_true, bind, Except.bind, ht, St.getT, hx, St.setR, upd_same]
  have e : ∀ s0 : St, s0.tables = s.tables → s0.ntramp = s.ntramp →
      s0.arrays = upd s.arrays x.array (some (upd arr i { arr i with next := x.free, prev := none })) →
      s0.setR? x.free (fun y => { y with prev := some (x.array, i) }) =
        .ok { s0 with arrays := upd s.arrays x.array (some (pushArr x.array i x.free arr)) } := by
    intro s0 e1 e2 e3
    cases hf : x.free with
    | none =>
      simp only [St.setR?, Except.ok.injEq]
      rw [hf] at e3
      cases s0
      simp only at e3
      subst e3
      congr 2
    | some q =>
      obtain ⟨h1, h2, h3⟩ := hh q hf
      obtain ⟨q1, q2⟩ := q
      simp only at h1 h2 h3
      subst h1
      simp only [St.setR?, St.setR, e3, upd_same, e2, h2, if_true, upd_upd, Except.ok.injEq]
      congr 3
      funext j
      unfold pushArr upd
      by_cases hj : j = i
      · subst hj
        simp [Ne.symm h3, hf]
      · by_cases hj2 : j = q2
        · subst hj2
          simp [h3]
        · have : ¬ q2 = j := fun e => hj2 e.symm
          simp [hj, hj2, this]
  have e0 := e { s with arrays := upd s.arrays x.array (some (upd arr i { arr i with next := x.free, prev := none })) } rfl rfl rfl
  have ea : ∀ y z : Tramp, upd (upd arr i y) i z = upd arr i z := fun y z => upd_upd arr i y z
  simp only [upd_upd] at e0 ⊢
  rw [ht] at e0
  rw [e0]
  simp only [St.setT, hx, upd_same, upd_upd]
  simp only [pushed, upd_same]

theorem pushArr_body {size ms n t : Nat} {x : Table} {arr : Nat → Tramp} {fr : List Nat} {k i : Nat}
    (h : Body size ms n t x arr fr k) (hi : i < k) (hf : i ∉ fr) :
    Body size ms n t { x with free := some (x.array, i), nfree := x.nfree + 1 }
      (pushArr x.array i x.free arr) (i :: fr) k := by
  constructor
  · simp only [List.map_cons]
    apply h.seg.push
    · simp [hf]
    · exact List.Nodup.map (fun a b e => by simpa using e) h.nodup
    · simp [pushArr]
    · simp [pushArr]
    · intro q hq
      obtain ⟨j, hj, rfl⟩ := List.mem_map.1 hq
      have : j ≠ i := fun e => hf (e ▸ hj)
      simp only [pushArr, this, if_false]
      split_ifs <;> simp_all
  · exact List.nodup_cons.2 ⟨hf, h.nodup⟩
  · intro j hj
    rcases List.mem_cons.1 hj with rfl | hj
    · exact hi
    · exact h.lt j hj
  · exact h.kn
  · simp [h.nfree]
  · exact h.parm
  · intro j hj
    have := h.ent j hj
    unfold pushArr
    split_ifs with h1
    · subst h1; exact this
    · exact this
    · exact this

theorem free_head {size ms n t : Nat} {x : Table} {arr : Nat → Tramp} {fr : List Nat} {k : Nat}
    (h : Body size ms n t x arr fr k) : x.free = fr.head?.map (Prod.mk x.array) := by
  rw [h.seg.head_eq]
  cases fr <;> rfl

/-- Result of `tramp_add`: entry `i` of table `t` becomes free; the table stays, or goes if
that made it entirely free while others have free entries. -/
theorem trampAdd_inv {prot0 : Nat → Option Prot} {s : St} {T : List Nat} {fr : Nat → List Nat} {k : Nat → Nat}
    {gl : List Nat} {t i : Nat} {x : Table} (h : HInv prot0 s T fr k) (hl : LInv s gl) (hg : GInv s.ntramp T fr gl)
    (hx : s.tables t = some x) (hi : i < k t) (hf : i ∉ fr t) :
    ∃ s', trampAdd (x.array, i) s = .ok s' ∧
      s'.mem = s.mem ∧ s'.fd = s.fd ∧ s'.status = s.status ∧
      (s'.size = s.size ∧ s'.mapSize = s.mapSize ∧ s'.ntramp = s.ntramp ∧ s'.text = s.text) ∧
      ((HInv prot0 s' T (upd fr t (i :: fr t)) k ∧
          (∃ gl', LInv s' gl' ∧ GInv s.ntramp T (upd fr t (i :: fr t)) gl' ∧ t ∈ gl' ∧ (gl = [] → gl' = [t]) ∧
            (gl = [t] → gl' = [t])) ∧
          s'.prot = s.prot ∧
          (∀ u y, s'.tables u = some y → ∃ y', s.tables u = some y' ∧ y.array = y'.array ∧ y.code = y'.code)) ∨
       (HInv prot0 s' (T.erase t) fr k ∧
          (∃ gl', LInv s' gl' ∧ GInv s.ntramp (T.erase t) fr gl') ∧
          (fr t).length + 1 = s.ntramp ∧ (∃ u ∈ gl, u ≠ t) ∧
          (∀ u y, s'.tables u = some y → ∃ y', s.tables u = some y' ∧ y.array = y'.array ∧ y.code = y'.code) ∧
          ∀ a, ¬ InReg s.mapSize x a → s'.prot a = s.prot a)) := by
  obtain ⟨arr, ha, hb⟩ := h.body t x hx
  have htT : t ∈ T := (h.dom t).1 (by rw [hx]; simp)
  have hgT : ∀ u ∈ gl, u ∈ T := fun u hu => ((hg.mem u).1 hu).1
  have hin : i < s.ntramp := Nat.lt_of_lt_of_le hi hb.kn
  have hhead : ∀ q, x.free = some q → q.1 = x.array ∧ q.2 < s.ntramp ∧ q.2 ≠ i := by
    intro q hq
    rw [free_head hb] at hq
    cases hfr : fr t with
    | nil => rw [hfr] at hq; simp at hq
    | cons j js =>
      rw [hfr] at hq
      simp only [List.head?_cons, Option.map_some, Option.some.injEq] at hq
      subst hq
      have hj : j ∈ fr t := by rw [hfr]; simp
      exact ⟨rfl, Nat.lt_of_lt_of_le (hb.lt j hj) hb.kn, fun e => hf (e ▸ hj)⟩
  rw [trampAdd_eq hx ha hin (hb.ent i hi).1 hhead]
  have hk : upd k t (k t) = k := by funext u; unfold upd; split_ifs with e <;> simp [e]
  -- first half
  have H1 : HInv prot0 (pushed s t i x arr) T (upd fr t (i :: fr t)) k := by
    have := h.setBody (s' := pushed s t i x arr) (kk := k t) hx
      (x' := { x with free := some (x.array, i), nfree := x.nfree + 1 }) ⟨rfl, rfl⟩ rfl rfl rfl rfl
      ⟨rfl, rfl, rfl, rfl⟩ (pushArr_body hb hi hf)
    rwa [hk] at this
  have L1 : LInv (pushed s t i x arr) gl := by
    refine hl.congr ?_ rfl rfl
    intro u _
    by_cases hu : u = t
    · subst hu; simp [pushed, hx]
    · simp [pushed, upd_other _ _ hu]
  have back1 : ∀ u y, (pushed s t i x arr).tables u = some y →
      ∃ y', s.tables u = some y' ∧ y.array = y'.array ∧ y.code = y'.code := by
    intro u y hy
    simp only [pushed] at hy
    by_cases hu : u = t
    · subst hu
      rw [upd_same, Option.some.injEq] at hy
      subst hy
      exact ⟨x, hx, rfl, rfl⟩
    · rw [upd_other _ _ hu] at hy
      exact ⟨y, hy, rfl, rfl⟩
  have hx1 : (pushed s t i x arr).tables t = some { x with free := some (x.array, i), nfree := x.nfree + 1 } := by
    simp [pushed]
  -- adding the table to the list
  have H2 : ∃ s2 gl2 x2, trampAddTail t (pushed s t i x arr) = dropIfFree t s2 ∧ HInv prot0 s2 T (upd fr t (i :: fr t)) k ∧ LInv s2 gl2 ∧
      gl2 = (if fr t = [] then t :: gl else gl) ∧
      s2.tables t = some x2 ∧ x2.nfree = (fr t).length + 1 ∧ x2.code = x.code ∧ x2.array = x.array ∧
      s2.prot = s.prot ∧ s2.mem = s.mem ∧ s2.fd = s.fd ∧ s2.status = s.status ∧
      (s2.size = s.size ∧ s2.mapSize = s.mapSize ∧ s2.ntramp = s.ntramp ∧ s2.text = s.text) ∧
      (∀ u y, s2.tables u = some y → ∃ y', s.tables u = some y' ∧ y.array = y'.array ∧ y.code = y'.code) := by
    by_cases he : fr t = []
    · have hnt : t ∉ gl := by rw [hg.mem]; simp [he]
      obtain ⟨s2, a1, a2, a3, a4, a5, a6, a7, a8, a9, a10⟩ := tableAdd_inv H1 L1 hgT htT hnt
      have h10 := a10 t
      rw [hx1] at h10
      cases hx2 : s2.tables t with
      | none => rw [hx2] at h10; simp at h10
      | some x2 =>
        rw [hx2] at h10
        simp only [Option.map_some, Option.some.injEq, Table.core, Prod.mk.injEq] at h10
        refine ⟨s2, t :: gl, x2, ?_, a2, a3, by rw [if_pos he], hx2, ?_, h10.1, h10.2.2.1, a5, a6, a7, a8, a9, ?_⟩
        · unfold trampAddTail dropIfFree
          simp only [St.getT, hx1, bind, Except.bind, hb.nfree, he]
          simp [a1]
        · rw [h10.2.2.2.2, hb.nfree]
        · intro u y hy
          have hcu := a10 u
          rw [hy] at hcu
          cases hy1 : (pushed s t i x arr).tables u with
          | none => rw [hy1] at hcu; simp at hcu
          | some y1 =>
            rw [hy1] at hcu
            simp only [Option.map_some, Option.some.injEq, Table.core, Prod.mk.injEq] at hcu
            obtain ⟨y', b1, b2, b3⟩ := back1 u y1 hy1
            exact ⟨y', b1, hcu.2.2.1.trans b2, hcu.1.trans b3⟩
    · refine ⟨pushed s t i x arr, gl, _, ?_, H1, L1, by rw [if_neg he], hx1, ?_, rfl, rfl, rfl, rfl, rfl, rfl,
        ⟨rfl, rfl, rfl, rfl⟩, back1⟩
      · unfold trampAddTail dropIfFree
        simp only [St.getT, hx1, bind, Except.bind, hb.nfree]
        rw [if_neg]
        · simp only [pure, Except.pure, hx1, hb.nfree]
        · have := List.length_pos_iff.2 he
          omega
      · simp [hb.nfree]
  obtain ⟨s2, gl2, x2, c1, c2, c3, c4, c5, c6, c7, c8, c9, c10, c11, c12, c13, c14⟩ := H2
  have htgl : t ∈ gl2 := by
    rw [c4]; split_ifs with he
    · simp
    · exact (hg.mem t).2 ⟨htT, he⟩
  have hmem2 : ∀ u, u ∈ gl2 ↔ u ∈ T ∧ upd fr t (i :: fr t) u ≠ [] := by
    intro u
    by_cases hu : u = t
    · subst hu; simp [htgl, htT]
    · rw [upd_other _ _ hu, ← hg.mem u, c4]
      split_ifs <;> simp [hu]
  have hgT2 : ∀ u ∈ gl2, u ∈ T := fun u hu => ((hmem2 u).1 hu).1
  rw [c1]
  unfold dropIfFree
  simp only [St.getT, bind, Except.bind,  c5, bind, Except.bind, c6, c13.2.2.1, c3.count]
  by_cases hdrop : (fr t).length + 1 = s.ntramp ∧ 1 < gl2.length
  · rw [if_pos (by omega)]
    obtain ⟨s3, d1, d2, d3, d4, d5, d6, d7, d8, d9, d10⟩ := tableDel_inv c2 c3 hgT2 htgl
    have h10 := d10 t
    rw [c5] at h10
    cases hx3 : s3.tables t with
    | none => rw [hx3] at h10; simp at h10
    | some x3 =>
      rw [hx3] at h10
      simp only [Option.map_some, Option.some.injEq, Table.core, Prod.mk.injEq] at h10
      have hnt3 : t ∉ gl2.erase t := by
        rw [List.Nodup.mem_erase_iff c3.nodup]; simp
      obtain ⟨s4, e1, e2, e3, e4, e5, e6, e7, e8, e9, e10⟩ := tableFree_inv d2 d3 hx3 hnt3
      have hup : ∀ u ∈ T.erase t, upd fr t (i :: fr t) u = fr u := by
        intro u hu
        rw [List.Nodup.mem_erase_iff h.nodup] at hu
        exact upd_other _ _ hu.1
      refine ⟨s4, by rw [d1]; exact e1, by rw [e4, d6, c10], by rw [e5, d7, c11], by rw [e6, d8, c12], ?_, .inr ⟨?_, ?_, hdrop.1, ?_, ?_, ?_⟩⟩
      · obtain ⟨w1, w2, w3, w4⟩ := e7
        obtain ⟨v1, v2, v3, v4⟩ := d9
        obtain ⟨u1, u2, u3, u4⟩ := c13
        exact ⟨by rw [w1, v1, u1], by rw [w2, v2, u2], by rw [w3, v3, u3], by rw [w4, v4, u4]⟩
      · constructor
        · exact e2.nodup
        · exact e2.dom
        · intro u y hy
          have hu : u ∈ T.erase t := (e2.dom u).1 (by rw [hy]; simp)
          have := e2.body u y hy
          rwa [hup u hu] at this
        · exact e2.inj
        · exact e2.arrDom
        · exact e2.disj
        · exact e2.code
        · exact e2.data
        · exact e2.out
        · exact e2.fresh
        · exact e2.npos
        · exact e2.fit
      · refine ⟨gl2.erase t, e3, ⟨?_, ?_⟩⟩
        · intro u
          rw [List.Nodup.mem_erase_iff c3.nodup, List.Nodup.mem_erase_iff h.nodup, hmem2 u]
          by_cases hu : u = t
          · simp [hu]
          · rw [upd_other _ _ hu]
            simp [hu]
        · intro u hu u' hu'
          exact hg.full u (List.mem_of_mem_erase hu) u' (List.mem_of_mem_erase hu')
      · -- another table had free entries
        by_contra hno
        push Not at hno
        have : gl2 = [t] := by
          rw [c4]
          split_ifs with he
          · rw [c4, if_pos he] at hdrop
            cases hgl : gl with
            | nil => rfl
            | cons u us =>
              have := hno u (by rw [hgl]; simp)
              subst this
              exact absurd ((hg.mem u).1 (by rw [hgl]; simp)).2 (by simp [he])
          · have hnd := hl.nodup
            cases hgl : gl with
            | nil =>
              rw [c4, if_neg he, hgl] at hdrop
              simp at hdrop
            | cons u us =>
              have h1 := hno u (by rw [hgl]; simp)
              subst h1
              cases us with
              | nil => rfl
              | cons v vs =>
                have := hno v (by rw [hgl]; simp)
                subst this
                rw [hgl] at hnd
                simp at hnd
        rw [this] at hdrop
        simp at hdrop
      · intro u y hy
        rw [e8] at hy
        by_cases hu : u = t
        · subst hu; simp at hy
        · rw [upd_other _ _ hu] at hy
          have hcu := d10 u
          rw [hy] at hcu
          cases hy1 : s2.tables u with
          | none => rw [hy1] at hcu; simp at hcu
          | some y1 =>
            rw [hy1] at hcu
            simp only [Option.map_some, Option.some.injEq, Table.core, Prod.mk.injEq] at hcu
            obtain ⟨y', b1, b2, b3⟩ := c14 u y1 hy1
            exact ⟨y', b1, hcu.2.2.1.trans b2, hcu.1.trans b3⟩
      · intro a hna
        rw [e10 a, if_neg, d5, c9]
        rw [d9.2.1, c13.2.1]
        unfold InReg at hna ⊢
        rw [h10.1, c7]
        exact hna
  · rw [if_neg (by omega)]
    refine ⟨s2, rfl, c10, c11, c12, c13, .inl ⟨c2, ⟨gl2, c3, ⟨hmem2, ?_⟩, htgl, ?_, ?_⟩, c9, c14⟩⟩
    · -- at most one full table
      have key : ∀ u ∈ T, (upd fr t (i :: fr t) t).length = s.ntramp → (upd fr t (i :: fr t) u).length = s.ntramp →
          t = u := by
        intro u hu h1 h2
        rw [upd_same, List.length_cons] at h1
        have h3 : gl2.length ≤ 1 := by
          by_contra h3; exact hdrop ⟨h1, by omega⟩
        have h4 : u ∈ gl2 := (hmem2 u).2 ⟨hu, fun e => by
          rw [e] at h2
          have := h.npos
          simp at h2; omega⟩
        cases hgl : gl2 with
        | nil => rw [hgl] at h4; simp at h4
        | cons v vs =>
          have : vs = [] := by
            rw [hgl] at h3
            exact List.eq_nil_of_length_eq_zero (by simpa using h3)
          subst this
          rw [hgl] at h4 htgl
          simp at h4 htgl
          rw [h4, htgl]
      intro u hu u' hu' h1 h2
      by_cases hu1 : u = t
      · subst hu1; exact key u' hu' h1 h2
      · by_cases hu2 : u' = t
        · subst hu2; exact (key u hu h2 h1).symm
        · rw [upd_other _ _ hu1] at h1
          rw [upd_other _ _ hu2] at h2
          exact hg.full u hu u' hu' h1 h2
    · intro hgl
      have : fr t = [] := by
        by_contra he
        have := (hg.mem t).2 ⟨htT, he⟩
        rw [hgl] at this; simp at this
      rw [c4, if_pos this, hgl]
    · intro hgl
      have : fr t ≠ [] := ((hg.mem t).1 (by rw [hgl]; simp)).2
      rw [c4, if_neg this, hgl]

end Verif.Tramp
