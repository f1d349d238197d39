import Verif.Tramp.OpLemmas
import Mathlib.Data.List.Perm.Subperm

namespace Verif.Tramp
open Verif

/-- The array after the head of the free list, whose successor is `h`, is removed. -/
def popArr (a : Nat) (h : Option TP) (arr : Nat → Tramp) : Nat → Tramp := fun j =>
  if h = some (a, j) then { arr j with prev := none } else arr j

def popped (s : St) (t : Nat) (x : Table) (h : Option TP) (arr : Nat → Tramp) : St :=
  { s with tables := upd s.tables t (some { x with free := h, nfree := x.nfree - 1 })
           arrays := upd s.arrays x.array (some (popArr x.array h arr)) }

theorem upd_self {α β : Type} [DecidableEq α] (f : α → β) (a : α) (b : β) (h : f a = b) : upd f a b = f := by
  funext x; unfold upd; split_ifs with e
  · rw [e, h]
  · rfl

theorem trampDel_eq {s : St} {t i : Nat} {x : Table} {arr : Nat → Tramp} (hx : s.tables t = some x)
    (ha : s.arrays x.array = some arr) (hi : i < s.ntramp) (ht : (arr i).table = t)
    (hf : x.free = some (x.array, i)) (hp : (arr i).prev = none)
    (hh : ∀ q, (arr i).next = some q → q.1 = x.array ∧ q.2 < s.ntramp ∧ q.2 ≠ i) :
    trampDel (x.array, i) s =
      if x.nfree - 1 = 0 then tableDel t (popped s t x (arr i).next arr) else .ok (popped s t x (arr i).next arr) := by
  unfold trampDel
  simp only [St.getR, ha, hi, if_true, bind, Except.bind, ht, St.getT, hx, St.setT, hp, St.setR?]
  cases hn : (arr i).next with
  | none =>
    have e1 : popArr x.array none arr = arr := by funext j; simp [popArr]
    simp only [ha, if_true, hi, upd_same, hf, hn, upd_upd, popped, e1, upd_self _ _ _ ha, pure, Except.pure]
  | some q =>
    obtain ⟨q1, q2⟩ := q
    obtain ⟨h1, h2, h3⟩ := hh _ hn
    simp only at h1 h2 h3
    subst h1
    have e1 : upd arr q2 { arr q2 with prev := none } = popArr x.array (some (x.array, q2)) arr := by
      funext j
      unfold upd popArr
      by_cases hj : j = q2
      · subst hj; simp
      · have : ¬ q2 = j := fun e => hj e.symm
        simp [hj, this]
    simp only [St.setR, ha, h2, if_true, hi, upd_same, upd_other _ _ (Ne.symm h3), hf, hn, upd_upd, popped,
      pure, Except.pure, e1]
    have e2 : (popArr x.array (some (x.array, q2)) arr i).next = some (x.array, q2) := by
      rw [← e1, upd_other _ _ (Ne.symm h3), hn]
    rw [e2]

theorem popArr_body {size ms n t : Nat} {x : Table} {arr : Nat → Tramp} {fr : List Nat} {k i : Nat}
    (h : Body size ms n t x arr (i :: fr) k) :
    Body size ms n t { x with free := (arr i).next, nfree := x.nfree - 1 }
      (popArr x.array (arr i).next arr) fr k := by
  obtain ⟨h1, h2, h3⟩ := h.seg
  have hnd := List.nodup_cons.1 h.nodup
  constructor
  · cases fr with
    | nil => exact h3
    | cons j js =>
      obtain ⟨a1, a2, a3⟩ := h3
      simp only at a1 a2
      refine ⟨a1, by simp [popArr, a1], ?_⟩
      have e : (popArr x.array (arr i).next arr j).next = (arr j).next := by
        unfold popArr; split_ifs <;> rfl
      simp only [e]
      refine Seg.congr a3 fun q hq => ?_
      obtain ⟨l, hl, rfl⟩ := List.mem_map.1 hq
      have hjl : j ≠ l := fun e => (List.nodup_cons.1 hnd.2).1 (e ▸ hl)
      simp only [popArr, a1, Option.some.injEq, Prod.mk.injEq, true_and, hjl, if_false, and_self]
  · exact hnd.2
  · exact fun j hj => h.lt j (by simp [hj])
  · exact h.kn
  · rw [show ({ x with free := (arr i).next, nfree := x.nfree - 1 } : Table).nfree = x.nfree - 1 from rfl, h.nfree]
    simp
  · exact h.parm
  · intro j hj
    have := h.ent j hj
    unfold popArr
    split_ifs <;> exact this

/-- Result of `tramp_del` of the first free trampoline of a table. -/
theorem trampDel_inv {prot0 : Nat → Option Prot} {s : St} {T : List Nat} {fr : Nat → List Nat} {k : Nat → Nat}
    {gl : List Nat} {t i : Nat} {x : Table} {rest : List Nat} (h : HInv prot0 s T fr k) (hl : LInv s gl)
    (hg : GInv s.ntramp T fr gl) (hx : s.tables t = some x) (hf : fr t = i :: rest) :
    ∃ s', trampDel (x.array, i) s = .ok s' ∧ HInv prot0 s' T (upd fr t rest) k ∧
      (∃ gl', LInv s' gl' ∧ GInv s.ntramp T (upd fr t rest) gl') ∧
      s'.prot = s.prot ∧ s'.mem = s.mem ∧ s'.fd = s.fd ∧ s'.status = s.status ∧
      (s'.size = s.size ∧ s'.mapSize = s.mapSize ∧ s'.ntramp = s.ntramp ∧ s'.text = s.text) ∧
      (∀ u y, s'.tables u = some y → ∃ y', s.tables u = some y' ∧ y.array = y'.array ∧ y.code = y'.code) := by
  obtain ⟨arr, ha, hb⟩ := h.body t x hx
  have htT : t ∈ T := (h.dom t).1 (by rw [hx]; simp)
  have hgT : ∀ u ∈ gl, u ∈ T := fun u hu => ((hg.mem u).1 hu).1
  rw [hf] at hb
  have hik : i < k t := hb.lt i (by simp)
  have hin : i < s.ntramp := Nat.lt_of_lt_of_le hik hb.kn
  have hseg := hb.seg
  obtain ⟨b1, b2, b3⟩ := hseg
  have hnx : (arr i).next = rest.head?.map (Prod.mk x.array) := by
    have := b3.head_eq
    simp only at this
    rw [this]
    cases rest <;> rfl
  have hnd := List.nodup_cons.1 hb.nodup
  have hh : ∀ q, (arr i).next = some q → q.1 = x.array ∧ q.2 < s.ntramp ∧ q.2 ≠ i := by
    intro q hq
    rw [hnx] at hq
    cases hr : rest with
    | nil => rw [hr] at hq; simp at hq
    | cons j js =>
      rw [hr] at hq
      simp only [List.head?_cons, Option.map_some, Option.some.injEq] at hq
      subst hq
      have hj : j ∈ rest := by rw [hr]; simp
      exact ⟨rfl, Nat.lt_of_lt_of_le (hb.lt j (by simp [hj])) hb.kn, fun e => hnd.1 (e ▸ hj)⟩
  rw [trampDel_eq hx ha hin (hb.ent i hik).1 b1 b2 hh]
  have hk : upd k t (k t) = k := upd_self _ _ _ rfl
  have H1 : HInv prot0 (popped s t x (arr i).next arr) T (upd fr t rest) k := by
    have := h.setBody (s' := popped s t x (arr i).next arr) (kk := k t) hx
      (x' := { x with free := (arr i).next, nfree := x.nfree - 1 }) ⟨rfl, rfl⟩ rfl rfl rfl rfl
      ⟨rfl, rfl, rfl, rfl⟩ (popArr_body hb)
    rwa [hk] at this
  have L1 : LInv (popped s t x (arr i).next arr) gl := by
    refine hl.congr ?_ rfl rfl
    intro u _
    by_cases hu : u = t
    · subst hu; simp [popped, hx]
    · simp [popped, upd_other _ _ hu]
  have back1 : ∀ u y, (popped s t x (arr i).next arr).tables u = some y →
      ∃ y', s.tables u = some y' ∧ y.array = y'.array ∧ y.code = y'.code := by
    intro u y hy
    simp only [popped] at hy
    by_cases hu : u = t
    · subst hu
      rw [upd_same, Option.some.injEq] at hy
      subst hy
      exact ⟨x, hx, rfl, rfl⟩
    · rw [upd_other _ _ hu] at hy
      exact ⟨y, hy, rfl, rfl⟩
  have htgl : t ∈ gl := (hg.mem t).2 ⟨htT, by rw [hf]; simp⟩
  have hlen : rest.length < s.ntramp := by
    have hlt : ∀ j ∈ fr t, j < s.ntramp := fun j hj => Nat.lt_of_lt_of_le (hb.lt j (hf ▸ hj)) hb.kn
    have h1 : (i :: rest).length ≤ (List.range s.ntramp).length :=
      (List.subperm_of_subset hb.nodup (fun j hj => List.mem_range.2 (hlt j (hf ▸ hj)))).length_le
    simp at h1
    omega
  have hfull : ∀ u ∈ T, ∀ u' ∈ T, (upd fr t rest u).length = s.ntramp → (upd fr t rest u').length = s.ntramp → u = u' := by
    intro u hu u' hu' e1 e2
    by_cases h1 : u = t
    · subst h1; rw [upd_same] at e1; omega
    · by_cases h2 : u' = t
      · subst h2; rw [upd_same] at e2; omega
      · rw [upd_other _ _ h1] at e1
        rw [upd_other _ _ h2] at e2
        exact hg.full u hu u' hu' e1 e2
  have hnf : x.nfree = rest.length + 1 := by rw [hb.nfree]; simp
  by_cases hr : rest = []
  · rw [if_pos (by rw [hnf, hr]; simp)]
    obtain ⟨s2, d1, d2, d3, d4, d5, d6, d7, d8, d9, d10⟩ := tableDel_inv H1 L1 hgT htgl
    refine ⟨s2, d1, d2, ⟨gl.erase t, d3, ⟨?_, hfull⟩⟩, d5, d6, d7, d8, d9, ?_⟩
    · intro u
      rw [List.Nodup.mem_erase_iff hl.nodup, hg.mem u]
      by_cases hu : u = t
      · subst hu; simp [hr]
      · rw [upd_other _ _ hu]; simp [hu]
    · intro u y hy
      have hcu := d10 u
      rw [hy] at hcu
      cases hy1 : (popped s t x (arr i).next arr).tables u with
      | none => rw [hy1] at hcu; simp at hcu
      | some y1 =>
        rw [hy1] at hcu
        simp only [Option.map_some, Option.some.injEq, Table.core, Prod.mk.injEq] at hcu
        obtain ⟨y', b1, b2, b3⟩ := back1 u y1 hy1
        exact ⟨y', b1, hcu.2.2.1.trans b2, hcu.1.trans b3⟩
  · rw [if_neg]
    · refine ⟨_, rfl, H1, ⟨gl, L1, ⟨?_, hfull⟩⟩, rfl, rfl, rfl, rfl, ⟨rfl, rfl, rfl, rfl⟩, back1⟩
      intro u
      rw [hg.mem u]
      by_cases hu : u = t
      · subst hu; simp [hr, hf]
      · rw [upd_other _ _ hu]
    · have := List.length_pos_iff.2 hr
      omega

end Verif.Tramp
