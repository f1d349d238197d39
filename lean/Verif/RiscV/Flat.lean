import Verif.RiscV.Model
import Verif.Spec.RiscV
import Verif.Spec.TypeLemmas

/-! `flatten_struct` against the scalar components of a type. -/
namespace Verif.RV
open Verif Verif.Spec Verif.Spec.RV

theorem tab_ok {w : Nat} (hw : w = 4 ∨ w = 8) : TabOk (tab w) := by
  intro tc s a h
  rcases hw with rfl | rfl <;> cases tc <;> simp [tab] at h <;> obtain ⟨rfl, rfl⟩ := h <;> decide

theorem plain_wf {tb : ScalarTab} {t : FType} (h : Plain tb t) : WF tb t := by
  induction h with
  | scalar h => exact .scalar h
  | struct _ hl ih => exact .struct ih hl

mutual
/-- All scalars of a type. -/
def scal : FType → List FType
  | .mk s a tc es => if tc = .struct then scalL es else [.mk s a tc es]
termination_by structural t => t
def scalL : List FType → List FType
  | [] => []
  | e :: es => scal e ++ scalL es
termination_by structural es => es
end

theorem take_append_take {α} (l r : List α) (n : Nat) : (l.take n ++ r).take n = (l ++ r).take n := by
  rw [List.take_append, List.take_append, List.take_take, Nat.min_self, List.length_take]
  congr 1
  by_cases h : l.length ≤ n
  · rw [Nat.min_eq_right h]
  · rw [Nat.min_eq_left (by omega), Nat.sub_self, Nat.sub_eq_zero_of_le (by omega)]

theorem flattenL_of {es : List FType}
    (ih : ∀ e ∈ es, ∀ out : List FType, out.length ≤ 3 → flatten e out = (out ++ scal e).take 3)
    (out : List FType) (ho : out.length ≤ 3) : flattenL es out = (out ++ scalL es).take 3 := by
  induction es generalizing out with
  | nil => rw [flattenL, scalL, List.append_nil, List.take_of_length_le ho]
  | cons e es ih2 =>
    rw [flattenL, ih e (by simp) out ho, ih2 (fun x hx => ih x (by simp [hx])) _ (by simp), scalL,
      take_append_take, List.append_assoc]

theorem flatten_eq {tb : ScalarTab} (ht : TabOk tb) {t : FType} (h : Plain tb t) (out : List FType)
    (ho : out.length ≤ 3) : flatten t out = (out ++ scal t).take 3 := by
  induction h generalizing out with
  | @scalar tc s a h =>
    have := (ht _ _ _ h).2.2.2.2.1
    rw [flatten, scal, if_neg this, if_neg this]
    split
    · rename_i hl; rw [List.take_append_of_le_length (by omega), List.take_of_length_le ho]
    · rw [List.take_of_length_le (by simp; omega)]
  | @struct es s a offs hes hl ih =>
    rw [flatten, scal, if_pos rfl, if_pos rfl, flattenL_of ih out ho]
    split
    · rename_i hl; rw [List.take_append_of_le_length (by omega), List.take_of_length_le ho]
    · rfl

theorem scal_ne {tb : ScalarTab} (ht : TabOk tb) {t : FType} (h : Plain tb t) : scal t ≠ [] := by
  induction h with
  | @scalar tc s a h => rw [scal, if_neg (ht _ _ _ h).2.2.2.2.1]; simp
  | @struct es s a offs hes hl ih =>
    rw [scal, if_pos rfl]
    obtain ⟨e, hp, ⟨⟨m, hm, _⟩, _⟩, _⟩ := hl
    cases es with
    | nil => cases hm
    | cons e es => rw [scalL]; simp [ih e (by simp)]

theorem leaves_scalar {tb : ScalarTab} (ht : TabOk tb) {tc : TC} {s a : Nat} (h : tb tc = some (s, a)) (o : Nat) :
    leaves (.mk s a tc []) o = [⟨o, s, tc⟩] := by
  have := ht _ _ _ h
  cases tc <;> simp_all [leaves]

theorem scalL_length {es : List FType} (ih : ∀ e ∈ es, ∀ o, (leaves e o).length = (scal e).length) (o cur : Nat) :
    (leavesL es o cur).length = (scalL es).length := by
  induction es generalizing cur with
  | nil => rfl
  | cons e es ih2 =>
    rw [leavesL, scalL, List.length_append, List.length_append, ih e (by simp),
      ih2 (fun x hx => ih x (by simp [hx]))]

theorem leaves_length {tb : ScalarTab} (ht : TabOk tb) {t : FType} (h : Plain tb t) (o : Nat) :
    (leaves t o).length = (scal t).length := by
  induction h generalizing o with
  | @scalar tc s a h =>
    rw [leaves_scalar ht h, scal, if_neg (ht _ _ _ h).2.2.2.2.1]; rfl
  | @struct es s a offs hes hl ih =>
    rw [scal, if_pos rfl, leaves]
    exact scalL_length ih o 0

/-- Members of a list with one scalar. -/
theorem scalL_one {tb : ScalarTab} (ht : TabOk tb) {es : List FType} (hes : ∀ e ∈ es, Plain tb e) {s : FType}
    (h : scalL es = [s]) : ∃ e, es = [e] ∧ scal e = [s] := by
  cases es with
  | nil => rw [scalL] at h; cases h
  | cons e es =>
    cases es with
    | nil => rw [scalL, scalL, List.append_nil] at h; exact ⟨e, rfl, h⟩
    | cons e2 es =>
      have h1 := List.length_pos_iff.2 (scal_ne ht (hes e (by simp)))
      have h2 := List.length_pos_iff.2 (scal_ne ht (hes e2 (by simp)))
      have := congrArg List.length h
      rw [scalL, scalL] at this
      simp at this
      omega

theorem scalL_two {tb : ScalarTab} (ht : TabOk tb) {es : List FType} (hes : ∀ e ∈ es, Plain tb e) {s s' : FType}
    (h : scalL es = [s, s']) :
    (∃ e, es = [e] ∧ scal e = [s, s']) ∨ ∃ e e', es = [e, e'] ∧ scal e = [s] ∧ scal e' = [s'] := by
  cases es with
  | nil => rw [scalL] at h; cases h
  | cons e es =>
    cases es with
    | nil => rw [scalL, scalL, List.append_nil] at h; exact .inl ⟨e, rfl, h⟩
    | cons e2 es =>
      have h1 := List.length_pos_iff.2 (scal_ne ht (hes e (by simp)))
      have h2 := List.length_pos_iff.2 (scal_ne ht (hes e2 (by simp)))
      have hl := congrArg List.length h
      rw [scalL] at h hl
      rw [scalL] at hl
      simp only [List.length_append, List.length_cons, List.length_nil] at hl
      have h4 : (scal e).length = 1 := by omega
      obtain ⟨x, hx⟩ := List.length_eq_one_iff.1 h4
      rw [hx] at h
      simp only [List.cons_append, List.nil_append, List.cons.injEq] at h
      obtain ⟨rfl, h⟩ := h
      obtain ⟨e', he', hs'⟩ := scalL_one ht (es := e2 :: es) (fun y hy => hes y (List.mem_cons_of_mem _ hy)) h
      exact .inr ⟨e, e', by rw [he'], hx, hs'⟩

theorem placed_one {s a : Nat} {offs : List Nat} {sz al : Nat} (ha : 0 < a) (hd : a ∣ s)
    (h : StructLayout [(s, a)] offs sz al) : sz = s ∧ al = a := by
  obtain ⟨e, hp, ⟨⟨m, hm, rfl⟩, _⟩, hle⟩ := h
  simp only [List.mem_cons, List.not_mem_nil, or_false] at hm
  subst hm
  cases hp with
  | cons h1 h2 =>
    cases h2
    have := h1.eq_roundUp ha
    rw [roundUp_of_dvd ha (Nat.dvd_zero a)] at this
    subst this
    rw [Nat.zero_add] at hle
    have := hle.eq_roundUp ha
    rw [roundUp_of_dvd ha hd] at this
    exact ⟨this, rfl⟩

/-- Types with one scalar. -/
theorem one_scal {tb : ScalarTab} (ht : TabOk tb) {t : FType} (h : Plain tb t) {s : FType} (hs : scal t = [s]) :
    tb s.tc = some (s.size, s.align) ∧ t.size = s.size ∧ t.align = s.align ∧
      ∀ o, leaves t o = [⟨o, s.size, s.tc⟩] := by
  induction h generalizing s with
  | @scalar tc z a h =>
    rw [scal, if_neg (ht _ _ _ h).2.2.2.2.1] at hs
    cases hs
    exact ⟨h, rfl, rfl, leaves_scalar ht h⟩
  | @struct es z a offs hes hl ih =>
    rw [scal, if_pos rfl] at hs
    obtain ⟨e, rfl, he⟩ := scalL_one ht hes hs
    obtain ⟨h1, h2, h3, h4⟩ := ih e (by simp) he
    have hw := plain_wf (hes e (by simp))
    obtain ⟨rfl, rfl⟩ := placed_one (hw.align_pos ht) (hw.align_dvd_size ht) hl
    refine ⟨h1, h2, h3, fun o => ?_⟩
    rw [leaves]
    simp only [leavesL, List.append_nil]
    rw [roundUp_of_dvd (hw.align_pos ht) (Nat.dvd_zero _), h4]
    rfl

/-- Types with two scalars. -/
theorem two_scal {tb : ScalarTab} (ht : TabOk tb) {t : FType} (h : Plain tb t) {s s' : FType}
    (hs : scal t = [s, s']) :
    tb s.tc = some (s.size, s.align) ∧ tb s'.tc = some (s'.size, s'.align) ∧ t.tc = .struct ∧
      ∀ o, leaves t o = [⟨o, s.size, s.tc⟩, ⟨o + roundUp s.size s'.align, s'.size, s'.tc⟩] := by
  induction h generalizing s s' with
  | @scalar tc z a h =>
    rw [scal, if_neg (ht _ _ _ h).2.2.2.2.1] at hs
    cases hs
  | @struct es z a offs hes hl ih =>
    rw [scal, if_pos rfl] at hs
    rcases scalL_two ht hes hs with ⟨e, rfl, he⟩ | ⟨e, e', rfl, he, he'⟩
    · obtain ⟨h1, h2, h3, h4⟩ := ih e (by simp) he
      have hw := plain_wf (hes e (by simp))
      refine ⟨h1, h2, rfl, fun o => ?_⟩
      rw [leaves]
      simp only [leavesL, List.append_nil]
      rw [roundUp_of_dvd (hw.align_pos ht) (Nat.dvd_zero _), h4]
      rfl
    · obtain ⟨h1, h2, h3, h4⟩ := one_scal ht (hes e (by simp)) he
      obtain ⟨h1', h2', h3', h4'⟩ := one_scal ht (hes e' (by simp)) he'
      have hw := plain_wf (hes e (by simp))
      refine ⟨h1, h1', rfl, fun o => ?_⟩
      rw [leaves]
      simp only [leavesL, List.append_nil]
      rw [roundUp_of_dvd (hw.align_pos ht) (Nat.dvd_zero _), h4, h4', h2, h3', Nat.zero_add]
      rfl

end Verif.RV
