import Verif.I386.Model
import Verif.RiscV.CallLemmas
import Verif.Spec.Build

/-! Where a call puts its arguments, and that a closure looks for them there. -/
namespace Verif.I386
open Verif Verif.Spec Verif.Spec.X86

theorem tab_ok {D : Data} (h : D.Ok) : TabOk D.tab := by
  obtain ⟨ha, hl⟩ := h
  obtain ⟨a8, ls, la⟩ := D
  dsimp only at ha hl
  intro tc s a h
  cases tc <;> simp only [Data.tab, Option.some.injEq, Prod.mk.injEq, reduceCtorEq] at h <;> obtain ⟨rfl, rfl⟩ := h
  case double => rcases ha with rfl | rfl <;> decide
  case uint64 => rcases ha with rfl | rfl <;> decide
  case sint64 => rcases ha with rfl | rfl <;> decide
  case longdouble => rcases hl with ⟨rfl, rfl⟩ | ⟨rfl, rfl⟩ <;> decide
  all_goals decide

/-- Types of arguments that `ffi_call` can pass: all but complex numbers of at most four
bytes. -/
def Passable (D : Data) (t : FType) : Prop := WF D.tab t ∧ (t.tc = .complex → 4 < t.size)

theorem align_eq {v a : Nat} (ha : a = 1 ∨ a = 2 ∨ a = 4 ∨ a = 8 ∨ a = 16) (hv : v < 2 ^ 63) :
    ffiAlign v a = roundUp v a := RV.align_small ha hv

/-- Passed as a word. -/
def small (t : FType) : Prop := t.size ≤ 4 ∧ t.tc ≠ .struct

instance (t : FType) : Decidable (small t) := inferInstanceAs (Decidable (_ ∧ _))

/-- Bytes written for an argument. -/
def cell (t : FType) : Nat := if small t then 4 else t.size

theorem small_cases {D : Data} (hD : D.Ok) {t : FType} (h : Passable D t) (hs : small t) :
    word t.tc = true ∨ t.tc = .float ∧ t.size = 4 := by
  obtain ⟨hw, hc⟩ := h
  obtain ⟨h4, hns⟩ := hs
  obtain ⟨ha, hl⟩ := hD
  obtain ⟨a8, ls, la⟩ := D
  dsimp only at ha hl
  cases hw with
  | @scalar tc s a ht =>
    cases tc <;> simp only [Data.tab, Option.some.injEq, Prod.mk.injEq, reduceCtorEq] at ht <;>
      obtain ⟨rfl, rfl⟩ := ht <;> simp [word] at h4 ⊢
    rcases hl with ⟨rfl, _⟩ | ⟨rfl, _⟩ <;> omega
  | complex => have := hc rfl; omega
  | struct => exact absurd rfl hns

theorem word_small {D : Data} {t : FType} (h : WF D.tab t) (hw : word t.tc = true) : small t := by
  cases h with
  | @scalar tc s a ht =>
    refine ⟨?_, ?_⟩
    · cases tc <;> simp [word] at hw <;> simp [Data.tab] at ht <;> (simp; omega)
    · rintro rfl; cases hw
  | complex => cases hw
  | struct => cases hw

theorem widen_spec {sg : Bool} {bs : List Byte} (h : bs.length = 1 ∨ bs.length = 2) :
    (widen sg bs).length = 4 ∧ (intVal sg bs - leNat (widen sg bs)) % 2 ^ 32 = 0 := by
  refine ⟨by unfold widen; simp; omega, ?_⟩
  have hb : bs ≠ [] := by rintro rfl; simp at h
  have := RV.widened_ext (tc := if sg then .sint8 else .uint8) (w := 4) (sg := sg) hb (by omega) (by
    have : ¬ bs.length = 4 := by omega
    cases sg <;> simp [RV.signed, this])
  unfold RV.Widened at this
  rw [RV.extB_length (by omega)] at this
  have e : (RV.signed (if sg then TC.sint8 else TC.uint8) || decide (bs.length = 4)) = sg := by
    have h4 : ¬ bs.length = 4 := by omega
    cases sg <;> simp [RV.signed, h4]
  rw [e] at this
  exact this

theorem widen_take {sg : Bool} {bs : List Byte} {n : Nat} (h : bs.length = n) : (widen sg bs).take n = bs := by
  unfold widen; exact List.take_left' h

/-- The bytes written for an argument. -/
def argBytes (m : Mem) (a : Nat) (t : FType) : List Byte :=
  if small t then (extendBasic m a t.tc).getD [] else m.rd a t.size

/-- The bytes are a correct image of the value. -/
def Image (t : FType) (v bs : List Byte) : Prop :=
  bs.length = cell t ∧ bs.take t.size = v ∧
    (word t.tc → (intVal (signed t.tc) v - leNat bs) % 2 ^ 32 = 0)

theorem wide4 (sg : Bool) {bs : List Byte} (h : bs.length = 4) : (intVal sg bs - leNat bs) % 2 ^ 32 = 0 := by
  unfold intVal
  rw [h]
  split <;> omega

theorem argBytes_image {D : Data} (hD : D.Ok) {t : FType} (h : Passable D t) (m : Mem) (a : Nat) :
    Image t (m.rd a t.size) (argBytes m a t) ∧ (small t → extendBasic m a t.tc = some (argBytes m a t)) := by
  unfold Image argBytes cell
  by_cases hs : small t
  · simp only [if_pos hs]
    rcases small_cases hD h hs with hw | ⟨htc, hsz⟩
    · obtain ⟨hwf, _⟩ := h
      cases hwf with
      | complex => cases hw
      | struct => cases hw
      | @scalar tc s al ht =>
        cases tc <;> simp [word] at hw <;> simp [Data.tab] at ht <;> obtain ⟨rfl, rfl⟩ := ht <;>
          simp only [extendBasic, Option.getD_some, FType.size_mk, FType.tc_mk, signed, forall_true_left, word,
            implies_true, and_true]
        case uint8 => exact ⟨(widen_spec (by simp)).1, widen_take (by simp), (widen_spec (by simp)).2⟩
        case sint8 => exact ⟨(widen_spec (by simp)).1, widen_take (by simp), (widen_spec (by simp)).2⟩
        case uint16 => exact ⟨(widen_spec (by simp)).1, widen_take (by simp), (widen_spec (by simp)).2⟩
        case sint16 => exact ⟨(widen_spec (by simp)).1, widen_take (by simp), (widen_spec (by simp)).2⟩
        all_goals exact ⟨by simp, List.take_of_length_le (by simp), wide4 _ (by simp)⟩
    · rw [htc, hsz]
      refine ⟨⟨by simp [extendBasic], by simp only [extendBasic, Option.getD_some]; exact List.take_of_length_le (by simp),
        by intro h; cases h⟩, fun _ => rfl⟩
  · simp only [if_neg hs]
    refine ⟨⟨Mem.rd_length _ _ _, List.take_of_length_le (by simp), ?_⟩, fun h => absurd h hs⟩
    intro hw
    exact absurd (word_small h.1 hw) hs

/-- One argument is written where a closure looks for it. -/
theorem callArg_eq {D : Data} (hD : D.Ok) {t : FType} (h : Passable D t) (c : Cfg) (rb a : Nat) (st : St) (m : Mem) :
    callArg c rb t a st m =
      .ok ((closureArg c rb t st).2, m.wr (closureArg c rb t st).1 (argBytes m a t)) := by
  unfold callArg closureArg
  by_cases hs : small t
  · have hs' : t.size ≤ 4 ∧ t.tc ≠ .struct := hs
    rw [if_pos hs', if_pos hs', (argBytes_image hD h m a).2 hs]
    dsimp only
    split
    · rfl
    · split <;> rfl
  · have hs' : ¬ (t.size ≤ 4 ∧ t.tc ≠ .struct) := hs
    rw [if_neg hs', if_neg hs']
    have : argBytes m a t = m.rd a t.size := if_neg hs
    rw [this]
    dsimp only
    split <;> rfl

/-! ## Geometry -/

/-- Bytes that an argument takes on the stack. -/
def slot (t : FType) : Nat := if small t then 4 else roundUp t.size 4

/-- Address range of the registers not yet used. -/
def FutReg (c : Cfg) (rb n x : Nat) : Prop :=
  ∃ j, n ≤ j ∧ j < (params c.abi).regs.length ∧ rb + 4 * (params c.abi).regs.getD j 0 ≤ x ∧
    x < rb + 4 * (params c.abi).regs.getD j 0 + 4

/-- Addresses that may still be written. -/
def Fut (c : Cfg) (rb lo hi : Nat) (st : St) (x : Nat) : Prop :=
  (if (params c.abi).up then st.argp ≤ x ∧ x < hi else lo ≤ x ∧ x < st.argp) ∨ FutReg c rb st.narg x

theorem regs_nodup {c : Cfg} {i j : Nat} (hi : i < (params c.abi).regs.length) (hj : j < (params c.abi).regs.length)
    (h : (params c.abi).regs.getD i 0 = (params c.abi).regs.getD j 0) : i = j := by
  cases ha : c.abi <;> rw [ha] at hi hj h <;> simp only [params] at hi hj h <;> simp at hi hj
  case thiscall => omega
  case fastcall =>
    have : i = 0 ∨ i = 1 := by omega
    have : j = 0 ∨ j = 1 := by omega
    rcases ‹i = 0 ∨ i = 1› with rfl | rfl <;> rcases ‹j = 0 ∨ j = 1› with rfl | rfl <;> simp_all
  case register =>
    have : i = 0 ∨ i = 1 ∨ i = 2 := by omega
    have : j = 0 ∨ j = 1 ∨ j = 2 := by omega
    rcases ‹i = 0 ∨ i = 1 ∨ i = 2› with rfl | rfl | rfl <;> rcases ‹j = 0 ∨ j = 1 ∨ j = 2› with rfl | rfl | rfl <;>
      simp_all

theorem regs_lt {c : Cfg} {i : Nat} : (params c.abi).regs.getD i 0 < 3 := by
  cases c.abi <;> simp only [params] <;> match i with
    | 0 => decide
    | 1 => decide
    | 2 => decide
    | n + 3 => simp

theorem slot_ge (t : FType) : cell t ≤ slot t := by
  unfold cell slot
  split
  · exact Nat.le_refl _
  · exact roundUp_ge (by decide)

/-- What is left of the stack region after an argument. -/
structure Step (c : Cfg) (rb lo hi : Nat) (t : FType) (st : St) : Prop where
  cellIn : ∀ x, (closureArg c rb t st).1 ≤ x → x < (closureArg c rb t st).1 + cell t → Fut c rb lo hi st x
  rest : ∀ x, Fut c rb lo hi (closureArg c rb t st).2 x →
    Fut c rb lo hi st x ∧ ¬ ((closureArg c rb t st).1 ≤ x ∧ x < (closureArg c rb t st).1 + cell t)

theorem futReg_mono {c : Cfg} {rb n n' x : Nat} (h : n ≤ n') (hf : FutReg c rb n' x) : FutReg c rb n x := by
  obtain ⟨j, hj, hl, hx⟩ := hf
  exact ⟨j, by omega, hl, hx⟩

theorem futReg_ge {c : Cfg} {rb n x : Nat} (hf : FutReg c rb n x) : rb ≤ x ∧ x < rb + 12 := by
  obtain ⟨j, hj, hl, hx⟩ := hf
  have := regs_lt (c := c) (i := j)
  omega

/-- With `narg` set to 2 by a 64-bit integer or a struct, no register is left. -/
theorem futReg_closed {c : Cfg} (hc : c.abi = .thiscall ∨ c.abi = .fastcall) {rb x : Nat} : ¬ FutReg c rb 2 x := by
  rintro ⟨j, hj, hl, _⟩
  rcases hc with h | h <;> rw [h] at hl <;> simp [params] at hl <;> omega

theorem step_spec {c : Cfg} {rb lo hi : Nat} {t : FType} {st : St} (hb : hi ≤ rb) (hlh : st.argp ≤ hi)
    (hsz : t.size < 2 ^ 62) (hhi : hi < 2 ^ 62)
    (hup : (params c.abi).up = true → (closureArg c rb t st).2.argp ≤ hi)
    (hdn : (params c.abi).up = false →
      lo + slot t ≤ st.argp ∨ (small t ∧ t.tc ≠ .float ∧ st.narg < (params c.abi).regs.length)) :
    Step c rb lo hi t st := by
  have hza : ffiAlign t.size 4 = roundUp t.size 4 := align_eq (by omega) (by omega)
  have hzge : t.size ≤ roundUp t.size 4 := roundUp_ge (by decide)
  have hal : ∀ al, al = 4 ∨ al = 16 → ffiAlign st.argp al = roundUp st.argp al := fun al h =>
    align_eq (by omega) (by omega)
  by_cases hs : small t
  · have hs' : t.size ≤ 4 ∧ t.tc ≠ .struct := hs
    have hcell : cell t = 4 := if_pos hs
    have hslot : slot t = 4 := if_pos hs
    by_cases hr : t.tc ≠ .float ∧ st.narg < (params c.abi).regs.length
    · have e : closureArg c rb t st = (rb + 4 * (params c.abi).regs.getD st.narg 0, { st with narg := st.narg + 1 }) := by
        unfold closureArg; rw [if_pos hs', if_pos hr]
      refine ⟨?_, ?_⟩ <;> rw [e, hcell]
      · intro x h1 h2
        exact .inr ⟨st.narg, Nat.le_refl _, hr.2, h1, h2⟩
      · intro x hf
        rcases hf with hf | hf
        · refine ⟨.inl hf, ?_⟩
          have := regs_lt (c := c) (i := st.narg)
          dsimp only at hf ⊢
          split at hf <;> omega
        · refine ⟨.inr (futReg_mono (Nat.le_succ _) hf), ?_⟩
          obtain ⟨j, hj, hl, hx⟩ := hf
          dsimp only at hj ⊢
          have hne : (params c.abi).regs.getD j 0 ≠ (params c.abi).regs.getD st.narg 0 := fun h =>
            absurd (regs_nodup hl hr.2 h) (by omega)
          omega
    · by_cases hu : (params c.abi).up = true
      · have e : closureArg c rb t st = (st.argp, { st with argp := st.argp + 4 }) := by
          unfold closureArg; rw [if_pos hs', if_neg hr, if_pos hu]
        have hroom := hup hu
        rw [e] at hroom
        dsimp only at hroom
        refine ⟨?_, ?_⟩ <;> rw [e, hcell] <;> intro x
        · intro h1 h2
          refine .inl ?_
          rw [if_pos hu]
          dsimp only at h1 h2
          omega
        · rintro (hf | hf)
          · rw [if_pos hu] at hf
            dsimp only at hf ⊢
            refine ⟨.inl ?_, by omega⟩
            rw [if_pos hu]; omega
          · have := futReg_ge hf
            refine ⟨.inr hf, ?_⟩
            dsimp only
            omega
      · have hu' : (params c.abi).up = false := by simpa using hu
        have e : closureArg c rb t st = (st.argp - 4, { st with argp := st.argp - 4 }) := by
          unfold closureArg; rw [if_pos hs', if_neg hr, if_neg hu]
        have hroom : lo + 4 ≤ st.argp := by
          rcases hdn hu' with h | ⟨_, h1, h2⟩
          · rw [hslot] at h; exact h
          · exact absurd ⟨h1, h2⟩ hr
        refine ⟨?_, ?_⟩ <;> rw [e, hcell] <;> intro x
        · intro h1 h2
          refine .inl ?_
          rw [if_neg hu]
          dsimp only at h1 h2
          omega
        · rintro (hf | hf)
          · rw [if_neg hu] at hf
            dsimp only at hf ⊢
            refine ⟨.inl ?_, by omega⟩
            rw [if_neg hu]; omega
          · have := futReg_ge hf
            refine ⟨.inr hf, ?_⟩
            dsimp only
            omega
  · have hs' : ¬ (t.size ≤ 4 ∧ t.tc ≠ .struct) := hs
    have hcell : cell t = t.size := if_neg hs
    have hslot : slot t = roundUp t.size 4 := if_neg hs
    generalize hn : (if (c.abi = .thiscall ∨ c.abi = .fastcall) ∧
      (t.tc = .sint64 ∨ t.tc = .uint64 ∨ t.tc = .struct) then 2 else st.narg) = narg
    have hreg : ∀ x, FutReg c rb narg x → FutReg c rb st.narg x := by
      intro x hx
      rw [← hn] at hx
      split at hx
      · rename_i h; exact absurd hx (futReg_closed h.1)
      · exact hx
    generalize hg : (if t.tc = .struct ∧ 16 ≤ t.align then 16 else 4) = al
    have hal4 : al = 4 ∨ al = 16 := by rw [← hg]; split <;> simp
    by_cases hu : (params c.abi).up = true
    · have e : closureArg c rb t st = (roundUp st.argp al, ⟨narg, roundUp st.argp al + roundUp t.size 4⟩) := by
        unfold closureArg; rw [if_neg hs', hza, hn, hg]; dsimp only; rw [if_pos hu, hal al hal4]
      have hroom := hup hu
      rw [e] at hroom
      have hge : st.argp ≤ roundUp st.argp al := roundUp_ge (by omega)
      dsimp only at hroom
      refine ⟨?_, ?_⟩ <;> rw [e, hcell] <;> intro x
      · intro h1 h2
        refine .inl ?_
        rw [if_pos hu]
        dsimp only at h1 h2
        omega
      · rintro (hf | hf)
        · rw [if_pos hu] at hf
          dsimp only at hf ⊢
          refine ⟨.inl ?_, by omega⟩
          rw [if_pos hu]; omega
        · have := futReg_ge hf
          refine ⟨.inr (hreg x hf), ?_⟩
          dsimp only
          omega
    · have hu' : (params c.abi).up = false := by simpa using hu
      have e : closureArg c rb t st = (st.argp - roundUp t.size 4, ⟨narg, st.argp - roundUp t.size 4⟩) := by
        unfold closureArg; rw [if_neg hs', hza, hn]; dsimp only; rw [if_neg hu]
      have hroom : lo + roundUp t.size 4 ≤ st.argp := by
        rcases hdn hu' with h | ⟨h, _, _⟩
        · rw [hslot] at h; exact h
        · exact absurd h hs
      refine ⟨?_, ?_⟩ <;> rw [e, hcell] <;> intro x
      · intro h1 h2
        refine .inl ?_
        rw [if_neg hu]
        dsimp only at h1 h2
        omega
      · rintro (hf | hf)
        · rw [if_neg hu] at hf
          dsimp only at hf ⊢
          refine ⟨.inl ?_, by omega⟩
          rw [if_neg hu]; omega
        · have := futReg_ge hf
          refine ⟨.inr (hreg x hf), ?_⟩
          dsimp only
          omega

/-! ## All arguments -/

/-- `closureArg` in terms of numbers that do not wrap around. -/
def lay (c : Cfg) (rb : Nat) (t : FType) (st : St) : Nat × St :=
  if small t then
    if t.tc ≠ .float ∧ st.narg < (params c.abi).regs.length then
      (rb + 4 * (params c.abi).regs.getD st.narg 0, { st with narg := st.narg + 1 })
    else if (params c.abi).up then (st.argp, { st with argp := st.argp + 4 })
    else (st.argp - 4, { st with argp := st.argp - 4 })
  else
    let narg := if (c.abi = .thiscall ∨ c.abi = .fastcall) ∧ (t.tc = .sint64 ∨ t.tc = .uint64 ∨ t.tc = .struct)
      then 2 else st.narg
    if (params c.abi).up then
      (roundUp st.argp (stkAlign t), ⟨narg, roundUp st.argp (stkAlign t) + roundUp t.size 4⟩)
    else (st.argp - roundUp t.size 4, ⟨narg, st.argp - roundUp t.size 4⟩)

def layLoop (c : Cfg) (rb : Nat) : List FType → St → List Nat × St
  | [], st => ([], st)
  | t :: ts, st => ((lay c rb t st).1 :: (layLoop c rb ts (lay c rb t st).2).1, (layLoop c rb ts (lay c rb t st).2).2)

theorem closureArg_eq {c : Cfg} {rb : Nat} {t : FType} {st : St} (hsz : t.size < 2 ^ 62) (ha : st.argp < 2 ^ 63) :
    closureArg c rb t st = lay c rb t st := by
  unfold closureArg lay
  by_cases hs : small t
  · have hs' : t.size ≤ 4 ∧ t.tc ≠ .struct := hs
    rw [if_pos hs', if_pos hs]
  · have hs' : ¬ (t.size ≤ 4 ∧ t.tc ≠ .struct) := hs
    rw [if_neg hs', if_neg hs]
    have hza : ffiAlign t.size 4 = roundUp t.size 4 := align_eq (by omega) (by omega)
    have hal : ffiAlign st.argp (if t.tc = .struct ∧ 16 ≤ t.align then 16 else 4) = roundUp st.argp (stkAlign t) := by
      unfold stkAlign
      split <;> exact align_eq (by omega) ha
    dsimp only
    rw [hza, hal]

theorem stkAlign_cases (t : FType) : stkAlign t = 4 ∨ stkAlign t = 16 := by
  unfold stkAlign; split <;> simp

theorem lay_up {c : Cfg} (hu : (params c.abi).up = true) (rb : Nat) (t : FType) (st : St) :
    st.argp ≤ (lay c rb t st).2.argp := by
  unfold lay
  have hge : st.argp ≤ roundUp st.argp (stkAlign t) := roundUp_ge (by have := stkAlign_cases t; omega)
  split
  · split
    · exact Nat.le_refl _
    · exact Nat.le_add_right _ _
  · dsimp only
    omega

theorem layLoop_up {c : Cfg} (hu : (params c.abi).up = true) (rb : Nat) (ts : List FType) (st : St) :
    st.argp ≤ (layLoop c rb ts st).2.argp := by
  induction ts generalizing st with
  | nil => exact Nat.le_refl _
  | cons t ts ih => exact Nat.le_trans (lay_up hu rb t st) (ih _)

theorem lay_dn {c : Cfg} (hu : (params c.abi).up = false) (rb : Nat) (t : FType) (st : St) :
    (lay c rb t st).2.argp ≤ st.argp := by
  unfold lay
  have hu' : ¬ (params c.abi).up = true := by simp [hu]
  split
  · split
    · exact Nat.le_refl _
    · exact Nat.sub_le _ _
  · dsimp only
    exact Nat.sub_le _ _

/-- Bytes that the arguments take on the stack under the reversed conventions. -/
def downBytes (c : Cfg) : List FType → Nat → Nat
  | [], _ => 0
  | t :: ts, n =>
    if small t ∧ t.tc ≠ .float ∧ n < (params c.abi).regs.length then downBytes c ts (n + 1)
    else slot t + downBytes c ts n

/-- The arguments fit between `lo` and `hi`. -/
def Room (c : Cfg) (rb lo hi : Nat) (ts : List FType) (st : St) : Prop :=
  if (params c.abi).up then (layLoop c rb ts st).2.argp ≤ hi else lo + downBytes c ts st.narg ≤ st.argp ∧ st.argp ≤ hi

theorem down_closes {c : Cfg} (hu : (params c.abi).up = false) : ¬ (c.abi = .thiscall ∨ c.abi = .fastcall) := by
  rintro (h | h) <;> rw [h] at hu <;> cases hu

theorem room_step {c : Cfg} {rb lo hi : Nat} {t : FType} {ts : List FType} {st : St} (hb : hi ≤ rb)
    (hsz : t.size < 2 ^ 62) (hhi : hi < 2 ^ 62) (hr : Room c rb lo hi (t :: ts) st) :
    Step c rb lo hi t st ∧ Room c rb lo hi ts (lay c rb t st).2 ∧ closureArg c rb t st = lay c rb t st ∧
      st.argp ≤ hi := by
  unfold Room at hr
  by_cases hu : (params c.abi).up = true
  · rw [if_pos hu] at hr
    have h1 := lay_up hu rb t st
    have h2 := layLoop_up hu rb ts (lay c rb t st).2
    have hr' : (layLoop c rb ts (lay c rb t st).2).2.argp ≤ hi := hr
    have e := closureArg_eq (c := c) (rb := rb) hsz (st := st) (by omega)
    refine ⟨step_spec hb (by omega) hsz hhi (fun _ => by rw [e]; omega) (fun h => absurd hu (by simp [h])), ?_, e, by omega⟩
    unfold Room; rw [if_pos hu]; exact hr'
  · have hu' : (params c.abi).up = false := by simpa using hu
    rw [if_neg hu] at hr
    have e := closureArg_eq (c := c) (rb := rb) hsz (st := st) (by omega)
    refine ⟨step_spec hb hr.2 hsz hhi (fun h => absurd h hu) (fun _ => ?_), ?_, e, hr.2⟩
    · have h := hr.1
      unfold downBytes at h
      split at h
      · rename_i h'; exact .inr h'
      · left; omega
    · have hle := lay_dn hu' rb t st
      unfold Room; rw [if_neg hu]
      refine ⟨?_, by omega⟩
      have h := hr.1
      unfold downBytes at h
      unfold lay
      by_cases hs : small t
      · rw [if_pos hs]
        by_cases hf : t.tc ≠ .float ∧ st.narg < (params c.abi).regs.length
        · rw [if_pos ⟨hs, hf⟩] at h
          rw [if_pos hf]; exact h
        · rw [if_neg (fun h => hf h.2)] at h
          rw [if_neg hf, if_neg hu]
          have : slot t = 4 := if_pos hs
          dsimp only
          omega
      · rw [if_neg hs]
        rw [if_neg (fun h => hs h.1)] at h
        dsimp only
        rw [if_neg hu, if_neg (fun h => down_closes hu' h.1)]
        have : slot t = roundUp t.size 4 := if_neg hs
        dsimp only
        omega

/-- The bytes at an address are an image of the value. -/
def Stored (m : Mem) (t : FType) (v : List Byte) (a : Nat) : Prop := Image t v (m.rd a (cell t))

def AllStored (m : Mem) : List FType → List (List Byte) → List Nat → Prop
  | t :: ts, v :: vs, a :: as => Stored m t v a ∧ AllStored m ts vs as
  | [], [], [] => True
  | _, _, _ => False

/-- The values of the arguments. -/
def argVals (m : Mem) : List FType → List Nat → List (List Byte)
  | t :: ts, a :: as => m.rd a t.size :: argVals m ts as
  | _, _ => []

theorem argVals_congr {m m' : Mem} {ts : List FType} {as : List Nat}
    (h : ∀ q ∈ ts.zip as, ∀ i < q.1.size, m' (q.2 + i) = m (q.2 + i)) : argVals m' ts as = argVals m ts as := by
  induction ts generalizing as with
  | nil => rfl
  | cons t ts ih =>
    cases as with
    | nil => rfl
    | cons a as =>
      rw [argVals, argVals, ih (fun q hq => h q (by simp [hq])), Mem.rd_congr (h (t, a) (by simp))]

theorem closureLoop_eq {c : Cfg} {rb lo hi : Nat} (hb : hi ≤ rb) (hhi : hi < 2 ^ 62) {ts : List FType} {st : St}
    (hsz : ∀ t ∈ ts, t.size < 2 ^ 62) (hr : Room c rb lo hi ts st) : closureLoop c rb ts st = layLoop c rb ts st := by
  induction ts generalizing st with
  | nil => rfl
  | cons t ts ih =>
    obtain ⟨_, hr', e, _⟩ := room_step hb (hsz t (by simp)) hhi hr
    rw [closureLoop, layLoop, e, ih (fun x hx => hsz x (by simp [hx])) hr']

theorem fut_range {c : Cfg} {rb lo hi : Nat} {st : St} {x : Nat} (ha : lo ≤ st.argp) (hh : st.argp ≤ hi)
    (h : Fut c rb lo hi st x) : (lo ≤ x ∧ x < hi) ∨ (rb ≤ x ∧ x < rb + 12) := by
  rcases h with h | h
  · left; split at h <;> omega
  · right; exact futReg_ge h

theorem lay_lo {c : Cfg} {rb lo hi : Nat} {t : FType} {ts : List FType} {st : St} (ha : lo ≤ st.argp)
    (hr' : Room c rb lo hi ts (lay c rb t st).2) : lo ≤ (lay c rb t st).2.argp := by
  by_cases hu : (params c.abi).up = true
  · exact Nat.le_trans ha (lay_up hu rb t st)
  · unfold Room at hr'
    rw [if_neg hu] at hr'
    omega

/-- The loop of `ffi_call_int`: every argument ends up where a closure looks for it, and
nothing else is changed. -/
theorem callLoop_spec {D : Data} (hD : D.Ok) {c : Cfg} {rb lo hi : Nat} (hb : hi ≤ rb) (hhi : hi < 2 ^ 62)
    {ts : List FType} :
    ∀ {as : List Nat} {st : St} {m : Mem}, (∀ t ∈ ts, Passable D t ∧ t.size < 2 ^ 62) → as.length = ts.length →
      Room c rb lo hi ts st → lo ≤ st.argp →
      (∀ q ∈ ts.zip as, ∀ i < q.1.size, ¬ (lo ≤ q.2 + i ∧ q.2 + i < hi) ∧ ¬ (rb ≤ q.2 + i ∧ q.2 + i < rb + 12)) →
      ∃ m', callLoop c rb ts as st m = .ok ((layLoop c rb ts st).2, m') ∧
        (∀ x, ¬ Fut c rb lo hi st x → m' x = m x) ∧
        AllStored m' ts (argVals m ts as) (layLoop c rb ts st).1 := by
  induction ts with
  | nil =>
    intro as st m _ hlen _ _ _
    cases as with
    | cons => simp at hlen
    | nil => exact ⟨m, rfl, fun _ _ => rfl, trivial⟩
  | cons t ts ih =>
    intro as st m hp hlen hr hlo hout
    cases as with
    | nil => simp at hlen
    | cons a as =>
      obtain ⟨hp1, hsz1⟩ := hp t (by simp)
      obtain ⟨hst, hr', e, hah⟩ := room_step hb hsz1 hhi hr
      have hlo' := lay_lo hlo hr'
      have him := (argBytes_image hD hp1 m a).1
      rw [callLoop, callArg_eq hD hp1]
      dsimp only
      have hci := hst.cellIn
      have hre := hst.rest
      rw [e] at hci hre ⊢
      obtain ⟨m', hm', hk, hs⟩ := ih (as := as) (st := (lay c rb t st).2) (m := m.wr (lay c rb t st).1 (argBytes m a t))
        (fun x hx => hp x (by simp [hx])) (by simpa using hlen) hr' hlo' (fun q hq => hout q (by simp [hq]))
      have hlb : (argBytes m a t).length = cell t := him.1
      have hkeep : ∀ x, ¬ Fut c rb lo hi st x → (m.wr (lay c rb t st).1 (argBytes m a t)) x = m x := by
        intro x hx
        apply Mem.wr_out
        rw [hlb]
        by_cases h : (lay c rb t st).1 ≤ x ∧ x < (lay c rb t st).1 + cell t
        · exact absurd (hci x h.1 h.2) hx
        · omega
      refine ⟨m', hm', fun x hx => ?_, ?_, ?_⟩
      · rw [hk x (fun h => hx (hre x h).1), hkeep x hx]
      · have h1 : m'.rd (lay c rb t st).1 (cell t) = argBytes m a t := by
          have h2 : m'.rd (lay c rb t st).1 (cell t) =
              (m.wr (lay c rb t st).1 (argBytes m a t)).rd (lay c rb t st).1 (cell t) := by
            apply Mem.rd_congr
            intro i hi
            apply hk
            intro hf
            have := (hre _ hf).2
            omega
          rw [h2, ← hlb, Mem.rd_wr_same]
        show Image t _ (m'.rd _ (cell t))
        rw [h1]
        exact him
      · rw [argVals_congr (m := m)] at hs
        · exact hs
        · intro q hq i hi
          apply hkeep
          intro hf
          have h1 := fut_range hlo hah hf
          have h2 := hout q (by simp [hq]) i hi
          omega

end Verif.I386
