import Verif.S390.Model
import Verif.Spec.TypeLemmas

/-! How types are passed: the code's decisions are those of the convention. -/
namespace Verif.S390
open Verif Verif.Spec Verif.Spec.S390

theorem tab_ok {w : Nat} (hw : w = 4 ∨ w = 8) : TabOk (tab w) := by
  intro tc s a h
  rcases hw with rfl | rfl <;> cases tc <;> simp [tab] at h <;> obtain ⟨rfl, rfl⟩ := h <;> decide

theorem leaves_ne {w : Nat} (hw : w = 4 ∨ w = 8) {t : FType} (h : WF (tab w) t) (o : Nat) : leaves t o ≠ [] := by
  obtain ⟨l, hl, _⟩ := h.align_leaf (tab_ok hw) o
  intro e
  rw [e] at hl
  cases hl

theorem leaves_tcs (t : FType) (o : Nat) : (leaves t o).map (·.tc) = (leaves t 0).map (·.tc) := by
  have := leaves_shift t 0 o
  rw [Nat.zero_add] at this
  rw [this, List.map_map]
  rfl

theorem roundUp_zero (a : Nat) : roundUp 0 a = 0 := by
  unfold roundUp
  rcases Nat.eq_zero_or_pos a with h | h
  · rw [h]
  · rw [Nat.div_eq_of_lt (by omega)]; simp

/-- A type with one scalar in it is as large as that, and it is found by descending. -/
theorem one_leaf {w : Nat} (hw : w = 4 ∨ w = 8) {t : FType} (h : WF (tab w) t) :
    ∀ k, (leaves t 0).map (·.tc) = [k] → inner t = k ∧ ∃ a, tab w k = some (t.size, a) ∧ a = t.align := by
  induction h with
  | @scalar tc s a h =>
    intro k hk
    have := tab_ok hw _ _ _ h
    cases tc <;> simp_all [leaves, inner]
  | @complex tc s a _ h => intro k hk; simp [leaves] at hk
  | @struct es s a offs hwf hl ih =>
    intro k hk
    cases es with
    | nil => simp [leaves, leavesL] at hk
    | cons e es =>
      cases es with
      | cons e' es' =>
        have h1 := List.length_pos_iff.2 (leaves_ne hw (hwf e (by simp)) 0)
        have h2 := List.length_pos_iff.2 (leaves_ne hw (hwf e' (by simp)) (0 + roundUp (roundUp 0 e.align + e.size) e'.align))
        have h3 := congrArg List.length hk
        simp [leaves, leavesL, roundUp_zero] at h3
        simp [roundUp_zero] at h2
        have h1 : 0 < (leaves e 0).length := h1
        have h2' : 0 < (leaves e' (roundUp e.size e'.align)).length := by
          apply List.length_pos_iff.2
          exact leaves_ne hw (hwf e' (by simp)) _
        omega
      | nil =>
        have hk' : (leaves e 0).map (·.tc) = [k] := by
          simpa [leaves, leavesL, roundUp_zero] using hk
        obtain ⟨i1, b, i2, i3⟩ := ih e (by simp) k hk'
        refine ⟨by rw [inner]; exact i1, b, ?_, ?_⟩
        · obtain ⟨e0, hp, ⟨⟨m, hm, hma⟩, _⟩, hle⟩ := hl
          simp only [List.map_cons, List.map_nil] at hp hm
          rw [List.mem_singleton] at hm
          subst hm
          have hal : e.align = a := hma
          cases hp with
          | cons hlm hp =>
            cases hp
            have hpos := (hwf e (by simp)).align_pos (tab_ok hw)
            have h0 := hlm.eq_roundUp hpos
            rw [roundUp_zero] at h0
            subst h0
            have hs := hle.eq_roundUp (by omega)
            rw [Nat.zero_add, roundUp_of_dvd (by omega) (by rw [← hal]; exact (hwf e (by simp)).align_dvd_size (tab_ok hw))] at hs
            show tab w k = some (s, b)
            rw [hs]; exact i2
        · obtain ⟨e0, hp, ⟨⟨m, hm, hma⟩, _⟩, hle⟩ := hl
          simp only [List.map_cons, List.map_nil] at hm
          rw [List.mem_singleton] at hm
          subst hm
          show b = a
          rw [i3]; exact hma

theorem inner_leaf {w : Nat} (hw : w = 4 ∨ w = 8) {t : FType} (h : WF (tab w) t) (k : TC) (hk : k = .float ∨ k = .double)
    (hi : inner t = k) : (leaves t 0).map (·.tc) = [k] := by
  induction h with
  | @scalar tc s a h =>
    have := tab_ok hw _ _ _ h
    cases tc <;> simp_all [leaves, inner]
  | @complex tc s a _ h =>
    simp [inner] at hi
    rcases hk with rfl | rfl <;> cases hi
  | @struct es s a offs hwf hl ih =>
    cases es with
    | nil => simp [inner] at hi; rcases hk with rfl | rfl <;> cases hi
    | cons e es =>
      cases es with
      | cons e' es' => simp [inner] at hi; rcases hk with rfl | rfl <;> cases hi
      | nil =>
        simp only [inner] at hi
        have := ih e (by simp) hi
        simpa [leaves, leavesL, roundUp_zero] using this

/-- How the code passes a type. -/
inductive Cls (w : Nat) (t : FType) : Prop
  | int (sgn : Bool) : byPtr t = false → kind t = .int → intType ⟨w⟩ (argType t) = some (sgn, t.size) → t.size ≤ w → 1 ≤ t.size →
      (sgn = signed t.tc ∨ t.size = w) → Cls w t
  | long : byPtr t = false → kind t = .int → (argType t = .uint64 ∨ argType t = .sint64) → w = 4 → t.size = 8 → Cls w t
  | float : byPtr t = false → kind t = .fp → argType t = .float → t.size = 4 → Cls w t
  | double : byPtr t = false → kind t = .fp → argType t = .double → t.size = 8 → Cls w t
  | ref : byPtr t = true → kind t = .ref → argType t = .pointer → Cls w t

theorem cls {w : Nat} (hw : w = 4 ∨ w = 8) {t : FType} (h : WF (tab w) t) : Cls w t := by
  cases h with
  | @scalar tc s a h =>
    rcases hw with rfl | rfl <;> cases tc <;> simp [tab] at h <;> obtain ⟨rfl, rfl⟩ := h
    all_goals first
      | exact .int _ rfl rfl rfl (by decide) (by decide) (.inl rfl)
      | exact .int _ rfl rfl rfl (by decide) (by decide) (.inr rfl)
      | exact .long rfl rfl (.inl rfl) rfl rfl
      | exact .long rfl rfl (.inr rfl) rfl rfl
      | exact .float rfl rfl rfl rfl
      | exact .double rfl rfl rfl rfl
      | exact .ref rfl rfl rfl
  | complex _ _ => exact .ref rfl rfl rfl
  | @struct es s a offs hwf hl =>
    have hwf' : WF (tab w) (.mk s a .struct es) := .struct hwf hl
    generalize ht : FType.mk s a .struct es = t at hwf'
    have htc : t.tc = .struct := by rw [← ht]; rfl
    have hsz : t.size = s := by rw [← ht]; rfl
    have hat : argType t = checkStruct t := by unfold argType; rw [htc]
    have hbp : byPtr t = (checkStruct t == .pointer) := by unfold byPtr; rw [htc]; exact congrArg (· == _) hat
    have hkind : kind t = if (leaves t 0).map (·.tc) = [.float] ∨ (leaves t 0).map (·.tc) = [.double] then .fp
        else if t.size = 1 ∨ t.size = 2 ∨ t.size = 4 ∨ t.size = 8 then .int else .ref := by unfold kind; rw [htc]
    have hsg : signed t.tc = false := by rw [htc]; rfl
    by_cases hf : (leaves t 0).map (·.tc) = [.float]
    · obtain ⟨i1, b, i2, _⟩ := one_leaf hw hwf' _ hf
      have h4 : t.size = 4 := by simp [tab] at i2; exact i2.1.symm
      have hc : checkStruct t = .float := by unfold checkStruct; rw [h4]; exact if_pos i1
      exact .float (by rw [hbp, hc]; rfl) (by rw [hkind, if_pos (.inl hf)]) (by rw [hat, hc]) h4
    by_cases hd : (leaves t 0).map (·.tc) = [.double]
    · obtain ⟨i1, b, i2, _⟩ := one_leaf hw hwf' _ hd
      have h8 : t.size = 8 := by simp [tab] at i2; exact i2.1.symm
      have hc : checkStruct t = .double := by unfold checkStruct; rw [h8]; exact if_pos i1
      exact .double (by rw [hbp, hc]; rfl) (by rw [hkind, if_pos (.inr hd)]) (by rw [hat, hc]) h8
    rw [if_neg (by rintro (h | h) <;> contradiction)] at hkind
    have hnf : inner t ≠ .float := fun h => hf (inner_leaf hw hwf' _ (.inl rfl) h)
    have hnd : inner t ≠ .double := fun h => hd (inner_leaf hw hwf' _ (.inr rfl) h)
    by_cases h1 : t.size = 1
    · have hc : checkStruct t = .uint8 := by unfold checkStruct; rw [h1]; rfl
      exact .int false (by rw [hbp, hc]; rfl) (by rw [hkind, if_pos (.inl h1)]) (by rw [hat, hc, h1]; rfl) (by omega) (by omega) (.inl hsg.symm)
    by_cases h2 : t.size = 2
    · have hc : checkStruct t = .uint16 := by unfold checkStruct; rw [h2]; rfl
      exact .int false (by rw [hbp, hc]; rfl) (by rw [hkind, if_pos (.inr (.inl h2))]) (by rw [hat, hc, h2]; rfl) (by omega) (by omega) (.inl hsg.symm)
    by_cases h4 : t.size = 4
    · have hc : checkStruct t = .uint32 := by unfold checkStruct; rw [h4]; exact if_neg hnf
      exact .int false (by rw [hbp, hc]; rfl) (by rw [hkind, if_pos (.inr (.inr (.inl h4)))]) (by rw [hat, hc, h4]; rfl) (by omega) (by omega) (.inl hsg.symm)
    by_cases h8 : t.size = 8
    · have hc : checkStruct t = .uint64 := by unfold checkStruct; rw [h8]; exact if_neg hnd
      have hk : kind t = .int := by rw [hkind, if_pos (.inr (.inr (.inr h8)))]
      have hb : byPtr t = false := by rw [hbp, hc]; rfl
      rcases hw with rfl | rfl
      · exact .long hb hk (.inl (by rw [hat, hc])) rfl h8
      · exact .int false hb hk (by rw [hat, hc, h8]; rfl) (by omega) (by omega) (.inl hsg.symm)
    have hc : checkStruct t = .pointer := by
      unfold checkStruct
      split <;> first | omega | rfl
    exact .ref (by rw [hbp, hc]; rfl) (by rw [hkind, if_neg (by omega)]) (by rw [hat, hc])

/-! ## Positions -/

theorem maxFpr_eq (c : Cfg) : maxFpr c = fprs c.w := rfl

/-- The counters and the position. -/
def Sim (c : Cfg) (ng nf no : Nat) (p : Pos) : Prop := ng = p.ng ∧ nf = p.nf ∧ c.w * no = p.ns ∧ p.ng ≤ 5 ∧ p.nf ≤ fprs c.w

/-- Space for copies. -/
def copyBytes (t : FType) : Nat := if kind t = .ref then roundSize t.size else 0

theorem nextWord_sim {c : Cfg} {ng nf no : Nat} {p : Pos} (h : Sim c ng nf no p) :
    (ng < maxGpr → (nextWord c.w p).1 = .gpr ng ∧ Sim c (ng + 1) nf no (nextWord c.w p).2) ∧
    (¬ ng < maxGpr → (nextWord c.w p).1 = .stk (c.w * no) ∧ Sim c ng nf (no + 1) (nextWord c.w p).2) := by
  obtain ⟨rfl, rfl, h3, h4, h5⟩ := h
  unfold nextWord maxGpr
  refine ⟨fun hg => ?_, fun hg => ?_⟩
  · rw [if_pos hg]; exact ⟨rfl, rfl, rfl, h3, hg, h5⟩
  · rw [if_neg hg]
    refine ⟨by rw [h3], rfl, rfl, ?_, h4, h5⟩
    dsimp only
    rw [← h3, Nat.mul_add, Nat.mul_one]

theorem int_types {w : Nat} {tc : TC} {sgn : Bool} {n : Nat} (h : intType ⟨w⟩ tc = some (sgn, n)) :
    tc ≠ .double ∧ tc ≠ .float ∧ ((tc = .uint64 ∨ tc = .sint64) → w = 8) := by
  cases tc <;> simp [intType] at h <;> simp
  all_goals exact h.1

theorem prepWord_sim {c : Cfg} {n : Cnt} {p : Pos} (hs : Sim c n.ng n.nf n.no p) :
    Sim c (prepWord n).ng (prepWord n).nf (prepWord n).no (nextWord c.w p).2 ∧ (prepWord n).ss = n.ss := by
  obtain ⟨hw1, hw2⟩ := nextWord_sim hs
  unfold prepWord
  by_cases hg : n.ng < maxGpr
  · rw [if_pos hg]; exact ⟨(hw1 hg).2, rfl⟩
  · rw [if_neg hg]; exact ⟨(hw2 hg).2, rfl⟩

/-- The position after an argument, by its class. -/
theorem prepType_sim {c : Cfg} (hc : c.Ok) {t : FType} (h : WF (tab c.w) t) {n : Cnt} {p : Pos} (hs : Sim c n.ng n.nf n.no p) :
    Sim c (prepType c (argType t) n).ng (prepType c (argType t) n).nf (prepType c (argType t) n).no (placeArg c.w t p).2 ∧
      (prepType c (argType t) n).ss = n.ss := by
  have hcw : c.w = 4 ∨ c.w = 8 := hc
  have hw := prepWord_sim hs
  unfold placeArg
  rcases cls hc h with ⟨sgn, h1, h2, h3, h4, h5, h6⟩ | ⟨h1, h2, h3, h4, h5⟩ | ⟨h1, h2, h3, h4⟩ | ⟨h1, h2, h3, h4⟩ | ⟨h1, h2, h3⟩
  · rw [h2]
    dsimp only
    rw [if_pos h4]
    obtain ⟨i1, i2, i3⟩ := int_types h3
    unfold prepType
    split <;> first | contradiction | skip
    · rw [if_pos (i3 (.inl ‹_›))]; exact hw
    · rw [if_pos (i3 (.inr ‹_›))]; exact hw
    · exact hw
  · rw [h2]
    dsimp only
    have e : prepType c (argType t) n = if (if n.ng = maxGpr - 1 then maxGpr else n.ng) < maxGpr then
        { n with ng := (if n.ng = maxGpr - 1 then maxGpr else n.ng) + 2 } else { n with ng := (if n.ng = maxGpr - 1 then maxGpr else n.ng), no := n.no + 2 } := by
      rcases h3 with h3 | h3 <;> rw [h3] <;> exact if_neg (by omega)
    rw [if_neg (by omega), e]
    obtain ⟨e1, e2, e3, e4, e5⟩ := hs
    unfold maxGpr
    by_cases hg : p.ng + 2 ≤ 5
    · have : (if n.ng = 5 - 1 then 5 else n.ng) = n.ng := if_neg (by omega)
      rw [if_pos hg, this, if_pos (by omega)]
      exact ⟨⟨by dsimp only; omega, e2, e3, hg, e5⟩, rfl⟩
    · rw [if_neg hg]
      have : (if n.ng = 5 - 1 then 5 else n.ng) = 5 := by split <;> omega
      rw [this, if_neg (by omega)]
      refine ⟨⟨rfl, e2, ?_, Nat.le_refl _, e5⟩, rfl⟩
      dsimp only
      rw [Nat.mul_add, e3]; omega
  · rw [h2, h3]
    dsimp only
    obtain ⟨e1, e2, e3, e4, e5⟩ := hs
    show Sim c (if n.nf < maxFpr c then { n with nf := n.nf + 1 } else { n with no := n.no + 1 } : Cnt).ng _ _ _ ∧ _
    unfold prepType
    dsimp only
    rw [maxFpr_eq]
    by_cases hf : p.nf < fprs c.w
    · rw [if_pos hf, if_pos (by omega)]
      exact ⟨⟨e1, by dsimp only; omega, e3, e4, hf⟩, rfl⟩
    · rw [if_neg hf, if_neg (by omega), if_pos (by omega)]
      refine ⟨⟨e1, e2, ?_, e4, e5⟩, rfl⟩
      dsimp only
      rw [Nat.mul_add, e3]; omega
  · rw [h2, h3]
    dsimp only
    obtain ⟨e1, e2, e3, e4, e5⟩ := hs
    unfold prepType
    dsimp only
    rw [maxFpr_eq]
    by_cases hf : p.nf < fprs c.w
    · rw [if_pos hf, if_pos (by omega)]
      exact ⟨⟨e1, by dsimp only; omega, e3, e4, hf⟩, rfl⟩
    · rw [if_neg hf, if_neg (by omega)]
      rcases hcw with hcw | hcw
      · rw [if_neg (by omega), hcw]
        refine ⟨⟨e1, e2, ?_, e4, e5⟩, rfl⟩
        dsimp only
        rw [Nat.mul_add, e3, hcw]
      · rw [if_pos (by omega), hcw]
        refine ⟨⟨e1, e2, ?_, e4, e5⟩, rfl⟩
        dsimp only
        rw [Nat.mul_add, e3, hcw]
  · rw [h2, h3]
    exact hw

/-- The counters of `ffi_prep_cif_machdep` follow the convention. -/
theorem prepArg_sim {c : Cfg} (hc : c.Ok) {t : FType} (h : WF (tab c.w) t) {n : Cnt} {p : Pos} (hs : Sim c n.ng n.nf n.no p) :
    Sim c (prepArg c t n).ng (prepArg c t n).nf (prepArg c t n).no (placeArg c.w t p).2 ∧ (prepArg c t n).ss = n.ss + copyBytes t := by
  unfold prepArg copyBytes
  have hbp : byPtr t = decide (kind t = .ref) := by
    rcases cls hc h with ⟨sgn, h1, h2, _⟩ | ⟨h1, h2, _⟩ | ⟨h1, h2, _⟩ | ⟨h1, h2, _⟩ | ⟨h1, h2, _⟩ <;> rw [h1, h2] <;> rfl
  rw [hbp]
  by_cases hk : kind t = .ref
  · rw [decide_eq_true hk, if_pos rfl, if_pos hk]
    exact prepType_sim hc h (n := { n with ss := n.ss + roundSize t.size }) hs
  · rw [decide_eq_false hk, if_neg (by decide), if_neg hk]
    exact prepType_sim hc h hs

/-- Space for all copies. -/
def copySum : List FType → Nat
  | [] => 0
  | t :: ts => copyBytes t + copySum ts

theorem prepLoop_sim {c : Cfg} (hc : c.Ok) {ts : List FType} : ∀ {n : Cnt} {p : Pos}, (∀ t ∈ ts, WF (tab c.w) t) → Sim c n.ng n.nf n.no p →
    Sim c (prepLoop c ts n).ng (prepLoop c ts n).nf (prepLoop c ts n).no (endFrom c.w ts p) ∧ (prepLoop c ts n).ss = n.ss + copySum ts := by
  induction ts with
  | nil => intro n p _ hs; exact ⟨hs, rfl⟩
  | cons t ts ih =>
    intro n p h hs
    obtain ⟨h1, h2⟩ := prepArg_sim hc (h t (by simp)) hs
    obtain ⟨h3, h4⟩ := ih (fun x hx => h x (by simp [hx])) h1
    refine ⟨h3, ?_⟩
    rw [prepLoop, h4, h2, copySum]; omega

theorem flags_mem {c : Cfg} (rt : FType) : (retFlags c rt &&& retInMem ≠ 0) ↔ retPlace rt = .mem := by
  unfold retFlags retPlace
  cases rt.tc <;> simp <;> (try split) <;> decide

theorem flags_struct {c : Cfg} (rt : FType) : retFlags c rt = retStruct ↔ retPlace rt = .mem := by
  unfold retFlags retPlace
  cases rt.tc <;> simp <;> (try split) <;> decide

/-- The space that `ffi_prep_cif_machdep` computes. -/
theorem prepBytes_eq {c : Cfg} (hc : c.Ok) {rt : FType} {ats : List FType} (h : ∀ t ∈ ats, WF (tab c.w) t) :
    prepBytes c rt ats = roundSize (endFrom c.w ats (start rt)).ns + copySum ats := by
  unfold prepBytes
  have hs : Sim c (if retFlags c rt = retStruct then 1 else 0) 0 0 (start rt) := by
    unfold start Sim
    refine ⟨?_, rfl, rfl, ?_, Nat.zero_le _⟩
    · by_cases hm : retPlace rt = .mem
      · rw [if_pos hm, if_pos ((flags_struct rt).2 hm)]
      · rw [if_neg hm, if_neg (fun h => hm ((flags_struct rt).1 h))]
    · dsimp only; split <;> omega
  obtain ⟨h1, h2⟩ := prepLoop_sim hc (n := ⟨if retFlags c rt = retStruct then 1 else 0, 0, 0, 0⟩) h hs
  dsimp only
  rw [h2, ← h1.2.2.1, Nat.mul_comm c.w]
  simp only [Nat.zero_add]

end Verif.S390
