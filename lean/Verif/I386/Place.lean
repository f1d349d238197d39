import Verif.I386.Call

/-! The addresses used by calls and closures are the places that the conventions
prescribe. -/
namespace Verif.I386
open Verif Verif.Spec Verif.Spec.X86

/-- Index of a register in `regs`. -/
def idx : Reg → Nat
  | .eax => 0
  | .edx => 1
  | .ecx => 2

/-- The address that stands for a location: `rb` are the saved registers. -/
def LocAt (rb base : Nat) : Loc → Nat → Prop
  | .reg r, a => a = rb + 4 * idx r
  | .stk o, a => a = base + o

theorem params_regs (A : Conv) : (params A).regs = A.regs.map idx := by cases A <;> rfl

theorem getD_idx {A : Conv} {n : Nat} {r : Reg} {rs : List Reg} (h : A.regs.drop n = r :: rs) :
    n < (params A).regs.length ∧ (params A).regs.getD n 0 = idx r ∧ A.regs.drop (n + 1) = rs := by
  have hlt : n < A.regs.length := by
    apply Nat.lt_of_not_le
    intro hle
    rw [List.drop_eq_nil_of_le hle] at h
    cases h
  rw [List.drop_eq_getElem_cons hlt] at h
  injection h with h1 h2
  refine ⟨by rw [params_regs]; simpa using hlt, ?_, h2⟩
  rw [params_regs, List.getD_eq_getElem?_getD, List.getElem?_map, List.getElem?_eq_getElem hlt, h1]
  rfl

theorem drop_nil {A : Conv} {n : Nat} (h : A.regs.drop n = []) : ¬ n < (params A).regs.length := by
  rw [params_regs]
  simp only [List.length_map]
  have := List.drop_eq_nil_iff.1 h
  omega

theorem closes_eq (A : Conv) (tc : TC) : A.closes tc = true ↔
    (A = .thiscall ∨ A = .fastcall) ∧ (tc = .sint64 ∨ tc = .uint64 ∨ tc = .struct) := by
  unfold Conv.closes
  simp only [Bool.and_eq_true, Bool.or_eq_true, decide_eq_true_eq]
  tauto

theorem closed_regs {A : Conv} (h : A = .thiscall ∨ A = .fastcall) : A.regs.drop 2 = [] := by
  rcases h with rfl | rfl <;> rfl

theorem roundUp_add {s o a : Nat} (ha : 0 < a) (h : a ∣ s) : roundUp (s + o) a = s + roundUp o a := by
  obtain ⟨k, rfl⟩ := h
  unfold roundUp
  rw [show a * k + o + (a - 1) = o + (a - 1) + a * k by omega, Nat.add_mul_div_left _ _ ha, Nat.add_mul, Nat.mul_comm k a]
  omega

/-- The loops' state and the position in the argument list of the specification. -/
structure Sim (c : Cfg) (sp : Nat) (st : St) (p : Pos) : Prop where
  free : p.free = c.abi.regs.drop st.narg
  argp : st.argp = sp + p.ns
  al : 4 ∣ p.ns

theorem lay_sim {c : Cfg} {D : Data} (hT : Target c D) (hu : (params c.abi).up = true) {rb sp : Nat}
    {t : FType} {st : St} {p : Pos} (ht : Passable D t) (hs4 : 4 ∣ sp) (hs16 : D.ldAlign ≠ 4 → 16 ∣ sp)
    (h : Sim c sp st p) :
    LocAt rb sp (placeArg c.abi t p).1 (lay c rb t st).1 ∧ Sim c sp (lay c rb t st).2 (placeArg c.abi t p).2 := by
  obtain ⟨hf, ha, h4⟩ := h
  obtain ⟨free, ns⟩ := p
  dsimp only at hf ha h4
  have hsl := slot_eq hT.data ht
  have hz : 4 ∣ roundUp t.size 4 := dvd_roundUp _ _
  have hal : roundUp st.argp (stkAlign t) = sp + roundUp ns (stkAlign t) := by
    rw [ha]
    apply roundUp_add
    · have := stkAlign_cases t; omega
    · rcases stkAlign_cases t with e | e
      · rw [e]; exact hs4
      · rw [e]
        apply hs16
        intro hld
        have := wf_align_le hT.data hld ht.1
        unfold stkAlign at e
        split at e <;> omega
  have hal4 : 4 ∣ roundUp ns (stkAlign t) := by
    have := stkAlign_cases t
    exact pad_dvd (by omega) h4
  by_cases hs : small t
  · have hst4 : slot t = 4 := if_pos hs
    have hsa : stkAlign t = 4 := if_neg (fun h => hs.2 h.1)
    have hns : roundUp ns (stkAlign t) = ns := by rw [hsa]; exact roundUp_of_dvd (by decide) h4
    unfold lay
    rw [if_pos hs]
    by_cases hr : t.tc ≠ .float ∧ st.narg < (params c.abi).regs.length
    · rw [if_pos hr]
      have hw : word t.tc = true := by
        rcases small_cases hT.data ht hs with h | h
        · exact h
        · exact absurd h.1 hr.1
      cases free with
      | nil => exact absurd hr.2 (drop_nil hf.symm)
      | cons r rs =>
        obtain ⟨_, hg, hd⟩ := getD_idx hf.symm
        unfold placeArg
        dsimp only
        rw [if_pos hw]
        exact ⟨by rw [hg]; rfl, ⟨hd.symm, ha, h4⟩⟩
    · rw [if_neg hr, if_pos hu]
      have e : placeArg c.abi t ⟨free, ns⟩ = (.stk ns, ⟨free, ns + 4⟩) := by
        unfold placeArg
        rw [hns, ← hsl, hst4]
        cases free with
        | nil => rfl
        | cons r rs =>
          have hlt := (getD_idx hf.symm).1
          have htc : t.tc = .float := by
            by_contra hne
            exact hr ⟨hne, hlt⟩
          dsimp only
          have hcl : c.abi.closes t.tc = false := by rw [htc]; cases c.abi <;> rfl
          rw [hcl, htc]
          rfl
      rw [e]
      exact ⟨ha, ⟨hf, by dsimp only; omega, by dsimp only; omega⟩⟩
  · have hns' : slot t = roundUp t.size 4 := if_neg hs
    have hw : word t.tc = false := by
      cases h : word t.tc with
      | false => rfl
      | true => exact absurd (word_small ht.1 h) hs
    unfold lay
    rw [if_neg hs]
    dsimp only
    rw [if_pos hu, hal]
    have e : placeArg c.abi t ⟨free, ns⟩ = (.stk (roundUp ns (stkAlign t)),
        ⟨if c.abi.closes t.tc then [] else free, roundUp ns (stkAlign t) + roundUp t.size 4⟩) := by
      unfold placeArg
      cases free with
      | nil => simp
      | cons r rs => dsimp only; rw [if_neg (by rw [hw]; simp)]
    rw [e]
    refine ⟨rfl, ⟨?_, by dsimp only; omega, Nat.dvd_add hal4 hz⟩⟩
    dsimp only
    by_cases hc : c.abi.closes t.tc = true
    · have hc' := (closes_eq _ _).1 hc
      rw [if_pos hc, if_pos hc', closed_regs hc'.1]
    · rw [if_neg hc, if_neg (fun h => hc ((closes_eq _ _).2 h)), hf]

/-- Addresses and locations correspond. -/
def AllAt (rb base : Nat) : List Loc → List Nat → Prop
  | l :: ls, a :: as => LocAt rb base l a ∧ AllAt rb base ls as
  | [], [] => True
  | _, _ => False

theorem layLoop_sim {c : Cfg} {D : Data} (hT : Target c D) (hu : (params c.abi).up = true) {rb sp : Nat}
    {ts : List FType} (hp : ∀ t ∈ ts, Passable D t) (hs4 : 4 ∣ sp) (hs16 : D.ldAlign ≠ 4 → 16 ∣ sp) :
    ∀ {st : St} {p : Pos}, Sim c sp st p →
      AllAt rb sp (placeFrom c.abi ts p) (layLoop c rb ts st).1 ∧ Sim c sp (layLoop c rb ts st).2 (endFrom c.abi ts p) := by
  induction ts with
  | nil => intro st p h; exact ⟨trivial, h⟩
  | cons t ts ih =>
    intro st p h
    have h1 := lay_sim hT hu (rb := rb) (hp t (by simp)) hs4 hs16 h
    have h2 := ih (fun x hx => hp x (by simp [hx])) h1.2
    exact ⟨⟨h1.1, h2.1⟩, h2.2⟩

theorem layLoop_rev {c : Cfg} {D : Data} (hD : D.Ok) (hu : (params c.abi).up = false) {rb base : Nat}
    {ts : List FType} (hp : ∀ t ∈ ts, Passable D t) :
    ∀ {st : St} {free : List Reg}, free = c.abi.regs.drop st.narg → st.argp = base + pushed ts free →
      AllAt rb base (placeRev ts free) (layLoop c rb ts st).1 ∧ (layLoop c rb ts st).2.argp = base := by
  have hu' : ¬ (params c.abi).up = true := by simp [hu]
  induction ts with
  | nil =>
    intro st free _ ha
    refine ⟨?_, ?_⟩
    · cases free <;> trivial
    · cases free <;> exact ha
  | cons t ts ih =>
    intro st free hf ha
    have hp' : ∀ t ∈ ts, Passable D t := fun x hx => hp x (by simp [hx])
    have hsl := slot_eq hD (hp t (by simp))
    by_cases hreg : small t ∧ t.tc ≠ .float ∧ st.narg < (params c.abi).regs.length
    · have e : lay c rb t st = (rb + 4 * (params c.abi).regs.getD st.narg 0, { st with narg := st.narg + 1 }) := by
        unfold lay; rw [if_pos hreg.1, if_pos hreg.2]
      have hw : word t.tc = true := by
        rcases small_cases hD (hp t (by simp)) hreg.1 with h | h
        · exact h
        · exact absurd h.1 hreg.2.1
      cases free with
      | nil => exact absurd hreg.2.2 (drop_nil hf.symm)
      | cons r rs =>
        obtain ⟨_, hg, hd⟩ := getD_idx hf.symm
        rw [pushed, if_pos hw] at ha
        rw [placeRev, if_pos hw, layLoop, e]
        have := ih hp' (st := { st with narg := st.narg + 1 }) hd.symm ha
        exact ⟨⟨by rw [hg]; rfl, this.1⟩, this.2⟩
    · have e : lay c rb t st = (st.argp - slot t, { st with argp := st.argp - slot t }) := by
        unfold lay slot
        by_cases hs : small t
        · rw [if_pos hs, if_neg (fun h => hreg ⟨hs, h⟩), if_neg hu', if_pos hs]
        · rw [if_neg hs, if_neg hs]
          dsimp only
          rw [if_neg hu', if_neg (fun h => down_closes hu h.1)]
      have hnw : ∀ r rs, free = r :: rs → word t.tc = false := by
        intro r rs h
        subst h
        have hlt := (getD_idx hf.symm).1
        cases h : word t.tc with
        | false => rfl
        | true => exact absurd ⟨word_small (hp t (by simp)).1 h, (by rintro h'; rw [h'] at h; cases h), hlt⟩ hreg
      have ep : pushed (t :: ts) free = roundUp t.size 4 + pushed ts free := by
        cases free with
        | nil => rfl
        | cons r rs => rw [pushed, if_neg (by rw [hnw r rs rfl]; simp)]
      have el : placeRev (t :: ts) free = .stk (pushed ts free) :: placeRev ts free := by
        cases free with
        | nil => rfl
        | cons r rs => rw [placeRev, if_neg (by rw [hnw r rs rfl]; simp)]
      rw [ep] at ha
      rw [el, layLoop, e, hsl]
      have := ih hp' (st := { st with argp := st.argp - roundUp t.size 4 }) hf (by dsimp only; omega)
      refine ⟨⟨?_, this.1⟩, this.2⟩
      show st.argp - roundUp t.size 4 = base + pushed ts free
      omega

/-! ## Start of the argument list -/

theorem start_sim {c : Cfg} (hu : (params c.abi).up = true) {fl : Flag} (hfl : isMem fl = true → fl = structFlag c)
    (sp : Nat) : Sim c sp (startSt c fl sp) (start c.abi (isMem fl)) := by
  unfold startSt start
  cases hm : isMem fl with
  | false => exact ⟨rfl, rfl, by simp⟩
  | true =>
    have e := hfl hm
    simp only [if_true]
    cases hc : c.abi <;> rw [hc] at hu <;> first | (cases hu; done) | skip
    all_goals
      rw [e]
      simp only [structFlag, hc, params, Conv.regs]
      refine ⟨?_, ?_, ?_⟩ <;> simp [hc, Conv.regs]

/-- Where the arguments are according to the conventions. -/
def placed (A : Conv) (mem : Bool) (ts : List FType) : List Loc :=
  if (params A).up then placeFrom A ts (start A mem) else placeRev ts A.regs

/-- Distance of the arguments from the stack pointer under the reversed conventions. -/
def gap (c : Cfg) (bytes : Nat) (ts : List FType) : Nat :=
  if (params c.abi).up then 0 else stackAlign c bytes - pushed ts c.abi.regs

theorem pushed_eq {c : Cfg} {D : Data} (hD : D.Ok) (hu : (params c.abi).up = false) {ts : List FType}
    (hp : ∀ t ∈ ts, Passable D t) :
    ∀ n, pushed ts (c.abi.regs.drop n) = downBytes c ts n := by
  induction ts with
  | nil => intro n; cases c.abi.regs.drop n <;> rfl
  | cons t ts ih =>
    intro n
    have ih := ih (fun x hx => hp x (by simp [hx]))
    have hsl := slot_eq hD (hp t (by simp))
    unfold downBytes
    cases hf : c.abi.regs.drop n with
    | nil =>
      have hn := drop_nil hf
      rw [if_neg (fun h => hn h.2.2), pushed, ← ih n, hf, hsl]
    | cons r rs =>
      obtain ⟨hlt, _, hd⟩ := getD_idx hf
      rw [pushed]
      by_cases hw : word t.tc = true
      · rw [if_pos hw, if_pos ⟨word_small (hp t (by simp)).1 hw, (by rintro h'; rw [h'] at hw; cases hw), hlt⟩, ← ih, hd]
      · rw [if_neg hw, if_neg, ← ih n, hf, hsl]
        rintro ⟨hs, hfl, _⟩
        rcases small_cases hD (hp t (by simp)) hs with h | h
        · exact hw h
        · exact hfl h.1

/-- The addresses of the arguments, from the stack pointer at the call. -/
theorem layLoop_placed {c : Cfg} {D : Data} (hT : Target c D) {fl : Flag}
    (hdir : (params c.abi).up = true ∨ isMem fl = false) (hfl : isMem fl = true → fl = structFlag c)
    {bytes : Nat} {ts : List FType} (hp : ∀ t ∈ ts, Passable D t) (hfit : reserve c (retBytes fl) ts ≤ bytes)
    (hb : bytes < 2 ^ 32) {rb sp : Nat} (hs4 : 4 ∣ sp) (hs16 : D.ldAlign ≠ 4 → 16 ∣ sp) :
    AllAt rb (sp + gap c bytes ts) (placed c.abi (isMem fl) ts)
      (layLoop c rb ts (startSt c fl (argBase c sp bytes))).1 := by
  unfold placed gap argBase
  by_cases hu : (params c.abi).up = true
  · simp only [if_pos hu]
    exact (layLoop_sim hT hu hp hs4 hs16 (start_sim hu hfl sp)).1
  · have hu' : (params c.abi).up = false := by simpa using hu
    have hm : isMem fl = false := hdir.resolve_left hu
    simp only [if_neg hu]
    have hd := downBytes_le (c := c) hT.data hp (n := 0) (b := retBytes fl)
    have hB := stackAlign_ge (c := c) hb
    have e := pushed_eq hT.data hu' hp 0
    rw [List.drop_zero] at e
    refine (layLoop_rev hT.data hu' hp (free := c.abi.regs) ?_ ?_).1
    · unfold startSt; rw [hm]; rfl
    · unfold startSt; rw [hm]
      simp only [if_false, Bool.false_eq_true]
      omega

/-! ## Stored values are passed values -/

/-- The stack pointer moved up. -/
def up (R : Regs) (k : Nat) : Regs := { R with sp := R.sp + k }

theorem stored_passed {R : Regs} {rb : Nat} (hr : ∀ r, R.reg r = R.mem.rd (rb + 4 * idx r) 4)
    {t : FType} (hw4 : word t.tc = true → small t) {v : List Byte} {l : Loc} {a : Nat} (hl : LocAt rb R.sp l a)
    (hreg : ∀ r, l = .reg r → word t.tc = true) (h : Stored R.mem t v a) : PassedAt R t v l := by
  obtain ⟨h1, h2, h3⟩ := h
  have hle : t.size ≤ cell t := by
    unfold cell
    split
    · rename_i h; exact h.1
    · exact Nat.le_refl _
  have key : ∀ n, n ≤ cell t → R.at n l = (R.mem.rd a (cell t)).take n := by
    intro n hn
    cases l with
    | stk o =>
      have hl : a = R.sp + o := hl
      show R.mem.rd (R.sp + o) n = _
      rw [hl, Mem.rd_take _ _ hn]
    | reg r =>
      have hl : a = rb + 4 * idx r := hl
      have : cell t = 4 := if_pos (hw4 (hreg r rfl))
      show (R.reg r).take n = _
      rw [hr, hl, this]
  refine ⟨by rw [key _ hle, h2], fun hw => ?_⟩
  have h4 : cell t = 4 := if_pos (hw4 hw)
  rw [key 4 (by omega)]
  rw [show (R.mem.rd a (cell t)).take 4 = R.mem.rd a (cell t) from List.take_of_length_le (by rw [h1, h4])]
  exact h3 hw

/-- Only words are placed in registers. -/
def RegsWords : List FType → List Loc → Prop
  | t :: ts, l :: ls => (∀ r, l = .reg r → word t.tc = true) ∧ RegsWords ts ls
  | _, _ => True

theorem placeFrom_words (A : Conv) (ts : List FType) : ∀ p, RegsWords ts (placeFrom A ts p) := by
  induction ts with
  | nil => intro p; trivial
  | cons t ts ih =>
    intro p
    refine ⟨?_, ih _⟩
    unfold placeArg
    intro r h
    split at h
    · split at h
      · rename_i hw; exact hw
      · cases h
    · cases h

theorem placeRev_words (ts : List FType) : ∀ free, RegsWords ts (placeRev ts free) := by
  induction ts with
  | nil => intro free; cases free <;> trivial
  | cons t ts ih =>
    intro free
    cases free with
    | nil => exact ⟨fun r h => (by cases h), ih _⟩
    | cons r rs =>
      rw [placeRev]
      split
      · rename_i hw; exact ⟨fun _ _ => hw, ih _⟩
      · exact ⟨fun r h => (by cases h), ih _⟩

theorem placed_words (A : Conv) (mem : Bool) (ts : List FType) : RegsWords ts (placed A mem ts) := by
  unfold placed
  split
  · exact placeFrom_words _ _ _
  · exact placeRev_words _ _

theorem allStored_passed {R : Regs} {rb : Nat} (hr : ∀ r, R.reg r = R.mem.rd (rb + 4 * idx r) 4) {D : Data} {ts : List FType}
    (hp : ∀ t ∈ ts, Passable D t) : ∀ {vs : List (List Byte)} {ls : List Loc} {as : List Nat},
      AllAt rb R.sp ls as → RegsWords ts ls → AllStored R.mem ts vs as → AllPassed R ts vs ls := by
  induction ts with
  | nil =>
    intro vs ls as h1 _ h3
    cases vs with
    | cons => cases as <;> exact h3.elim
    | nil =>
      cases as with
      | cons => exact h3.elim
      | nil =>
        cases ls with
        | nil => trivial
        | cons => exact h1.elim
  | cons t ts ih =>
    intro vs ls as h1 h2 h3
    cases vs with
    | nil => exact h3.elim
    | cons v vs =>
      cases as with
      | nil => exact h3.elim
      | cons a as =>
        cases ls with
        | nil => exact h1.elim
        | cons l ls =>
          exact ⟨stored_passed hr (fun h => word_small (hp t (by simp)).1 h) h1.1 h2.1 h3.1,
            ih (fun x hx => hp x (by simp [hx])) h1.2 h2.2 h3.2⟩

/-- `ffi_call` passes every argument where the conventions say; under the reversed ones
relative to a stack pointer that may be too low. -/
theorem callEntry_placed {c : Cfg} {D : Data} {fl : Flag} {bytes : Nat} {rt : FType} {ats : List FType} {I : CallIn}
    (h : CallPre c D fl bytes rt ats I) (hfl : isMem fl = true → fl = structFlag c) {O : CallOut}
    (hO : CallPost c D fl bytes rt ats I O) :
    AllPassed (up O.entry.regs (gap c bytes ats)) ats (argVals I.mem ats I.avalue) (placed c.abi (isMem fl) ats) := by
  have hs16 : D.ldAlign ≠ 4 → 16 ∣ O.entry.sp := fun hl => hO.align.2 (by
    cases hm : c.msvc with
    | false => rfl
    | true => exact absurd (h.target.win (.inr hm)) hl)
  have hat := layLoop_placed h.target h.dir hfl h.atsOk h.fits.1 h.fits.2 (rb := O.frame + 20) hO.align.1 hs16
  refine allStored_passed (rb := O.frame + 20) ?_ h.atsOk hat (placed_words _ _ _) hO.args
  intro r
  obtain ⟨h1, h2, h3⟩ := hO.regs
  cases r
  · exact h1
  · exact h2
  · exact h3

end Verif.I386
