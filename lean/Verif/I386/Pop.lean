import Verif.I386.Result

/-! The stack pointer after a closure. -/
namespace Verif.I386
open Verif Verif.Spec Verif.Spec.X86

/-- Bytes removed from the stack in addition to the return address. -/
def popCount (c : Cfg) (kind : Kind) (fl : Flag) (ret : Nat) : Nat :=
  if pops c kind then ret / 16 else if fl = .structPop then 4 else 0

theorem loadTable_congr {frame : Nat} {m m' : Mem} (h : ∀ x, frame ≤ x → x < frame + 10 → m' x = m x) (fl : Flag) :
    loadTable frame m' fl = loadTable frame m fl := by
  have r : ∀ n, n ≤ 10 → m'.rd frame n = m.rd frame n := fun n hn => Mem.rd_congr (fun i hi => h _ (by omega) (by omega))
  have r4 : m'.rd (frame + 4) 4 = m.rd (frame + 4) 4 := Mem.rd_congr (fun i hi => h _ (by omega) (by omega))
  unfold loadTable
  rw [r 4 (by omega), r 8 (by omega), r 10 (by omega), r4]

/-- A closure returns to its caller, with the result registers loaded from its frame. -/
theorem closureExit_spec {c : Cfg} {kind : Kind} {sp esp frame ret : Nat} {fl : Flag} (hesp : esp = sp - 4 - fs c)
    (hlow : 64 ≤ sp) (hframe : frame = esp + cf c) (hret : ret % 16 = fl.code) (m : Mem) :
    ∃ X, closureExit c kind esp frame ret m = some X ∧ X.retaddr = m.rd (sp - 4) 4 ∧
      X.sp = sp + popCount c kind fl ret ∧ X.eax = (loadTable frame m fl).1 ∧ X.edx = (loadTable frame m fl).2.1 ∧
      X.st0 = (loadTable frame m fl).2.2 := by
  have hfs : fs c = 44 ∧ cf c = 0 ∨ fs c = 60 ∧ cf c = 8 := by unfold fs cf; cases c.pcc <;> simp
  have hra : esp + fs c = sp - 4 := by omega
  unfold closureExit popCount
  rw [hret, ofCode_code, hra]
  by_cases hp : pops c kind = true
  · simp only [Option.map_some, hp, if_true]
    have hlen : (m.rd (sp - 4) 4).length = 4 := by simp
    have hl : loadTable frame (m.wr (sp - 4 + ret / 16) (m.rd (sp - 4) 4)) fl = loadTable frame m fl := by
      apply loadTable_congr
      intro x h1 h2
      rw [Mem.wr_out _ _ _ _ (by omega)]
    refine ⟨_, rfl, rd_wr hlen, by dsimp only; omega, ?_, ?_, ?_⟩ <;> dsimp only <;> rw [hl]
  · simp only [Option.map_some, hp, if_false, Bool.false_eq_true]
    refine ⟨_, rfl, rfl, by dsimp only; omega, rfl, rfl, rfl⟩

/-! ## How many bytes -/

/-- No padding before the argument in `cif->bytes`. -/
def NoPad (c : Cfg) (t : FType) : Prop := c.win32 = true ∧ c.abi = .stdcall ∨ t.align ≤ 4

/-- Words that the arguments take. -/
def total : List FType → Nat
  | [] => 0
  | t :: ts => roundUp t.size 4 + total ts

/-- Registers that `narg_reg = 2` counts as used though they are not; `n` are in use. -/
def lost (A : Conv) : List FType → Nat → Nat
  | [], _ => 0
  | t :: ts, n =>
    if word t.tc ∧ n < A.regs.length then lost A ts (n + 1)
    else if A.closes t.tc then (2 - n) + lost A ts 2
    else lost A ts n

theorem reserve_total {c : Cfg} {D : Data} (hD : D.Ok) {ts : List FType} (hw : ∀ t ∈ ts, WF D.tab t)
    (h : ∀ t ∈ ts, NoPad c t) : ∀ {b : Nat}, 4 ∣ b → reserve c b ts = b + total ts := by
  induction ts with
  | nil => intro b _; rfl
  | cons t ts ih =>
    intro b hb
    have e : roundUp b (if c.win32 ∧ c.abi = .stdcall then 4 else t.align) = b := by
      apply roundUp_of_dvd
      · have := pad_pos (c := c) hD (hw t (by simp)); omega
      · rcases h t (by simp) with h | h
        · rw [if_pos h]; exact hb
        · split
          · exact hb
          · have := (hw t (by simp)).align_cases (tab_ok hD)
            rcases this with h' | h' | h' | h' | h' <;> rw [h'] <;> omega
    have hd : 4 ∣ b + roundUp t.size 4 := Nat.dvd_add hb (dvd_roundUp _ _)
    rw [reserve_cons, e, ih (fun x hx => hw x (by simp [hx])) (fun x hx => h x (by simp [hx])) hd, total]
    omega

theorem conv_regs_length (A : Conv) : (params A).regs.length = A.regs.length := by cases A <;> rfl

theorem layLoop_count {c : Cfg} {D : Data} (hT : Target c D) (hu : (params c.abi).up = true) {ts : List FType}
    (hp : ∀ t ∈ ts, Passable D t) (h : ∀ t ∈ ts, NoPad c t) : ∀ {st : St}, 4 ∣ st.argp → st.narg ≤ 2 →
      (layLoop c 0 ts st).2.argp + 4 * (layLoop c 0 ts st).2.narg =
        st.argp + 4 * st.narg + total ts + 4 * lost c.abi ts st.narg ∧
      (layLoop c 0 ts st).2.narg ≤ 2 := by
  have hlen : c.abi.regs.length ≤ 2 := by
    cases hc : c.abi <;> rw [hc] at hu <;> first | (cases hu; done) | decide
  induction ts with
  | nil => intro st _ hn; exact ⟨rfl, hn⟩
  | cons t ts ih =>
    intro st ha hn
    have ih := fun {st : St} => ih (fun x hx => hp x (by simp [hx])) (fun x hx => h x (by simp [hx])) (st := st)
    have hsl := slot_eq hT.data (hp t (by simp))
    have hz : 4 ∣ roundUp t.size 4 := dvd_roundUp _ _
    rw [layLoop]
    dsimp only
    by_cases hs : small t
    · have hs4 : roundUp t.size 4 = 4 := by rw [← hsl]; exact if_pos hs
      by_cases hr : t.tc ≠ .float ∧ st.narg < (params c.abi).regs.length
      · have e : (lay c 0 t st).2 = { st with narg := st.narg + 1 } := by
          unfold lay; rw [if_pos hs, if_pos hr]
        have hw : word t.tc = true := by
          rcases small_cases hT.data (hp t (by simp)) hs with h | h
          · exact h
          · exact absurd h.1 hr.1
        rw [conv_regs_length] at hr
        rw [e, lost, if_pos ⟨hw, hr.2⟩, total, hs4]
        have := ih (st := { st with narg := st.narg + 1 }) ha (by dsimp only; omega)
        dsimp only at this
        omega
      · have e : (lay c 0 t st).2 = { st with argp := st.argp + 4 } := by
          unfold lay; rw [if_pos hs, if_neg hr, if_pos hu]
        have hl : lost c.abi (t :: ts) st.narg = lost c.abi ts st.narg := by
          rw [lost]
          rcases small_cases hT.data (hp t (by simp)) hs with h | h
          · have hnf : t.tc ≠ .float := by rintro h'; rw [h'] at h; cases h
            rw [if_neg (fun h => hr ⟨hnf, by rw [conv_regs_length]; exact h.2⟩), if_neg]
            intro hc
            rcases ((closes_eq _ _).1 hc).2 with h' | h' | h' <;> rw [h'] at h <;> cases h
          · rw [if_neg (fun h' => by rw [h.1] at h'; cases h'.1), if_neg]
            intro hc
            rcases ((closes_eq _ _).1 hc).2 with h' | h' | h' <;> rw [h'] at h <;> cases h.1
        rw [e, hl, total, hs4]
        have := ih (st := { st with argp := st.argp + 4 }) (by dsimp only; omega) hn
        dsimp only at this
        omega
    · have hw : word t.tc = false := by
        cases h : word t.tc with
        | false => rfl
        | true => exact absurd (word_small (hp t (by simp)).1 h) hs
      have h16 : stkAlign t = 4 := by
        apply if_neg
        rintro ⟨_, hge⟩
        rcases h t (by simp) with h' | h'
        · have := wf_align_le hT.data (hT.win (.inl h'.1)) (hp t (by simp)).1
          omega
        · omega
      have hru : roundUp st.argp 4 = st.argp := roundUp_of_dvd (by decide) ha
      by_cases hc : c.abi.closes t.tc = true
      · have hc' := (closes_eq _ _).1 hc
        have e : (lay c 0 t st).2 = ⟨2, st.argp + roundUp t.size 4⟩ := by
          unfold lay; rw [if_neg hs]; dsimp only; rw [if_pos hu, if_pos hc', h16, hru]
        rw [e, lost, if_neg (by rw [hw]; simp), if_pos hc, total]
        have := ih (st := ⟨2, st.argp + roundUp t.size 4⟩) (Nat.dvd_add ha hz) (by dsimp only; omega)
        dsimp only at this
        omega
      · have e : (lay c 0 t st).2 = ⟨st.narg, st.argp + roundUp t.size 4⟩ := by
          unfold lay; rw [if_neg hs]; dsimp only
          rw [if_pos hu, if_neg (fun h => hc ((closes_eq _ _).2 h)), h16, hru]
        rw [e, lost, if_neg (by rw [hw]; simp), if_neg hc, total]
        have := ih (st := ⟨st.narg, st.argp + roundUp t.size 4⟩) (Nat.dvd_add ha hz) hn
        dsimp only at this
        omega

theorem lost_le (A : Conv) (ts : List FType) : ∀ n, n ≤ 2 → lost A ts n ≤ 2 - n := by
  induction ts with
  | nil => intro n _; exact Nat.zero_le _
  | cons t ts ih =>
    intro n hn
    rw [lost]
    split
    · rename_i h
      have hl : A.regs.length ≤ 3 := by cases A <;> decide
      by_cases h2 : n < 2
      · have := ih (n + 1) (by omega); omega
      · have e : n = 2 := by omega
        subst e
        -- three registers: only `register`, which never closes
        have hA : A = .register := by
          cases A <;> simp [Conv.regs] at h ⊢
        subst hA
        have : ∀ k, lost .register ts k = 0 := by
          intro k
          clear ih h hl hn h2
          induction ts generalizing k with
          | nil => rfl
          | cons t ts ih =>
            rw [lost]
            split
            · exact ih _
            · rw [if_neg (by simp [Conv.closes])]; exact ih _
        rw [this]
    · split
      · have := ih 2 (by omega); omega
      · exact ih n hn

/-- The bytes of `cif->bytes`, without padding. -/
theorem end_count {c : Cfg} {D : Data} (hT : Target c D) (hu : (params c.abi).up = true) {fl : Flag}
    (hfl : isMem fl = true → fl = structFlag c) {ts : List FType} (hp : ∀ t ∈ ts, Passable D t)
    (h : ∀ t ∈ ts, NoPad c t) {sp : Nat} (hs4 : 4 ∣ sp) (hs16 : D.ldAlign ≠ 4 → 16 ∣ sp) :
    (endFrom c.abi ts (start c.abi (isMem fl))).ns + 4 * (layLoop c 0 ts (startSt c fl sp)).2.narg =
      reserve c (retBytes fl) ts + 4 * lost c.abi ts (startSt c fl sp).narg ∧
    (layLoop c 0 ts (startSt c fl sp)).2.narg ≤ 2 ∧ (startSt c fl sp).narg ≤ 1 := by
  have hret : retBytes fl = if isMem fl then 4 else 0 := by cases fl <;> rfl
  have hsim := layLoop_sim hT hu (rb := 0) hp hs4 hs16 (start_sim hu hfl sp)
  have hst : (startSt c fl sp).argp + 4 * (startSt c fl sp).narg = sp + retBytes fl ∧ (startSt c fl sp).narg ≤ 1 ∧
      4 ∣ (startSt c fl sp).argp := by
    rw [hret]
    unfold startSt
    split
    · split <;> (dsimp only; omega)
    · dsimp only; omega
  have hc := layLoop_count hT hu hp h (st := startSt c fl sp) hst.2.2 (by omega)
  have hr := reserve_total (c := c) hT.data (fun t ht => (hp t ht).1) h (b := retBytes fl) (by rw [hret]; split <;> omega)
  have ha := hsim.2.argp
  refine ⟨by omega, hc.2, hst.2.1⟩

end Verif.I386
