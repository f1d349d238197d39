import Verif.AArch64.CallLemmas

/-
The whole argument loop and the entry state of the called function.
-/
namespace Verif.A64
open Verif Spec Spec.A64

theorem wf_al {t : FType} (h : WF lp64 t) : Al t.align := h.align_cases lp64_ok

/-- Outcome of `is_vfp_type` in the form used by the argument loops. -/
theorem isVfp_cases {t : FType} (h : WF lp64 t) :
    (isVfp t = .ok 0 ∧ hfa t = none) ∨
    ∃ n c z, isVfp t = .ok c ∧ c ≠ 0 ∧ hfa t = some n ∧ hElems c = n ∧ hSize c = z ∧ t.size = n * z ∧
      t.align = z ∧ 1 ≤ n ∧ n ≤ 4 ∧ z ≤ 16 ∧ 4 ≤ z := by
  obtain ⟨c, hc, hm⟩ := isVfp_spec h
  cases hh : hfa t with
  | none => rw [hh] at hm; left; rw [hc, show c = 0 from hm]; exact ⟨rfl, rfl⟩
  | some n =>
    rw [hh] at hm
    obtain ⟨k, z, hk, h1, h4, _, hs, hal, rfl⟩ := hm
    right
    have hz : z ≤ 16 ∧ 4 ≤ z ∧ fpCode k ≠ 0 := by
      cases k <;> simp [fpSize] at hk <;> subst hk <;> simp [fpCode]
    exact ⟨n, _, z, hc, by omega, rfl, hElems_code h1 h4, hSize_code hk h1 h4, hs, hal, h1, h4, hz.1, hz.2.1⟩

/-- Well-formed types are integer scalars or handled by `is_vfp_type`. -/
theorem wf_kind {t : FType} (h : WF lp64 t) :
    (∃ sg, intLoad t.tc = some (t.size, sg) ∧ t.size ≤ 8 ∧ hfa t = none) ∨
    (intLoad t.tc = none ∧
      (t.tc = .float ∨ t.tc = .double ∨ t.tc = .longdouble ∨ t.tc = .struct ∨ t.tc = .complex)) := by
  cases h with
  | @scalar tc s a h =>
    by_cases hf : fpSize tc = none
    · left
      have hn : hfa (.mk s a tc []) = none := by
        have ht : (leaves (.mk s a tc []) 0).map (·.tc) = [tc] := tcs_scalar lp64_ok h
        unfold hfa
        simp only [ht, hf]
      cases tc <;> simp [lp64] at h <;> simp [fpSize] at hf <;> obtain ⟨rfl, rfl⟩ := h <;>
        exact ⟨_, rfl, by decide, hn⟩
    · right
      cases tc <;> simp [fpSize] at hf <;> simp [intLoad]
  | complex _ _ => right; simp [intLoad]
  | struct _ _ => right; simp [intLoad]

/-- Struct area after an argument. -/
def nextAfter (t : FType) (next : Nat) : Nat :=
  if ByRef t then (next - t.size) / t.align * t.align else next

theorem callArg_vfp {c : Cfg} {ctx : Nat} {t : FType} {a : Nat} {st : St} {m : Mem} {h : Nat}
    (hi : intLoad t.tc = none)
    (hk : t.tc = .float ∨ t.tc = .double ∨ t.tc = .longdouble ∨ t.tc = .struct ∨ t.tc = .complex)
    (hv : isVfp t = .ok h) :
    callArg c ctx t a st m =
      if h ≠ 0 then .ok (putHfa c ctx t h a st m)
      else if 16 < t.size then .ok (putRef c ctx t a st m)
      else .ok (putSmall c ctx t a st m) := by
  unfold callArg
  rw [hi, hv]
  rcases hk with hk | hk | hk | hk | hk <;> rw [hk] <;> rfl

theorem widen_extend {tc : TC} {n : Nat} {sg : Bool} {bs : List Byte} (h : intLoad tc = some (n, sg))
    (hl : bs.length = n) : widen sg bs = extend64 tc bs := by
  have h8 : (256 : Nat) ^ 8 = 2 ^ 64 := by decide
  cases tc <;> simp [intLoad] at h <;> obtain ⟨rfl, rfl⟩ := h <;>
    simp [widen, extend64, isSigned, hl, h8]

/-- An integer in a register is widened. -/
theorem widened_int {c : Cfg} {ctx bytes n : Nat} {t : FType} {a : Nat} {st : St} {p : Pos} {m : Mem} {sg : Bool}
    (hsim : Sim c st p) (hi : intLoad t.tc = some (n, sg)) (hn : n = t.size) (hs8 : t.size ≤ 8)
    (hs0 : 0 < t.size) (hh : hfa t = none) (hal : t.align ≠ 16) (m'' : Mem)
    (h : ∀ x, ctx ≤ x → x < ctx + 192 + bytes → ¬ Free ctx (placeArg (rules c) t p).2 st.next x →
      m'' x = (putInt c ctx t.align t.size (widen sg (m.rd a t.size)) (m.rd a t.size) st m).2 x) :
    WidenedAt (blockRegs m'' ctx) t (m.rd a t.size) (placeArg (rules c) t p).1 := by
  have hn : (t.size + 7) / 8 = 1 := by omega
  have hpl : placeArg (rules c) t p =
      if p.ngrn + 1 ≤ 8 then (.x p.ngrn 1, { p with ngrn := p.ngrn + 1 })
      else (.stack (stackAt (rules c) p t.align),
        { p with ngrn := 8, nsaa := stackAfter (rules c) p t.align t.size }) := by
    unfold placeArg
    simp only [hh, hn, hal, if_false]
    rw [if_neg (by omega)]
  by_cases hreg : p.ngrn + 1 ≤ 8
  · rw [if_pos hreg] at hpl
    rw [hpl] at h ⊢
    intro _
    change m''.rd (xAddr ctx p.ngrn) 8 = _
    rw [← widen_extend hi (by simp; omega)]
    have hg : st.ngrn = p.ngrn := hsim.g
    unfold putInt at h
    rw [if_pos (by omega), hg] at h
    have := agree_rd (m := m) (m'' := m'') (b := xAddr ctx p.ngrn) (bs := leBytes 8 (widen sg (m.rd a t.size)))
      (k := 8) (by simp) (by
        intro x hx1 hx2
        unfold xAddr at hx1 hx2
        apply h x (by omega) (by omega)
        unfold Free; dsimp only; omega)
    rwa [List.take_of_length_le (by simp)] at this
  · rw [if_neg hreg] at hpl
    rw [hpl]
    trivial

/-- One argument. -/
theorem callArg_step {c : Cfg} {ctx bytes : Nat} {t : FType} {a : Nat} {st : St} {p : Pos} {m : Mem}
    (hw : WF lp64 t) (hsim : Sim c st p) (hg : p.ngrn ≤ 8) (hs : p.nsrn ≤ 8)
    (hb : st.next ≤ bytes) (hlt : bytes < 2 ^ 32) (hctx : ctx + 192 + bytes < 2 ^ 64) (h16 : 16 ∣ ctx)
    (hwv : (c.win64 && c.vararg) = true → hfa t = none)
    (hsz : ByRef t → t.size ≤ st.next) (hrs : RefSlot c t (placeArg (rules c) t p).1)
    (hroom : (placeArg (rules c) t p).2.nsaa ≤ nextAfter t st.next) :
    ∃ st' m', callArg c ctx t a st m = .ok (st', m') ∧
      Step c ctx bytes t (m.rd a t.size) p st.next (nextAfter t st.next) (placeArg (rules c) t p).1
        (placeArg (rules c) t p).2 m st' m' ∧
      ∀ m'' : Mem, (∀ x, ctx ≤ x → x < ctx + 192 + bytes →
          ¬ Free ctx (placeArg (rules c) t p).2 (nextAfter t st.next) x → m'' x = m' x) →
        WidenedAt (blockRegs m'' ctx) t (m.rd a t.size) (placeArg (rules c) t p).1 := by
  have ha := wf_al hw
  rcases wf_kind hw with ⟨sg, hi, h8, hh⟩ | ⟨hi, hk⟩
  · have hnr : ¬ ByRef t := by unfold ByRef; omega
    have hcall : callArg c ctx t a st m = .ok (putInt c ctx t.align t.size (widen sg (m.rd a t.size))
        (m.rd a t.size) st m) := by
      unfold callArg
      rw [hi]
    unfold nextAfter at hroom ⊢
    rw [if_neg hnr] at hroom ⊢
    refine ⟨_, _, hcall, ?_, widened_int hsim hi rfl h8 (hw.size_pos lp64_ok) hh (small_align hw (by omega) hh)⟩
    apply step_int hsim ha hg hb hlt (hw.size_pos lp64_ok) h8 hh (small_align hw (by omega) hh) hroom
    have := leBytes_widen (sg := sg) (bs := m.rd a t.size) (by simpa using h8)
    rwa [Mem.rd_length] at this
  · have hnw : ∀ (R : Regs) (v : List Byte) (pl : Place), WidenedAt R t v pl := by
      intro R v pl
      cases pl <;> first | trivial | skip
      intro hr
      unfold retPlace at hr
      rcases hk with hk | hk | hk | hk | hk <;> rw [hk] at hr <;> dsimp only at hr <;>
        split at hr <;> first | cases hr | (split at hr <;> cases hr)
    rcases isVfp_cases hw with ⟨hv, hh⟩ | ⟨n, h, z, hv, hne, hh, hn, hz, hsize, hal, h1, h4, hz16, _⟩
    · rw [callArg_vfp hi hk hv, if_neg (by simp)]
      by_cases hbig : 16 < t.size
      · have hr : ByRef t := ⟨hh, hbig⟩
        unfold nextAfter at hroom ⊢
        rw [if_pos hr] at hroom ⊢
        rw [if_pos hbig]
        exact ⟨_, _, rfl, step_ref hsim ha hg hb hlt hctx h16 hr (hsz hr) hrs hroom, fun _ _ => hnw _ _ _⟩
      · have hnr : ¬ ByRef t := by unfold ByRef; omega
        unfold nextAfter at hroom ⊢
        rw [if_neg hnr] at hroom ⊢
        rw [if_neg hbig]
        exact ⟨_, _, rfl, step_small hsim ha hg hb hlt (by omega) hh (small_align hw (by omega) hh) hroom,
          fun _ _ => hnw _ _ _⟩
    · have hnr : ¬ ByRef t := by unfold ByRef; rw [hh]; simp
      unfold nextAfter at hroom ⊢
      rw [if_neg hnr] at hroom ⊢
      rw [callArg_vfp hi hk hv, if_pos hne]
      have hwv' : (c.win64 && c.vararg) = false := by
        cases hx : (c.win64 && c.vararg) with
        | false => rfl
        | true => rw [hwv hx] at hh; cases hh
      exact ⟨_, _, rfl, step_hfa hsim ha hs hb hlt hh hwv' hn hz hsize (by omega) hz16 hroom,
        fun _ _ => hnw _ _ _⟩

/-- Positions stay within the register file. -/
theorem placeArg_regs (R : Rules) (t : FType) (p : Pos) (hal : hfa t = none → t.size ≤ 16 → t.align ≠ 16)
    (hg : p.ngrn ≤ 8) (hs : p.nsrn ≤ 8) :
    (p.ngrn ≤ (placeArg R t p).2.ngrn ∧ (placeArg R t p).2.ngrn ≤ 8) ∧
    (p.nsrn ≤ (placeArg R t p).2.nsrn ∧ (placeArg R t p).2.nsrn ≤ 8) := by
  unfold placeArg
  cases hh : hfa t with
  | some n => dsimp only; split <;> dsimp only <;> omega
  | none =>
    dsimp only
    split
    · split <;> dsimp only <;> omega
    · rename_i hsz
      rw [if_neg (hal hh (by omega))]
      split <;> dsimp only <;> omega

theorem nextPos_regs (R : Rules) (i : Nat) (p : Pos) (hg : p.ngrn ≤ 8) (hs : p.nsrn ≤ 8) :
    (p.ngrn ≤ (nextPos R i p).ngrn ∧ (nextPos R i p).ngrn ≤ 8) ∧
    (p.nsrn ≤ (nextPos R i p).nsrn ∧ (nextPos R i p).nsrn ≤ 8) := by
  unfold nextPos
  split <;> (try dsimp only) <;> omega

theorem Free.mono {ctx : Nat} {p q : Pos} {n n' x : Nat} (h : Free ctx q n' x) (hg : p.ngrn ≤ q.ngrn)
    (hs : p.nsrn ≤ q.nsrn) (ha : p.nsaa ≤ q.nsaa) (hn : n' ≤ n) : Free ctx p n x := by
  unfold Free at h ⊢
  omega

theorem nextAfter_le (t : FType) (n : Nat) : nextAfter t n ≤ n := by
  unfold nextAfter
  split
  · have := Nat.div_mul_le_self (n - t.size) t.align
    omega
  · exact Nat.le_refl _

theorem copyLow_cons {t : FType} {ts : List FType} {top low : Nat} (h : copyLow (t :: ts) top = some low) :
    (ByRef t → t.size ≤ top) ∧ copyLow ts (nextAfter t top) = some low := by
  rw [copyLow] at h
  unfold nextAfter
  by_cases hr : ByRef t
  · rw [if_pos hr] at h ⊢
    by_cases hs : t.size ≤ top
    · rw [if_pos hs] at h; exact ⟨fun _ => hs, h⟩
    · rw [if_neg hs] at h; cases h
  · rw [if_neg hr] at h ⊢
    exact ⟨fun hc => absurd hc hr, h⟩

/-- Values of the arguments. -/
def argVals (m : Mem) : List FType → List Nat → List (List Byte)
  | t :: ts, a :: as => m.rd a t.size :: argVals m ts as
  | _, _ => []

theorem argVals_congr {m m' : Mem} {ts : List FType} {as : List Nat}
    (h : ∀ q ∈ ts.zip as, ∀ i < q.1.size, m' (q.2 + i) = m (q.2 + i)) : argVals m' ts as = argVals m ts as := by
  induction ts generalizing as with
  | nil => rfl
  | cons t ts ih =>
    cases as with
    | nil => rfl
    | cons a as =>
      rw [argVals, argVals, ih (fun q hq => h q (by simp [hq])), Mem.rd_congr (h (t, a) (by simp))]

def AllRefOut (R : Regs) (lo hi : Nat) : List FType → List Place → Prop
  | t :: ts, p :: ps => RefOut R lo hi t p ∧ AllRefOut R lo hi ts ps
  | _, _ => True

/-- The argument loop. -/
theorem callLoop_spec {c : Cfg} {ctx bytes low : Nat}
    (hlt : bytes < 2 ^ 32) (hctx : ctx + 192 + bytes < 2 ^ 64) (h16 : 16 ∣ ctx)
    {ts : List FType} {as : List Nat} (hlen : ts.length = as.length) {i : Nat} {st : St} {p : Pos} {m : Mem}
    (hw : ∀ t ∈ ts, WF lp64 t) (hsim : Sim c st p) (hg : p.ngrn ≤ 8) (hs : p.nsrn ≤ 8)
    (hb : st.next ≤ bytes) (hwv : (c.win64 && c.vararg) = true → ∀ t ∈ ts, hfa t = none)
    (hlow : copyLow ts st.next = some low) (hend : (endFrom (rules c) ts i p).nsaa ≤ low)
    (hrs : ∀ q ∈ ts.zip (placeFrom (rules c) ts i p), RefSlot c q.1 q.2)
    (hsrc : ∀ q ∈ ts.zip as, q.2 + q.1.size ≤ ctx ∨ ctx + 192 + bytes ≤ q.2) :
    ∃ st' m', callLoop c ctx ts as i st m = .ok (st', m') ∧
      (∀ x, ¬ Free ctx p st.next x → m' x = m x) ∧
      ∀ m'' : Mem, (∀ x, ctx ≤ x → x < ctx + 192 + bytes → m'' x = m' x) →
        AllPassed (blockRegs m'' ctx) ts (argVals m ts as) (placeFrom (rules c) ts i p) ∧
        AllWidened (blockRegs m'' ctx) ts (argVals m ts as) (placeFrom (rules c) ts i p) ∧
        AllRefOut (blockRegs m'' ctx) 0 (ctx + 192) ts (placeFrom (rules c) ts i p) := by
  induction ts generalizing as i st p m with
  | nil =>
    cases as with
    | cons => simp at hlen
    | nil => exact ⟨st, m, rfl, fun _ _ => rfl, fun _ _ => ⟨trivial, trivial, trivial⟩⟩
  | cons t ts ih =>
    cases as with
    | nil => simp at hlen
    | cons a as =>
      obtain ⟨hsz, hlow'⟩ := copyLow_cons hlow
      have hwt := hw t (by simp)
      rw [endFrom] at hend
      have hmono := endFrom_mono (rules c) ts (fun x hx => wf_al (hw x (by simp [hx]))) (i + 1)
        (nextPos (rules c) i (placeArg (rules c) t p).2)
      have hle := copyLow_le hlow'
      rw [nextPos_nsaa] at hmono
      obtain ⟨st1, m1, hcall, hstep, hwide⟩ := callArg_step (a := a) (m := m) hwt hsim hg hs hb hlt hctx h16
        (fun h => hwv h t (by simp)) hsz (hrs (t, _) (by simp [placeFrom])) (by omega)
      have hr1 := placeArg_regs (rules c) t p (fun h1 h2 => small_align hwt h2 h1) hg hs
      have hr2 := nextPos_regs (rules c) i (placeArg (rules c) t p).2 hr1.1.2 hr1.2.2
      have hnx : (afterArg c i st1).next = nextAfter t st.next := by
        rw [← hstep.next_eq]; unfold afterArg; split <;> rfl
      have hna := nextAfter_le t st.next
      obtain ⟨st2, m2, hloop, hframe, hpass⟩ := ih (as := as) (i := i + 1) (st := afterArg c i st1)
        (p := nextPos (rules c) i (placeArg (rules c) t p).2) (m := m1) (by simpa using hlen)
        (fun x hx => hw x (by simp [hx])) (hstep.sim.afterArg i) hr2.1.2 hr2.2.2 (by omega)
        (fun h x hx => hwv h x (by simp [hx])) (by rw [hnx]; exact hlow') hend
        (fun q hq => hrs q (by simp only [placeFrom, List.zip_cons_cons, List.mem_cons]; exact Or.inr hq))
        (fun q hq => hsrc q (by simp [hq]))
      refine ⟨st2, m2, ?_, ?_, ?_⟩
      · rw [callLoop, hcall]
        exact hloop
      · intro x hx
        have hmp := placeArg_mono (rules c) t (wf_al hwt) p
        rw [hframe x (fun hf => hx (hf.mono (by omega) (by omega) (by rw [nextPos_nsaa]; exact hmp) (by omega)))]
        exact hstep.frame x hx
      · intro m'' h
        rw [argVals, placeFrom, AllPassed, AllWidened, AllRefOut]
        have hv : argVals m1 ts as = argVals m ts as := by
          apply argVals_congr
          intro q hq j hj
          apply hstep.frame
          intro hf
          have := hsrc q (by simp [hq])
          have := hmono
          unfold Free at hf
          omega
        have hag : ∀ x, ctx ≤ x → x < ctx + 192 + bytes →
            ¬ Free ctx (placeArg (rules c) t p).2 (nextAfter t st.next) x → m'' x = m1 x := by
          intro x hx1 hx2 hx3
          rw [h x hx1 hx2]
          apply hframe
          intro hf
          exact hx3 (hf.mono (by omega) (by omega) (by rw [nextPos_nsaa]) (by omega))
        have hp := hpass m'' h
        rw [hv] at hp
        exact ⟨⟨(hstep.passed m'' hag).1, hp.1⟩, ⟨hwide m'' hag, hp.2.1⟩, (hstep.passed m'' hag).2, hp.2.2⟩

/-- Registers and stack on entry. -/
def Entry.regs (E : Entry) : Regs := ⟨E.mem, E.sp, E.x, E.v⟩

/-- No argument goes to a vector register if none is a homogeneous aggregate. -/
theorem placeFrom_no_v (R : Rules) {ts : List FType} (h : ∀ t ∈ ts, hfa t = none) (i : Nat) (p : Pos) :
    ∀ pl ∈ placeFrom R ts i p, ∀ k n, pl ≠ .v k n := by
  induction ts generalizing i p with
  | nil => intro pl hp; cases hp
  | cons t ts ih =>
    intro pl hp k n
    rw [placeFrom] at hp
    rcases List.mem_cons.1 hp with rfl | hp
    · unfold placeArg
      simp only [h t (by simp)]
      split
      · split <;> simp
      · split <;> split <;> simp
    · exact ih (fun x hx => h x (by simp [hx])) _ _ pl hp k n

theorem passedAt_of_v {R R' : Regs} {t : FType} {a : List Byte} {pl : Place} (h : PassedAt R t a pl)
    (hm : R'.mem = R.mem) (hsp : R'.sp = R.sp) (hx : R'.x = R.x) (hv : ∀ k n, pl ≠ .v k n) :
    PassedAt R' t a pl := by
  cases pl with
  | v k n => exact absurd rfl (hv k n)
  | x k n => unfold PassedAt at h ⊢; rw [hx]; exact h
  | stack o => unfold PassedAt at h ⊢; rw [hm, hsp]; exact h
  | refX k => unfold PassedAt at h ⊢; rw [hm, hx]; exact h
  | refStack o => unfold PassedAt at h ⊢; rw [hm, hsp]; exact h

theorem allPassed_of_v {R R' : Regs} {ts : List FType} {as : List (List Byte)} {ps : List Place}
    (h : AllPassed R ts as ps) (hm : R'.mem = R.mem) (hsp : R'.sp = R.sp) (hx : R'.x = R.x)
    (hv : ∀ pl ∈ ps, ∀ k n, pl ≠ .v k n) : AllPassed R' ts as ps := by
  induction ts generalizing as ps with
  | nil => cases as <;> cases ps <;> first | trivial | exact h.elim
  | cons t ts ih =>
    cases as <;> cases ps <;> first | exact h.elim | skip
    exact ⟨passedAt_of_v h.1 hm hsp hx (hv _ (by simp)), ih h.2 fun pl hp => hv pl (by simp [hp])⟩

theorem allWidened_of_x {R R' : Regs} {ts : List FType} {as : List (List Byte)} {ps : List Place}
    (h : AllWidened R ts as ps) (hx : R'.x = R.x) : AllWidened R' ts as ps := by
  induction ts generalizing as ps with
  | nil => cases as <;> cases ps <;> first | trivial | exact h.elim
  | cons t ts ih =>
    cases as <;> cases ps <;> first | exact h.elim | skip
    rename_i a as pl ps
    refine ⟨?_, ih h.2⟩
    have h1 := h.1
    cases pl <;> first | trivial | skip
    unfold WidenedAt at h1 ⊢; rw [hx]; exact h1

theorem allRefOut_of {R R' : Regs} {lo hi : Nat} {ts : List FType} {ps : List Place}
    (h : AllRefOut R lo hi ts ps) (hx : R'.x = R.x) (hm : R'.mem = R.mem) (hsp : R'.sp = R.sp) :
    AllRefOut R' lo hi ts ps := by
  induction ts generalizing ps with
  | nil => trivial
  | cons t ts ih =>
    cases ps with
    | nil => trivial
    | cons pl ps =>
      refine ⟨?_, ih h.2⟩
      have h1 := h.1
      cases pl <;> first | trivial | skip
      · unfold RefOut at h1 ⊢; rw [hx]; exact h1
      · unfold RefOut at h1 ⊢; rw [hm, hsp]; exact h1

theorem allRefOut_mono {R : Regs} {lo lo' hi : Nat} (hl : lo ≤ lo') {ts : List FType} {ps : List Place}
    (h : AllRefOut R lo hi ts ps) : AllRefOut R lo' hi ts ps := by
  induction ts generalizing ps with
  | nil => trivial
  | cons t ts ih =>
    cases ps with
    | nil => trivial
    | cons pl ps =>
      refine ⟨?_, ih h.2⟩
      have h1 := h.1
      cases pl <;> first | trivial | skip
      · unfold RefOut at h1 ⊢; omega
      · unfold RefOut at h1 ⊢; omega

theorem alloca_le (sp n : Nat) : alloca sp n ≤ sp - n := Nat.div_mul_le_self _ _
theorem alloca_dvd (sp n : Nat) : 16 ∣ alloca sp n := Nat.dvd_mul_left _ _

/-- The called function is entered as the standard prescribes. -/
theorem callEntry_spec {c : Cfg} {f : Flags} {bytes : Nat} {rt : FType} {ats : List FType} {I : CallIn}
    (hw : ∀ t ∈ ats, WF lp64 t) (hlen : ats.length = I.avalue.length)
    (hv : f.argV = false → ∀ t ∈ ats, hfa t = none)
    (hwv : (c.win64 && c.vararg) = true → ∀ t ∈ ats, hfa t = none)
    (hlt : bytes < 2 ^ 32) (hroom : Room (rules c) ats bytes)
    (hrs : ∀ q ∈ ats.zip (places (rules c) ats), RefSlot c q.1 q.2)
    (hsp : 232 + bytes + callRsize f rt I.rvalue ≤ I.sp) (hsp64 : I.sp < 2 ^ 64)
    (hsrc : ∀ q ∈ ats.zip I.avalue, q.2 + q.1.size ≤ alloca I.sp (192 + bytes + 40 + callRsize f rt I.rvalue) ∨
      I.sp ≤ q.2) :
    ∃ O, callEntry c f bytes rt ats I = .ok O ∧ O.ctx = alloca I.sp (192 + bytes + 40 + callRsize f rt I.rvalue) ∧
      O.entry.sp = O.ctx + 192 ∧ 16 ∣ O.entry.sp ∧ O.flags = callFlags f I.rvalue ∧
      O.rvalue = (if callRsize f rt I.rvalue ≠ 0 then O.ctx + 192 + bytes + 40 else I.rvalue.getD 0) ∧
      O.entry.x8 = O.rvalue ∧
      (∀ x, x < O.ctx ∨ O.ctx + 232 + bytes ≤ x → O.entry.mem x = I.mem x) ∧
      AllPassed O.entry.regs ats (argVals I.mem ats I.avalue) (places (rules c) ats) ∧
      AllWidened O.entry.regs ats (argVals I.mem ats I.avalue) (places (rules c) ats) ∧
      AllRefOut O.entry.regs 0 O.entry.sp ats (places (rules c) ats) ∧
      (∀ k, (O.entry.x k).length = 8) ∧ ((∀ k, (I.v k).length = 16) → ∀ k, (O.entry.v k).length = 16) := by
  obtain ⟨low, hlow, hend⟩ := hroom
  generalize hctx : alloca I.sp (192 + bytes + 40 + callRsize f rt I.rvalue) = ctx at hsrc ⊢
  have hle := alloca_le I.sp (192 + bytes + 40 + callRsize f rt I.rvalue)
  have hd := alloca_dvd I.sp (192 + bytes + 40 + callRsize f rt I.rvalue)
  rw [hctx] at hle hd
  obtain ⟨st, m, hloop, hframe, hpass⟩ := callLoop_spec (c := c) (ctx := ctx) (bytes := bytes) (low := low) hlt
    (by omega) hd hlen (i := 0) (st := argInit bytes) (p := start) (m := I.mem) hw
    ⟨rfl, rfl, rfl, Nat.le_refl _, Nat.zero_le _⟩ (by decide) (by decide) (Nat.le_refl _) hwv hlow hend hrs
    (fun q hq => by rcases hsrc q hq with h | h <;> omega)
  unfold callEntry
  simp only [hctx]
  rw [hloop]
  refine ⟨_, rfl, rfl, rfl, ?_, rfl, rfl, rfl, ?_, ?_⟩
  · exact Nat.dvd_add hd (by decide)
  · intro x hx
    dsimp only at hx ⊢
    rw [Mem.wr_out _ _ _ _ (by simp only [List.length_append, leBytes_length]; omega),
      Mem.wr_out _ _ _ _ (by simp only [leBytes_length]; omega),
      Mem.wr_out _ _ _ _ (by simp only [List.length_append, leBytes_length]; omega)]
    apply hframe
    unfold Free
    simp only [start, argInit]
    omega
  · generalize hm : Mem.wr (Mem.wr (Mem.wr m (ctx + 192 + bytes) (leBytes 8 I.x29 ++ leBytes 8 I.x30))
      (ctx + 192 + bytes + 32) (leBytes 8 I.asp)) (ctx + 192 + bytes + 16) _ = m3
    have hag : ∀ x, ctx ≤ x → x < ctx + 192 + bytes → m3 x = m x := by
      intro x _ hx2
      rw [← hm, Mem.wr_out _ _ _ _ (by omega), Mem.wr_out _ _ _ _ (by omega), Mem.wr_out _ _ _ _ (by omega)]
    have hp := hpass m3 hag
    refine ⟨?_, allWidened_of_x hp.2.1 rfl, allRefOut_of hp.2.2 rfl rfl rfl, fun k => by simp, ?_⟩
    rotate_left
    · intro hI k
      dsimp only
      split
      · simp
      · exact hI k
    by_cases hav : (callFlags f I.rvalue).argV = true
    · have : (Entry.regs ⟨m3, ctx + 192, fun k => m3.rd (xAddr ctx k) 8,
          if (callFlags f I.rvalue).argV then fun k => m3.rd (vAddr ctx k) 16 else I.v,
          if callRsize f rt I.rvalue ≠ 0 then ctx + 192 + bytes + 40 else I.rvalue.getD 0⟩) = blockRegs m3 ctx := by
        unfold Entry.regs blockRegs
        simp only [hav, if_true]
      have h2 := hp.1
      rw [← this] at h2
      exact h2
    · have hf : f.argV = false := by
        have : (callFlags f I.rvalue).argV = f.argV := by unfold callFlags; split <;> (try split) <;> rfl
        rw [this] at hav
        simpa using hav
      exact allPassed_of_v hp.1 rfl rfl rfl (placeFrom_no_v _ (hv hf) _ _)

end Verif.A64
