import Verif.S390.Entry
import Verif.S390.Closure
import Verif.S390.Tramp

/-! Assembly and C together. -/
namespace Verif.S390
open Verif Verif.Spec Verif.Spec.S390 Verif.S390.Asm

/-- The machine as the calling convention sees it. -/
def mregs (w : Nat) (s : M) : Regs := ⟨fun k => beBytes w (s.r (2 + k)), fun k => s.f (2 * k), s.mem, s.r 15⟩

/-- Floating-point registers that functions preserve: f8 to f15, or f4 and f6 with 31 bits. -/
def fprSaved (w k : Nat) : Prop := if w = 8 then 8 ≤ k ∧ k ≤ 15 else k = 4 ∨ k = 6

/-- `u`: a function entered in state `t` has returned, as the calling convention demands. -/
structure Conforms (w : Nat) (t u : M) : Prop where
  pc : u.pc = t.r 14
  r : ∀ k, 6 ≤ k → k ≤ 13 ∨ k = 15 → u.r k = t.r k
  f : ∀ k, fprSaved w k → u.f k = t.f k
  f0 : (u.f 0).length = 8

/-- Same argument registers. -/
structure RegsEq (w : Nat) (R R' : Regs) : Prop where
  gpr : ∀ k, k < 5 → R.gpr k = R'.gpr k
  fpr : ∀ k, k < fprs w → R.fpr k = R'.fpr k
  mem : R.mem = R'.mem
  sp : R.sp = R'.sp

def LocOk : Loc → Prop
  | .gpr k => k < 5
  | .stk _ => True

def PlaceOk (w : Nat) : Place → Prop
  | .word l | .ref l => LocOk l
  | .pair k => k + 1 < 5
  | .two _ => True
  | .fpr k => k < fprs w

theorem nextWord_ok (w : Nat) (p : Pos) : LocOk (nextWord w p).1 := by
  unfold nextWord
  split
  · rename_i h; exact h
  · trivial

theorem placeArg_ok (w : Nat) (t : FType) (p : Pos) : PlaceOk w (placeArg w t p).1 := by
  unfold placeArg
  cases kind t with
  | fp =>
    dsimp only
    split
    · rename_i h; exact h
    · split <;> trivial
  | int =>
    dsimp only
    split
    · exact nextWord_ok w p
    · split
      · rename_i h; show p.ng + 1 < 5; omega
      · trivial
  | ref => exact nextWord_ok w p

theorem at_congr {w : Nat} {R R' : Regs} (h : RegsEq w R R') {l : Loc} (hl : LocOk l) : R.at w l = R'.at w l := by
  cases l with
  | gpr k => exact h.gpr k hl
  | stk o => show R.mem.rd (R.sp + _ + _) _ = R'.mem.rd (R'.sp + _ + _) _; rw [h.mem, h.sp]

theorem PassedAt_congr {w : Nat} {R R' : Regs} (h : RegsEq w R R') {t : FType} {v : List Byte} {l : Place} (hl : PlaceOk w l) (hp : PassedAt w R t v l) :
    PassedAt w R' t v l := by
  cases l with
  | word l => dsimp only [PassedAt] at hp ⊢; rw [← at_congr h hl]; exact hp
  | ref l => dsimp only [PassedAt] at hp ⊢; rw [← at_congr h hl, ← h.mem]; exact hp
  | pair k =>
    have hl : k + 1 < 5 := hl
    dsimp only [PassedAt] at hp ⊢
    rw [← h.gpr k (by omega), ← h.gpr (k + 1) hl]
    exact hp
  | two o => dsimp only [PassedAt] at hp ⊢; rw [← h.mem, ← h.sp]; exact hp
  | fpr k => dsimp only [PassedAt] at hp ⊢; rw [← h.fpr k hl]; exact hp

theorem AllPassed_congr {w : Nat} {R R' : Regs} (h : RegsEq w R R') : ∀ {ts : List FType} {vs : List (List Byte)} {p : Pos},
    AllPassed w R ts vs (placeFrom w ts p) → AllPassed w R' ts vs (placeFrom w ts p)
  | [], [], _, _ => trivial
  | [], _ :: _, _, ha => ha.elim
  | _ :: _, [], _, ha => ha.elim
  | _ :: _, _ :: _, _, ha => ⟨PassedAt_congr h (placeArg_ok _ _ _) ha.1, AllPassed_congr h ha.2⟩

theorem copies_congr {w : Nat} {R R' : Regs} (h : RegsEq w R R') : ∀ {ts : List FType} {p : Pos},
    copies w R ts (placeFrom w ts p) = copies w R' ts (placeFrom w ts p)
  | [], _ => rfl
  | t :: ts, p => by
    have ih := copies_congr h (ts := ts) (p := (placeArg w t p).2)
    have hk := placeArg_ok w t p
    rw [placeFrom]
    cases hpl : (placeArg w t p).1 with
    | ref l => rw [hpl] at hk; rw [copies, copies, ih, at_congr h hk]
    | word l => rw [copies, copies, ih] <;> (intro _ h; cases h)
    | pair k => rw [copies, copies, ih] <;> (intro _ h; cases h)
    | two o => rw [copies, copies, ih] <;> (intro _ h; cases h)
    | fpr k => rw [copies, copies, ih] <;> (intro _ h; cases h)

/-- The registers that `ffi_call_SYSV` loads. -/
theorem called_regs {c : Cfg} {L : Nat} {s t : M} (hsp : s.r 15 + c.w ≤ s.r 2) (hc : Called c.w L s t) :
    RegsEq c.w (img c (s.r 2) (s.r 15) t.mem) (mregs c.w t) := by
  refine ⟨?_, ?_, rfl, ?_⟩
  · intro k hk
    show t.mem.rd _ _ = beBytes c.w (t.r (2 + k))
    have hk' : c.w * k ≤ c.w * 4 := Nat.mul_le_mul_left _ (by omega)
    rw [hc.args k hk, hc.mem, savedMem_rd s (by unfold gprOff; omega) (by unfold gprOff; omega)]
    exact (beBytes_beNat' (Mem.rd_length _ _ _)).symm
  · intro k hk
    show t.mem.rd _ _ = t.f (2 * k)
    rw [hc.fp k hk, hc.mem, savedMem_rd s (by unfold fprOff; omega) (by unfold fprOff; omega)]
  · exact (hc.rest 15 (by decide) (.inr rfl)).symm

/-! ## Results -/

/-- The result that `rvalue` shows (libffi.texi, "The Basics"): integers that are smaller than a word are
widened to a word. -/
def Got (w : Nat) (t : FType) (v : List Byte) (m : Mem) (a : Nat) : Prop :=
  (retPlace t = .int → if t.size ≤ w then (beNat (m.rd a w) : Int) = intVal t.tc v % 2 ^ (8 * w) else m.rd a t.size = v) ∧
  (retPlace t = .fp → m.rd a t.size = v)

/-- Bytes at `rvalue` that are written after the call. -/
def resSize (w : Nat) (t : FType) : Nat :=
  match retPlace t with
  | .int => max w t.size
  | .fp => t.size
  | _ => 0

/-- Result types. -/
inductive RCls (w : Nat) (t : FType) : Prop
  | none : retPlace t = .void ∨ retPlace t = .mem → retFlags ⟨w⟩ t &&& 7 = 4 → RCls w t
  | double : retPlace t = .fp → t.tc = .double → t.size = 8 → retFlags ⟨w⟩ t &&& 7 = 0 → RCls w t
  | float : retPlace t = .fp → t.tc = .float → t.size = 4 → retFlags ⟨w⟩ t &&& 7 = 1 → RCls w t
  | long : retPlace t = .int → w = 4 → (t.tc = .uint64 ∨ t.tc = .sint64) → t.size = 8 → retFlags ⟨w⟩ t &&& 7 = 2 → RCls w t
  | int : retPlace t = .int → t.size ≤ w → (w = 4 → t.tc ≠ .uint64 ∧ t.tc ≠ .sint64) → retFlags ⟨w⟩ t &&& 7 = (if w = 8 then 2 else 3) → RCls w t

theorem rcls {w : Nat} (hw : w = 4 ∨ w = 8) {t : FType} (h : t.tc = .void ∨ WF (tab w) t) : RCls w t := by
  have hfl : ∀ {t : FType}, t.tc = .void ∨ retPlace t = .mem → retFlags ⟨w⟩ t &&& 7 = 4 := by
    intro t h
    rw [retFlags_le]
    rcases h with h | h
    · unfold retPlace retFlags; rw [h]; rfl
    · rw [if_pos h]; rfl
  rcases h with h | h
  · exact .none (.inl (by unfold retPlace; rw [h])) (hfl (.inl h))
  · cases h with
    | @scalar tc s a h =>
      rcases hw with rfl | rfl <;> cases tc <;> simp [tab] at h <;> obtain ⟨rfl, rfl⟩ := h
      all_goals first
        | exact .none (.inr rfl) (by decide)
        | exact .double rfl rfl rfl (by decide)
        | exact .float rfl rfl rfl (by decide)
        | exact .int rfl (by decide) (by decide) (by decide)
        | exact .long rfl rfl (by decide) rfl (by decide)
    | complex _ _ => exact .none (.inr rfl) (hfl (.inr rfl))
    | struct _ _ => exact .none (.inr rfl) (hfl (.inr rfl))

theorem append_bytes {w : Nat} (m : Mem) (a x y : Nat) (hw : w = 4) : ((m.wr (a + 4) (beBytes w y)).wr a (beBytes w x)).rd a 8 = beBytes w x ++ beBytes w y := by
  subst hw
  rw [show (8 : Nat) = 4 + 4 from rfl, Mem.rd_append, wr_rd _ _ (beBytes_length _ _), Mem.rd_wr_disj _ _ _ _ _ (by rw [beBytes_length]; omega),
    wr_rd _ _ (beBytes_length _ _)]

/-- What `ffi_call_SYSV` stores is the result. -/
theorem stored_ok {w : Nat} (hw : w = 4 ∨ w = 8) {rt : FType} (hrt : rt.tc = .void ∨ WF (tab w) rt) {rv : Nat} {u : M} (hf : (u.f 0).length = 8) :
    (∀ x, x < rv ∨ rv + resSize w rt ≤ x → stored w (retFlags ⟨w⟩ rt &&& 7) rv u x = u.mem x) ∧
    ∀ v, Returned w rt v (beBytes w (u.r 2)) (beBytes w (u.r 3)) (u.f 0) → Got w rt v (stored w (retFlags ⟨w⟩ rt &&& 7) rv u) rv := by
  unfold Got Returned resSize
  rcases rcls hw hrt with ⟨h1, h2⟩ | ⟨h1, h2, h3, h4⟩ | ⟨h1, h2, h3, h4⟩ | ⟨h1, h2, h3, h4, h5⟩ | ⟨h1, h2, h3, h4⟩
  · rw [h2]
    refine ⟨fun x _ => rfl, fun v _ => ⟨fun h => ?_, fun h => ?_⟩⟩ <;> rcases h1 with h1 | h1 <;> rw [h1] at h <;> cases h
  · rw [h4, h1]
    dsimp only
    refine ⟨fun x hx => ?_, fun v hv => ⟨fun h => (by cases h), fun _ => ?_⟩⟩
    · exact Mem.wr_out _ _ _ _ (by omega)
    · show (u.mem.wr rv (u.f 0)).rd rv rt.size = v
      rw [h3, wr_rd _ _ hf, ← hv.2.2 rfl, h3, List.take_of_length_le (by omega)]
  · rw [h4, h1]
    dsimp only
    refine ⟨fun x hx => ?_, fun v hv => ⟨fun h => (by cases h), fun _ => ?_⟩⟩
    · exact Mem.wr_out _ _ _ _ (by rw [List.length_take]; omega)
    · show (u.mem.wr rv ((u.f 0).take 4)).rd rv rt.size = v
      rw [h3, wr_rd _ _ (by rw [List.length_take]; omega), ← hv.2.2 rfl, h3]
  · rw [h5, h1]
    dsimp only
    have e : stored w 2 rv u = (u.mem.wr (rv + 4) (beBytes w (u.r 3))).wr rv (beBytes w (u.r 2)) := if_neg (by omega)
    rw [e]
    refine ⟨fun x hx => ?_, fun v hv => ⟨fun _ => ?_, fun h => by cases h⟩⟩
    · rw [Mem.wr_out _ _ _ _ (by rw [beBytes_length]; omega), Mem.wr_out _ _ _ _ (by rw [beBytes_length]; omega)]
    · have := hv.2.1 rfl
      rw [if_neg (by omega)] at this ⊢
      rw [h4, append_bytes _ _ _ _ h2, this]
  · rw [h4, h1]
    dsimp only
    have e : stored w (if w = 8 then 2 else 3) rv u = u.mem.wr rv (beBytes w (u.r 2)) := by
      by_cases h8 : w = 8
      · rw [if_pos h8]; exact if_pos h8
      · rw [if_neg h8]; exact if_neg h8
    rw [e]
    refine ⟨fun x hx => ?_, fun v hv => ⟨fun _ => ?_, fun h => by cases h⟩⟩
    · exact Mem.wr_out _ _ _ _ (by rw [beBytes_length]; omega)
    · have := hv.2.1 rfl
      rw [if_pos h2] at this ⊢
      rw [wr_rd _ _ (beBytes_length _ _), this]

/-- What a closure returns is what its handler stored at `rv`. -/
theorem closureRet_ok {c : Cfg} (hc : c.Ok) {rt : FType} (hrt : rt.tc = .void ∨ WF (tab c.w) rt) {pg pf rv : Nat} {m : Mem}
    (hd : rv + 8 ≤ pg ∨ pg + 8 ≤ rv) :
    (∀ x, (x < pg ∨ pg + 8 ≤ x) → (x < pf ∨ pf + 8 ≤ x) → closureRet c rt pg pf rv m x = m x) ∧
    ∀ v, v.length = rt.size → Got c.w rt v m rv →
      Returned c.w rt v ((closureRet c rt pg pf rv m).rd pg c.w) ((closureRet c rt pg pf rv m).rd (pg + c.w) c.w) ((closureRet c rt pg pf rv m).rd pf 8) := by
  have hcw : c.w = 4 ∨ c.w = 8 := hc
  unfold Got Returned
  rcases rcls hc hrt with ⟨h1, h2⟩ | ⟨h1, h2, h3, h4⟩ | ⟨h1, h2, h3, h4⟩ | ⟨h1, h2, h3, h4, h5⟩ | ⟨h1, h2, h3, h4⟩
  · have e : closureRet c rt pg pf rv m = m := by
      unfold closureRet
      unfold retPlace at h1
      cases h : rt.tc <;> rw [h] at h1 <;> simp at h1 ⊢
    rw [e]
    refine ⟨fun x _ _ => rfl, fun v hl _ => ⟨hl, fun h => ?_, fun h => ?_⟩⟩ <;> rcases h1 with h1 | h1 <;> rw [h1] at h <;> cases h
  · have e : closureRet c rt pg pf rv m = m.wr pf (m.rd rv 8) := by unfold closureRet; rw [h2]
    rw [e, h1]
    refine ⟨fun x _ hx => Mem.wr_out _ _ _ _ (by rw [Mem.rd_length]; omega), fun v hl hv => ⟨hl, fun h => (by cases h), fun _ => ?_⟩⟩
    have := hv.2 rfl
    rw [h3] at this ⊢
    rw [wr_rd _ _ (Mem.rd_length _ _ _), List.take_of_length_le (by rw [Mem.rd_length]), this]
  · have e : closureRet c rt pg pf rv m = m.wr pf (beBytes 8 (beNat (m.rd rv 4) * 2 ^ 32)) := by unfold closureRet; rw [h2]
    rw [e, h1]
    refine ⟨fun x _ hx => Mem.wr_out _ _ _ _ (by rw [beBytes_length]; omega), fun v hl hv => ⟨hl, fun h => (by cases h), fun _ => ?_⟩⟩
    have := hv.2 rfl
    rw [h3] at this ⊢
    rw [wr_rd _ _ (beBytes_length _ _), float_take _ (Mem.rd_length _ _ _), this]
  · have e : closureRet c rt pg pf rv m = m.wr pg (m.rd rv 8) := by
      unfold closureRet
      rcases h3 with h3 | h3 <;> rw [h3] <;> dsimp only <;> rw [if_neg (by omega), two_writes m hd rfl]
    rw [e, h1]
    refine ⟨fun x hx _ => Mem.wr_out _ _ _ _ (by rw [Mem.rd_length]; omega), fun v hl hv => ⟨hl, fun _ => ?_, fun h => (by cases h)⟩⟩
    have := hv.1 rfl
    rw [if_neg (by omega), h4] at this
    rw [if_neg (by omega), ← Mem.rd_append, h2, wr_rd _ _ (Mem.rd_length _ _ _), this]
  · have e : closureRet c rt pg pf rv m = m.wr pg (m.rd rv c.w) := by
      unfold closureRet
      unfold retPlace at h1
      cases h : rt.tc <;> rw [h] at h1 h3 <;> simp at h1 h3 ⊢
      all_goals
        rw [if_pos (by omega), show c.w = 8 by omega]
    rw [e, h1]
    refine ⟨fun x hx _ => Mem.wr_out _ _ _ _ (by rw [Mem.rd_length]; omega), fun v hl hv => ⟨hl, fun _ => ?_, fun h => (by cases h)⟩⟩
    have := hv.1 rfl
    rw [if_pos h2] at this ⊢
    rw [wr_rd _ _ (Mem.rd_length _ _ _), this]

end Verif.S390
