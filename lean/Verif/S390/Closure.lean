import Verif.S390.Call

/-! What the handler of a closure sees. -/
namespace Verif.S390
open Verif Verif.Spec Verif.Spec.S390

/-- The last bytes of a word with the value of an integer. -/
theorem int_low {w : Nat} {tc : TC} {bs v : List Byte} (hb : bs.length = w) (hn : v.length ≤ w)
    (h : (beNat bs : Int) = intVal tc v % 2 ^ (8 * w)) : bs.drop (w - v.length) = v := by
  have e1 : (2 : Int) ^ (8 * w) = ((256 ^ w : Nat) : Int) := by rw [pow256]; norm_num
  have e2 : (2 : Int) ^ (8 * v.length) = ((256 ^ v.length : Nat) : Int) := by rw [pow256]; norm_num
  have hd : ((256 ^ v.length : Nat) : Int) ∣ ((256 ^ w : Nat) : Int) := by
    exact_mod_cast Nat.pow_dvd_pow 256 hn
  have h1 : (beNat bs : Int) % ((256 ^ v.length : Nat) : Int) = (beNat v : Int) % ((256 ^ v.length : Nat) : Int) := by
    rw [h, e1, Int.emod_emod_of_dvd _ hd]
    unfold intVal
    split
    · rw [e2, Int.sub_emod_right]
    · rfl
  have h2 : beNat bs % 256 ^ v.length = beNat v := by
    have h3 : (((beNat bs % 256 ^ v.length : Nat)) : Int) = ((beNat v % 256 ^ v.length : Nat) : Int) := by push_cast at h1 ⊢; exact h1
    have := beNat_lt v
    rw [Nat.mod_eq_of_lt this] at h3
    exact_mod_cast h3
  have h4 : bs = beBytes ((w - v.length) + v.length) (beNat bs) := by
    rw [Nat.sub_add_cancel hn, ← hb, beBytes_beNat]
  rw [h4, beBytes_drop]
  rw [← beBytes_mod, h2, beBytes_beNat]

/-- What the handler can rely on: the saved registers and the stack of the caller. -/
structure View (c : Cfg) (R : Regs) (pg pf po : Nat) (m : Mem) : Prop where
  gpr : ∀ k, k < 5 → m.rd (pg + c.w * k) c.w = R.gpr k
  fpr : ∀ k, k < fprs c.w → m.rd (pf + 8 * k) 8 = R.fpr k
  adr : po = R.sp + saveArea c.w
  stk : ∀ x, po ≤ x → m x = R.mem x

theorem nextW_sim {c : Cfg} {s : Nx} {p : Pos} (hs : Sim c s.ng s.nf s.no p) (pg po d : Nat) :
    Sim c (nextW c pg po d s).2.ng (nextW c pg po d s).2.nf (nextW c pg po d s).2.no (nextWord c.w p).2 := by
  obtain ⟨hw1, hw2⟩ := nextWord_sim hs
  unfold nextW
  by_cases hg : s.ng < maxGpr
  · rw [if_pos hg]; exact (hw1 hg).2
  · rw [if_neg hg]; exact (hw2 hg).2

theorem rd_drop (m : Mem) (a w d : Nat) : (m.rd a w).drop d = m.rd (a + d) (w - d) := by
  by_cases h : d ≤ w
  · have e : w = d + (w - d) := by omega
    have := Mem.rd_append m a d (w - d)
    rw [← e] at this
    rw [this, List.drop_append, List.drop_of_length_le (by rw [Mem.rd_length]), Mem.rd_length, Nat.sub_self]
    simp
  · rw [List.drop_of_length_le (by rw [Mem.rd_length]; omega), show w - d = 0 by omega]
    rfl

theorem nextW_rd {c : Cfg} {s : Nx} {p : Pos} (hs : Sim c s.ng s.nf s.no p) {R : Regs} {pg pf po : Nat} {m : Mem} (hv : View c R pg pf po m) (d : Nat) (hd : d ≤ c.w) :
    m.rd (nextW c pg po d s).1 (c.w - d) = (R.at c.w (nextWord c.w p).1).drop d := by
  obtain ⟨hw1, hw2⟩ := nextWord_sim hs
  unfold nextW
  by_cases hg : s.ng < maxGpr
  · rw [if_pos hg, (hw1 hg).1]
    show _ = (R.gpr s.ng).drop d
    rw [← hv.gpr _ hg, rd_drop]
  · rw [if_neg hg, (hw2 hg).1]
    show _ = (R.mem.rd (R.sp + saveArea c.w + c.w * s.no) c.w).drop d
    rw [← hv.adr, rd_drop]
    exact Mem.rd_congr fun i hi => hv.stk _ (by omega)

theorem closure_int {c : Cfg} {t : FType} {sgn : Bool} (h : intType c (argType t) = some (sgn, t.size)) (pg pf po : Nat) (s : Nx) (hc : c.Ok) :
    closureType c pg pf po (argType t) s = nextW c pg po (c.w - t.size) s := by
  generalize argType t = ty at h
  generalize t.size = n at h
  unfold closureType
  have hcw : c.w = 4 ∨ c.w = 8 := hc
  cases ty <;> simp [intType] at h
  all_goals first | (obtain ⟨_, rfl⟩ := h; rfl) | skip
  · obtain ⟨h8, _, rfl⟩ := h
    rw [if_neg (by decide)]; dsimp only; rw [if_pos h8, h8]
  · obtain ⟨h8, _, rfl⟩ := h
    rw [if_neg (by decide)]; dsimp only; rw [if_pos h8, h8]
  · obtain ⟨_, rfl⟩ := h
    rw [if_pos rfl]
    rcases hcw with h4 | h8
    · rw [if_neg (by omega), h4]
    · rw [if_pos h8]; dsimp only; rw [if_pos h8, h8]

theorem closureArg_ok {c : Cfg} (hc : c.Ok) {R : Regs} {pg pf po : Nat} {m : Mem} (hv : View c R pg pf po m) {t : FType} (ht : WF (tab c.w) t) {s : Nx} {p : Pos}
    (hs : Sim c s.ng s.nf s.no p) :
    Sim c (closureArg c pg pf po m t s).2.ng (closureArg c pg pf po m t s).2.nf (closureArg c pg pf po m t s).2.no (placeArg c.w t p).2 ∧
    ∀ v, v.length = t.size → PassedAt c.w R t v (placeArg c.w t p).1 →
      (∀ l, (placeArg c.w t p).1 = .ref l → ∀ i, i < t.size → m (beNat (R.at c.w l) + i) = R.mem (beNat (R.at c.w l) + i)) →
      m.rd (closureArg c pg pf po m t s).1 t.size = v := by
  have hcw : c.w = 4 ∨ c.w = 8 := hc
  have hs0 := hs
  obtain ⟨e1, e2, e3, e4, e5⟩ := hs
  unfold closureArg
  rcases cls hc ht with ⟨sgn, h1, h2, h3, h4, h5, h6⟩ | ⟨h1, h2, h3, h4, h5⟩ | ⟨h1, h2, h3, h4⟩ | ⟨h1, h2, h3, h4⟩ | ⟨h1, h2, h3⟩
  · have hp : placeArg c.w t p = (.word (nextWord c.w p).1, (nextWord c.w p).2) := by
      unfold placeArg; rw [h2]; dsimp only; rw [if_pos h4]
    rw [hp, closure_int h3 pg pf po s hc, h1]
    refine ⟨nextW_sim hs0 pg po _, fun v hl hpa _ => ?_⟩
    dsimp only
    rw [if_neg (by decide)]
    have hpa : (if kind t = .int then (beNat (R.at c.w (nextWord c.w p).1) : Int) = intVal t.tc v % 2 ^ (8 * c.w) else _) := hpa
    rw [if_pos h2] at hpa
    have hw := nextW_rd hs0 hv 0 (Nat.zero_le _)
    have hlen : (R.at c.w (nextWord c.w p).1).length = c.w := by
      rw [List.drop_zero, Nat.sub_zero] at hw
      rw [← hw, Mem.rd_length]
    have := nextW_rd hs0 hv (c.w - t.size) (by omega)
    rw [show c.w - (c.w - t.size) = t.size by omega] at this
    rw [this, ← hl, int_low hlen (by omega) hpa]
  · have hct : closureType c pg pf po (argType t) s = closureLong c pg po s := by
      unfold closureType
      rcases h3 with h3 | h3 <;> rw [h3, if_neg (by decide)] <;> exact if_neg (by omega)
    rw [hct, h1]
    unfold closureLong
    by_cases hg : p.ng + 2 ≤ 5
    · have hp : placeArg c.w t p = (.pair p.ng, { p with ng := p.ng + 2 }) := by
        unfold placeArg; rw [h2]; dsimp only; rw [if_neg (by omega), if_pos hg]
      have : (if s.ng = maxGpr - 1 then maxGpr else s.ng) = s.ng := if_neg (by unfold maxGpr; omega)
      rw [hp, this]
      try dsimp only
      rw [if_pos (by unfold maxGpr; omega)]
      refine ⟨⟨by dsimp only; omega, e2, e3, hg, e5⟩, fun v hl hpa _ => ?_⟩
      have hpa : R.gpr p.ng ++ R.gpr (p.ng + 1) = v := hpa
      dsimp only
      rw [if_neg (by decide), h5, ← hpa, ← hv.gpr _ (by omega), ← hv.gpr _ (by omega), h4]
      rw [show pg + 4 * (p.ng + 1) = pg + 4 * p.ng + 4 by omega, ← Mem.rd_append, e1]
    · have hp : placeArg c.w t p = (.two p.ns, { p with ng := 5, ns := p.ns + 8 }) := by
        unfold placeArg; rw [h2]; dsimp only; rw [if_neg (by omega), if_neg hg]
      have : (if s.ng = maxGpr - 1 then maxGpr else s.ng) = 5 := by unfold maxGpr; split <;> omega
      rw [hp, this]
      try dsimp only
      rw [if_neg (by unfold maxGpr; omega)]
      refine ⟨⟨rfl, e2, by dsimp only; rw [Nat.mul_add, e3, h4], Nat.le_refl _, e5⟩, fun v hl hpa _ => ?_⟩
      have hpa : R.mem.rd (R.sp + saveArea c.w + p.ns) 8 = v := hpa
      dsimp only
      rw [if_neg (by decide), h5, ← hpa, ← hv.adr]
      try dsimp only
      rw [e3]
      exact Mem.rd_congr fun i hi => hv.stk _ (by omega)
  · have hct : closureType c pg pf po (argType t) s = closureFloat c pf po s := by rw [h3]; rfl
    rw [hct, h1]
    unfold closureFloat
    rw [maxFpr_eq]
    by_cases hf : p.nf < fprs c.w
    · have hp : placeArg c.w t p = (.fpr p.nf, { p with nf := p.nf + 1 }) := by
        unfold placeArg; rw [h2]; dsimp only; rw [if_pos hf]
      rw [hp, if_pos (by omega)]
      refine ⟨⟨e1, by dsimp only; omega, e3, e4, hf⟩, fun v hl hpa _ => ?_⟩
      have hpa : (R.fpr p.nf).take t.size = v := hpa
      dsimp only
      rw [if_neg (by decide), ← hpa, ← hv.fpr _ hf, h4, ← e2]
      try dsimp only
      rw [show (8 : Nat) = 4 + 4 from rfl, Mem.rd_append, List.take_append_of_le_length (by rw [Mem.rd_length]), List.take_of_length_le (by rw [Mem.rd_length])]
    · have hp : placeArg c.w t p = (.word (.stk p.ns), { p with ns := p.ns + c.w }) := by
        unfold placeArg; rw [h2]; dsimp only; rw [if_neg hf, if_pos (by omega)]
      rw [hp, if_neg (by omega)]
      refine ⟨⟨e1, e2, by dsimp only; rw [Nat.mul_add, e3]; omega, e4, e5⟩, fun v hl hpa _ => ?_⟩
      have hpa : (if kind t = .int then _ else (R.mem.rd (R.sp + saveArea c.w + p.ns) c.w).drop (c.w - t.size) = v) := hpa
      rw [if_neg (by rw [h2]; decide), ← hv.adr, rd_drop] at hpa
      dsimp only
      rw [if_neg (by decide), ← hpa, h4]
      try dsimp only
      rw [e3, show c.w - (c.w - 4) = 4 by omega]
      exact Mem.rd_congr fun i hi => hv.stk _ (by omega)
  · have hct : closureType c pg pf po (argType t) s = closureDouble c pf po s := by rw [h3]; rfl
    rw [hct, h1]
    unfold closureDouble
    rw [maxFpr_eq]
    by_cases hf : p.nf < fprs c.w
    · have hp : placeArg c.w t p = (.fpr p.nf, { p with nf := p.nf + 1 }) := by
        unfold placeArg; rw [h2]; dsimp only; rw [if_pos hf]
      rw [hp, if_pos (by omega)]
      refine ⟨⟨e1, by dsimp only; omega, e3, e4, hf⟩, fun v hl hpa _ => ?_⟩
      have hpa : (R.fpr p.nf).take t.size = v := hpa
      dsimp only
      rw [if_neg (by decide), ← hpa, ← hv.fpr _ hf, h4, ← e2]
      try dsimp only
      rw [List.take_of_length_le (by rw [Mem.rd_length])]
    · rw [if_neg (by omega)]
      by_cases h8 : c.w = 8
      · have hp : placeArg c.w t p = (.word (.stk p.ns), { p with ns := p.ns + c.w }) := by
          unfold placeArg; rw [h2]; dsimp only; rw [if_neg hf, if_pos (by omega)]
        rw [hp]
        refine ⟨⟨e1, e2, by dsimp only; rw [Nat.mul_add, e3, h8], e4, e5⟩, fun v hl hpa _ => ?_⟩
        have hpa : (if kind t = .int then _ else (R.mem.rd (R.sp + saveArea c.w + p.ns) c.w).drop (c.w - t.size) = v) := hpa
        rw [if_neg (by rw [h2]; decide), ← hv.adr, rd_drop] at hpa
        dsimp only
        rw [if_neg (by decide), ← hpa, h4]
        try dsimp only
        rw [e3, h8]
        exact Mem.rd_congr fun i hi => hv.stk _ (by omega)
      · have hp : placeArg c.w t p = (.two p.ns, { p with ns := p.ns + 8 }) := by
          unfold placeArg; rw [h2]; dsimp only; rw [if_neg hf, if_neg (by omega)]
        have hw4 : c.w = 4 := by omega
        rw [hp]
        refine ⟨⟨e1, e2, by dsimp only; rw [Nat.mul_add, e3, hw4], e4, e5⟩, fun v hl hpa _ => ?_⟩
        have hpa : R.mem.rd (R.sp + saveArea c.w + p.ns) 8 = v := hpa
        dsimp only
        rw [if_neg (by decide), h4, ← hpa, ← hv.adr]
        try dsimp only
        rw [e3]
        exact Mem.rd_congr fun i hi => hv.stk _ (by omega)
  · have hp : placeArg c.w t p = (.ref (nextWord c.w p).1, (nextWord c.w p).2) := by
      unfold placeArg; rw [h2]
    have hct : closureType c pg pf po (argType t) s = nextW c pg po 0 s := by
      rw [h3]
      unfold closureType
      rw [if_pos rfl]
      rcases hcw with h4 | h8
      · rw [if_neg (by omega), h4]
      · rw [if_pos h8]; dsimp only; rw [if_pos h8]
    rw [hp, hct, h1]
    refine ⟨nextW_sim hs0 pg po _, fun v hl hpa hcp => ?_⟩
    have hpa : R.mem.rd (beNat (R.at c.w (nextWord c.w p).1)) t.size = v := hpa
    dsimp only
    rw [if_pos rfl]
    have := nextW_rd hs0 hv 0 (Nat.zero_le _)
    rw [List.drop_zero, Nat.sub_zero] at this
    rw [this, ← hpa]
    exact Mem.rd_congr fun i hi => hcp _ rfl i hi

/-- All arguments. -/
theorem closureLoop_ok {c : Cfg} (hc : c.Ok) {R : Regs} {pg pf po : Nat} {m : Mem} (hv : View c R pg pf po m) :
    ∀ {ts : List FType} {vs : List (List Byte)} {s : Nx} {p : Pos}, (∀ t ∈ ts, WF (tab c.w) t) → Sim c s.ng s.nf s.no p →
    vs.map (·.length) = ts.map (·.size) → AllPassed c.w R ts vs (placeFrom c.w ts p) →
    (∀ x ∈ copies c.w R ts (placeFrom c.w ts p), ∀ i, i < x.2 → m (x.1 + i) = R.mem (x.1 + i)) →
    (closureLoop c pg pf po m ts s).length = ts.length ∧ vals m ts (closureLoop c pg pf po m ts s) = vs
  | [], [], s, p, _, _, _, _, _ => ⟨rfl, rfl⟩
  | [], _ :: _, s, p, _, _, h, _, _ => by simp at h
  | _ :: _, [], s, p, _, _, h, _, _ => by simp at h
  | t :: ts, v :: vs, s, p, hwf, hs, hl, ha, hcp => by
    obtain ⟨h1, h2⟩ := closureArg_ok hc hv (hwf t (by simp)) hs
    simp only [List.map_cons, List.cons.injEq] at hl
    obtain ⟨ha1, ha2⟩ := ha
    have hsub : ∀ x ∈ copies c.w R ts (placeFrom c.w ts (placeArg c.w t p).2), x ∈ copies c.w R (t :: ts) (placeFrom c.w (t :: ts) p) := by
      intro x hx
      rw [placeFrom]
      cases (placeArg c.w t p).1 <;> simp only [copies, List.mem_cons] <;> first | exact hx | exact .inr hx
    obtain ⟨i1, i2⟩ := closureLoop_ok hc hv (vs := vs) (fun x hx => hwf x (by simp [hx])) h1 hl.2 ha2 (fun x hx => hcp x (hsub x hx))
    have hval := h2 v hl.1 ha1 (by
      intro l hpl i hi
      refine hcp (beNat (R.at c.w l), t.size) ?_ i hi
      rw [placeFrom, hpl]
      simp [copies])
    rw [closureLoop, vals, hval, i2]
    exact ⟨by simp [i1], rfl⟩

end Verif.S390
