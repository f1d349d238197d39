import Verif.Alpha.AsmSafe
import Verif.Alpha.AsmCall
import Verif.Alpha.AsmClosure

/-! `Safe` for all of src/alpha/osf.S. -/
namespace Verif.Alpha.Asm
open Verif Verif.Alpha Verif.Spec.Alpha

/-- Before `out`, unwinding gives the caller; at `out`, `fin`. -/
def Good (E : Env) (out : Nat) (cfa : Nat → Nat) (ra fp : Nat) (r : Nat → Nat) (fin : M → Prop) (t : M) : Prop :=
  (t.pc ≠ out → UnwAt E t (cfa (t.pc - E.L)) ra fp r) ∧ (t.pc = out → fin t)

theorem good_row {E : Env} {lo b out p ra fp : Nat} {cfa : Nat → Nat} {r : Nat → Nat} {fin : M → Prop} {s : M} {w : Row} (hp : s.pc = E.L + p) (ho : E.L + p ≠ out)
    (hw : rowAt E.bwx p = some w) (hu : ∀ t, Agree lo b s t → Unw w t (cfa p) ra fp r) : ∀ t, Agree lo b s t → Good E out cfa ra fp r fin t := by
  intro t ht
  have hpc : t.pc = E.L + p := ht.pc.trans hp
  refine ⟨fun _ => ⟨w, ?_, ?_⟩, fun h => absurd (hpc.symm.trans h) ho⟩
  · rw [hpc, show E.L + p - E.L = p by omega]; exact hw
  · rw [hpc, show E.L + p - E.L = p by omega]; exact hu t ht

theorem good_fin {E : Env} {lo b out ra fp : Nat} {cfa : Nat → Nat} {r : Nat → Nat} {fin : M → Prop} {s : M} (hp : s.pc = out)
    (hf : ∀ t, Agree lo b s t → fin t) : ∀ t, Agree lo b s t → Good E out cfa ra fp r fin t :=
  fun t ht => ⟨fun h => absurd (ht.pc.trans hp) h, fun _ => hf t ht⟩

/-- A jump to the address in $1, a return, a call. -/
theorem safe_jmp {E : Env} {lo out b o : Nat} {Q : M → Prop} {s : M} (hp : s.pc = E.L + o) (ho : E.L + o ≠ out) (hf : fetch E.bwx o = some (.jmp 1))
    (h1 : s.r 30 ≤ b) (h2 : ∀ t, Agree lo b s t → Q t) (h3 : Safe E lo out Q b (afterJmp s)) : Safe E lo out Q b s := by
  have hf' : fetch E.bwx (s.pc - E.L) = some (.jmp 1) := by rw [show s.pc - E.L = o by omega]; exact hf
  refine .step h1 h2 (by rw [hp]; exact ho) hf' (.inl (by simp [rdOf])) ?_ (Nat.le_refl b) h3
  unfold step; rw [if_neg (by omega), hf']; rfl

theorem safe_ret {E : Env} {lo out b o : Nat} {Q : M → Prop} {s : M} (hp : s.pc = E.L + o) (ho : E.L + o ≠ out) (hf : fetch E.bwx o = some .ret)
    (h1 : s.r 30 ≤ b) (h2 : ∀ t, Agree lo b s t → Q t) (h3 : Safe E lo out Q b (afterRet s)) : Safe E lo out Q b s := by
  have hf' : fetch E.bwx (s.pc - E.L) = some .ret := by rw [show s.pc - E.L = o by omega]; exact hf
  refine .step h1 h2 (by rw [hp]; exact ho) hf' (.inl (by simp [rdOf])) ?_ (Nat.le_refl b) h3
  unfold step; rw [if_neg (by omega), hf']; rfl

theorem safe_jsr {E : Env} {lo out b o : Nat} {Q : M → Prop} {s : M} (hp : s.pc = E.L + o) (ho : E.L + o ≠ out) (hf : fetch E.bwx o = some .jsr)
    (h1 : s.r 30 ≤ b) (h2 : ∀ t, Agree lo b s t → Q t) (h3 : Safe E lo out Q b (afterJsr s)) : Safe E lo out Q b s := by
  have hf' : fetch E.bwx (s.pc - E.L) = some .jsr := by rw [show s.pc - E.L = o by omega]; exact hf
  refine .step h1 h2 (by rw [hp]; exact ho) hf' (.inl (by simp [rdOf])) ?_ (Nat.le_refl b) h3
  unfold step; rw [if_neg (by omega), hf']; rfl

theorem safe_br {E : Env} {lo out b o : Nat} {l : Lbl} {Q : M → Prop} {s : M} (hp : s.pc = E.L + o) (ho : E.L + o ≠ out) (hf : fetch E.bwx o = some (.br l))
    (h1 : s.r 30 ≤ b) (h2 : ∀ t, Agree lo b s t → Q t) (h3 : Safe E lo out Q b { s with pc := E.L + off E.bwx l }) : Safe E lo out Q b s := by
  have hf' : fetch E.bwx (s.pc - E.L) = some (.br l) := by rw [show s.pc - E.L = o by omega]; exact hf
  refine .step h1 h2 (by rw [hp]; exact ho) hf' (.inl (by simp [rdOf])) ?_ (Nat.le_refl b) h3
  unfold step; rw [if_neg (by omega), hf']

/-! ## `ffi_call_osf` -/

/-- The rows of `ffi_call_osf`. -/
def row17 : Row := ⟨17, 32, []⟩
def row15 : Row := ⟨15, 32, [(15, -24), (26, -32)]⟩
def row30 : Row := ⟨30, 0, []⟩

theorem call_rows (b : Bool) : (∀ k, k < 4 → rowAt b (0 + 4 * k) = some row17) ∧ (∀ k, k < 25 → rowAt b (16 + 4 * k) = some row15) ∧
    (∀ k, k < 4 → rowAt b (116 + 4 * k) = some row30) := by
  revert b; decide +kernel

theorem tab_rows (b : Bool) : ∀ o ∈ [144, 160, 164, 176, 180, 192, 196, 208, 212, 216, 224, 228, 232], rowAt b o = some row30 := by
  revert b; decide +kernel

/-- The CFA in `ffi_call_osf` by offset: the end of the frame `F`, and from 116 on the stack pointer `A`. -/
def callCfa (F A : Nat) (o : Nat) : Nat := if o < 116 then F + 32 else A

/-- While $26 and $15 are in the frame. -/
structure InCall (F A ra fp : Nat) (r : Nat → Nat) (t : M) : Prop where
  fr : t.r 15 = F
  sp : t.r 30 = A
  ra : t.mem.rd F 8 = leBytes 8 ra
  fp : t.mem.rd (F + 8) 8 = leBytes 8 fp
  rest : ∀ k, 9 ≤ k → k ≤ 14 → t.r k = r k

theorem InCall.upd {F A ra fp : Nat} {r : Nat → Nat} {t : M} (h : InCall F A ra fp r t) {d v p : Nat} (hd : d < 9 ∨ 16 ≤ d) (h30 : d ≠ 30) :
    InCall F A ra fp r { t with r := Asm.upd t.r d v, pc := p } := by
  have e : ∀ k, 9 ≤ k → k ≤ 15 ∨ k = 30 → Asm.upd t.r d v k = t.r k := by intro k h1 h2; unfold Asm.upd; rw [if_neg (by omega)]
  exact ⟨(e 15 (by omega) (by omega)).trans h.fr, (e 30 (by omega) (by omega)).trans h.sp, h.ra, h.fp, fun k h1 h2 => (e k h1 (by omega)).trans (h.rest k h1 h2)⟩

theorem InCall.updf {F A ra fp : Nat} {r : Nat → Nat} {t : M} (h : InCall F A ra fp r t) {g : Nat → Nat} {p : Nat} :
    InCall F A ra fp r { t with f := g, pc := p } := ⟨h.fr, h.sp, h.ra, h.fp, h.rest⟩

theorem safe_call_head {E : Env} {lo out : Nat} {s : M} {fin : M → Prop} (hpc : s.pc = E.L) (hsp : s.r 16 + 48 ≤ s.r 17) (h30 : s.r 30 ≤ s.r 16)
    (hra : s.r 26 < 2 ^ 64) (hfp : s.r 15 < 2 ^ 64) (ho : out < E.L ∨ E.L + 88 ≤ out) (hout : out = s.r 20)
    (hfin : ∀ u, Called E s u → ∀ t, Agree lo (u.r 30) u t → fin t) :
    Safe E lo out (Good E out (callCfa (s.r 17) (s.r 16)) (s.r 26) (s.r 15) s.r fin) (s.r 16) s := by
  obtain ⟨-, hj84⟩ := call_block E.bwx
  obtain ⟨w1, w2, -⟩ := call_rows E.bwx
  have hb1 : block E.bwx 0 head1 = true ∧ block E.bwx 24 head2 = true ∧ block E.bwx 80 [.lda 30 48 30] = true := by
    generalize E.bwx = b; revert b; decide +kernel
  have hcal := called_fold (E := E) hsp
  generalize hx1 : ({ head1.foldl (exec E) s with pc := E.L + 24 } : M) = x1
  have j1 : InCall (s.r 17) (s.r 16) (s.r 26) (s.r 15) s.r x1 := by
    rw [← hx1]
    refine ⟨by simp [head1, exec, upd], by simp [head1, exec, upd], ?_, ?_, ?_⟩
    · simp only [head1, exec, upd, List.foldl, reduceIte, Nat.reduceEqDiff]; exact (savedMem_regs s).1
    · simp only [head1, exec, upd, List.foldl, reduceIte, Nat.reduceEqDiff]; exact (savedMem_regs s).2.1
    · intro k h1 h2
      have e : ∀ j, j < 9 ∨ 15 ≤ j → k ≠ j := by omega
      simp [head1, exec, upd, e 30, e 15]
  have hx1p : x1.pc = E.L + 24 := by rw [← hx1]
  have s1 : Safe E lo out (Good E out (callCfa (s.r 17) (s.r 16)) (s.r 26) (s.r 15) s.r fin) (s.r 16) x1 := by
    refine safe_chain (b' := s.r 16) (Nat.le_refl _) (o := 24) hb1.2.1 hx1p (by simp only [head2, List.length_cons, List.length_nil]; omega) (by decide) ?_
    refine chain_inv (J := InCall (s.r 17) (s.r 16) (s.r 26) (s.r 15) s.r) (o := 24) hx1p j1 ?_ ?_
    · intro k i t hk ht hj
      have hk14 : k < 14 := by
        by_contra hh
        rw [List.getElem?_eq_none (by simp only [head2, List.length_cons, List.length_nil]; omega)] at hk; cases hk
      refine ⟨le_of_eq hj.sp, good_row (p := 24 + 4 * k) (by omega) (by omega) (by have := w2 (k + 2) (by omega); rw [show 24 + 4 * k = 16 + 4 * (k + 2) by omega]; exact this)
        (by rw [callCfa, if_pos (by omega)]; exact unw2 hj.fr (by omega) hj.ra hj.fp hra hfp hj.rest), ?_, ?_⟩
      · rcases (show k = 0 ∨ k = 1 ∨ k = 2 ∨ k = 3 ∨ k = 4 ∨ k = 5 ∨ k = 6 ∨ k = 7 ∨ k = 8 ∨ k = 9 ∨ k = 10 ∨ k = 11 ∨ k = 12 ∨ k = 13 by omega) with
          rfl | rfl | rfl | rfl | rfl | rfl | rfl | rfl | rfl | rfl | rfl | rfl | rfl | rfl <;> cases hk <;> simp only [rdOf, hj.sp] <;> omega
      · rcases (show k = 0 ∨ k = 1 ∨ k = 2 ∨ k = 3 ∨ k = 4 ∨ k = 5 ∨ k = 6 ∨ k = 7 ∨ k = 8 ∨ k = 9 ∨ k = 10 ∨ k = 11 ∨ k = 12 ∨ k = 13 by omega) with
          rfl | rfl | rfl | rfl | rfl | rfl | rfl | rfl | rfl | rfl | rfl | rfl | rfl | rfl <;> cases hk <;>
          first | exact hj.upd (by omega) (by omega) | exact hj.updf
    · intro hj
      rw [show E.L + 24 + 4 * head2.length = E.L + 80 from rfl] at hj ⊢
      generalize hx2 : ({ head2.foldl (exec E) x1 with pc := E.L + 80 } : M) = x2 at hj ⊢
      have hx2p : x2.pc = E.L + 80 := by rw [← hx2]
      refine safe_chain (b' := s.r 16 + 48) (by omega) (o := 80) hb1.2.2 hx2p (by simp only [List.length_cons, List.length_nil]; omega) (by decide) ?_
      refine ⟨le_of_eq hj.sp, good_row (p := 80) hx2p (by omega) (w2 16 (by omega)) (by rw [callCfa, if_pos (by omega)]; exact unw2 hj.fr (by omega) hj.ra hj.fp hra hfp hj.rest), ?_, ?_⟩
      · simp only [rdOf]; omega
      · rw [Chain]
        have hfold : ({ exec E x2 (.lda 30 48 30) with pc := x2.pc + 4 } : M) = { (head1 ++ head2 ++ [Ins.lda 30 48 30]).foldl (exec E) s with pc := E.L + 84 } := by
          rw [List.foldl_append, List.foldl_append, hx2p, ← hx2, ← hx1, foldl_pc]
          rfl
        rw [hfold]
        generalize (head1 ++ head2 ++ [Ins.lda 30 48 30]).foldl (exec E) s = y at hcal hfold
        have y30 : y.r 30 = s.r 16 + 48 := hcal.sp
        have y15 : y.r 15 = s.r 17 := hcal.frame
        have ym : y.mem = savedMem s := hcal.mem
        obtain ⟨g1, g2, -⟩ := savedMem_regs s
        refine safe_jsr (o := 84) rfl (by omega) hj84 (le_of_eq y30) (good_row (p := 84) rfl (by omega) (w2 17 (by omega))
          (by rw [callCfa, if_pos (by omega)]; exact unw2 (F := s.r 17) y15 (by omega) (by show y.mem.rd _ _ = _; rw [ym]; exact g1) (by show y.mem.rd _ _ = _; rw [ym]; exact g2) hra hfp (fun k h1 h2 => hcal.rest k h1 h2 ▸ (by
            show y.r k = upd y.r 26 _ k
            unfold upd; rw [if_neg (by omega)])))) ?_
        refine .stop (le_of_eq y30) (good_fin (hcal.pc.trans hout.symm) ?_) (hcal.pc.trans hout.symm)
        intro t ht
        exact hfin _ hcal t (by rw [hcal.sp]; exact ht)
  refine safe_chain (b' := s.r 16) (Nat.le_refl _) (o := 0) hb1.1 (by rw [hpc]; rfl) (by simp only [head1, List.length_cons, List.length_nil]; omega) (by decide) ?_
  have q17 : ∀ (k : Nat) (x : M), k < 4 → x.pc = E.L + 4 * k → x.r 17 = s.r 17 → x.r 26 = s.r 26 → x.r 15 = s.r 15 → (∀ k, 9 ≤ k → k ≤ 14 → x.r k = s.r k) →
      ∀ t, Agree lo (s.r 16) x t → Good E out (callCfa (s.r 17) (s.r 16)) (s.r 26) (s.r 15) s.r fin t := by
    intro k x hk hp e1 e2 e3 e4
    refine good_row (p := 4 * k) hp (by omega) (by have := w1 k hk; rw [Nat.zero_add] at this; exact this) ?_
    rw [callCfa, if_pos (by omega)]
    exact unw0 (by rw [e1]) e2 e3 e4
  have q15 : ∀ (k : Nat) (x : M), k < 2 → x.pc = E.L + (16 + 4 * k) → x.r 15 = s.r 17 → x.mem.rd (s.r 17) 8 = leBytes 8 (s.r 26) → x.mem.rd (s.r 17 + 8) 8 = leBytes 8 (s.r 15) → (∀ k, 9 ≤ k → k ≤ 14 → x.r k = s.r k) →
      ∀ t, Agree lo (s.r 16) x t → Good E out (callCfa (s.r 17) (s.r 16)) (s.r 26) (s.r 15) s.r fin t := by
    intro k x hk hp e1 e2 e3 e4
    refine good_row (p := 16 + 4 * k) hp (by omega) (w2 k (by omega)) ?_
    rw [callCfa, if_pos (by omega)]
    exact unw2 e1 (by omega) e2 e3 hra hfp e4
  have ne : ∀ k, 9 ≤ k → k ≤ 14 → k ≠ 30 ∧ k ≠ 15 := by omega
  refine ⟨h30, q17 0 _ (by omega) hpc rfl rfl rfl (fun _ _ _ => rfl), .inl (by simp [rdOf]), ?_⟩
  refine ⟨by simp [exec, upd], q17 1 _ (by omega) (by simp [hpc]) (by simp [exec, upd]) (by simp [exec, upd]) (by simp [exec, upd])
    (fun k h1 h2 => by simp [exec, upd, ne k h1 h2]), .inl (by simp [rdOf]), ?_⟩
  refine ⟨by simp [exec, upd], q17 2 _ (by omega) (by simp [hpc]) (by simp [exec, upd]) (by simp [exec, upd]) (by simp [exec, upd])
    (fun k h1 h2 => by simp [exec, upd, ne k h1 h2]), .inl (by simp [rdOf]), ?_⟩
  refine ⟨by simp [exec, upd], q17 3 _ (by omega) (by simp [hpc]) (by simp [exec, upd]) (by simp [exec, upd]) (by simp [exec, upd])
    (fun k h1 h2 => by simp [exec, upd, ne k h1 h2]), .inl (by simp [rdOf]), ?_⟩
  have m2 : ((s.mem.wr (s.r 17) (leBytes 8 (s.r 26))).wr (s.r 17 + 8) (leBytes 8 (s.r 15))).rd (s.r 17) 8 = leBytes 8 (s.r 26) ∧
      ((s.mem.wr (s.r 17) (leBytes 8 (s.r 26))).wr (s.r 17 + 8) (leBytes 8 (s.r 15))).rd (s.r 17 + 8) 8 = leBytes 8 (s.r 15) :=
    ⟨by rw [Mem.rd_wr_disj _ _ _ _ _ (by omega), wr_rd _ _ (leBytes_length _ _)], wr_rd _ _ (leBytes_length _ _)⟩
  refine ⟨by simp [exec, upd], q15 0 _ (by omega) (by simp [hpc]) (by simp [exec, upd]) (by simp [exec, upd, m2]) (by simp [exec, upd, m2])
    (fun k h1 h2 => by simp [exec, upd, ne k h1 h2]), .inl (by simp [rdOf]), ?_⟩
  refine ⟨by simp [exec, upd], q15 1 _ (by omega) (by simp [hpc]) (by simp [exec, upd])
    (by simp only [exec, upd, reduceIte, Nat.reduceEqDiff]; rw [Mem.rd_wr_disj _ _ _ _ _ (by omega)]; exact m2.1)
    (by simp only [exec, upd, reduceIte, Nat.reduceEqDiff]; rw [Mem.rd_wr_disj _ _ _ _ _ (by omega)]; exact m2.2)
    (fun k h1 h2 => by simp [exec, upd, ne k h1 h2]), .inl (by simp [rdOf]), ?_⟩
  rw [Chain]
  have : ({ exec E { exec E { exec E { exec E { exec E { exec E s (.mov 16 30) with pc := s.pc + 4 } (.stq 26 0 17) with pc := s.pc + 4 + 4 } (.stq 15 8 17) with pc := s.pc + 4 + 4 + 4 } (.mov 17 15) with pc := s.pc + 4 + 4 + 4 + 4 } (.stq 18 16 17) with pc := s.pc + 4 + 4 + 4 + 4 + 4 } (.stq 19 24 17) with pc := s.pc + 4 + 4 + 4 + 4 + 4 + 4 } : M) = x1 := by
    rw [← hx1, hpc]; rfl
  exact this ▸ s1

/-- After $26 and $15 are reloaded. -/
structure OutCall (A ra fp : Nat) (r : Nat → Nat) (t : M) : Prop where
  sp : t.r 30 = A
  ra : t.r 26 = ra
  fp : t.r 15 = fp
  rest : ∀ k, 9 ≤ k → k ≤ 14 → t.r k = r k

theorem OutCall.unw {A ra fp lo b : Nat} {r : Nat → Nat} {t : M} (h : OutCall A ra fp r t) : ∀ t', Agree lo b t t' → Unw row30 t' A ra fp r :=
  unw0 (k := 0) (by rw [h.sp]; rfl) h.ra h.fp h.rest

theorem OutCall.upd {A ra fp : Nat} {r : Nat → Nat} {t : M} (h : OutCall A ra fp r t) {d v p : Nat} (hd : d < 9) :
    OutCall A ra fp r { t with r := Asm.upd t.r d v, pc := p } := by
  have e : ∀ k, 9 ≤ k → Asm.upd t.r d v k = t.r k := by intro k h1; unfold Asm.upd; rw [if_neg (by omega)]
  exact ⟨(e 30 (by omega)).trans h.sp, (e 26 (by omega)).trans h.ra, (e 15 (by omega)).trans h.fp, fun k h1 h2 => (e k h1).trans (h.rest k h1 h2)⟩

theorem OutCall.updm {A ra fp : Nat} {r : Nat → Nat} {t : M} (h : OutCall A ra fp r t) {m : Mem} {p : Nat} :
    OutCall A ra fp r { t with mem := m, pc := p } := ⟨h.sp, h.ra, h.fp, h.rest⟩

/-- The way from an entry of the table to the caller. -/
theorem safe_call_tab {E : Env} {lo out ra fp F A st rv sc : Nat} {r : Nat → Nat} {u x : M} {fin : M → Prop} (a : AtTab E F sc rv u x) (hsc : (if rv = 0 then 0 else st) = sc)
    (h5 : sc ≤ 5) (j : OutCall A ra fp r x) (ho : out < E.L + 88 ∨ E.L + 240 ≤ out) (hout : out = ra)
    (hfin : ∀ v, Back E F st rv u v → ∀ t, Agree lo A v t → fin t) : Safe E lo out (Good E out (callCfa F A) ra fp r fin) A x := by
  obtain ⟨b0, b1, c1, b2, c2, b3, c3, b4, c4, b5, c5⟩ := st_block E.bwx
  have rows := tab_rows E.bwx
  have g : ∀ {p : Nat} {y : M}, y.pc = E.L + p → p ∈ [144, 160, 164, 176, 180, 192, 196, 208, 212, 216, 224, 228, 232] → OutCall A ra fp r y →
      y.r 30 ≤ A ∧ E.L + p ≠ out ∧ ∀ t, Agree lo A y t → Good E out (callCfa F A) ra fp r fin t := by
    intro p y hp hm hy
    have hp2 : 144 ≤ p ∧ p ≤ 232 := by simp at hm; omega
    exact ⟨le_of_eq hy.sp, by omega, good_row hp (by omega) (rows p hm) (by rw [callCfa, if_neg (by omega)]; exact hy.unw)⟩
  have last : ∀ (p : Nat) (y : M), y.pc = E.L + p → p ∈ [144, 160, 164, 176, 180, 192, 196, 208, 212, 216, 224, 228, 232] → OutCall A ra fp r y → fetch E.bwx p = some .ret →
      y.r = x.r → y.f = x.f → y.mem = stored sc rv u → Safe E lo out (Good E out (callCfa F A) ra fp r fin) A y := by
    intro p y hp hm hy hf e1 e2 e3
    obtain ⟨g1, g2, g3⟩ := g hp hm hy
    have hb : Back E F st rv u (afterRet y) := a.back hsc (by show y.r 26 = _; rw [e1]) e1 e2 e3
    have hpc : (afterRet y).pc = out := by rw [hout]; exact hy.ra
    exact safe_ret hp g2 hf g1 g3 (.stop (le_of_eq hy.sp) (good_fin hpc (hfin _ hb)) hpc)
  have hpc := a.pc
  have one : ∀ (p : Nat) (i : Ins), x.pc = E.L + p → p ∈ [144, 160, 164, 176, 180, 192, 196, 208, 212, 216, 224, 228, 232] →
      p + 4 ∈ [144, 160, 164, 176, 180, 192, 196, 208, 212, 216, 224, 228, 232] → block E.bwx p [i] = true → rdOf E x i = (0, 0) →
      (∃ m, exec E x i = { x with mem := m } ∧ m = stored sc rv u) → fetch E.bwx (p + 4) = some .ret → Safe E lo out (Good E out (callCfa F A) ra fp r fin) A x := by
    intro p i hp hm hm' hbl hr ⟨m, he, hst⟩ hf
    obtain ⟨g1, g2, g3⟩ := g hp hm j
    have hp2 : 144 ≤ p ∧ p + 4 ≤ 232 := by simp at hm hm'; omega
    refine safe_chain (Nat.le_refl _) hbl hp (by simp only [List.length_cons, List.length_nil]; omega) (by simp) ⟨g1, g3, .inl (by rw [hr]; simp), ?_⟩
    rw [Chain, he]
    exact last (p + 4) _ (by show x.pc + 4 = _; omega) hm' j.updm hf rfl rfl hst
  have two : ∀ (p : Nat) (i i' : Ins), x.pc = E.L + p → p ∈ [144, 160, 164, 176, 180, 192, 196, 208, 212, 216, 224, 228, 232] →
      p + 4 ∈ [144, 160, 164, 176, 180, 192, 196, 208, 212, 216, 224, 228, 232] → p + 8 ∈ [144, 160, 164, 176, 180, 192, 196, 208, 212, 216, 224, 228, 232] →
      block E.bwx p [i, i'] = true → (∀ y, rdOf E y i = (0, 0) ∧ rdOf E y i' = (0, 0)) →
      (∃ m m', exec E x i = { x with mem := m } ∧ exec E { x with mem := m, pc := x.pc + 4 } i' = { x with mem := m', pc := x.pc + 4 } ∧ m' = stored sc rv u) →
      fetch E.bwx (p + 8) = some .ret → Safe E lo out (Good E out (callCfa F A) ra fp r fin) A x := by
    intro p i i' hp hm hm' hm'' hbl hr ⟨m, m', he, he', hst⟩ hf
    obtain ⟨g1, g2, g3⟩ := g hp hm j
    have hp2 : 144 ≤ p ∧ p + 8 ≤ 232 := by simp at hm hm''; omega
    refine safe_chain (Nat.le_refl _) hbl hp (by simp only [List.length_cons, List.length_nil]; omega) (by simp) ⟨g1, g3, .inl (by rw [(hr _).1]; simp), ?_⟩
    rw [he]
    obtain ⟨g1, g2, g3⟩ := g (p := p + 4) (y := { x with mem := m, pc := x.pc + 4 }) (by show x.pc + 4 = _; omega) hm' j.updm
    refine ⟨g1, g3, .inl (by rw [(hr _).2]; simp), ?_⟩
    rw [Chain, he']
    exact last (p + 8) _ (by show x.pc + 4 + 4 = _; omega) hm'' j.updm hf rfl rfl hst
  rcases (show sc = 0 ∨ sc = 1 ∨ sc = 2 ∨ sc = 3 ∨ sc = 4 ∨ sc = 5 by omega) with rfl | rfl | rfl | rfl | rfl | rfl
  · exact last 144 x hpc (by simp) j b0 rfl rfl a.mem
  · exact one 160 _ hpc (by simp) (by simp) b1 rfl ⟨_, rfl, by simp [stored, a.mem, a.rv, a.r0]⟩ c1
  · exact one 176 _ hpc (by simp) (by simp) b2 rfl ⟨_, rfl, by simp [stored, a.mem, a.rv, a.f]⟩ c2
  · exact one 192 _ hpc (by simp) (by simp) b3 rfl ⟨_, rfl, by simp [stored, a.mem, a.rv, a.f]⟩ c3
  · exact two 208 _ _ hpc (by simp) (by simp) (by simp) b4 (fun _ => ⟨rfl, rfl⟩) ⟨_, _, rfl, rfl, by simp [stored, a.mem, a.rv, a.f]⟩ c4
  · exact two 224 _ _ hpc (by simp) (by simp) (by simp) b5 (fun _ => ⟨rfl, rfl⟩) ⟨_, _, rfl, rfl, by simp [stored, a.mem, a.rv, a.f]⟩ c5

theorem safe_call_tail {E : Env} (hE : E.Ok) {lo out ra fp F A st rv : Nat} {r : Nat → Nat} {u : M} {fin : M → Prop} (hst : st ≤ 5) (hpc : u.pc = E.L + 88) (h26 : u.r 26 = E.L + 88)
    (j : InCall F A ra fp r u) (hFA : A ≤ F) (hra : ra < 2 ^ 64) (hfp : fp < 2 ^ 64)
    (hfl : leNat (u.mem.rd (F + 16) 8) = st) (hrv : leNat (u.mem.rd (F + 24) 8) = rv) (ho : out < E.L + 88 ∨ E.L + 240 ≤ out) (hout : out = ra)
    (hfin : ∀ v, Back E F st rv u v → ∀ t, Agree lo A v t → fin t) : Safe E lo out (Good E out (callCfa F A) ra fp r fin) A u := by
  obtain ⟨-, w2, w3⟩ := call_rows E.bwx
  have hb1 : block E.bwx 88 tail1 = true ∧ block E.bwx 112 [.ldq 15 8 15] = true ∧ block E.bwx 116 tail2 = true := by
    generalize E.bwx = b; revert b; decide +kernel
  have a := attab_fold hE hst h26 j.fr hfl hrv
  have hj := (ret_block E.bwx).2
  refine safe_chain (b' := A) (Nat.le_refl _) (o := 88) hb1.1 hpc (by simp only [tail1, List.length_cons, List.length_nil]; omega) (by decide) ?_
  refine chain_inv (J := InCall F A ra fp r) (o := 88) hpc j ?_ ?_
  · intro k i t hk ht hj
    have hk6 : k < 6 := by
      by_contra hh
      rw [List.getElem?_eq_none (by simp only [tail1, List.length_cons, List.length_nil]; omega)] at hk; cases hk
    refine ⟨le_of_eq hj.sp, good_row (p := 88 + 4 * k) (by omega) (by omega) (by have := w2 (k + 18) (by omega); rw [show 88 + 4 * k = 16 + 4 * (k + 18) by omega]; exact this)
      (by rw [callCfa, if_pos (by omega)]; exact unw2 hj.fr hFA hj.ra hj.fp hra hfp hj.rest), ?_, ?_⟩
    · rcases (show k = 0 ∨ k = 1 ∨ k = 2 ∨ k = 3 ∨ k = 4 ∨ k = 5 by omega) with
        rfl | rfl | rfl | rfl | rfl | rfl <;> cases hk <;> simp only [rdOf, hj.fr] <;> omega
    · rcases (show k = 0 ∨ k = 1 ∨ k = 2 ∨ k = 3 ∨ k = 4 ∨ k = 5 by omega) with
        rfl | rfl | rfl | rfl | rfl | rfl <;> cases hk <;> exact hj.upd (by omega) (by omega)
  · intro j1
    rw [show E.L + 88 + 4 * tail1.length = E.L + 112 from rfl] at j1 ⊢
    have x26 : ({ tail1.foldl (exec E) u with pc := E.L + 112 } : M).r 26 = ra := by
      have : ({ tail1.foldl (exec E) u with pc := E.L + 112 } : M).r 26 = leNat (u.mem.rd (u.r 15) 8) := by simp [tail1, exec, upd]
      rw [this, j.fr, j.ra, leNat8 hra]
    generalize hx1 : ({ tail1.foldl (exec E) u with pc := E.L + 112 } : M) = x1 at j1 x26 ⊢
    have hp1 : x1.pc = E.L + 112 := by rw [← hx1]
    refine safe_chain (b' := A) (Nat.le_refl _) (o := 112) hb1.2.1 hp1 (by simp only [List.length_cons, List.length_nil]; omega) (by decide) ?_
    refine ⟨le_of_eq j1.sp, good_row (p := 112) hp1 (by omega) (w2 24 (by omega)) (by rw [callCfa, if_pos (by omega)]; exact unw2 j1.fr hFA j1.ra j1.fp hra hfp j1.rest), ?_, ?_⟩
    · simp only [rdOf, j1.fr]; omega
    rw [Chain]
    have j2 : OutCall A ra fp r { exec E x1 (.ldq 15 8 15) with pc := x1.pc + 4 } := by
      refine ⟨by simp [exec, upd, j1.sp], by simp [exec, upd, x26], by simp [exec, upd, j1.fr, j1.fp, leNat8 hfp], fun k h1 h2 => ?_⟩
      have : k ≠ 15 := by omega
      simp [exec, upd, this, j1.rest k h1 h2]
    generalize hx2 : ({ exec E x1 (.ldq 15 8 15) with pc := x1.pc + 4 } : M) = x2 at j2 ⊢
    have hp2 : x2.pc = E.L + 116 := by rw [← hx2, hp1]
    refine safe_chain (b' := A) (Nat.le_refl _) (o := 116) hb1.2.2 hp2 (by simp only [tail2, List.length_cons, List.length_nil]; omega) (by decide) ?_
    refine chain_inv (J := OutCall A ra fp r) (o := 116) hp2 j2 ?_ ?_
    · intro k i t hk ht hj
      have hk3 : k < 3 := by
        by_contra hh
        rw [List.getElem?_eq_none (by simp only [tail2, List.length_cons, List.length_nil]; omega)] at hk; cases hk
      refine ⟨le_of_eq hj.sp, good_row (p := 116 + 4 * k) (by omega) (by omega) (w3 k (by omega)) (by rw [callCfa, if_neg (by omega)]; exact hj.unw), ?_, ?_⟩
      · rcases (show k = 0 ∨ k = 1 ∨ k = 2 by omega) with rfl | rfl | rfl <;> cases hk <;> simp [rdOf]
      · rcases (show k = 0 ∨ k = 1 ∨ k = 2 by omega) with rfl | rfl | rfl <;> cases hk <;> exact hj.upd (by omega)
    · intro j3
      rw [show E.L + 116 + 4 * tail2.length = E.L + 128 from rfl] at j3 ⊢
      have hfold : ({ tail2.foldl (exec E) x2 with pc := E.L + 128 } : M) = { (tail1 ++ [Ins.ldq 15 8 15] ++ tail2).foldl (exec E) u with pc := E.L + 128 } := by
        rw [List.foldl_append, List.foldl_append, ← hx2, ← hx1, foldl_pc]
        rfl
      rw [hfold] at j3 ⊢
      generalize (tail1 ++ [Ins.ldq 15 8 15] ++ tail2).foldl (exec E) u = y at j3 a
      refine safe_jmp (o := 128) rfl (by omega) hj (le_of_eq j3.sp) (good_row (p := 128) rfl (by omega) (w3 3 (by omega)) (by rw [callCfa, if_neg (by omega)]; exact j3.unw)) ?_
      exact safe_call_tab a rfl (by split <;> omega) ⟨j3.sp, j3.ra, j3.fp, j3.rest⟩ ho hout hfin

/-! ## Closures -/

/-- Rows of the closure entry points. -/
def rowB0 : Row := ⟨30, 128, []⟩
def rowB1 : Row := ⟨30, 128, [(26, -128)]⟩

theorem closure_rows (b : Bool) : (∀ k, k < 3 → rowAt b (240 + 4 * k) = some row30) ∧ rowAt b 252 = some rowB0 ∧ (∀ k, k < 7 → rowAt b (256 + 4 * k) = some rowB1) ∧
    (∀ k, k < 3 → rowAt b (288 + 4 * k) = some row30) ∧ rowAt b 300 = some rowB0 ∧ (∀ k, k < 26 → rowAt b (304 + 4 * k) = some rowB1) ∧ rowAt b 408 = some rowB0 := by
  revert b; decide +kernel

theorem entry_rows (b : Bool) : ∀ k, k < 11 → (∀ j, j < (entry b k).length + 1 → rowAt b (416 + 16 * k + 4 * j) = some rowB0) ∧
    rowAt b (416 + 16 * k + 4 * ((entry b k).length + 1)) = some row30 := by
  revert b; decide +kernel

/-- While $26 is in the frame at `B`; `c` is the closure. -/
structure InClo (B ra fp : Nat) (r : Nat → Nat) (t : M) : Prop where
  sp : t.r 30 = B
  ra : t.mem.rd B 8 = leBytes 8 ra
  fp : t.r 15 = fp
  rest : ∀ k, 9 ≤ k → k ≤ 14 → t.r k = r k

theorem InClo.upd {B ra fp : Nat} {r : Nat → Nat} {t : M} (h : InClo B ra fp r t) {d v p : Nat} (hd : d < 9 ∨ 16 ≤ d) (h30 : d ≠ 30) :
    InClo B ra fp r { t with r := Asm.upd t.r d v, pc := p } := by
  have e : ∀ k, 9 ≤ k → k ≤ 15 ∨ k = 30 → Asm.upd t.r d v k = t.r k := by intro k h1 h2; unfold Asm.upd; rw [if_neg (by omega)]
  exact ⟨(e 30 (by omega) (by omega)).trans h.sp, h.ra, (e 15 (by omega) (by omega)).trans h.fp, fun k h1 h2 => (e k h1 (by omega)).trans (h.rest k h1 h2)⟩

theorem InClo.updm {B ra fp : Nat} {r : Nat → Nat} {t : M} (h : InClo B ra fp r t) {k p : Nat} {bs : List Byte} (hk : 8 ≤ k) :
    InClo B ra fp r { t with mem := t.mem.wr (t.r 30 + k) bs, pc := p } :=
  ⟨h.sp, by show (t.mem.wr _ _).rd _ _ = _; rw [h.sp, Mem.rd_wr_disj _ _ _ _ _ (by omega)]; exact h.ra, h.fp, h.rest⟩

theorem InClo.unw {B ra fp lo : Nat} {r : Nat → Nat} {t : M} (h : InClo B ra fp r t) (hra : ra < 2 ^ 64) :
    ∀ t', Agree lo B t t' → Unw rowB1 t' (B + 128) ra fp r := unw1 h.sp h.ra hra h.fp h.rest

/-- `InClo`, the closure still in $1, the global pointer in $29. -/
structure InClo1 (B ra fp c gp : Nat) (r : Nat → Nat) (t : M) : Prop where
  clo : InClo B ra fp r t
  r1 : t.r 1 = c
  gp : t.r 29 = gp

theorem InClo1.upd {B ra fp c gp : Nat} {r : Nat → Nat} {t : M} (h : InClo1 B ra fp c gp r t) {d v p : Nat} (hd : 16 ≤ d) (h30 : d ≠ 30) (h29 : d ≠ 29) :
    InClo1 B ra fp c gp r { t with r := Asm.upd t.r d v, pc := p } :=
  ⟨h.clo.upd (.inr hd) h30, by show Asm.upd t.r d v 1 = c; unfold Asm.upd; rw [if_neg (by omega)]; exact h.r1,
   by show Asm.upd t.r d v 29 = gp; unfold Asm.upd; rw [if_neg (by omega)]; exact h.gp⟩

theorem InClo1.updm {B ra fp c gp : Nat} {r : Nat → Nat} {t : M} (h : InClo1 B ra fp c gp r t) {k p : Nat} {bs : List Byte} (hk : 8 ≤ k) :
    InClo1 B ra fp c gp r { t with mem := t.mem.wr (t.r 30 + k) bs, pc := p } := ⟨h.clo.updm hk, h.r1, h.gp⟩

/-- The common part. -/
theorem safe_do {E : Env} {lo out B ra fp c : Nat} {r : Nat → Nat} {s x : M} {fin : M → Prop} {cif fn ud : Nat} (a : AtDo E s x cif fn ud) (hB : B + 128 = s.r 30)
    (hslot : E.slot + 8 ≤ lo ∨ s.r 30 ≤ E.slot) (hlo : lo ≤ B) (hg : leNat (s.mem.rd E.slot 8) = E.inner)
    (j : InClo1 B ra fp c E.gp r x) (hra : ra < 2 ^ 64) (ho : out < E.L + 240 ∨ E.L + 412 ≤ out) (hout : out = E.inner)
    (hfin : ∀ u, AtInner E s u cif fn ud → ∀ t, Agree lo B u t → fin t) : Safe E lo out (Good E out (fun _ => B + 128) ra fp r fin) B x := by
  obtain ⟨-, -, -, -, -, w, -⟩ := closure_rows E.bwx
  obtain ⟨-, -, -, hb, hj⟩ := closure_blocks E.bwx
  have i := inner_fold a (by omega) (by omega) hg
  refine safe_chain (b' := B) (Nat.le_refl _) (o := 328) hb a.pc (by simp only [doIns, List.length_cons, List.length_nil]; omega) (by decide) ?_
  refine chain_inv (J := InClo1 B ra fp c E.gp r) (o := 328) a.pc j ?_ ?_
  · intro k i t hk ht hj
    have hk12 : k < 12 := by
      by_contra hh
      rw [List.getElem?_eq_none (by simp only [doIns, List.length_cons, List.length_nil]; omega)] at hk; cases hk
    refine ⟨le_of_eq hj.clo.sp, good_row (p := 328 + 4 * k) (by omega) (by omega) (by have := w (k + 6) (by omega); rw [show 328 + 4 * k = 304 + 4 * (k + 6) by omega]; exact this)
      (hj.clo.unw hra), ?_, ?_⟩
    · rcases (show k = 0 ∨ k = 1 ∨ k = 2 ∨ k = 3 ∨ k = 4 ∨ k = 5 ∨ k = 6 ∨ k = 7 ∨ k = 8 ∨ k = 9 ∨ k = 10 ∨ k = 11 by omega) with
        rfl | rfl | rfl | rfl | rfl | rfl | rfl | rfl | rfl | rfl | rfl | rfl <;> cases hk <;> first
          | (simp [rdOf]; done)
          | (simp only [rdOf, hj.gp]; unfold Env.slot at hslot; omega)
    · rcases (show k = 0 ∨ k = 1 ∨ k = 2 ∨ k = 3 ∨ k = 4 ∨ k = 5 ∨ k = 6 ∨ k = 7 ∨ k = 8 ∨ k = 9 ∨ k = 10 ∨ k = 11 by omega) with
        rfl | rfl | rfl | rfl | rfl | rfl | rfl | rfl | rfl | rfl | rfl | rfl <;> cases hk <;> first
          | exact hj.updm (by omega)
          | exact hj.upd (by omega) (by omega) (by omega)
  · intro j1
    rw [show E.L + 328 + 4 * doIns.length = E.L + 376 from rfl] at j1 ⊢
    generalize doIns.foldl (exec E) x = y at j1 i
    have i30 := i.sp
    refine safe_jsr (o := 376) rfl (by omega) hj (le_of_eq j1.clo.sp) (good_row (p := 376) rfl (by omega) (w 18 (by omega)) (j1.clo.unw hra)) ?_
    exact .stop (by rw [i30]; omega) (good_fin (i.pc.trans hout.symm) (hfin _ i)) (i.pc.trans hout.symm)

theorem fold_pc2 {E : Env} (is : List Ins) (i : Ins) (z : M) (p q n : Nat) :
    ({ is.foldl (exec E) { exec E { z with pc := p } i with pc := q } with pc := n } : M) = { is.foldl (exec E) ([i].foldl (exec E) z) with pc := n } := by
  rw [foldl_pc, show exec E { z with pc := p } i = { exec E z i with pc := p } by cases i <;> rfl, foldl_pc]
  rfl

/-- `ffi_closure_osf`. `s'` differs from `s` in what interruptions changed before the frame was allocated. -/
theorem safe_closure {E : Env} (hE : E.Ok) {lo out : Nat} {s : M} {fin : M → Prop} (hpc : s.pc = E.L + 288) (hpv : s.r 27 = E.L + 288)
    (hc : s.r 1 + 48 ≤ lo ∨ s.r 30 ≤ s.r 1) (hslot : E.slot + 8 ≤ lo ∨ s.r 30 ≤ E.slot) (hlo : lo + 128 ≤ s.r 30) (hg : leNat (s.mem.rd E.slot 8) = E.inner)
    (hra : s.r 26 < 2 ^ 64) (ho : out < E.L + 240 ∨ E.L + 412 ≤ out) (hout : out = E.inner)
    (hfin : ∀ s' u, Agree lo (s.r 30) s s' → AtInner E s' u (leNat (s.mem.rd (s.r 1 + 24) 8)) (leNat (s.mem.rd (s.r 1 + 32) 8)) (leNat (s.mem.rd (s.r 1 + 40) 8)) →
      ∀ t, Agree lo (u.r 30) u t → fin t) :
    Safe E lo out (Good E out (fun _ => s.r 30) (s.r 26) (s.r 15) s.r fin) (s.r 30) s := by
  obtain ⟨-, -, -, w1, w2, w3, -⟩ := closure_rows E.bwx
  have hb1 : block E.bwx 288 (open3 .closure) = true ∧ block E.bwx 300 [.stq 26 0 30] = true ∧ block E.bwx 304 loadC = true := by
    generalize E.bwx = b; revert b; decide +kernel
  have ne : ∀ k, 9 ≤ k → k ≤ 14 → k ≠ 30 ∧ k ≠ 29 := by omega
  have q : ∀ (k : Nat) (x : M), k < 3 → x.pc = E.L + (288 + 4 * k) → x.r 30 = s.r 30 → x.r 26 = s.r 26 → x.r 15 = s.r 15 → (∀ k, 9 ≤ k → k ≤ 14 → x.r k = s.r k) →
      ∀ t, Agree lo (s.r 30) x t → Good E out (fun _ => s.r 30) (s.r 26) (s.r 15) s.r fin t := by
    intro k x hk hp e1 e2 e3 e4
    exact good_row (p := 288 + 4 * k) hp (by omega) (w1 k hk) (unw0 (k := 0) (by rw [e1]; rfl) e2 e3 e4)
  refine safe_chain (b' := s.r 30) (Nat.le_refl _) (o := 288) hb1.1 hpc (by simp only [open3, List.length_cons, List.length_nil]; omega) (by decide) ?_
  refine ⟨Nat.le_refl _, q 0 _ (by omega) hpc rfl rfl rfl (fun _ _ _ => rfl), .inl (by simp [rdOf]), ?_⟩
  refine ⟨by simp [exec, upd], q 1 _ (by omega) (by simp [hpc]) (by simp [exec, upd]) (by simp [exec, upd]) (by simp [exec, upd])
    (fun k h1 h2 => by simp [exec, upd, ne k h1 h2]), .inl (by simp [rdOf]), ?_⟩
  refine ⟨by simp [exec, upd], q 2 _ (by omega) (by simp [hpc]) (by simp [exec, upd]) (by simp [exec, upd]) (by simp [exec, upd])
    (fun k h1 h2 => by simp [exec, upd, ne k h1 h2]), .inl (by simp [rdOf]), ?_⟩
  rw [Chain]
  refine .anchor (by simp [exec, upd]) fun t ht => ?_
  obtain ⟨s', hs'⟩ : ∃ s' : M, s' = { s with mem := t.mem } := ⟨_, rfl⟩
  have hag : Agree lo (s.r 30) s s' := by rw [hs']; exact ⟨rfl, rfl, rfl, ht.mem⟩
  have hx0 : t = { (open3 .closure).foldl (exec E) s' with pc := E.L + 300 } := by
    obtain ⟨e1, e2, e3, -⟩ := ht
    obtain ⟨tr, tf, tm, tp⟩ := t
    dsimp only at e1 e2 e3
    subst e1 e2 e3
    rw [hs', hpc]; rfl
  have r30 : s'.r = s.r := hag.r
  have tr30 : t.r 30 = s.r 30 - 128 := by rw [ht.r]; simp [exec, upd]
  have a := closure_fold hE (s := s') (by rw [r30, hpv]) (by rw [r30]; omega) (by rw [r30]; omega)
  rw [show leNat (s'.mem.rd (s'.r 1 + 24) 8) = leNat (s.mem.rd (s.r 1 + 24) 8) by rw [r30, hag.rd (by omega)],
    show leNat (s'.mem.rd (s'.r 1 + 32) 8) = leNat (s.mem.rd (s.r 1 + 32) 8) by rw [r30, hag.rd (by omega)],
    show leNat (s'.mem.rd (s'.r 1 + 40) 8) = leNat (s.mem.rd (s.r 1 + 40) 8) by rw [r30, hag.rd (by omega)]] at a
  have tp : t.pc = E.L + 300 := by rw [hx0]
  obtain ⟨B, hB⟩ : ∃ B, B = s.r 30 - 128 := ⟨_, rfl⟩
  have hB2 : B + 128 = s.r 30 := by omega
  rw [show (fun _ : Nat => s.r 30) = (fun _ => B + 128) by rw [hB2]]
  rw [show t.r 30 = B from tr30.trans hB.symm]
  have t26 : t.r 26 = s.r 26 := by rw [ht.r]; simp [exec, upd]
  have t15 : t.r 15 = s.r 15 := by rw [ht.r]; simp [exec, upd]
  have t1 : t.r 1 = s.r 1 := by rw [ht.r]; simp [exec, upd]
  have t29 : t.r 29 = E.gp := by
    have hg := hE.gp .closure
    rw [(off_eq E.bwx).2.2.2.2.1] at hg
    rw [ht.r]; simp only [exec, upd, hpv, reduceIte, Nat.reduceEqDiff]; omega
  have tk : ∀ k, 9 ≤ k → k ≤ 14 → t.r k = s.r k := fun k h1 h2 => by rw [ht.r]; simp [exec, upd, ne k h1 h2]
  refine safe_chain (b' := B) (Nat.le_refl _) (o := 300) hb1.2.1 tp (by simp only [List.length_cons, List.length_nil]; omega) (by decide) ?_
  refine ⟨by omega, good_row (p := 300) tp (by omega) w2 (unw0 (k := 128) (by rw [tr30]; omega) t26 t15 tk), .inl (by simp [rdOf]), ?_⟩
  rw [Chain]
  have j1 : InClo1 B (s.r 26) (s.r 15) (s.r 1) E.gp s.r { exec E t (.stq 26 0 30) with pc := t.pc + 4 } := by
    refine ⟨⟨tr30.trans hB.symm, ?_, t15, tk⟩, t1, t29⟩
    show (t.mem.wr (t.r 30 + 0) _).rd _ _ = _
    rw [tr30, ← hB, t26]; exact wr_rd _ _ (leBytes_length _ _)
  generalize hx1 : ({ exec E t (.stq 26 0 30) with pc := t.pc + 4 } : M) = x1 at j1 ⊢
  have hp1 : x1.pc = E.L + 304 := by rw [← hx1, tp]
  refine safe_chain (b' := B) (Nat.le_refl _) (o := 304) hb1.2.2 hp1 (by simp only [loadC, List.length_cons, List.length_nil]; omega) (by decide) ?_
  refine chain_inv (J := InClo1 B (s.r 26) (s.r 15) (s.r 1) E.gp s.r) (o := 304) hp1 j1 ?_ ?_
  · intro k i t hk ht hj
    have hk6 : k < 6 := by
      by_contra hh
      rw [List.getElem?_eq_none (by simp only [loadC, List.length_cons, List.length_nil]; omega)] at hk; cases hk
    refine ⟨le_of_eq hj.clo.sp, good_row (p := 304 + 4 * k) (by omega) (by omega) (w3 k (by omega)) (hj.clo.unw hra), ?_, ?_⟩
    · rcases (show k = 0 ∨ k = 1 ∨ k = 2 ∨ k = 3 ∨ k = 4 ∨ k = 5 by omega) with rfl | rfl | rfl | rfl | rfl | rfl <;> cases hk <;> first
          | (simp [rdOf]; done)
          | (simp only [rdOf, hj.r1]; omega)
    · rcases (show k = 0 ∨ k = 1 ∨ k = 2 ∨ k = 3 ∨ k = 4 ∨ k = 5 by omega) with rfl | rfl | rfl | rfl | rfl | rfl <;> cases hk <;> first
          | exact hj.updm (by omega)
          | exact hj.upd (by omega) (by omega) (by omega)
  · intro j2
    rw [show E.L + 304 + 4 * loadC.length = E.L + 328 from rfl] at j2 ⊢
    have hfold : ({ loadC.foldl (exec E) x1 with pc := E.L + 328 } : M) = { (open3 .closure ++ [Ins.stq 26 0 30] ++ loadC).foldl (exec E) s' with pc := E.L + 328 } := by
      rw [List.foldl_append, List.foldl_append, ← hx1, hx0]
      exact fold_pc2 ..
    rw [hfold] at j2 ⊢
    exact safe_do a (by rw [r30, hB2]) (by rw [r30]; exact hslot) (by omega) (by rw [hag.rd hslot]; exact hg) j2 hra ho hout
      (fun u hu t ht => hfin s' u hag hu t (by rw [hu.sp, r30, ← hB]; exact ht))

/-- `ffi_go_closure_osf`. `s'` differs from `s` in what interruptions changed before the frame was allocated. -/
theorem safe_go {E : Env} (hE : E.Ok) {lo out : Nat} {s : M} {fin : M → Prop} (hpc : s.pc = E.L + 240) (hpv : s.r 27 = E.L + 240)
    (hc : s.r 1 + 24 ≤ lo ∨ s.r 30 ≤ s.r 1) (hslot : E.slot + 8 ≤ lo ∨ s.r 30 ≤ E.slot) (hlo : lo + 128 ≤ s.r 30) (hg : leNat (s.mem.rd E.slot 8) = E.inner)
    (hra : s.r 26 < 2 ^ 64) (ho : out < E.L + 240 ∨ E.L + 412 ≤ out) (hout : out = E.inner)
    (hfin : ∀ s' u, Agree lo (s.r 30) s s' → AtInner E s' u (leNat (s.mem.rd (s.r 1 + 8) 8)) (leNat (s.mem.rd (s.r 1 + 16) 8)) (s.r 1) →
      ∀ t, Agree lo (u.r 30) u t → fin t) :
    Safe E lo out (Good E out (fun _ => s.r 30) (s.r 26) (s.r 15) s.r fin) (s.r 30) s := by
  obtain ⟨w1, w2, w3, -⟩ := closure_rows E.bwx
  have hb1 : block E.bwx 240 (open3 .goClosure) = true ∧ block E.bwx 252 [.stq 26 0 30] = true ∧ block E.bwx 256 loadG = true := by
    generalize E.bwx = b; revert b; decide +kernel
  have ne : ∀ k, 9 ≤ k → k ≤ 14 → k ≠ 30 ∧ k ≠ 29 := by omega
  have q : ∀ (k : Nat) (x : M), k < 3 → x.pc = E.L + (240 + 4 * k) → x.r 30 = s.r 30 → x.r 26 = s.r 26 → x.r 15 = s.r 15 → (∀ k, 9 ≤ k → k ≤ 14 → x.r k = s.r k) →
      ∀ t, Agree lo (s.r 30) x t → Good E out (fun _ => s.r 30) (s.r 26) (s.r 15) s.r fin t := by
    intro k x hk hp e1 e2 e3 e4
    exact good_row (p := 240 + 4 * k) hp (by omega) (w1 k hk) (unw0 (k := 0) (by rw [e1]; rfl) e2 e3 e4)
  refine safe_chain (b' := s.r 30) (Nat.le_refl _) (o := 240) hb1.1 hpc (by simp only [open3, List.length_cons, List.length_nil]; omega) (by decide) ?_
  refine ⟨Nat.le_refl _, q 0 _ (by omega) hpc rfl rfl rfl (fun _ _ _ => rfl), .inl (by simp [rdOf]), ?_⟩
  refine ⟨by simp [exec, upd], q 1 _ (by omega) (by simp [hpc]) (by simp [exec, upd]) (by simp [exec, upd]) (by simp [exec, upd])
    (fun k h1 h2 => by simp [exec, upd, ne k h1 h2]), .inl (by simp [rdOf]), ?_⟩
  refine ⟨by simp [exec, upd], q 2 _ (by omega) (by simp [hpc]) (by simp [exec, upd]) (by simp [exec, upd]) (by simp [exec, upd])
    (fun k h1 h2 => by simp [exec, upd, ne k h1 h2]), .inl (by simp [rdOf]), ?_⟩
  rw [Chain]
  refine .anchor (by simp [exec, upd]) fun t ht => ?_
  obtain ⟨s', hs'⟩ : ∃ s' : M, s' = { s with mem := t.mem } := ⟨_, rfl⟩
  have hag : Agree lo (s.r 30) s s' := by rw [hs']; exact ⟨rfl, rfl, rfl, ht.mem⟩
  have hx0 : t = { (open3 .goClosure).foldl (exec E) s' with pc := E.L + 252 } := by
    obtain ⟨e1, e2, e3, -⟩ := ht
    obtain ⟨tr, tf, tm, tp⟩ := t
    dsimp only at e1 e2 e3
    subst e1 e2 e3
    rw [hs', hpc]; rfl
  have r30 : s'.r = s.r := hag.r
  have tr30 : t.r 30 = s.r 30 - 128 := by rw [ht.r]; simp [exec, upd]
  have a := go_fold hE (s := s') (by rw [r30, hpv]) (by rw [r30]; omega) (by rw [r30]; omega)
  rw [show leNat (s'.mem.rd (s'.r 1 + 8) 8) = leNat (s.mem.rd (s.r 1 + 8) 8) by rw [r30, hag.rd (by omega)],
    show leNat (s'.mem.rd (s'.r 1 + 16) 8) = leNat (s.mem.rd (s.r 1 + 16) 8) by rw [r30, hag.rd (by omega)], show s'.r 1 = s.r 1 by rw [r30]] at a
  have tp : t.pc = E.L + 252 := by rw [hx0]
  obtain ⟨B, hB⟩ : ∃ B, B = s.r 30 - 128 := ⟨_, rfl⟩
  have hB2 : B + 128 = s.r 30 := by omega
  rw [show (fun _ : Nat => s.r 30) = (fun _ => B + 128) by rw [hB2]]
  rw [show t.r 30 = B from tr30.trans hB.symm]
  have t26 : t.r 26 = s.r 26 := by rw [ht.r]; simp [exec, upd]
  have t15 : t.r 15 = s.r 15 := by rw [ht.r]; simp [exec, upd]
  have t1 : t.r 1 = s.r 1 := by rw [ht.r]; simp [exec, upd]
  have t29 : t.r 29 = E.gp := by
    have hg := hE.gp .goClosure
    rw [(off_eq E.bwx).2.2.2.1] at hg
    rw [ht.r]; simp only [exec, upd, hpv, reduceIte, Nat.reduceEqDiff]; omega
  have tk : ∀ k, 9 ≤ k → k ≤ 14 → t.r k = s.r k := fun k h1 h2 => by rw [ht.r]; simp [exec, upd, ne k h1 h2]
  refine safe_chain (b' := B) (Nat.le_refl _) (o := 252) hb1.2.1 tp (by simp only [List.length_cons, List.length_nil]; omega) (by decide) ?_
  refine ⟨by omega, good_row (p := 252) tp (by omega) w2 (unw0 (k := 128) (by rw [tr30]; omega) t26 t15 tk), .inl (by simp [rdOf]), ?_⟩
  rw [Chain]
  have j1 : InClo1 B (s.r 26) (s.r 15) (s.r 1) E.gp s.r { exec E t (.stq 26 0 30) with pc := t.pc + 4 } := by
    refine ⟨⟨tr30.trans hB.symm, ?_, t15, tk⟩, t1, t29⟩
    show (t.mem.wr (t.r 30 + 0) _).rd _ _ = _
    rw [tr30, ← hB, t26]; exact wr_rd _ _ (leBytes_length _ _)
  generalize hx1 : ({ exec E t (.stq 26 0 30) with pc := t.pc + 4 } : M) = x1 at j1 ⊢
  have hp1 : x1.pc = E.L + 256 := by rw [← hx1, tp]
  refine safe_chain (b' := B) (Nat.le_refl _) (o := 256) hb1.2.2 hp1 (by simp only [loadG, List.length_cons, List.length_nil]; omega) (by decide) ?_
  refine chain_inv (J := InClo1 B (s.r 26) (s.r 15) (s.r 1) E.gp s.r) (o := 256) hp1 j1 ?_ ?_
  · intro k i t hk ht hj
    have hk6 : k < 6 := by
      by_contra hh
      rw [List.getElem?_eq_none (by simp only [loadG, List.length_cons, List.length_nil]; omega)] at hk; cases hk
    refine ⟨le_of_eq hj.clo.sp, good_row (p := 256 + 4 * k) (by omega) (by omega) (w3 k (by omega)) (hj.clo.unw hra), ?_, ?_⟩
    · rcases (show k = 0 ∨ k = 1 ∨ k = 2 ∨ k = 3 ∨ k = 4 ∨ k = 5 by omega) with rfl | rfl | rfl | rfl | rfl | rfl <;> cases hk <;> first
          | (simp [rdOf]; done)
          | (simp only [rdOf, hj.r1]; omega)
    · rcases (show k = 0 ∨ k = 1 ∨ k = 2 ∨ k = 3 ∨ k = 4 ∨ k = 5 by omega) with rfl | rfl | rfl | rfl | rfl | rfl <;> cases hk <;> first
          | exact hj.updm (by omega)
          | exact hj.upd (by omega) (by omega) (by omega)
  · intro j2
    rw [show E.L + 256 + 4 * loadG.length = E.L + 280 from rfl] at j2 ⊢
    refine safe_br (o := 280) rfl (by omega) (closure_blocks E.bwx).2.2.1 (le_of_eq j2.clo.sp) (good_row (p := 280) rfl (by omega) (w3 6 (by omega)) (j2.clo.unw hra)) ?_
    have j3 : InClo1 B (s.r 26) (s.r 15) (s.r 1) E.gp s.r { loadG.foldl (exec E) x1 with pc := E.L + off E.bwx .doClosure } := ⟨⟨j2.clo.sp, j2.clo.ra, j2.clo.fp, j2.clo.rest⟩, j2.r1, j2.gp⟩
    have hfold : ({ loadG.foldl (exec E) x1 with pc := E.L + off E.bwx .doClosure } : M) =
        { (open3 .goClosure ++ [Ins.stq 26 0 30] ++ loadG).foldl (exec E) s' with pc := E.L + off E.bwx .doClosure } := by
      rw [List.foldl_append, List.foldl_append, ← hx1, hx0]
      exact fold_pc2 ..
    rw [hfold] at j3
    show Safe E lo out _ B { loadG.foldl (exec E) x1 with pc := E.L + off E.bwx .doClosure }
    rw [hfold]
    exact safe_do a (by rw [r30, hB2]) (by rw [r30]; exact hslot) (by omega) (by rw [hag.rd hslot]; exact hg) j3 hra ho hout
      (fun u hu t ht => hfin s' u hag hu t (by rw [hu.sp, r30, ← hB]; exact ht))

/-- After $26 is reloaded. -/
structure OutClo (B ra fp : Nat) (r : Nat → Nat) (t : M) : Prop where
  sp : t.r 30 = B
  ra : t.r 26 = ra
  fp : t.r 15 = fp
  rest : ∀ k, 9 ≤ k → k ≤ 14 → t.r k = r k

theorem OutClo.unw {B ra fp lo b : Nat} {r : Nat → Nat} {t : M} (h : OutClo B ra fp r t) : ∀ t', Agree lo b t t' → Unw rowB0 t' (B + 128) ra fp r :=
  unw0 (k := 128) (by rw [h.sp]) h.ra h.fp h.rest

/-- The instructions of the table change only $0, $f0, $f1 and read only the frame. -/
theorem entry_ok {E : Env} {B ra fp : Nat} {r : Nat → Nat} {code : Nat} {k : Nat} {i : Ins} {t : M} (hk : (entry E.bwx code)[k]? = some i) (h : OutClo B ra fp r t) {lo : Nat} :
    ((rdOf E t i).1 + (rdOf E t i).2 ≤ lo ∨ B ≤ (rdOf E t i).1) ∧ OutClo B ra fp r { exec E t i with pc := t.pc + 4 } := by
  have u0 : ∀ v, OutClo B ra fp r { t with r := upd t.r 0 v, pc := t.pc + 4 } := by
    intro v
    refine ⟨by simp [upd, h.sp], by simp [upd, h.ra], by simp [upd, h.fp], fun k h1 h2 => ?_⟩
    have : k ≠ 0 := by omega
    simp [upd, this, h.rest k h1 h2]
  have uf : ∀ g, OutClo B ra fp r { t with f := g, pc := t.pc + 4 } := fun g => ⟨h.sp, h.ra, h.fp, h.rest⟩
  have hm : i ∈ [Ins.sextl 0, .zapnot3 0, .sextw 0, .sll 0 48, .sra 0 48, .andff 0, .sextb 0, .sll 0 56, .sra 0 56, .lds 0 16 30, .ldt 0 16 30, .lds 1 20 30, .ldt 1 24 30] := by
    have hm := List.mem_of_getElem? hk
    revert hm
    generalize E.bwx = b
    rcases code with _ | _ | _ | _ | _ | _ | _ | _ | _ | _ | _ | code <;> cases b <;> simp [entry] <;> intro h <;> first | (simp [h]; done) | (rcases h with h | h <;> simp [h])
  simp only [List.mem_cons, List.not_mem_nil, or_false] at hm
  rcases hm with rfl | rfl | rfl | rfl | rfl | rfl | rfl | rfl | rfl | rfl | rfl | rfl | rfl <;>
    first
    | exact ⟨.inl (by simp [rdOf]), u0 _⟩
    | exact ⟨.inr (by simp only [rdOf, h.sp]; omega), uf _⟩

theorem block_append (b : Bool) : ∀ (is js : List Ins) (o : Nat), block b o (is ++ js) = true ↔ block b o is = true ∧ block b (o + 4 * is.length) js = true
  | [], js, o => by simp [block]
  | i :: is, js, o => by
    simp only [List.cons_append, block, Bool.and_eq_true, block_append b is js (o + 4), List.length_cons]
    rw [show o + 4 + 4 * is.length = o + 4 * (is.length + 1) by omega]; tauto

theorem safe_closure_tail {E : Env} (hE : E.Ok) {lo out B ra fp code : Nat} {r : Nat → Nat} {u : M} {fin : M → Prop} (hc : code < 11) (hpc : u.pc = E.L + 380) (h26 : u.r 26 = E.L + 380)
    (h0 : u.r 0 = code) (j : InClo B ra fp r u) (hra : ra < 2 ^ 64) (ho : out < E.L + 380 ∨ E.L + 600 ≤ out) (hout : out = ra)
    (hfin : ∀ v, CBack E code u v → ∀ t, Agree lo (v.r 30) v t → fin t) : Safe E lo out (Good E out (fun _ => B + 128) ra fp r fin) B u := by
  obtain ⟨-, -, -, -, -, w, w408⟩ := closure_rows E.bwx
  obtain ⟨hb, hj⟩ := inner_block E.bwx
  have a := atld_fold hE hc h26 h0
  refine safe_chain (b' := B) (Nat.le_refl _) (o := 380) hb hpc (by simp only [back7, List.length_cons, List.length_nil]; omega) (by decide) ?_
  refine chain_inv (J := InClo B ra fp r) (o := 380) hpc j ?_ ?_
  · intro k i t hk ht hj
    have hk7 : k < 7 := by
      by_contra hh
      rw [List.getElem?_eq_none (by simp only [back7, List.length_cons, List.length_nil]; omega)] at hk; cases hk
    refine ⟨le_of_eq hj.sp, good_row (p := 380 + 4 * k) (by omega) (by omega) (by have := w (k + 19) (by omega); rw [show 380 + 4 * k = 304 + 4 * (k + 19) by omega]; exact this)
      (hj.unw hra), ?_, ?_⟩
    · rcases (show k = 0 ∨ k = 1 ∨ k = 2 ∨ k = 3 ∨ k = 4 ∨ k = 5 ∨ k = 6 by omega) with rfl | rfl | rfl | rfl | rfl | rfl | rfl <;> cases hk <;> first
        | (simp [rdOf]; done)
        | (simp only [rdOf, hj.sp]; omega)
    · rcases (show k = 0 ∨ k = 1 ∨ k = 2 ∨ k = 3 ∨ k = 4 ∨ k = 5 ∨ k = 6 by omega) with rfl | rfl | rfl | rfl | rfl | rfl | rfl <;> cases hk <;>
        exact hj.upd (by omega) (by omega)
  · intro j1
    rw [show E.L + 380 + 4 * back7.length = E.L + 408 from rfl] at j1 ⊢
    generalize hy : back7.foldl (exec E) u = y at j1 a ⊢
    have y26 : y.r 26 = ra := by have : y.r 26 = _ := a.r26; rw [this, j.sp, j.ra, leNat8 hra]
    have j2 : OutClo B ra fp r y := ⟨j1.sp, y26, j1.fp, j1.rest⟩
    refine safe_jmp (o := 408) rfl (by omega) hj (le_of_eq j1.sp) (good_row (p := 408) rfl (by omega) w408 (OutClo.unw ⟨j1.sp, y26, j1.fp, j1.rest⟩)) ?_
    have j3 : OutClo B ra fp r (afterJmp { y with pc := E.L + 408 }) := ⟨j1.sp, y26, j1.fp, j1.rest⟩
    generalize (afterJmp { y with pc := E.L + 408 }) = x at a j3 ⊢
    obtain ⟨b1, b2⟩ := entry_block E.bwx code hc
    obtain ⟨r1, r2⟩ := entry_rows E.bwx code hc
    have hlen : (entry E.bwx code).length ≤ 2 := by
      generalize E.bwx = b
      rcases code with _ | _ | _ | _ | _ | _ | _ | _ | _ | _ | _ | code <;> cases b <;> simp [entry]
    have cb := cback_fold hc a (E.L + (416 + 16 * code) + 4 * (entry E.bwx code ++ [Ins.addi 30 128]).length)
    rw [block_append] at b1
    have last : ∀ z : M, OutClo B ra fp r z → z.pc = E.L + (416 + 16 * code) + 4 * (entry E.bwx code).length → { exec E z (.addi 30 128) with pc := z.pc + 4 } =
        ({ (entry E.bwx code ++ [Ins.addi 30 128]).foldl (exec E) x with pc := E.L + (416 + 16 * code) + 4 * (entry E.bwx code ++ [Ins.addi 30 128]).length } : M) →
        Safe E lo out (Good E out (fun _ => B + 128) ra fp r fin) B z := by
      intro z hz hp he
      refine safe_chain (b' := B + 128) (by omega) b1.2 (by omega) (by simp only [List.length_cons, List.length_nil]; omega) (by decide) ?_
      refine ⟨le_of_eq hz.sp, good_row (p := 416 + 16 * code + 4 * (entry E.bwx code).length) (by omega) (by omega) (r1 _ (by omega)) hz.unw, .inl (by simp [rdOf]), ?_⟩
      rw [Chain]
      rw [List.length_append, List.length_singleton] at b2
      have hz2 : OutClo (B + 128) ra fp r { exec E z (.addi 30 128) with pc := z.pc + 4 } := by
        refine ⟨by simp [exec, upd, hz.sp], by simp [exec, upd, hz.ra], by simp [exec, upd, hz.fp], fun k h1 h2 => ?_⟩
        have : k ≠ 30 := by omega
        simp [exec, upd, this, hz.rest k h1 h2]
      refine safe_ret (o := 416 + 16 * code + 4 * ((entry E.bwx code).length + 1)) (by show z.pc + 4 = _; omega) (by omega) b2 (le_of_eq hz2.sp)
        (good_row (p := 416 + 16 * code + 4 * ((entry E.bwx code).length + 1)) (by show z.pc + 4 = _; omega) (by omega) r2 (unw0 (k := 0) (by rw [hz2.sp]) hz2.ra hz2.fp hz2.rest)) ?_
      rw [← he] at cb
      have hp2 : (afterRet { exec E z (.addi 30 128) with pc := z.pc + 4 }).pc = out := by rw [hout]; exact hz2.ra
      refine .stop (le_of_eq hz2.sp) (good_fin hp2 fun t ht => hfin _ cb t (by rw [show (afterRet { exec E z (.addi 30 128) with pc := z.pc + 4 }).r 30 = B + 128 from hz2.sp]; exact ht)) hp2
    by_cases hn : entry E.bwx code = []
    · exact last x j3 (by rw [hn]; exact a.pc) (by rw [hn, a.pc]; rfl)
    · refine safe_chain (b' := B) (Nat.le_refl _) b1.1 a.pc (by omega) hn ?_
      refine chain_inv (J := OutClo B ra fp r) a.pc j3 ?_ ?_
      · intro k i t hk ht hj
        have hkl : k < (entry E.bwx code).length := by
          by_contra hh
          rw [List.getElem?_eq_none (by omega)] at hk; cases hk
        obtain ⟨e1, e2⟩ := entry_ok hk hj (lo := lo)
        exact ⟨le_of_eq hj.sp, good_row (p := 416 + 16 * code + 4 * k) (by omega) (by omega) (r1 k (by omega)) hj.unw, e1, e2⟩
      · intro j4
        refine last _ j4 rfl ?_
        rw [List.foldl_append, List.length_append]
        rfl

end Verif.Alpha.Asm
