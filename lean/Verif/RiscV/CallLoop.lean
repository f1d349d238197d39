import Verif.RiscV.Marshal
import Verif.Props.Core

/-! All arguments of a call. -/
namespace Verif.RV
open Verif Verif.Spec Verif.Spec.RV

/-- Space for the copies of arguments passed by reference. -/
def copies (A : Abi) (nfixed : Nat) : List FType → Nat → Pos → Nat
  | [], _, _ => 0
  | t :: ts, i, p => copySize A t (placeArg A (decide (nfixed ≤ i)) t p).1 +
      copies A nfixed ts (i + 1) (placeArg A (decide (nfixed ≤ i)) t p).2

/-- All arguments are where they belong, with copies from `ss` on. -/
def AllArgs (A : Abi) (nfixed : Nat) (R : Regs) : List FType → List (List Byte) → Nat → Pos → Nat → Prop
  | t :: ts, v :: vs, i, p, ss => Arg A t v (placeArg A (decide (nfixed ≤ i)) t p).1 ss R ∧
      AllArgs A nfixed R ts vs (i + 1) (placeArg A (decide (nfixed ≤ i)) t p).2
        (ss + copySize A t (placeArg A (decide (nfixed ≤ i)) t p).1)
  | [], [], _, _, _ => True
  | _, _, _, _, _ => False

/-- The values of the arguments. -/
def argVals (m : Mem) : List FType → List Nat → List (List Byte)
  | t :: ts, a :: as => m.rd a t.size :: argVals m ts as
  | _, _ => []

theorem argVals_congr {m m' : Mem} {ts : List FType} {as : List Nat}
    (h : ∀ q ∈ ts.zip as, ∀ i < q.1.size, m' (q.2 + i) = m (q.2 + i)) : argVals m' ts as = argVals m ts as := by
  induction ts generalizing as with
  | nil => rfl
  | cons t ts ih =>
    cases as with
    | nil => rfl
    | cons a as =>
      rw [argVals, argVals, ih (fun q hq => h q (by simp [hq])), Mem.rd_congr (h (t, a) (by simp))]

theorem fut_block {c : Cfg} {ctx base ab ss x : Nat} {p : Pos} (hb : base + ab ≤ ss) (hs : ss ≤ ctx)
    (h : Fut c ctx base ab p ss x) : base ≤ x ∧ x < ctx + ctxSize c := by
  unfold Fut at h
  unfold ctxSize at *
  omega

theorem copySize_dvd (c : Cfg) (t : FType) (pl : Place) : c.w ∣ copySize (abi c) t pl := by
  unfold copySize
  split
  · exact dvd_roundUp _ _
  · exact Nat.dvd_zero _

theorem evenPos_after {c : Cfg} (hw : 0 < c.w) (var : Bool) (p : Pos) : After p (evenPos (abi c) var p) := by
  refine ⟨?_, Nat.le_refl _, roundUp_ge (by show 0 < 2 * c.w; omega)⟩
  simp only [evenPos]
  split
  · exact roundUp_ge (by decide)
  · exact Nat.le_refl _

theorem word_after (A : Abi) (p : Pos) : After p (word A p).2 := by
  unfold word
  split
  · exact ⟨Nat.le_succ _, Nat.le_refl _, Nat.le_refl _⟩
  · exact ⟨Nat.le_refl _, Nat.le_refl _, Nat.le_add_right _ _⟩

theorem After.refl (p : Pos) : After p p := ⟨Nat.le_refl _, Nat.le_refl _, Nat.le_refl _⟩

theorem intConv_after {c : Cfg} (hw : 0 < c.w) (var : Bool) (t : FType) (p : Pos) :
    After p (intConv (abi c) var t p).2 := by
  unfold intConv
  split
  · exact word_after _ _
  · split
    · exact word_after _ _
    · dsimp only
      split
      · exact (evenPos_after hw var p).trans ((word_after _ _).trans (word_after _ _))
      · exact (word_after _ _).trans (word_after _ _)

theorem placeArg_after {c : Cfg} (hw : 0 < c.w) (var : Bool) (t : FType) (p : Pos) :
    After p (placeArg (abi c) var t p).2 := by
  have hi := intConv_after hw var t p
  unfold placeArg
  split
  · exact hi
  · split
    · split
      · exact ⟨Nat.le_refl _, Nat.le_succ _, Nat.le_refl _⟩
      · exact hi
    · split
      · exact ⟨Nat.le_refl _, Nat.le_add_right _ _, Nat.le_refl _⟩
      · split
        · exact ⟨Nat.le_succ _, Nat.le_succ _, Nat.le_refl _⟩
        · split
          · exact ⟨Nat.le_succ _, Nat.le_succ _, Nat.le_refl _⟩
          · exact hi
    · exact hi

theorem endFrom_after {c : Cfg} (hw : 0 < c.w) (ts : List FType) (i : Nat) (p : Pos) :
    After p (endFrom (abi c) c.nfixed ts i p) := by
  induction ts generalizing i p with
  | nil => exact .refl _
  | cons t ts ih => exact (placeArg_after hw _ t p).trans (ih _ _)

theorem callLoop_spec {c : Cfg} (hc : (abi c).Ok) {ctx base ab : Nat} (hb : 16 ∣ base) (hctx : ctx < 2 ^ 62)
    (hcw : ctx ≤ 256 ^ c.w) {junk : Nat → List Byte} (hj : ∀ i, (junk i).length = 2 * c.w) {ts : List FType} :
    ∀ {as : List Nat} {i : Nat} {p : Pos} {st : St} {ss : Nat} {m : Mem}, (∀ t ∈ ts, Plain (tab c.w) t) →
      as.length = ts.length → Sim base st p → SinglesOk (abi c) c.nfixed ts i p → st.ss = ss → base + ab ≤ ss →
      c.w ∣ ss → (endFrom (abi c) c.nfixed ts i p).ns ≤ ab → ss + copies (abi c) c.nfixed ts i p ≤ ctx →
      (∀ q ∈ ts.zip as, q.2 + q.1.size ≤ base ∨ ctx + ctxSize c ≤ q.2) →
      Wrote c ctx base ab p (endFrom (abi c) c.nfixed ts i p) ss (ss + copies (abi c) c.nfixed ts i p) m
        (callLoop c ctx junk ts as i st m)
        (fun R => AllArgs (abi c) c.nfixed R ts (argVals m ts as) i p ss) := by
  have hw : c.w = 4 ∨ c.w = 8 := hc.1
  induction ts with
  | nil =>
    intro as i p st ss m _ hlen hs _ hss _ _ _ _ _
    cases as with
    | cons => simp at hlen
    | nil => exact ⟨hs, hss, .refl _, fun _ _ => rfl, fun _ _ => trivial⟩
  | cons t ts ih =>
    intro as i p st ss m hp hlen hs hok hss hab hws hns hroom hout
    cases as with
    | nil => simp at hlen
    | cons a as =>
      rw [endFrom] at hns ⊢
      rw [copies] at hroom ⊢
      rw [callLoop]
      have haft := endFrom_after (c := c) (by omega) ts (i + 1) (placeArg (abi c) (decide (c.nfixed ≤ i)) t p).2
      have w1 := marshal_step hc (hp t (by simp)) hs hok.1 hb hss hab hctx hcw hws (Nat.le_trans haft.ns hns)
        (by omega) (load := fun o n => m.rd (a + o) n) (v := m.rd a t.size) (Mem.rd_length _ _ _) ?_ (hj i) m
      · generalize hr : marshal c ctx t (decide (c.nfixed ≤ i)) (fun o n => m.rd (a + o) n) (junk i) st m = r at w1 ⊢
        have w2 := ih (as := as) (i := i + 1) (m := r.2) (fun x hx => hp x (by simp [hx])) (by simpa using hlen) w1.sim
          hok.2 w1.top (by omega) (Nat.dvd_add hws (copySize_dvd _ _ _)) hns (by omega)
          (fun q hq => hout q (by simp [hq]))
        rw [Nat.add_assoc] at w2
        have hvs : argVals r.2 ts as = argVals m ts as := by
          apply argVals_congr
          intro q hq i hi
          apply w1.keep
          intro hf
          have h1 := fut_block hab (by omega) hf
          have h2 := hout q (by simp [hq])
          omega
        rw [hvs] at w2
        exact w1.chain (by omega) (by omega) w2
      · intro o n hon
        have : m.rd a (o + n) = m.rd a o ++ m.rd (a + o) n := Mem.rd_append _ _ _ _
        have h2 : (m.rd a t.size).take (o + n) = m.rd a (o + n) := Mem.rd_take _ _ hon
        rw [List.take_drop, h2, this, List.drop_left' (Mem.rd_length _ _ _)]

/-! ## Space -/

/-- Space reserved for the arguments by the generic stage. -/
def reserve (w b : Nat) (ts : List FType) : Nat :=
  ts.foldl (fun b t => roundUp b t.align + roundUp t.size w) b

theorem reserve_ge {w : Nat} {ts : List FType} (h : ∀ t ∈ ts, 0 < t.align) (b : Nat) : b ≤ reserve w b ts := by
  induction ts generalizing b with
  | nil => exact Nat.le_refl _
  | cons t ts ih =>
    have h1 := roundUp_ge (v := b) (h t (by simp))
    have := ih (fun x hx => h x (by simp [hx])) (roundUp b t.align + roundUp t.size w)
    unfold reserve at this ⊢
    rw [List.foldl_cons]
    omega

theorem foldl_addArgBytes {w : Nat} (hw : w = 4 ∨ w = 8) {ts : List FType}
    (h : ∀ t ∈ ts, t.align = 1 ∨ t.align = 2 ∨ t.align = 4 ∨ t.align = 8 ∨ t.align = 16) {b : Nat}
    (hfit : reserve w b ts < 2 ^ 32) :
    ts.foldl (fun b t => addArgBytes w b (desc t)) b = reserve w b ts := by
  induction ts generalizing b with
  | nil => rfl
  | cons t ts ih =>
    have hpos : ∀ x ∈ ts, 0 < x.align := fun x hx => by have := h x (by simp [hx]); omega
    have hge := reserve_ge (w := w) hpos (roundUp b t.align + roundUp t.size w)
    have e : reserve w b (t :: ts) = reserve w (roundUp b t.align + roundUp t.size w) ts := rfl
    rw [e] at hfit ⊢
    obtain ⟨k, hk, hal⟩ : ∃ k, k ≤ 4 ∧ t.align = 2 ^ k := by
      rcases h t (by simp) with h | h | h | h | h
      · exact ⟨0, by omega, h⟩
      · exact ⟨1, by omega, h⟩
      · exact ⟨2, by omega, h⟩
      · exact ⟨3, by omega, h⟩
      · exact ⟨4, by omega, h⟩
    have hadd : addArgBytes w b (desc t) = roundUp b t.align + roundUp t.size w := by
      rcases hw with rfl | rfl
      · have := Props.addArgBytes_eq (sa := 4) (bytes := b) (d := desc t) (k := k) (by omega) hal (j := 2) (by decide)
          (by omega) (by rw [← hal]; exact Nat.lt_of_le_of_lt hge hfit)
        rw [this, hal]; rfl
      · have := Props.addArgBytes_eq (sa := 8) (bytes := b) (d := desc t) (k := k) (by omega) hal (j := 3) (by decide)
          (by omega) (by rw [← hal]; exact Nat.lt_of_le_of_lt hge hfit)
        rw [this, hal]; rfl
    rw [List.foldl_cons, hadd]
    exact ih (fun x hx => h x (by simp [hx])) hfit

theorem copies_le {A : Abi} {nfixed : Nat} {ts : List FType} (h : ∀ t ∈ ts, 0 < t.align) (b i : Nat) (p : Pos) :
    b + copies A nfixed ts i p ≤ reserve A.xlen b ts := by
  induction ts generalizing b i p with
  | nil => exact Nat.le_refl _
  | cons t ts ih =>
    have h1 := roundUp_ge (v := b) (h t (by simp))
    have := ih (fun x hx => h x (by simp [hx])) (roundUp b t.align + roundUp t.size A.xlen) (i + 1)
      (placeArg A (decide (nfixed ≤ i)) t p).2
    have e : reserve A.xlen b (t :: ts) = reserve A.xlen (roundUp b t.align + roundUp t.size A.xlen) ts := rfl
    rw [e, copies]
    have : copySize A t (placeArg A (decide (nfixed ≤ i)) t p).1 ≤ roundUp t.size A.xlen := by
      unfold copySize; split <;> omega
    omega

/-- Stack words are used only when no integer register is left, and never more than two
per argument. -/
structure Load (c : Cfg) (p : Pos) (n : Nat) : Prop where
  ni : p.ni ≤ 8
  ns : p.ni < 8 → p.ns = 0
  sum : c.w * roundUp p.ni 2 + roundUp p.ns (2 * c.w) ≤ 2 * c.w * n
  dvd : c.w ∣ p.ns

theorem load_word {c : Cfg} {p : Pos} (h : p.ni ≤ 8) (h' : p.ni < 8 → p.ns = 0)
    (hd : c.w ∣ p.ns) :
    (word (abi c) p).2.ni ≤ 8 ∧ ((word (abi c) p).2.ni < 8 → (word (abi c) p).2.ns = 0) ∧ c.w ∣ (word (abi c) p).2.ns ∧
      ((word (abi c) p).2.ni = p.ni + 1 ∧ (word (abi c) p).2.ns = p.ns ∨
        p.ni = 8 ∧ (word (abi c) p).2.ni = 8 ∧ (word (abi c) p).2.ns = p.ns + c.w) := by
  unfold word
  split
  · refine ⟨?_, ?_, hd, Or.inl ⟨rfl, rfl⟩⟩ <;> dsimp only
    · omega
    · intro _; exact h' (by assumption)
  · refine ⟨h, ?_, Nat.dvd_add hd (Nat.dvd_refl _), Or.inr ⟨by omega, by dsimp only; omega, rfl⟩⟩
    dsimp only
    omega

theorem load_step {c : Cfg} (hc : (abi c).Ok) {t : FType} {var : Bool} {p : Pos} {n : Nat} (h : Load c p n) :
    Load c (placeArg (abi c) var t p).2 (n + 1) := by
  have hw : c.w = 4 ∨ c.w = 8 := hc.1
  have hint : Load c (intConv (abi c) var t p).2 (n + 1) := by
    obtain ⟨h1, h2, h3, h4⟩ := h
    have key : ∀ p : Pos, p.ni ≤ 8 → (p.ni < 8 → p.ns = 0) → c.w ∣ p.ns →
        c.w * roundUp p.ni 2 + roundUp p.ns (2 * c.w) ≤ 2 * c.w * n → Load c (word (abi c) p).2 (n + 1) := by
      intro p h1 h2 h4 h3
      obtain ⟨k1, k2, k3, k4⟩ := load_word h1 h2 h4
      refine ⟨k1, k2, ?_, k3⟩
      unfold roundUp at h3 ⊢
      obtain ⟨w, fl, nx⟩ := c
      dsimp only at hw h3 h4 ⊢
      rcases hw with rfl | rfl <;> rcases k4 with ⟨e1, e2⟩ | ⟨e0, e1, e2⟩ <;> rw [e1, e2] <;> (try dsimp only) <;> omega
    have key2 : ∀ p : Pos, p.ni ≤ 8 → (p.ni < 8 → p.ns = 0) → c.w ∣ p.ns →
        c.w * roundUp p.ni 2 + roundUp p.ns (2 * c.w) ≤ 2 * c.w * n →
        Load c (word (abi c) (word (abi c) p).2).2 (n + 1) := by
      intro p h1 h2 h4 h3
      obtain ⟨k1, k2, k3, k4⟩ := load_word h1 h2 h4
      obtain ⟨j1, j2, j3, j4⟩ := load_word k1 k2 k3
      refine ⟨j1, j2, ?_, j3⟩
      unfold roundUp at h3 ⊢
      obtain ⟨w, fl, nx⟩ := c
      dsimp only at hw h3 h4 ⊢
      rcases hw with rfl | rfl <;> rcases k4 with ⟨e1, e2⟩ | ⟨e0, e1, e2⟩ <;> rcases j4 with ⟨f1, f2⟩ | ⟨f0, f1, f2⟩ <;>
        rw [f1, f2] <;> (try rw [e1]) <;> rw [e2] <;> dsimp only at * <;> omega
    unfold intConv
    split
    · exact key p h1 h2 h4 h3
    · split
      · exact key p h1 h2 h4 h3
      · dsimp only
        split
        · apply key2
          · simp only [evenPos]
            split
            · exact roundUp_least (by decide) (by decide) h1
            · exact h1
          · simp only [evenPos]
            intro h8
            have hlt : p.ni < 8 := by
              split at h8
              · exact Nat.lt_of_le_of_lt (roundUp_ge (by decide)) h8
              · exact h8
            rw [h2 hlt]
            unfold roundUp
            have : (abi c).xlen = c.w := rfl
            rw [this]
            rcases hw with h | h <;> rw [h]
          · exact Nat.dvd_trans (Nat.dvd_mul_left _ 2) (dvd_roundUp _ _)
          · simp only [evenPos]
            have e1 : roundUp (if var = true then roundUp p.ni 2 else p.ni) 2 = roundUp p.ni 2 := by
              split
              · exact roundUp_of_dvd (by decide) (dvd_roundUp _ _)
              · rfl
            have e2 : roundUp (roundUp p.ns (2 * (abi c).xlen)) (2 * c.w) = roundUp p.ns (2 * c.w) :=
              roundUp_of_dvd (by omega) (dvd_roundUp _ _)
            rw [e1, e2]
            exact h3
        · exact key2 p h1 h2 h4 h3
  have hmono : Load c p (n + 1) := ⟨h.ni, h.ns, Nat.le_trans h.sum (Nat.mul_le_mul_left _ (Nat.le_succ _)), h.dvd⟩
  have hone : p.ni < 8 → ∀ f, Load c { p with nf := f, ni := p.ni + 1 } (n + 1) := by
    intro hlt f
    refine ⟨by dsimp only; omega, fun _ => h.ns hlt, ?_, h.dvd⟩
    have h3 := h.sum
    unfold roundUp at h3 ⊢
    obtain ⟨w, fl, nx⟩ := c
    dsimp only at hw h3 ⊢
    rcases hw with rfl | rfl <;> omega
  unfold placeArg
  split
  · exact hint
  · split
    · split
      · exact ⟨hmono.ni, hmono.ns, hmono.sum, hmono.dvd⟩
      · exact hint
    · split
      · exact ⟨hmono.ni, hmono.ns, hmono.sum, hmono.dvd⟩
      · split
        · rename_i hx; exact hone hx.2.2.2 _
        · split
          · rename_i hx; exact hone hx.2.2.2 _
          · exact hint
    · exact hint

theorem load_end {c : Cfg} (hc : (abi c).Ok) {ts : List FType} {i : Nat} {p : Pos} {n : Nat} (h : Load c p n) :
    Load c (endFrom (abi c) c.nfixed ts i p) (n + ts.length) := by
  induction ts generalizing i p n with
  | nil => exact h
  | cons t ts ih =>
    have := ih (i := i + 1) (load_step hc (t := t) (var := decide (c.nfixed ≤ i)) h)
    rw [endFrom, List.length_cons, Nat.add_comm ts.length 1, ← Nat.add_assoc]
    exact this

theorem start_load {c : Cfg} (hc : (abi c).Ok) (rt : Option FType) : Load c (start (abi c) rt) 1 := by
  have hw : c.w = 4 ∨ c.w = 8 := hc.1
  have h : ∀ k, k ≤ 1 → Load c ⟨k, 0, 0⟩ 1 := by
    intro k hk
    refine ⟨by dsimp only; omega, fun _ => rfl, ?_, Nat.dvd_zero _⟩
    unfold roundUp
    obtain ⟨w, fl, nx⟩ := c
    dsimp only at hw ⊢
    rcases hw with rfl | rfl <;> omega
  unfold start
  split
  · split
    · exact h 1 (Nat.le_refl _)
    · exact h 0 (by omega)
  · exact h 0 (by omega)

theorem argBytes_eq {c : Cfg} (hc : (abi c).Ok) {n : Nat} (hn : n < 2 ^ 50) :
    argBytes c n = if n ≤ 3 then 0 else roundUp (2 * c.w * (n - 3)) 16 := by
  have hw : c.w = 4 ∨ c.w = 8 := hc.1
  unfold argBytes
  split
  · rfl
  · apply align_small (by omega)
    rcases hw with h | h <;> rw [h] <;> omega

/-- The stack area suffices for every signature. -/
theorem stack_room {c : Cfg} (hc : (abi c).Ok) {ts : List FType} (hn : ts.length < 2 ^ 50) (rt : Option FType) :
    (endFrom (abi c) c.nfixed ts 0 (start (abi c) rt)).ns ≤ argBytes c ts.length := by
  have hw : c.w = 4 ∨ c.w = 8 := hc.1
  have h := load_end hc (ts := ts) (i := 0) (start_load hc rt)
  rw [argBytes_eq hc hn]
  obtain ⟨h1, h2, h3, h4⟩ := h
  have hge := roundUp_ge (v := (endFrom (abi c) c.nfixed ts 0 (start (abi c) rt)).ns) (a := 2 * c.w) (by omega)
  have hge2 := roundUp_ge (v := 2 * c.w * (ts.length - 3)) (a := 16) (by decide)
  by_cases h8 : (endFrom (abi c) c.nfixed ts 0 (start (abi c) rt)).ni < 8
  · rw [h2 h8]; omega
  · have e : roundUp (endFrom (abi c) c.nfixed ts 0 (start (abi c) rt)).ni 2 = 8 := by
      rw [show (endFrom (abi c) c.nfixed ts 0 (start (abi c) rt)).ni = 8 by omega]; rfl
    rw [e] at h3
    obtain ⟨w, fl, nx⟩ := c
    dsimp only at *
    split <;> rcases hw with rfl | rfl <;> omega

end Verif.RV
