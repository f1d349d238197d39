import Verif.Arm.Result

/-! Closures: what the handler finds, and what the caller gets. -/
namespace Verif.Arm
open Verif Spec
open Verif.Spec.A32 (cprc Place Pos run Fits lowest placeArg placeFrom endFrom stackAt words RPlace retPlace cat Regs
  PassedAt AllPassed Returned)
open Verif.Spec.X86 (word signed intVal WidenedTo)

/-- The values that were passed are at the addresses of the places. -/
theorem stored_of_passed (o : Bool) {hard : Bool} {R : Regs} {m : Mem} {stack vs top : Nat} (hvs : hard = true → vs + 64 ≤ stack)
    (hr : ∀ i < 4, R.r i = m.rd (stack + 4 * i) 4) (hsp : R.sp = stack + 16)
    (hm : ∀ x, stack + 16 ≤ x → x < top → R.mem x = m x) (hs : hard = true → ∀ i < 16, R.s i = m.rd (vs + 4 * i) 4) :
    ∀ {ts : List FType} {vals : List (List Byte)} {p : Pos}, (∀ t ∈ ts, WF A32.tab t) → Inv p →
      stack + 16 + (endFrom o hard ts p).nsaa ≤ top → AllPassed R ts vals (placeFrom o hard ts p) →
      Stored m ts vals (dests o hard stack vs ts p)
  | [], vals, p, _, _, _, hst => by
    cases vals with
    | nil => trivial
    | cons => exact hst
  | t :: ts, [], p, _, _, _, hst => hst
  | t :: ts, v :: vals, p, hw, hi, htop, hst => by
    have hwt := hw t (by simp)
    obtain ⟨hc1, hc2⟩ := cell_spec hwt
    obtain ⟨hi', -⟩ := step_spec (stack := 64) (vs := 0) (c := 0) o (hard := hard) (t := t) (fun _ => by omega) hi (by omega) (Nat.le_refl _)
    have hmono := nsaa_mono o hard ts hi'
    rw [endFrom] at htop
    obtain ⟨-, -, hcell, -⟩ := step_spec (stack := stack) (vs := vs) (top := top) (c := cell t) o hvs hi hc2 (by omega)
    obtain ⟨⟨hv, hwid⟩, hrest⟩ : PassedAt R t v (placeArg o hard t p).1 ∧ AllPassed R ts vals (placeFrom o hard ts (placeArg o hard t p).2) := hst
    have key : ∀ n, n ≤ cell t → (∀ k, (placeArg o hard t p).1 = .vfp k → n = t.size) →
        R.at n (placeArg o hard t p).1 = m.rd (addr stack vs (placeArg o hard t p).1) n := by
      intro n hn hvn
      cases hl : (placeArg o hard t p).1 with
      | core k =>
        rw [hl] at hcell
        have hk := place_core o hi hl
        refine at_core hk hr hsp fun x h1 h2 => hm x h1 ?_
        have hx := hcell x (by simp only [addr]; omega) (by simp only [addr]; omega)
        rcases hx with hx | hx | hx
        · omega
        · exact hx.2
        · have := hvs hx.1; omega
      | stack q =>
        rw [hl] at hcell
        unfold Regs.at
        dsimp only [addr]
        rw [hsp]
        refine Mem.rd_congr fun i hi => hm _ (by omega) ?_
        have hx := hcell (stack + 16 + q + i) (by simp only [addr]; omega) (by simp only [addr]; omega)
        rcases hx with hx | hx | hx
        · omega
        · exact hx.2
        · have := hvs hx.1; omega
      | vfp k =>
        obtain ⟨hh, n', w, h1, h2, -⟩ := place_vfp o hl
        rw [hvn k hl, h1]
        exact at_vfp h2 fun i hi => hs hh _ (by omega)
    refine ⟨⟨by rw [← key _ hc1 fun _ _ => rfl]; exact hv, fun hwd => ?_⟩,
      stored_of_passed o hvs hr hsp hm hs (fun x hx => hw x (by simp [hx])) hi' htop hrest⟩
    have h4 : cell t = 4 := if_pos hwd
    rw [← key 4 (by omega)]
    · exact hwid hwd
    · intro k hl
      obtain ⟨-, n', w, h1, -, -, hcp⟩ := place_vfp o hl
      rw [cprc_word hcp] at hwd
      cases hwd

/-- Addresses are aligned. -/
theorem dests_aligned (o : Bool) {hard : Bool} {stack vs : Nat} (h8 : 8 ∣ stack) (hv8 : hard = true → 8 ∣ vs) :
    ∀ {ts : List FType} {p : Pos}, (∀ t ∈ ts, WF A32.tab t) → Inv p →
      ∀ q ∈ ts.zip (dests o hard stack vs ts p), q.1.align ∣ q.2
  | [], _, _, _ => by simp
  | t :: ts, p, hw, hi => by
    have hwt := hw t (by simp)
    obtain ⟨hi', -⟩ := step_spec (stack := 64) (vs := 0) (c := 0) o (hard := hard) (t := t) (fun _ => by omega) hi (by omega) (Nat.le_refl _)
    have hd : dests o hard stack vs (t :: ts) p = addr stack vs (placeArg o hard t p).1 ::
        dests o hard stack vs ts (placeArg o hard t p).2 := rfl
    rw [hd, List.zip_cons_cons]
    intro q hq
    rw [List.mem_cons] at hq
    rcases hq with rfl | hq
    · dsimp only
      have hgoal : ∀ x, 4 ∣ x → (8 ≤ t.align → 8 ∣ x) → t.align ∣ x := by
        intro x h4 h8'
        rcases align_cases hwt with h | h | h | h <;> rw [h]
        · exact Nat.one_dvd _
        · omega
        · exact h4
        · exact h8' (by omega)
      have hg : 8 ≤ t.align → 2 ∣ (if 8 ≤ t.align then roundUp p.ncrn 2 else p.ncrn) := by
        intro h; rw [if_pos h]; exact dvd_roundUp _ _
      have hs : 8 ≤ t.align → 8 ∣ stackAt t p.nsaa := by
        intro h; unfold stackAt; rw [if_pos h]; exact dvd_roundUp _ _
      have hs4 := (stackAt_spec t hi.nsaa).2.1
      unfold placeArg
      cases hcp : (if hard = true then cprc t else none) with
      | some x =>
        obtain ⟨n, w⟩ := x
        have hh : hard = true := by
          cases hard
          · simp at hcp
          · rfl
        rw [if_pos hh] at hcp
        dsimp only
        cases hl : lowest p.used (n * w) w with
        | none => dsimp only [addr]; exact hgoal _ (by omega) (fun h => by have := hs h; omega)
        | some k =>
          dsimp only [addr]
          have hv := hv8 hh
          obtain ⟨c, -, hm⟩ := vfpTypeP_spec hwt
          rw [hcp] at hm
          dsimp only at hm
          obtain ⟨-, ⟨hwk, -⟩, -⟩ := lowest_some.1 hl
          refine hgoal _ (by omega) fun h => ?_
          have hw2 : w = 2 := by omega
          rw [hw2] at hwk
          omega
      | none =>
        dsimp only
        generalize (if 8 ≤ t.align then roundUp p.ncrn 2 else p.ncrn) = g at hg ⊢
        by_cases h1 : g + words t ≤ 4
        · rw [if_pos h1]
          dsimp only [addr]
          exact hgoal _ (by omega) (fun h => by have := hg h; omega)
        · by_cases h2 : g < 4 ∧ p.nsaa = 0
          · rw [if_neg h1, if_pos h2]
            dsimp only [addr]
            exact hgoal _ (by omega) (fun h => by have := hg h; omega)
          · rw [if_neg h1, if_neg h2]
            dsimp only [addr]
            exact hgoal _ (by omega) (fun h => by have := hs h; omega)
    · exact dests_aligned o h8 hv8 (fun x hx => hw x (by simp [hx])) hi' q hq

/-- A fitting entry: stack pointer, registers, and a closure that is not in the area that
the entry point uses. -/
structure EntryOk (c : Cif) (ats : List FType) (obj : Nat) (lr : List Byte) (E : Regs) : Prop where
  al : 8 ∣ E.sp
  lo : 120 ≤ E.sp
  hi : E.sp < 2 ^ 32
  r : ∀ i, (E.r i).length = 4
  s : ∀ i, (E.s i).length = 4
  lr : lr.length = 4
  clear : obj + 24 ≤ E.sp - 120 ∨ E.sp ≤ obj

/-- What the handler is given, apart from the arguments. -/
structure Viewed (c : Cif) (rt : FType) (kind : Kind) (obj : Nat) (lr : List Byte) (E : Regs) (V : View) : Prop where
  frame : V.frame + 112 = E.sp
  cif : V.cif = E.mem.rd (obj + match kind with | .closure => 12 | .go => 4) 4
  handler : V.handler = E.mem.rd (obj + match kind with | .closure => 16 | .go => 8) 4
  userData : V.userData = match kind with | .closure => E.mem.rd (obj + 20) 4 | .go => leBytes 4 obj
  rvalue : V.rvalue = if c.flag = .struct then leNat (E.r 0) else V.frame + 64
  keep : ∀ x, x < V.frame - 8 ∨ E.sp ≤ x → V.mem x = E.mem x
  sp : V.mem.rd (V.frame - 8) 4 = leBytes 4 E.sp
  lr : V.mem.rd (V.frame - 4) 4 = lr

theorem closureEntry_spec {hard : Bool} {c : Cif} {rt : FType} {ats : List FType} {kind : Kind} {self : Nat} {lr : List Byte} {E : Regs}
    (ha : ∀ t ∈ ats, WF A32.tab t) (hp : Prepared hard rt ats c) (hE : EntryOk c ats self lr E)
    (htop : E.sp + (endFrom true hard ats (A32.start hard rt)).nsaa < 2 ^ 32) :
    ∃ V, closureEntry c rt ats kind self lr E = .ok V ∧ Viewed c rt kind self lr E V ∧
      (∀ q ∈ ats.zip V.args, q.1.align ∣ q.2) ∧
      ∀ vals, AllPassed E ats vals (placeFrom true hard ats (A32.start hard rt)) → Stored V.mem ats vals V.args := by
  obtain ⟨l1, l2, l3, l4, l5, l6, l7⟩ := hE
  have hfs := flag_struct hp.flag
  unfold closureEntry asmEntry
  dsimp only
  -- the saved core registers
  obtain ⟨frame, hfr⟩ : ∃ f, E.sp - 16 - 96 = f := ⟨_, rfl⟩
  have hf : frame + 112 = E.sp := by omega
  have hs16 : E.sp - 16 = frame + 96 := by omega
  rw [hfr, hs16]
  obtain ⟨m1, hm1⟩ : ∃ m1, E.mem.wr (frame + 96) (cat E.r 0 4) = m1 := ⟨_, rfl⟩
  rw [hm1]
  have k1 : ∀ x, x < frame + 96 ∨ E.sp ≤ x → m1 x = E.mem x := by
    intro x hx
    rw [← hm1]
    exact Mem.wr_out _ _ _ _ (by rw [cat_length l4]; omega)
  have f1 : m1.rd (frame + 96) 16 = cat E.r 0 4 := by
    rw [← hm1]
    have := Mem.rd_wr_same E.mem (frame + 96) (cat E.r 0 4)
    rwa [cat_length l4] at this
  obtain ⟨m2, hm2⟩ : ∃ m2, (if viaVfp c then m1.wr frame (cat E.s 0 16) else m1) = m2 := ⟨_, rfl⟩
  rw [hm2]
  have k2 : ∀ x, x < frame ∨ frame + 64 ≤ x → m2 x = m1 x := by
    intro x hx
    rw [← hm2]
    split
    · exact Mem.wr_out _ _ _ _ (by rw [cat_length l5]; omega)
    · rfl
  have f2 : viaVfp c = true → m2.rd frame 64 = cat E.s 0 16 := by
    intro h
    rw [← hm2, if_pos h]
    have := Mem.rd_wr_same m1 frame (cat E.s 0 16)
    rwa [cat_length l5] at this
  obtain ⟨m3, hm3⟩ : ∃ m3, (m2.wr (frame - 8) (leBytes 4 E.sp)).wr (frame - 4) lr = m3 := ⟨_, rfl⟩
  rw [hm3]
  have k3 : ∀ x, x < frame - 8 ∨ frame ≤ x → m3 x = m2 x := by
    intro x hx
    rw [← hm3, Mem.wr_out _ _ _ _ (by rw [l6]; omega), Mem.wr_out _ _ _ _ (by rw [leBytes_length]; omega)]
  have f3 : m3.rd (frame - 8) 4 = leBytes 4 E.sp := by
    rw [← hm3, Mem.rd_wr_disj _ _ _ _ _ (by omega)]
    have := Mem.rd_wr_same m2 (frame - 8) (leBytes 4 E.sp)
    rwa [leBytes_length] at this
  have f4 : m3.rd (frame - 4) 4 = lr := by
    rw [← hm3]
    have := Mem.rd_wr_same (m2.wr (frame - 8) (leBytes 4 E.sp)) (frame - 4) lr
    rwa [l6] at this
  have hself : ∀ o, o + 4 ≤ 24 → m1.rd (self + o) 4 = E.mem.rd (self + o) 4 := by
    intro o ho
    apply Mem.rd_congr
    intro i hi
    exact k1 _ (by omega)
  -- position
  have hncrn : (A32.start hard rt).ncrn = if c.flag = .struct then 1 else 0 := by
    unfold A32.start
    dsimp only
    by_cases h : c.flag = .struct
    · rw [if_pos h, if_pos (hfs.1 h)]
    · rw [if_neg h, if_neg (fun hc => h (hfs.2 hc))]
  have hnsaa : (A32.start hard rt).nsaa = 0 := rfl
  have hused : (A32.start hard rt).used = [] := rfl
  have hpp : (if c.flag = .struct then frame + 96 + 4 else frame + 96) = frame + 96 + 4 * (A32.start hard rt).ncrn := by
    rw [hncrn]; split <;> omega
  have hi : Inv (A32.start hard rt) := ⟨by rw [hncrn]; split <;> omega, by rw [hnsaa]; omega, by rw [hused]; simp⟩
  have h8 : 8 ∣ frame + 96 := by omega
  -- registers as saved
  have hcat : ∀ i < 4, E.r i = m3.rd (frame + 96 + 4 * i) 4 := by
    intro i hi4
    have h1 : m3.rd (frame + 96 + 4 * i) 4 = m1.rd (frame + 96 + 4 * i) 4 := by
      apply Mem.rd_congr
      intro j hj
      rw [k3 _ (by omega), k2 _ (by omega)]
    rw [h1]
    have e : m1.rd (frame + 96) (4 * i + (4 + (16 - 4 * i - 4))) = cat E.r 0 (i + (1 + (4 - i - 1))) := by
      rw [show 4 * i + (4 + (16 - 4 * i - 4)) = 16 by omega, f1, show i + (1 + (4 - i - 1)) = 4 by omega]
    rw [Mem.rd_append, Mem.rd_append, cat_add, cat_add] at e
    have e1 := (List.append_inj e (by rw [Mem.rd_length, cat_length l4])).2
    have e2 := (List.append_inj e1 (by rw [Mem.rd_length, cat_length l4])).1
    rw [e2]
    simp [cat]
  have hscat : viaVfp c = true → ∀ i < 16, E.s i = m3.rd (frame + 4 * i) 4 := by
    intro hv i hi16
    have h1 : m3.rd (frame + 4 * i) 4 = m2.rd (frame + 4 * i) 4 := by
      apply Mem.rd_congr
      intro j hj
      rw [k3 _ (by omega)]
    rw [h1]
    have e : m2.rd frame (4 * i + (4 + (64 - 4 * i - 4))) = cat E.s 0 (i + (1 + (16 - i - 1))) := by
      rw [show 4 * i + (4 + (64 - 4 * i - 4)) = 64 by omega, f2 hv, show i + (1 + (16 - i - 1)) = 16 by omega]
    rw [Mem.rd_append, Mem.rd_append, cat_add, cat_add] at e
    have e1 := (List.append_inj e (by rw [Mem.rd_length, cat_length l5])).2
    have e2 := (List.append_inj e1 (by rw [Mem.rd_length, cat_length l5])).1
    rw [e2]
    simp [cat]
  have hr0 : leNat (m3.rd (frame + 96) 4) = leNat (E.r 0) := by
    have := hcat 0 (by omega)
    rw [Nat.mul_zero, Nat.add_zero] at this
    rw [← this]
  have htop' : frame + 96 + 16 + (endFrom true hard ats (A32.start hard rt)).nsaa < 2 ^ 62 := by omega
  have hmem : ∀ m : Mem, (∀ x, x < frame + 64 ∨ frame + 68 ≤ x → m x = m3 x) →
      (∀ x, frame + 96 + 16 ≤ x → x < E.sp + (endFrom true hard ats (A32.start hard rt)).nsaa → E.mem x = m x) ∧
      (∀ i < 4, E.r i = m.rd (frame + 96 + 4 * i) 4) := by
    intro m hm
    refine ⟨fun x h1 _ => ?_, fun i hi4 => ?_⟩
    · rw [hm x (by omega), k3 _ (by omega), k2 _ (by omega), k1 _ (by omega)]
    · rw [hcat i hi4]
      exact (Mem.rd_congr fun j hj => hm _ (by omega)).symm
  have viewed : ∀ (m : Mem) (as : List Nat), (∀ x, x < frame + 64 ∨ frame + 68 ≤ x → m x = m3 x) →
      Viewed c rt kind self lr E ⟨frame, (match kind with | .closure => m1.rd (self + 12) 4 | .go => m1.rd (self + 4) 4),
        (match kind with | .closure => m1.rd (self + 16) 4 | .go => m1.rd (self + 8) 4),
        (match kind with | .closure => m1.rd (self + 20) 4 | .go => leBytes 4 self),
        (if c.flag = .struct then leNat (m3.rd (frame + 96) 4) else frame + 64), as, m⟩ := by
    intro m as hm
    refine ⟨hf, ?_, ?_, ?_, ?_, ?_, ?_, ?_⟩
    · cases kind <;> exact hself _ (by omega)
    · cases kind <;> exact hself _ (by omega)
    · cases kind
      · exact hself _ (by omega)
      · rfl
    · dsimp only; rw [hr0]
    · intro x hx
      dsimp only at hx ⊢
      rw [hm x (by omega), k3 _ (by omega), k2 _ (by omega), k1 _ (by omega)]
    · dsimp only
      rw [← f3]
      exact Mem.rd_congr fun j hj => hm _ (by omega)
    · dsimp only
      rw [← f4]
      exact Mem.rd_congr fun j hj => hm _ (by omega)
  unfold incoming
  dsimp only
  rw [hpp]
  rcases vfp_cases hp with ⟨v1, v2, v3⟩ | ⟨v1, v2, v3⟩
  · rw [if_pos v3]
    have hl := inLoop_eq (v := c.vfp) (vs := frame) (stack := frame + 96) (ts := ats) (p := A32.start hard rt)
      (st := ⟨0, frame + 96 + 16, frame + 96 + 4 * (A32.start hard rt).ncrn, false, false⟩) (pre := []) h8 ha hi
      ⟨by dsimp only; rw [hnsaa, up4]; omega, fun h => (by cases h), fun _ => by dsimp only; rw [up4]; omega, fun _ => by rw [hnsaa]; rfl⟩
      (by rw [(hp.vfp v2).1]; rfl) rfl (by rw [v2] at htop'; rw [v2]; exact htop')
    rw [hl]
    dsimp only
    refine ⟨_, rfl, viewed m3 _ (fun _ _ => rfl), ?_, fun vals hv => ?_⟩
    · exact dests_aligned true h8 (fun _ => by omega) ha hi
    · rw [v2] at hv
      obtain ⟨g1, g2⟩ := hmem m3 (fun _ _ => rfl)
      exact stored_of_passed true (fun _ => by omega) g2 (by omega) g1 (fun _ => hscat v3) ha hi
        (by rw [v2]; omega) (by rw [v2]; exact hv)
  · rw [if_neg (by rw [v2]; decide)]
    obtain ⟨v4, v5⟩ := v3 true (A32.start hard rt)
    have hl := sysvIn_eq (vs := frame) (stack := frame + 96) true (ts := ats) (p := A32.start hard rt)
      (x := frame + 96 + 4 * (A32.start hard rt).ncrn) h8 ha hi
      ⟨by rw [hnsaa, if_pos rfl, up4]; omega, fun h => absurd hnsaa h⟩ (by rw [← v5]; exact htop')
    rw [hl]
    dsimp only
    obtain ⟨m4, hm4⟩ : ∃ m4, (if c.flag ≠ .struct ∧ rt.size ≠ 0 ∧ rt.size < 4 then
        m3.wr (if c.flag = .struct then leNat (m3.rd (frame + 96) 4) else frame + 64) (List.replicate 4 0) else m3) = m4 := ⟨_, rfl⟩
    rw [hm4]
    have k4 : ∀ x, x < frame + 64 ∨ frame + 68 ≤ x → m4 x = m3 x := by
      intro x hx
      rw [← hm4]
      split
      · rename_i h
        rw [if_neg h.1]
        exact Mem.wr_out _ _ _ _ (by simp; omega)
      · rfl
    refine ⟨_, rfl, viewed m4 _ k4, ?_, fun vals hv => ?_⟩
    · exact dests_aligned true h8 (fun h => by cases h) ha hi
    · rw [v4] at hv
      obtain ⟨g1, g2⟩ := hmem m4 k4
      exact stored_of_passed true (fun h => by cases h) g2 (by omega) g1 (fun h => by cases h) ha hi
        (by rw [← v5]; omega) hv

/-- What the caller of a closure gets. -/
theorem closureExit_spec {hard : Bool} {c : Cif} {rt : FType} {ats : List FType} {kind : Kind} {self : Nat} {lr : List Byte}
    {E : Regs} {V : View} {m : Mem} {v : List Byte} (hp : Prepared hard rt ats c) (hV : Viewed c rt kind self lr E V)
    (hsp : E.sp < 2 ^ 32) (hlo : 120 ≤ E.sp) (hm : ∀ x, V.frame - 8 ≤ x → x < V.frame → m x = V.mem x)
    (hv : rt.tc ≠ .void → retPlace hard rt ≠ .mem → m.rd V.rvalue rt.size = v ∧ WidenedTo rt v (m.rd V.rvalue 4)) :
    (closureExit c.flag V.frame m).sp = E.sp ∧ (closureExit c.flag V.frame m).pc = lr ∧
      (rt.tc ≠ .void → retPlace hard rt ≠ .mem → ∀ r s : Nat → List Byte, (∀ i, (r i).length = 4) → (∀ i, (s i).length = 4) →
        (∀ i b, (closureExit c.flag V.frame m).r i = some b → r i = b) →
        (∀ i b, (closureExit c.flag V.frame m).s i = some b → s i = b) → Returned hard rt v r s) := by
  have hf := hV.frame
  have hrd : ∀ a, V.frame - 8 ≤ a → a + 4 ≤ V.frame → m.rd a 4 = V.mem.rd a 4 :=
    fun a h1 h2 => Mem.rd_congr fun i hi => hm _ (by omega) (by omega)
  refine ⟨?_, ?_, ?_⟩
  · show leNat (m.rd (V.frame - 8) 4) = E.sp
    rw [hrd _ (by omega) (by omega), hV.sp, leNat_leBytes]
    exact Nat.mod_eq_of_lt hsp
  · show m.rd (V.frame - 4) 4 = lr
    rw [hrd _ (by omega) (by omega), hV.lr]
  · intro hn hnm r s lr' ls hr hs
    have hns : c.flag ≠ .struct := fun h => hnm ((flag_struct hp.flag).1 h)
    have hrv : V.rvalue = V.frame + 64 := by rw [hV.rvalue, if_neg hns]
    rw [hrv] at hv
    obtain ⟨hv, hw⟩ := hv hn hnm
    have hlen : v.length = rt.size := by rw [← hv, Mem.rd_length]
    have hflag := hp.flag
    have word' : ∀ (f : Nat → List Byte) n, (∀ i < n, f i = m.rd (V.frame + 64 + 4 * i) 4) → cat f 0 n = m.rd (V.frame + 64) (4 * n) := by
      intro f n h
      have := cat_rd (m := m) (a := V.frame + 64) (k := 0) (f := f) (n := n) (fun i hi => by rw [Nat.zero_add]; exact h i hi)
      rwa [Nat.mul_zero, Nat.add_zero] at this
    have pre : ∀ (f : Nat → List Byte) n k, (∀ i, (f i).length = 4) → (∀ i < n, f i = m.rd (V.frame + 64 + 4 * i) 4) → rt.size ≤ 4 * n → n ≤ k →
        (cat f 0 k).take rt.size = v := by
      intro f n k hl h h1 h2
      rw [show k = n + (k - n) by omega, cat_add, List.take_append_of_le_length (by rw [cat_length hl]; exact h1), word' f n h,
        Mem.rd_take _ _ h1, hv]
    cases hfl : c.flag <;> rw [hfl] at hflag hr hs <;> simp only [FlagOk] at hflag
    case void => exact absurd hflag.1 hn
    case struct => exact absurd hflag.1 hnm
    case int =>
      have h0 : r 0 = m.rd (V.frame + 64 + 4 * 0) 4 := hr 0 _ rfl
      refine ⟨hlen, fun _ => ⟨pre r 1 2 lr' (fun i hi => ?_) (by omega) (by omega), ?_⟩, fun h => ?_⟩
      · have : i = 0 := by omega
        subst this; exact h0
      · rw [h0]; exact hw
      · rw [hflag.2.1] at h; cases h
    case int64 =>
      refine ⟨hlen, fun _ => ⟨pre r 2 2 lr' (fun i hi => hr i _ ?_) (by omega) (by omega), fun h => ?_⟩, fun h => ?_⟩
      · simp [closureExit, hi]
      · rw [hflag.2.1] at h; cases h
      · rw [hflag.2.2.1] at h; cases h
    case vfpS =>
      refine ⟨hlen, fun h => ?_, fun _ => pre s 1 16 ls (fun i hi => hs i _ ?_) (by omega) (by omega)⟩
      · rw [hflag.2.2.1] at h; cases h
      · have : i = 0 := by omega
        simp [closureExit, this]
    case vfpD =>
      refine ⟨hlen, fun h => ?_, fun _ => pre s 2 16 ls (fun i hi => hs i _ ?_) (by omega) (by omega)⟩
      · rw [hflag.2.2.1] at h; cases h
      · simp [closureExit, hi]
    case vfpN =>
      refine ⟨hlen, fun h => ?_, fun _ => pre s 8 16 ls (fun i hi => hs i _ ?_) (by omega) (by omega)⟩
      · rw [hflag.2.2.1] at h; cases h
      · simp [closureExit, hi]

end Verif.Arm
