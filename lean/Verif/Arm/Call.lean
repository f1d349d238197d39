import Verif.Arm.Room

/-! `ffi_prep_cif` and `ffi_call` up to the call. -/
namespace Verif.Arm
open Verif Spec
open Verif.Spec.A32 (cprc Place Pos run Fits lowest placeArg placeFrom endFrom stackAt words RPlace retPlace cat Regs
  PassedAt AllPassed)
open Verif.Spec.X86 (word signed intVal WidenedTo)

/-- Result types. -/
def Res (rt : FType) : Prop := rt.tc = .void ∨ WF A32.tab rt

/-- Flags and places of results. -/
def FlagOk (hard : Bool) (rt : FType) : Flag → Prop
  | .void => rt.tc = .void ∧ retPlace hard rt = .void
  | .int => rt.tc ≠ .void ∧ retPlace hard rt = .core ∧ rt.size ≤ 4
  | .int64 => rt.tc ≠ .void ∧ word rt.tc = false ∧ retPlace hard rt = .core ∧ rt.size = 8
  | .struct => retPlace hard rt = .mem ∧ (rt.tc = .struct ∨ rt.tc = .complex)
  | .vfpS => rt.tc ≠ .void ∧ word rt.tc = false ∧ retPlace hard rt = .vfp ∧ rt.size = 4
  | .vfpD => rt.tc ≠ .void ∧ word rt.tc = false ∧ retPlace hard rt = .vfp ∧ rt.size = 8
  | .vfpN => rt.tc ≠ .void ∧ word rt.tc = false ∧ retPlace hard rt = .vfp ∧ rt.size ≤ 32 ∧ (rt.tc = .struct ∨ rt.tc = .complex)

theorem retFlag_spec {hard : Bool} {rt : FType} (h : Res rt) : ∃ fl, retFlag hard rt = .ok fl ∧ FlagOk hard rt fl := by
  rcases h with h | h
  · exact ⟨.void, by unfold retFlag; rw [h], h, by unfold retPlace; rw [h]⟩
  · have hcomp : rt.tc = .struct ∨ rt.tc = .complex → ∃ fl, compFlag hard rt = .ok fl ∧ FlagOk hard rt fl := by
      intro htc
      have hnv : rt.tc ≠ .void := by rcases htc with h | h <;> rw [h] <;> decide
      have hnw : word rt.tc = false := by rcases htc with h | h <;> rw [h] <;> rfl
      have hrp : retPlace hard rt = if hard = true ∧ (cprc rt).isSome = true then .vfp
          else if 4 < rt.size then .mem else .core := by
        rcases htc with h | h <;> (unfold retPlace; rw [h]; simp)
      have key : ∀ c, (if hard then vfpTypeP rt else .ok 0) = Except.ok c → compFlag hard rt =
          if c = 256 + 2 then .ok .vfpS else if c = 256 + 3 then .ok .vfpD else if c ≠ 0 then .ok .vfpN
          else if rt.size ≤ 4 then .ok .int else .ok .struct := by
        intro c hc
        unfold compFlag
        cases hard
        · cases hc; rfl
        · rw [if_pos rfl] at hc
          simp only [if_true, hc]
          rfl
      have hnone : (hard = true → cprc rt = none) → ∃ fl, compFlag hard rt = .ok fl ∧ FlagOk hard rt fl := by
        intro hn
        have h0 : (if hard then vfpTypeP rt else .ok 0) = Except.ok 0 := by
          cases hard
          · rfl
          · rw [if_pos rfl]
            obtain ⟨c, hc, hm⟩ := vfpTypeP_spec h
            rw [hn rfl] at hm
            dsimp only at hm
            rw [hc, hm]
        have hrp' : retPlace hard rt = if 4 < rt.size then .mem else .core := by
          rw [hrp, if_neg]
          rintro ⟨h1, h2⟩
          rw [hn h1] at h2
          cases h2
        rw [key 0 h0]
        by_cases hs : rt.size ≤ 4
        · refine ⟨.int, by simp [hs], hnv, ?_, hs⟩
          rw [hrp', if_neg (by omega)]
        · refine ⟨.struct, by simp [hs], ?_, htc⟩
          rw [hrp', if_pos (by omega)]
      cases hard with
      | false => exact hnone (by simp)
      | true =>
        cases hcp : cprc rt with
        | none => exact hnone (fun _ => hcp)
        | some x =>
          obtain ⟨n, w⟩ := x
          obtain ⟨c, hc, hm⟩ := vfpTypeP_spec h
          rw [hcp] at hm
          dsimp only at hm
          obtain ⟨h1, h4, hw12, hce, hsz, -⟩ := hm
          have hrp' : retPlace true rt = .vfp := by rw [hrp, hcp]; rfl
          have hnw' := cprc_nw hcp
          rw [key c (by rw [if_pos rfl, hc])]
          by_cases e1 : c = 256 + 2
          · rw [if_pos e1]
            refine ⟨.vfpS, rfl, hnv, hnw, hrp', ?_⟩
            have hn1 : n = 1 := by omega
            have hw1 : w = 1 := by omega
            rw [hsz, hn1, hw1]
          · rw [if_neg e1]
            by_cases e2 : c = 256 + 3
            · rw [if_pos e2]
              refine ⟨.vfpD, rfl, hnv, hnw, hrp', ?_⟩
              have hn1 : n = 1 := by omega
              have hw1 : w = 2 := by omega
              rw [hsz, hn1, hw1]
            · rw [if_neg e2, if_pos (by omega)]
              exact ⟨.vfpN, rfl, hnv, hnw, hrp', by omega, htc⟩
    cases h with
    | @scalar tc s a h =>
      have hcf : tc = .float → (cprc (.mk s a tc [])).isSome = true := by
        rintro rfl
        rw [cprc_of_tcs (A64.tcs_scalar tab_ok h)]
        simp [A32.tab] at h
        obtain ⟨rfl, rfl⟩ := h
        simp [A32.fpWords]
      have hcd : tc = .double → (cprc (.mk s a tc [])).isSome = true := by
        rintro rfl
        rw [cprc_of_tcs (A64.tcs_scalar tab_ok h)]
        simp [A32.tab] at h
        obtain ⟨rfl, rfl⟩ := h
        simp [A32.fpWords]
      cases tc <;> simp [A32.tab] at h <;> obtain ⟨rfl, rfl⟩ := h
      case float =>
        refine ⟨if hard then .vfpS else .int, rfl, ?_⟩
        cases hard
        · exact ⟨by simp, by simp [retPlace], by simp⟩
        · exact ⟨by simp, rfl, by simp [retPlace, hcf], by simp⟩
      case double =>
        refine ⟨if hard then .vfpD else .int64, rfl, ?_⟩
        cases hard
        · exact ⟨by simp, rfl, by simp [retPlace], by simp⟩
        · exact ⟨by simp, rfl, by simp [retPlace, hcd], by simp⟩
      case uint64 => exact ⟨.int64, rfl, by simp, rfl, rfl, rfl⟩
      case sint64 => exact ⟨.int64, rfl, by simp, rfl, rfl, rfl⟩
      all_goals exact ⟨.int, rfl, by simp, rfl, by simp⟩
    | complex => exact hcomp (Or.inr rfl)
    | struct => exact hcomp (Or.inl rfl)

theorem flag_struct {hard : Bool} {rt : FType} {fl : Flag} (h : FlagOk hard rt fl) : fl = .struct ↔ retPlace hard rt = .mem := by
  cases fl <;> simp only [FlagOk] at h <;> simp [h]

/-- Bytes that `ffi_prep_cif_core` counts before the arguments. -/
def base (rt : FType) : Nat := if rt.tc = .struct then 4 else 0

/-- What is computed fits into 32 bits. -/
def Fits32 (rt : FType) (ats : List FType) : Prop := RV.reserve 4 (base rt) ats + 16 < 2 ^ 32

structure Prepared (hard : Bool) (rt : FType) (ats : List FType) (c : Cif) : Prop where
  hard_eq : c.hard = hard
  flag : FlagOk hard rt c.flag
  vfp : hard = true → c.vfp.args = ksFrom ats [] ∧ ∀ i, c.vfp.used.testBit i = decide (i ∈ usedEnd ats [])
  bytes : Fits32 rt ats → RV.reserve 4 (base rt) ats + (if c.flag = .struct then 4 else 0) ≤ c.bytes
  min : 16 ≤ c.bytes
  mod : 8 ∣ c.bytes
  lt : Fits32 rt ats → c.bytes < 2 ^ 32

theorem prep_spec (hard var : Bool) {rt : FType} {ats : List FType} (hr : Res rt) (ha : ∀ t ∈ ats, WF A32.tab t) :
    ∃ c, prep hard var rt ats = .ok c ∧ Prepared (hard && !var) rt ats c := by
  unfold prep
  generalize (hard && !var) = hd
  obtain ⟨fl, hfl, hok⟩ := retFlag_spec (hard := hd) hr
  have hv : ∃ v, (if hd then layoutVfp ats else .ok ⟨0, 0, []⟩) = Except.ok v ∧
      (hd = true → v.args = ksFrom ats [] ∧ ∀ i, v.used.testBit i = decide (i ∈ usedEnd ats [])) := by
    cases hd
    · exact ⟨_, rfl, by simp⟩
    · obtain ⟨v, h1, h2, h3⟩ := layoutLoop_spec ha rel_start
      exact ⟨v, h1, fun _ => ⟨by simpa using h2, h3⟩⟩
  obtain ⟨v, hv1, hv2⟩ := hv
  have hpm : prepMach hd rt ats (coreBytes rt ats) =
      .ok ⟨hd, fl, if ffiAlign ((coreBytes rt ats + (if fl = .struct then 4 else 0)) % 2 ^ 32) 8 % 2 ^ 32 < 16 then 16
        else ffiAlign ((coreBytes rt ats + (if fl = .struct then 4 else 0)) % 2 ^ 32) 8 % 2 ^ 32, v⟩ := by
    unfold prepMach
    cases hd
    · cases hv1
      simp only [Bool.false_eq_true, if_false, bind, Except.bind, hfl]
    · rw [if_pos rfl] at hv1
      simp only [if_true, bind, Except.bind, hfl, hv1]
  rw [hpm]
  have hx : ∀ x : Nat, x < 2 ^ 32 → ffiAlign x 8 = roundUp x 8 := fun x hx => I386.align_eq (by omega) (by omega)
  obtain ⟨b, hb, h8⟩ : ∃ b, ffiAlign ((coreBytes rt ats + (if fl = .struct then 4 else 0)) % 2 ^ 32) 8 % 2 ^ 32 = b ∧ 8 ∣ b := by
    refine ⟨_, rfl, ?_⟩
    rw [hx _ (Nat.mod_lt _ (by decide))]
    have : 8 ∣ roundUp ((coreBytes rt ats + (if fl = .struct then 4 else 0)) % 2 ^ 32) 8 := dvd_roundUp _ _
    omega
  refine ⟨⟨hd, fl, if b < 16 then 16 else b, v⟩, by rw [← hb], rfl, hok, hv2, fun hf => ?_, ?_, ?_, fun hf => ?_⟩
  · unfold Fits32 at hf
    have hcb : coreBytes rt ats = RV.reserve 4 (base rt) ats := by
      have hf' : RV.reserve 4 (base rt) ats < 2 ^ 32 := by omega
      apply RV.foldl_addArgBytes (Or.inl rfl) _ hf'
      intro t ht
      rcases align_cases (ha t ht) with h | h | h | h <;> simp [h]
    dsimp only
    rw [hcb] at hb
    generalize RV.reserve 4 (base rt) ats = N at hb hf ⊢
    obtain ⟨e, he, he4⟩ : ∃ e, (if fl = Flag.struct then 4 else 0) = e ∧ e ≤ 4 := ⟨_, rfl, by split <;> omega⟩
    rw [he] at hb ⊢
    rw [show (N + e) % 2 ^ 32 = N + e from Nat.mod_eq_of_lt (by omega), hx _ (by omega)] at hb
    have h1 : N + e ≤ roundUp (N + e) 8 := roundUp_ge (by decide)
    have h2 : roundUp (N + e) 8 < N + e + 8 := roundUp_lt (by decide)
    split <;> omega
  · dsimp only; split <;> omega
  · dsimp only; split <;> omega
  · dsimp only
    split
    · omega
    · rw [← hb]; exact Nat.mod_lt _ (by decide)

/-- Room for the arguments: always, but for complex results in memory only if no argument
is aligned to eight bytes. -/
theorem room {hard : Bool} {rt : FType} {ats : List FType} {c : Cif} (o : Bool) (ha : ∀ t ∈ ats, WF A32.tab t)
    (hp : Prepared hard rt ats c) (hf : Fits32 rt ats)
    (hc : rt.tc = .complex → retPlace hard rt = .mem → ∀ t ∈ ats, t.align < 8) :
    16 + (endFrom o hard ats (A32.start hard rt)).nsaa ≤ c.bytes := by
  have hi : Inv (A32.start hard rt) := ⟨by unfold A32.start; dsimp only; split <;> omega, by simp [A32.start], by simp [A32.start]⟩
  have hb4 : 4 ∣ base rt := by unfold base; split <;> decide
  have hfs := flag_struct hp.flag
  have hfin : ∀ e, RV.reserve 4 (base rt) ats + e ≤ c.bytes →
      Enough (endFrom o hard ats (A32.start hard rt)) (RV.reserve 4 (base rt) ats + e) →
      16 + (endFrom o hard ats (A32.start hard rt)).nsaa ≤ c.bytes := by
    intro e he hen
    unfold Enough at hen
    have := hp.min
    split at hen <;> omega
  have hbytes := hp.bytes hf
  have hstart : ∀ b, 4 * (A32.start hard rt).ncrn ≤ b → Enough (A32.start hard rt) b := by
    intro b hb
    unfold Enough
    rw [if_pos (show (A32.start hard rt).nsaa = 0 from rfl)]
    exact ⟨hb, by simp [A32.start], fun k hk => by simp [A32.start] at hk⟩
  by_cases hm : retPlace hard rt = .mem
  · have hst := hfs.2 hm
    have hn : (A32.start hard rt).ncrn = 1 := by unfold A32.start; rw [hm]; rfl
    have htc : rt.tc = .struct ∨ rt.tc = .complex := by have := hp.flag; rw [hst] at this; exact this.2
    rw [if_pos hst] at hbytes
    rcases htc with htc | htc
    · refine hfin 0 (by omega) (enough_all o hard (by decide) ha (Or.inl rfl) hi hb4 (hstart _ ?_))
      rw [hn]; unfold base; rw [if_pos htc]
    · refine hfin 4 hbytes (enough_all o hard (by decide) ha (Or.inr (hc htc hm)) hi hb4 (hstart _ ?_))
      rw [hn]; omega
  · have hn : (A32.start hard rt).ncrn = 0 := by unfold A32.start; simp [hm]
    refine hfin 0 (by omega) (enough_all o hard (by decide) ha (Or.inl rfl) hi hb4 (hstart _ ?_))
    rw [hn]; omega

/-! ## No candidates for VFP registers -/

theorem soft_places (o : Bool) : ∀ {ts : List FType}, (∀ t ∈ ts, cprc t = none) → ∀ p,
    placeFrom o true ts p = placeFrom o false ts p ∧ endFrom o true ts p = endFrom o false ts p
  | [], _, _ => ⟨rfl, rfl⟩
  | t :: ts, h, p => by
    have h1 : placeArg o true t p = placeArg o false t p := by
      unfold placeArg
      rw [if_pos rfl, h t (by simp)]
      rfl
    obtain ⟨h2, h3⟩ := soft_places o (ts := ts) (fun x hx => h x (List.mem_cons_of_mem _ hx)) (placeArg o true t p).2
    rw [placeFrom, placeFrom, endFrom, endFrom, h2, h3, h1]
    exact ⟨rfl, rfl⟩

/-- Whether VFP registers are used for arguments. -/
theorem vfp_cases {hard : Bool} {rt : FType} {ats : List FType} {c : Cif} (hp : Prepared hard rt ats c) :
    (vfpSize c = 64 ∧ hard = true ∧ viaVfp c = true) ∨ (vfpSize c = 0 ∧ viaVfp c = false ∧
      ∀ o p, placeFrom o hard ats p = placeFrom o false ats p ∧ endFrom o hard ats p = endFrom o false ats p) := by
  unfold vfpSize viaVfp
  rw [hp.hard_eq]
  cases hard with
  | false => right; simp
  | true =>
    by_cases h0 : c.vfp.used = 0
    · right
      have h1 := (bits_zero (hp.vfp rfl).2).1 h0
      exact ⟨by simp [h0], by simp [h0], fun o p => soft_places o (usedEnd_nil.1 h1) p⟩
    · left
      simp [h0]

/-! ## Registers loaded from the block -/

theorem cat_add (f : Nat → List Byte) (k n : Nat) : ∀ r, cat f k (n + r) = cat f k n ++ cat f (k + n) r
  | 0 => by simp [cat]
  | r + 1 => by
    rw [show n + (r + 1) = (n + r) + 1 by omega, cat, cat_add f k n r, cat, List.append_assoc,
      show k + (n + r) = k + n + r by omega]

theorem cat_rd {m : Mem} {a k : Nat} {f : Nat → List Byte} : ∀ {n}, (∀ i < n, f (k + i) = m.rd (a + 4 * (k + i)) 4) →
    cat f k n = m.rd (a + 4 * k) (4 * n)
  | 0, _ => rfl
  | n + 1, h => by
    rw [cat, cat_rd (fun i hi => h i (by omega)), h n (by omega), show 4 * (n + 1) = 4 * n + 4 by omega, Mem.rd_append]
    congr 2
    omega

/-- What is found at a place is what memory has at the address. -/
theorem at_core {R : Regs} {m : Mem} {stack k n : Nat} (hk : k ≤ 4) (hr : ∀ i < 4, R.r i = m.rd (stack + 4 * i) 4)
    (hsp : R.sp = stack + 16) (hm : ∀ x, stack + 16 ≤ x → x < stack + 4 * k + n → R.mem x = m x) :
    R.at n (.core k) = m.rd (stack + 4 * k) n := by
  unfold Regs.at
  dsimp only
  rw [cat_rd (m := m) (a := stack) (fun i hi => hr _ (by omega)), List.take_append, Mem.rd_length, hsp]
  by_cases h : n ≤ 4 * (4 - k)
  · rw [Mem.rd_take _ _ h, show n - 4 * (4 - k) = 0 by omega]
    simp
  · rw [List.take_of_length_le (by rw [Mem.rd_length]; omega), Mem.rd_take _ _ (by omega)]
    have e : n = 4 * (4 - k) + (n - 4 * (4 - k)) := by omega
    conv_rhs => rw [e, Mem.rd_append]
    congr 1
    rw [show stack + 4 * k + 4 * (4 - k) = stack + 16 by omega]
    exact Mem.rd_congr fun i hi => hm _ (by omega) (by omega)

theorem at_vfp {R : Regs} {m : Mem} {vs k j : Nat} (hk : k + j ≤ 16)
    (hs : ∀ i < j, R.s (k + i) = m.rd (vs + 4 * (k + i)) 4) : R.at (4 * j) (.vfp k) = m.rd (vs + 4 * k) (4 * j) := by
  unfold Regs.at
  dsimp only
  rw [show 16 - k = j + (16 - k - j) by omega, cat_add, cat_rd (m := m) (a := vs) hs]
  exact List.take_left' (Mem.rd_length _ _ _)

theorem cprc_word {t : FType} {n w : Nat} (h : cprc t = some (n, w)) : word t.tc = false := by
  cases t with
  | mk s a tc es =>
    cases tc <;> first
      | rfl
      | (simp [cprc, leaves, A32.fpWords] at h)

theorem place_core (o : Bool) {hard : Bool} {t : FType} {p : Pos} (hi : Inv p) {k : Nat}
    (h : (placeArg o hard t p).1 = .core k) : k ≤ 4 := by
  unfold placeArg at h
  split at h
  · split at h <;> cases h
  · dsimp only at h
    have hg : (if 8 ≤ t.align then roundUp p.ncrn 2 else p.ncrn) ≤ 4 := by
      split
      · exact roundUp_least (by decide) (by decide) hi.ncrn
      · exact hi.ncrn
    generalize (if 8 ≤ t.align then roundUp p.ncrn 2 else p.ncrn) = g at h hg
    split at h
    · cases h; exact hg
    · split at h
      · cases h; exact hg
      · cases h

theorem place_vfp (o : Bool) {hard : Bool} {t : FType} {p : Pos} {k : Nat} (h : (placeArg o hard t p).1 = .vfp k) :
    hard = true ∧ ∃ n w, t.size = 4 * (n * w) ∧ k + n * w ≤ 16 ∧ (∀ i < n * w, k + i ∈ (placeArg o hard t p).2.used) ∧
      cprc t = some (n, w) := by
  unfold placeArg at h ⊢
  cases hcp : (if hard = true then cprc t else none) with
  | some x =>
    obtain ⟨n, w⟩ := x
    have hh : hard = true := by
      cases hard
      · simp at hcp
      · rfl
    rw [hcp] at h
    rw [if_pos hh] at hcp
    dsimp only at h ⊢
    cases hl : lowest p.used (n * w) w with
    | none => rw [hl] at h; cases h
    | some k' =>
      rw [hl] at h
      cases h
      refine ⟨hh, n, w, cprc_size hcp, (lowest_some.1 hl).2.1.2.1, fun i hi => ?_, hcp⟩
      exact List.mem_append_right _ (mem_run.2 (by omega))
  | none =>
    rw [hcp] at h
    dsimp only at h
    generalize (if 8 ≤ t.align then roundUp p.ncrn 2 else p.ncrn) = g at h
    split at h
    · cases h
    · split at h <;> cases h

theorem allPassed_of_stored (o : Bool) {hard : Bool} {R : Regs} {m : Mem} {stack vs top : Nat} (hvs : hard = true → vs + 64 ≤ stack)
    (hr : ∀ i < 4, R.r i = m.rd (stack + 4 * i) 4) (hsp : R.sp = stack + 16)
    (hm : ∀ x, stack + 16 ≤ x → x < top → R.mem x = m x) :
    ∀ {ts : List FType} {vals : List (List Byte)} {p : Pos}, (∀ t ∈ ts, WF A32.tab t) → Inv p →
      stack + 16 + (endFrom o hard ts p).nsaa ≤ top →
      (hard = true → ∀ i ∈ usedEnd ts p.used, R.s i = m.rd (vs + 4 * i) 4) →
      Stored m ts vals (dests o hard stack vs ts p) → AllPassed R ts vals (placeFrom o hard ts p)
  | [], vals, p, _, _, _, _, hst => by
    cases vals with
    | nil => trivial
    | cons => exact hst
  | t :: ts, [], p, _, _, _, _, hst => hst
  | t :: ts, v :: vals, p, hw, hi, htop, hs, hst => by
    have hwt := hw t (by simp)
    obtain ⟨hc1, hc2⟩ := cell_spec hwt
    obtain ⟨hi', -⟩ := step_spec (stack := 64) (vs := 0) (c := 0) o (hard := hard) (t := t) (fun _ => by omega) hi (by omega) (Nat.le_refl _)
    have hmono := nsaa_mono o hard ts hi'
    rw [endFrom] at htop
    obtain ⟨-, -, hcell, -⟩ := step_spec (stack := stack) (vs := vs) (top := top) (c := cell t) o hvs hi hc2 (by omega)
    have hused : hard = true → usedEnd (t :: ts) p.used = usedEnd ts (placeArg o hard t p).2.used := by
      rintro rfl
      rw [← used_endFrom o, ← used_endFrom o, endFrom]
    obtain ⟨⟨hv, hwid⟩, hrest⟩ : (m.rd (addr stack vs (placeArg o hard t p).1) t.size = v ∧
        WidenedTo t v (m.rd (addr stack vs (placeArg o hard t p).1) 4)) ∧ Stored m ts vals (dests o hard stack vs ts (placeArg o hard t p).2) := hst
    refine ⟨?_, allPassed_of_stored o hvs hr hsp hm (fun x hx => hw x (by simp [hx])) hi' htop ?_ hrest⟩
    · have key : ∀ n, n ≤ cell t → (∀ k, (placeArg o hard t p).1 = .vfp k → n = t.size) →
          R.at n (placeArg o hard t p).1 = m.rd (addr stack vs (placeArg o hard t p).1) n := by
        intro n hn hvn
        cases hl : (placeArg o hard t p).1 with
        | core k =>
          rw [hl] at hcell
          have hk := place_core o hi hl
          refine at_core hk hr hsp fun x h1 h2 => hm x h1 ?_
          have hx := hcell x (by simp only [addr]; omega) (by simp only [addr]; omega)
          rcases hx with hx | hx | hx
          · omega
          · exact hx.2
          · have := hvs hx.1; omega
        | stack q =>
          rw [hl] at hcell
          unfold Regs.at
          dsimp only [addr]
          rw [hsp]
          refine Mem.rd_congr fun i hi => hm _ (by omega) ?_
          have hx := hcell (stack + 16 + q + i) (by simp only [addr]; omega) (by simp only [addr]; omega)
          rcases hx with hx | hx | hx
          · omega
          · exact hx.2
          · have := hvs hx.1; omega
        | vfp k =>
          obtain ⟨hh, n', w, h1, h2, h3, -⟩ := place_vfp o hl
          rw [hvn k hl, h1]
          refine at_vfp h2 fun i hi => hs hh _ ?_
          rw [hused hh]
          exact usedEnd_sub ts hi'.used _ (h3 i hi)
      refine ⟨by rw [key _ hc1 fun _ _ => rfl, hv], fun hwd => ?_⟩
      have h4 : cell t = 4 := if_pos hwd
      rw [key 4 (by omega)]
      · exact hwid hwd
      · intro k hl
        obtain ⟨-, n', w, h1, -, -, hcp⟩ := place_vfp o hl
        have hcpr : word t.tc = false := cprc_word hcp
        rw [hcpr] at hwd
        cases hwd
    · intro hh i hi
      exact hs hh i (by rw [hused hh]; exact hi)

theorem inv_end (o hard : Bool) : ∀ {ts : List FType} {p : Pos}, (∀ t ∈ ts, WF A32.tab t) → Inv p → Inv (endFrom o hard ts p)
  | [], _, _, hi => hi
  | t :: ts, p, hw, hi => by
    obtain ⟨hi', -⟩ := step_spec (stack := 64) (vs := 0) (c := 0) o (hard := hard) (t := t) (fun _ => by omega) hi (by omega) (Nat.le_refl _)
    rw [endFrom]
    exact inv_end o hard (fun x hx => hw x (by simp [hx])) hi'

/-! ## The call -/

/-- Bytes that `ffi_call_int` allocates. -/
def need (c : Cif) (rt : FType) (I : CallIn) : Nat := vfpSize c + c.bytes + 20 + rsize c.flag rt I.rvalue

/-- What a caller of `ffi_call` provides: room on the stack, and values that are not in
that room. -/
structure CallOk (c : Cif) (rt : FType) (ats : List FType) (I : CallIn) : Prop where
  len : I.avalue.length = ats.length
  fp : I.fp.length = 4
  lr : I.lr.length = 4
  closure : I.closure.length = 4
  lo : need c rt I + 8 ≤ I.sp
  hi : I.sp < 2 ^ 32
  src : ∀ q ∈ ats.zip I.avalue, ∀ i < q.1.size, I.sp ≤ q.2 + i ∨ q.2 + i + need c rt I + 8 ≤ I.sp

/-- What is prepared. -/
structure Entered (c : Cif) (rt : FType) (I : CallIn) (O : CallOut) : Prop where
  sp : O.entry.sp = O.stack + 16
  al : 8 ∣ O.stack
  lo : I.sp < O.stack - vfpSize c + need c rt I + 8
  hi : O.frame + 20 + rsize c.flag rt I.rvalue ≤ I.sp
  vs : vfpSize c ≤ O.stack
  frame : O.frame = O.stack + c.bytes
  rvalue : O.rvalue = if rsize c.flag rt I.rvalue ≠ 0 then O.frame + 20 else I.rvalue.getD 0
  keep : ∀ x, x < O.stack - vfpSize c ∨ O.frame + 20 ≤ x → O.entry.mem x = I.mem x
  fp : O.entry.mem.rd O.frame 4 = I.fp
  lr : O.entry.mem.rd (O.frame + 4) 4 = I.lr
  rvp : O.entry.mem.rd (O.frame + 8) 4 = leBytes 4 O.rvalue
  flag : O.entry.mem.rd (O.frame + 12) 4 = leBytes 4 (callFlag c.flag I.rvalue).num
  ip : O.ip = I.closure
  r0 : c.flag = .struct → O.entry.r 0 = leBytes 4 O.rvalue

theorem callFlag_struct (fl : Flag) (rv : Option Nat) : callFlag fl rv = .struct ↔ fl = .struct := by
  unfold callFlag
  cases rv <;> cases fl <;> simp

theorem callEntry_spec {hard : Bool} {c : Cif} {rt : FType} {ats : List FType} {I : CallIn} (ha : ∀ t ∈ ats, WF A32.tab t)
    (hp : Prepared hard rt ats c) (hroom : 16 + (endFrom true hard ats (A32.start hard rt)).nsaa ≤ c.bytes)
    (hI : CallOk c rt ats I) :
    ∃ O, callEntry c rt ats I = .ok O ∧ Entered c rt I O ∧
      AllPassed O.entry ats (argVals I.mem ats I.avalue) (placeFrom true hard ats (A32.start hard rt)) := by
  have hmin := hp.min
  have h8 := hp.mod
  obtain ⟨l1, l2, l3, l4, l5, l6, l7⟩ := hI
  have hfs := flag_struct hp.flag
  have hcf := callFlag_struct c.flag I.rvalue
  unfold need at l5 l7
  unfold callEntry
  dsimp only
  -- the block
  obtain ⟨vs, hvs⟩ : ∃ vs, alloca I.sp (vfpSize c + c.bytes + 20 + rsize c.flag rt I.rvalue) = vs := ⟨_, rfl⟩
  have hv8 : 8 ∣ vs := by rw [← hvs]; exact Nat.dvd_mul_left _ _
  have hvle : vs + (vfpSize c + c.bytes + 20 + rsize c.flag rt I.rvalue) ≤ I.sp ∧
      I.sp < vs + (vfpSize c + c.bytes + 20 + rsize c.flag rt I.rvalue) + 8 := by
    unfold alloca at hvs
    omega
  rw [hvs]
  generalize hrs : rsize c.flag rt I.rvalue = rs at *
  have hvz : 8 ∣ vfpSize c := by unfold vfpSize; split <;> decide
  generalize hz : vfpSize c = z at *
  generalize hst : vs + z = stack at *
  have hs8 : 8 ∣ stack := by omega
  generalize hbt : c.bytes = bytes at *
  generalize hfr : stack + bytes = frame at *
  generalize hrv : (if rs ≠ 0 then frame + 20 else I.rvalue.getD 0) = rv
  generalize hfl : callFlag c.flag I.rvalue = fl at *
  -- the frame
  obtain ⟨m1, hm1⟩ : ∃ m1, ((I.mem.wr (frame + 8) (leBytes 4 rv)).wr (frame + 12) (leBytes 4 fl.num)).wr (frame + 16) I.closure = m1 := ⟨_, rfl⟩
  rw [hm1]
  have k1 : ∀ x, x < frame + 8 ∨ frame + 20 ≤ x → m1 x = I.mem x := by
    intro x hx
    rw [← hm1, Mem.wr_out _ _ _ _ (by rw [l4]; omega), Mem.wr_out _ _ _ _ (by rw [leBytes_length]; omega),
      Mem.wr_out _ _ _ _ (by rw [leBytes_length]; omega)]
  have f1 : m1.rd (frame + 8) 4 = leBytes 4 rv := by
    rw [← hm1, Mem.rd_wr_disj _ _ _ _ _ (by omega), Mem.rd_wr_disj _ _ _ _ _ (by omega)]
    have := Mem.rd_wr_same I.mem (frame + 8) (leBytes 4 rv)
    rwa [leBytes_length] at this
  have f2 : m1.rd (frame + 12) 4 = leBytes 4 fl.num := by
    rw [← hm1, Mem.rd_wr_disj _ _ _ _ _ (by omega)]
    have := Mem.rd_wr_same (I.mem.wr (frame + 8) (leBytes 4 rv)) (frame + 12) (leBytes 4 fl.num)
    rwa [leBytes_length] at this
  have f3 : m1.rd (frame + 16) 4 = I.closure := by
    rw [← hm1]
    have := Mem.rd_wr_same ((I.mem.wr (frame + 8) (leBytes 4 rv)).wr (frame + 12) (leBytes 4 fl.num)) (frame + 16) I.closure
    rwa [l4] at this
  -- the address of the result
  obtain ⟨m2, hm2⟩ : ∃ m2, (if fl = .struct then m1.wr stack (leBytes 4 rv) else m1) = m2 := ⟨_, rfl⟩
  have k2 : ∀ x, x < stack ∨ stack + 4 ≤ x → m2 x = m1 x := by
    intro x hx
    rw [← hm2]
    split
    · exact Mem.wr_out _ _ _ _ (by rw [leBytes_length]; omega)
    · rfl
  have f4 : fl = .struct → m2.rd stack 4 = leBytes 4 rv := by
    intro h
    rw [← hm2, if_pos h]
    have := Mem.rd_wr_same m1 stack (leBytes 4 rv)
    rwa [leBytes_length] at this
  have hncrn : (A32.start hard rt).ncrn = if fl = .struct then 1 else 0 := by
    unfold A32.start
    dsimp only
    by_cases h : fl = .struct
    · rw [if_pos h, if_pos (hfs.1 (hcf.1 h))]
    · rw [if_neg h, if_neg (fun hc => h (hcf.2 (hfs.2 hc)))]
  have hnsaa : (A32.start hard rt).nsaa = 0 := rfl
  have hused : (A32.start hard rt).used = [] := rfl
  have hpp : (if fl = .struct then stack + 4 else stack) = stack + 4 * (A32.start hard rt).ncrn := by
    rw [hncrn]; split <;> omega
  have hi : Inv (A32.start hard rt) := ⟨by rw [hncrn]; split <;> omega, by rw [hnsaa]; omega, by rw [hused]; simp⟩
  -- the arguments
  have main : ∃ hd m3, (hd = true → vs + 64 ≤ stack ∧ hard = true ∧ z = 64) ∧
      prepArgs c fl ats I.avalue rv stack vs m1 = writeAll ((dests true hd stack vs ats (A32.start hard rt)).zip ats) I.avalue m2 ∧
      writeAll ((dests true hd stack vs ats (A32.start hard rt)).zip ats) I.avalue m2 = .ok m3 ∧
      placeFrom true hard ats (A32.start hard rt) = placeFrom true hd ats (A32.start hard rt) ∧
      endFrom true hard ats (A32.start hard rt) = endFrom true hd ats (A32.start hard rt) ∧
      (∀ x, ¬ Fut hd stack vs frame (A32.start hard rt) x → m3 x = m2 x) ∧
      Stored m3 ats (argVals m2 ats I.avalue) (dests true hd stack vs ats (A32.start hard rt)) := by
    have hfut : ∀ hd x, (hd = true → vs + 64 ≤ stack) → Fut hd stack vs frame (A32.start hard rt) x → vs ≤ x ∧ x < frame := by
      intro hd x h hx
      rcases hx with hx | hx | hx
      · omega
      · omega
      · have := h hx.1; omega
    have hsrc : ∀ hd, (hd = true → vs + 64 ≤ stack) → ∀ q ∈ ats.zip I.avalue, ∀ i < q.1.size,
        ¬ Fut hd stack vs frame (A32.start hard rt) (q.2 + i) := by
      intro hd hh q hq i hi hf
      have h1 := hfut hd _ hh hf
      have h2 := l7 q hq i hi
      omega
    rcases vfp_cases hp with ⟨v1, v2, v3⟩ | ⟨v1, v2, v3⟩
    · rw [hz] at v1
      have hvs' : true = true → vs + 64 ≤ stack := fun _ => by omega
      obtain ⟨m3, w1, w2, w3⟩ := writeAll_spec (top := frame) (stack := stack) (vs := vs) true (hard := true) (m := m2) hvs' ha l1 hi
        (by have := hroom; rw [v2] at this ⊢; omega) (hsrc true hvs')
      refine ⟨true, m3, fun _ => ⟨by omega, v2, v1⟩, ?_, w1, by rw [v2], by rw [v2], w2, w3⟩
      unfold prepArgs
      dsimp only
      rw [hm2, hpp, hz, if_pos (by omega)]
      have := hp.vfp v2
      refine outLoop_eq (pre := []) hs8 ha l1 hi ⟨?_, fun h => ?_, fun _ => rfl, ?_⟩ ?_ rfl (by have := hroom; rw [v2] at this ⊢; omega)
      · rw [hnsaa]
      · cases h
      · rw [hnsaa]; rfl
      · rw [this.1]; rfl
    · rw [hz] at v1
      obtain ⟨v4, v5⟩ := v3 true (A32.start hard rt)
      have hvs' : false = true → vs + 64 ≤ stack := fun h => by cases h
      obtain ⟨m3, w1, w2, w3⟩ := writeAll_spec (top := frame) (stack := stack) (vs := vs) true (hard := false) (m := m2) hvs' ha l1 hi
        (by rw [← v5]; omega) (hsrc false hvs')
      refine ⟨false, m3, fun h => (by cases h), ?_, w1, v4, v5, w2, w3⟩
      unfold prepArgs
      dsimp only
      rw [hm2, hpp, hz, if_neg (by omega)]
      refine sysvLoop_eq true hs8 ha l1 hi ⟨?_, fun h => absurd hnsaa h⟩ (by rw [← v5]; omega)
      rw [hnsaa, if_pos rfl, up4]
      omega
  obtain ⟨hd, m3, hhd, q1, q2, q3, q4, q5, q6⟩ := main
  rw [q1, q2]
  dsimp only
  -- what the arguments leave alone
  have k3 : ∀ x, x < vs ∨ frame ≤ x → m3 x = m2 x := by
    intro x hx
    apply q5
    intro hf
    rcases hf with hf | hf | hf
    · omega
    · omega
    · have := (hhd hf.1).1; omega
  have hvals : argVals m2 ats I.avalue = argVals I.mem ats I.avalue := by
    apply argVals_congr
    intro q hq i hi
    have := l7 q hq i hi
    rw [k2 _ (by omega), k1 _ (by omega)]
  obtain ⟨m4, hm4⟩ : ∃ m4, (m3.wr frame I.fp).wr (frame + 4) I.lr = m4 := ⟨_, rfl⟩
  have k4 : ∀ x, x < frame ∨ frame + 8 ≤ x → m4 x = m3 x := by
    intro x hx
    rw [← hm4, Mem.wr_out _ _ _ _ (by rw [l3]; omega), Mem.wr_out _ _ _ _ (by rw [l2]; omega)]
  have rdk : ∀ a n, (a + n ≤ stack ∨ stack + 4 ≤ a) → (a + n ≤ vs ∨ frame ≤ a) → (a + n ≤ frame ∨ frame + 8 ≤ a) → m4.rd a n = m1.rd a n := by
    intro a n h1 h2 h3
    apply Mem.rd_congr
    intro i hi
    rw [k4 _ (by omega), k3 _ (by omega), k2 _ (by omega)]
  refine ⟨_, rfl, ?_, ?_⟩
  · refine ⟨rfl, hs8, ?_, ?_, ?_, ?_, ?_, ?_, ?_, ?_, ?_, ?_, ?_, ?_⟩
    · unfold need enter
      dsimp only
      rw [hz, hbt, hrs]
      omega
    · unfold enter
      dsimp only
      rw [hrs]
      omega
    · unfold enter
      dsimp only
      omega
    · unfold enter
      dsimp only
      rw [hbt]
      omega
    · unfold enter
      dsimp only
      rw [hrs]
      exact hrv.symm
    · intro x hx
      unfold enter at hx ⊢
      dsimp only at hx ⊢
      rw [hm4]
      rw [hz] at hx
      rw [k4 _ (by omega), k3 _ (by omega), k2 _ (by omega), k1 _ (by omega)]
    · unfold enter
      dsimp only
      rw [Mem.rd_wr_disj _ _ _ _ _ (by omega)]
      have := Mem.rd_wr_same m3 frame I.fp
      rwa [l2] at this
    · unfold enter
      dsimp only
      have := Mem.rd_wr_same (m3.wr frame I.fp) (frame + 4) I.lr
      rwa [l3] at this
    · unfold enter
      dsimp only
      rw [hm4, rdk _ _ (by omega) (by omega) (by omega), f1]
    · unfold enter
      dsimp only
      rw [hm4, rdk _ _ (by omega) (by omega) (by omega), f2, hfl]
    · unfold enter
      dsimp only
      rw [hm4, rdk _ _ (by omega) (by omega) (by omega), f3]
    · intro hfs'
      have hst' := hcf.2 hfs'
      unfold enter
      dsimp only
      rw [hm4, Nat.mul_zero, Nat.add_zero, ← f4 hst']
      apply Mem.rd_congr
      intro i hi4
      rw [k4 _ (by omega)]
      apply q5
      intro hf
      rw [if_pos hst'] at hncrn
      rcases hf with hf | hf | hf
      · omega
      · omega
      · have := (hhd hf.1).1; omega
  · rw [q3, ← hvals]
    refine allPassed_of_stored true (top := frame) (stack := stack) (vs := vs) (m := m3) (fun h => (hhd h).1) ?_ rfl ?_ ha hi
      (by rw [← q4]; omega) ?_ q6
    · intro i hi4
      unfold enter
      dsimp only
      rw [hm4]
      exact Mem.rd_congr fun j hj => k4 _ (by omega)
    · intro x h1 h2
      unfold enter
      dsimp only
      rw [hm4]
      exact k4 _ (by omega)
    · intro hh i hiu
      obtain ⟨g1, g2, g3⟩ := hhd hh
      rw [hused] at hiu
      have hbit := (hp.vfp g2).2 i
      rw [decide_eq_true hiu] at hbit
      have hlt : i < 16 := by
        have := (inv_end true true ha hi).used i
        rw [used_endFrom, hused] at this
        exact this hiu
      unfold enter
      dsimp only
      rw [if_pos]
      refine ⟨by rw [hz]; omega, ?_⟩
      by_cases h3 : 3 < c.vfp.used
      · exact Or.inr ⟨h3, hlt⟩
      · left
        by_contra hge
        have : c.vfp.used < 2 ^ i := by
          have : (2 : Nat) ^ 2 ≤ 2 ^ i := Nat.pow_le_pow_right (by decide) (by omega)
          omega
        rw [Nat.testBit_lt_two_pow this] at hbit
        cases hbit

end Verif.Arm
