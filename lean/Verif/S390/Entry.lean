import Verif.S390.Call

/-! `ffi_call_int` as a whole. -/
namespace Verif.S390
open Verif Verif.Spec Verif.Spec.S390

/-- The state that `ffi_call_SYSV` finds. -/
structure Entered (c : Cfg) (cif : Cif) (rt : FType) (ats : List FType) (I : CallIn) (O : CallOut) (sp : Nat) : Prop where
  stack : O.stack = sp + saveArea c.w
  aligned : 8 ∣ O.stack
  frame : O.frame = O.stack + cif.bytes
  room : O.frame + frameSize c ≤ I.top
  low : O.stack + 7 + cif.bytes + frameSize c + (if retPlace rt = .mem ∧ I.rvalue = 0 then rt.size else 0) ≥ I.top
  out : ∀ x, x < O.stack ∨ O.frame + frameSize c ≤ x → O.mem x = I.mem x
  chain : O.mem.rd O.frame c.w = beBytes c.w I.fp
  ret : O.rvalue = (if retPlace rt = .mem ∧ I.rvalue = 0 then O.frame + frameSize c else I.rvalue)
  faked : retPlace rt = .mem ∧ I.rvalue = 0 → O.rvalue + rt.size ≤ I.top
  typ : O.retType = (if I.rvalue = 0 then retVoid else cif.flags &&& 7)
  args : ∀ m2 : Mem, (∀ x, ¬ Out c O.frame O.stack x → m2 x = O.mem x) →
    AllPassed c.w (img c O.frame sp m2) ats (vals I.mem ats I.avalue) (places c.w rt ats) ∧
    (∀ x ∈ copies c.w (img c O.frame sp m2) ats (places c.w rt ats),
      O.stack + (endFrom c.w ats (start rt)).ns ≤ x.1 ∧ x.1 + x.2 ≤ O.frame ∧ 8 ∣ x.1) ∧
    (copies c.w (img c O.frame sp m2) ats (places c.w rt ats)).Pairwise (fun x y => y.1 + y.2 ≤ x.1) ∧
    (retPlace rt = .mem → beNat ((img c O.frame sp m2).gpr 0) = O.rvalue)

theorem roundSize_dvd (n : Nat) : 16 ∣ roundSize n := ⟨_, Nat.mul_comm _ _⟩

theorem copySum_dvd : ∀ ts, 16 ∣ copySum ts
  | [] => ⟨0, rfl⟩
  | t :: ts => Nat.dvd_add (copyBytes_dvd t) (copySum_dvd ts)

theorem retFlags_le {c : Cfg} (rt : FType) : retFlags c rt &&& 7 = (if retPlace rt = .mem then retVoid else retFlags c rt) := by
  unfold retFlags retPlace
  cases rt.tc <;> simp <;> (try split) <;> decide

theorem callEntry_ok {c : Cfg} (hc : c.Ok) {rt : FType} {ats : List FType} (hwf : ∀ t ∈ ats, WF (tab c.w) t) (hrt : retPlace rt = .mem → 0 < rt.size)
    (I : CallIn) (hb : prepBytes c rt ats < 2 ^ 32) (hl : I.avalue.length = ats.length) (htop : I.top < 256 ^ c.w) (hrv : I.rvalue < 256 ^ c.w)
    (hroom : saveArea c.w + prepBytes c rt ats + frameSize c + rt.size + 7 ≤ I.top)
    (ha : ∀ (i : Nat) (t : FType) (a : Nat), ats[i]? = some t → I.avalue[i]? = some a →
      a + t.size ≤ (callEntry c (prepCif c rt ats) rt ats I).stack ∨ I.top ≤ a) :
    ∃ sp, Entered c (prepCif c rt ats) rt ats I (callEntry c (prepCif c rt ats) rt ats I) sp := by
  have hcw : c.w = 4 ∨ c.w = 8 := hc
  have hB : (prepCif c rt ats).bytes = prepBytes c rt ats := Nat.mod_eq_of_lt hb
  have hfl : (prepCif c rt ats).flags = retFlags c rt := rfl
  have hbe := prepBytes_eq (c := c) hc (rt := rt) hwf
  have hre : retOf (prepCif c rt ats) rt I.rvalue = (if I.rvalue = 0 ∧ retPlace rt ≠ .mem then retVoid else retFlags c rt,
      if retPlace rt = .mem ∧ I.rvalue = 0 then rt.size else 0) := by
    unfold retOf
    rw [hfl]
    by_cases h0 : I.rvalue = 0 <;> by_cases hm : retPlace rt = .mem
    · rw [if_pos h0, if_pos ((flags_mem rt).2 hm), if_neg (by tauto), if_pos ⟨hm, h0⟩]
    · rw [if_pos h0, if_neg (fun h => hm ((flags_mem rt).1 h)), if_pos ⟨h0, hm⟩, if_neg (by tauto)]
    · rw [if_neg h0, if_neg (by tauto), if_neg (by tauto)]
    · rw [if_neg h0, if_neg (by tauto), if_neg (by tauto)]
  -- the pieces
  generalize hrs : (if retPlace rt = .mem ∧ I.rvalue = 0 then rt.size else 0) = rs at hre
  generalize hS : (I.top - ((prepCif c rt ats).bytes + frameSize c + rs)) / 8 * 8 = S
  generalize hF : S + (prepCif c rt ats).bytes = F
  generalize hR : (if rs ≠ 0 then F + frameSize c else I.rvalue) = R
  generalize hm0 : I.mem.wr F (beBytes c.w I.fp) = m0
  generalize hm1 : (if retPlace rt = .mem then m0.wr (F + gprOff c 0) (beBytes c.w R) else m0) = m1
  have hrs' : rs ≤ rt.size := by rw [← hrs]; split <;> omega
  have e : callEntry c (prepCif c rt ats) rt ats I =
      ⟨(callLoop c F S ats I.avalue ⟨(start rt).ng, 0, 0, F⟩ m1).2, S, F,
        (if I.rvalue = 0 ∧ retPlace rt ≠ .mem then retVoid else retFlags c rt) &&& 7, R⟩ := by
    unfold callEntry
    rw [hre]
    dsimp only
    rw [hS, hF, hR, hm0]
    by_cases hm : retPlace rt = .mem
    · have h1 : (start rt).ng = 1 := by unfold start; rw [if_pos hm]
      have : (prepCif c rt ats).flags &&& retInMem ≠ 0 := (flags_mem (c := c) rt).2 hm
      rw [if_pos this, h1, ← hm1, if_pos hm]
    · have h1 : (start rt).ng = 0 := by unfold start; rw [if_neg hm]
      have : ¬ ((prepCif c rt ats).flags &&& retInMem ≠ 0) := fun h => hm ((flags_mem rt).1 h)
      rw [if_neg this, h1, ← hm1, if_neg hm]
  rw [e] at ha ⊢
  rw [hB] at hS hF
  have hS8 : 8 ∣ S := by rw [← hS]; exact ⟨_, Nat.mul_comm _ _⟩
  have hs1 : S + prepBytes c rt ats + frameSize c + rs ≤ I.top := by omega
  have hs2 : I.top ≤ S + 7 + prepBytes c rt ats + frameSize c + rs := by omega
  have hsp : saveArea c.w ≤ S := by omega
  have hsum := copySum_dvd ats
  have hrd := roundSize_dvd (endFrom c.w ats (start rt)).ns
  have hge := roundSize_ge (endFrom c.w ats (start rt)).ns
  have hR4 : R < 256 ^ c.w := by rw [← hR]; split <;> omega
  have hsim : Sim c (start rt).ng 0 0 (start rt) := by
    refine ⟨rfl, rfl, rfl, ?_, Nat.zero_le _⟩
    unfold start; dsimp only; split <;> omega
  have lp := callLoop_ok hc (sp := S - saveArea c.w) (by omega) (F := F) (S := S) (by omega) (ts := ats) (as := I.avalue)
    (s := ⟨(start rt).ng, 0, 0, F⟩) m1 hwf hl
    (fun i t a h1 h2 => by have := ha i t a h1 h2; dsimp only at this; omega) hsim (by dsimp only; omega) (Nat.le_refl _)
  dsimp only at lp
  have hgw : ∀ x, x < F ∨ F + 7 * c.w ≤ x → m1 x = I.mem x := by
    intro x hx
    have h0 : m0 x = I.mem x := by
      rw [← hm0]; exact Mem.wr_out _ _ _ _ (by rw [beBytes_length]; omega)
    rw [← hm1]
    split
    · rw [Mem.wr_out _ _ _ _ (by rw [beBytes_length]; unfold gprOff; omega), h0]
    · exact h0
  have hv : vals m1 ats I.avalue = vals I.mem ats I.avalue := by
    apply vals_congr
    intro i t a h1 h2
    apply Mem.rd_congr
    intro j hj
    have := ha i t a h1 h2
    dsimp only at this
    apply hgw
    unfold frameSize at *
    omega
  have hng : (start rt).ng ≤ 1 := by unfold start; dsimp only; split <;> omega
  have hnf : ∀ x, x < S ∨ F + frameSize c ≤ x ∨ (F ≤ x ∧ x < F + gprOff c (start rt).ng) → ¬ Fut c F S (start rt) F x := by
    intro x hx
    unfold Fut
    have h1 : (start rt).nf = 0 := rfl
    have h2 : (start rt).ns = 0 := rfl
    rw [h1, h2]
    generalize (start rt).ng = g at *
    obtain ⟨w⟩ := c
    rcases hc with rfl | rfl <;> unfold gprOff fprOff frameSize at * <;> dsimp only at * <;> omega
  refine ⟨S - saveArea c.w, by dsimp only; omega, hS8, by dsimp only; rw [hB]; omega, by dsimp only; omega, ?_, ?_, ?_, ?_, ?_, ?_, ?_⟩
  · dsimp only; rw [hrs, hB]; omega
  · intro x hx
    dsimp only at hx ⊢
    rw [lp.keep x (hnf x (by omega))]
    exact hgw x (by unfold frameSize at hx; omega)
  · dsimp only
    have : (callLoop c F S ats I.avalue ⟨(start rt).ng, 0, 0, F⟩ m1).2.rd F c.w = m0.rd F c.w := by
      apply Mem.rd_congr
      intro i hi
      rw [lp.keep _ (hnf _ (by unfold gprOff; omega)), ← hm1]
      split
      · exact Mem.wr_out _ _ _ _ (by unfold gprOff; omega)
      · rfl
    rw [this, ← hm0]
    have := Mem.rd_wr_same I.mem F (beBytes c.w I.fp)
    rwa [beBytes_length] at this
  · dsimp only
    rw [← hR, ← hrs]
    by_cases hm : retPlace rt = .mem ∧ I.rvalue = 0
    · have := hrt hm.1
      rw [if_pos hm, if_pos hm, if_pos (by omega)]
    · rw [if_neg hm, if_neg hm, if_neg (by omega)]
  · intro hm
    dsimp only
    have := hrt hm.1
    rw [← hR]
    rw [if_pos hm] at hrs
    rw [if_pos (by omega)]
    omega
  · dsimp only
    rw [hfl]
    by_cases h0 : I.rvalue = 0
    · rw [if_pos h0]
      by_cases hm : retPlace rt = .mem
      · rw [if_neg (by tauto), retFlags_le, if_pos hm]
      · rw [if_pos ⟨h0, hm⟩]; rfl
    · rw [if_neg h0, if_neg (by tauto)]
  · intro m2 h2
    dsimp only at h2 ⊢
    obtain ⟨v1, v2, v3⟩ := lp.val m2 (fun x _ h4 => h2 x h4)
    rw [hv] at v1
    refine ⟨v1, ?_, v3, ?_⟩
    · intro x hx
      obtain ⟨a1, a2, a3⟩ := v2 x hx
      refine ⟨by omega, a2, a3 ?_⟩
      rw [← hF, hbe]
      omega
    · intro hm
      have hg1 : (start rt).ng = 1 := by unfold start; rw [if_pos hm]
      show beNat (m2.rd (F + gprOff c 0) c.w) = R
      have : m2.rd (F + gprOff c 0) c.w = beBytes c.w R := by
        have h5 := Mem.rd_wr_same m0 (F + gprOff c 0) (beBytes c.w R)
        rw [beBytes_length] at h5
        rw [← h5]
        apply Mem.rd_congr
        intro i hi
        rw [h2 _ (by unfold Out gprOff frameSize; omega), lp.keep _ (hnf _ (by rw [hg1]; unfold gprOff; omega)), ← hm1, if_pos hm]
      rw [this, beNat_beBytes, Nat.mod_eq_of_lt hR4]

end Verif.S390
