import Verif.S390.WholeClosure
import Verif.Spec.Build

/-!
C82-C85: S/390 and z/Architecture (`src/s390`), both word sizes: `w = 4` and `w = 8`.
-/
namespace Verif.Props
open Verif Verif.Spec Verif.Spec.S390 Verif.S390 Verif.S390.Asm

/-- `ffi_call_int` calls `ffi_call_SYSV (frame, ret_type, rvalue, fn, closure)`, src/s390/ffi.c:478. -/
structure S390AtCall (w L : Nat) (I : CallIn) (O : CallOut) (s : M) : Prop where
  pc : s.pc = L
  r2 : s.r 2 = O.frame
  r3 : s.r 3 = O.retType
  r4 : s.r 4 = O.rvalue
  r5 : s.r 5 = I.fn
  r6 : s.r 6 = I.closure
  sp : s.r 15 + saveArea w = O.stack
  mem : s.mem = O.mem
  regs : ∀ k, s.r k < 256 ^ w
  fregs : ∀ k, (s.f k).length = 8

/-- What `ffi_call` can be asked for: the type and value of every argument, memory for the call. -/
structure S390Call (w : Nat) (rt : FType) (ats : List FType) (I : CallIn) (O : CallOut) : Prop where
  word : w = 4 ∨ w = 8
  rtype : rt.tc = .void ∨ WF (tab w) rt
  types : ∀ t ∈ ats, WF (tab w) t
  vals : I.avalue.length = ats.length
  out : O = callEntry ⟨w⟩ (S390.prepCif ⟨w⟩ rt ats) rt ats I
  top : I.top < 256 ^ w
  rvalue : I.rvalue < 256 ^ w
  room : saveArea w + prepBytes ⟨w⟩ rt ats + frameSize ⟨w⟩ + rt.size + 7 ≤ I.top
  apart : ∀ (i : Nat) (t : FType) (a : Nat), ats[i]? = some t → I.avalue[i]? = some a → a + t.size ≤ O.stack ∨ I.top ≤ a

/-- The function is entered. -/
structure S390Entry (w : Nat) (rt : FType) (ats : List FType) (I : CallIn) (O : CallOut) (t : M) : Prop where
  pc : t.pc = I.fn
  chain : t.r 0 = I.closure
  args : AllPassed w (mregs w t) ats (vals I.mem ats I.avalue) (places w rt ats)
  copied : ∀ x ∈ copies w (mregs w t) ats (places w rt ats), t.r 15 + saveArea w + (endFrom w ats (start rt)).ns ≤ x.1 ∧ x.1 + x.2 ≤ O.frame ∧ 8 ∣ x.1
  disj : (copies w (mregs w t) ats (places w rt ats)).Pairwise (fun x y => y.1 + y.2 ≤ x.1)
  mem : retPlace rt = .mem → t.r 2 = O.rvalue
  given : I.rvalue ≠ 0 → O.rvalue = I.rvalue
  fake : retPlace rt = .mem → I.rvalue = 0 → O.frame + frameSize ⟨w⟩ ≤ O.rvalue ∧ O.rvalue + rt.size ≤ I.top
  sp : t.r 15 + saveArea w = O.stack ∧ 8 ∣ t.r 15
  frame : O.stack + (endFrom w ats (start rt)).ns ≤ O.frame ∧ O.frame + frameSize ⟨w⟩ ≤ I.top
  back : t.mem.rd (t.r 15) w = beBytes w O.frame ∧ t.mem.rd O.frame w = beBytes w I.fp
  rest : ∀ x, x < t.r 15 ∨ I.top ≤ x → t.mem x = I.mem x
  regs : ∀ k, 2 ≤ k → k ≤ 15 → t.r k < 256 ^ w
  fregs : ∀ k, (t.f k).length = 8

theorem s390_retType {w : Nat} (hw : w = 4 ∨ w = 8) {rt : FType} (hrt : rt.tc = .void ∨ WF (tab w) rt) : retFlags ⟨w⟩ rt &&& 7 ≤ 4 := by
  rcases rcls hw hrt with ⟨h1, h2⟩ | ⟨h1, h2, h3, h4⟩ | ⟨h1, h2, h3, h4⟩ | ⟨h1, h2, h3, h4, h5⟩ | ⟨h1, h2, h3, h4⟩
  · omega
  · omega
  · omega
  · omega
  · split at h4 <;> omega

/-- C82: `ffi_call`. Partial: `cif->bytes` has 32 bits; the argument area must be smaller than 4 GiB. -/
theorem s390_call_partial {w L H : Nat} {rt : FType} {ats : List FType} {I : CallIn} {O : CallOut} (h : S390Call w rt ats I O) (hb : prepBytes ⟨w⟩ rt ats < 2 ^ 32)
    (hL : L + 512 < 256 ^ w) {s : M} (hs : S390AtCall w L I O s) :
    ∃ t, Runs w L H s t ∧ S390Entry w rt ats I O t ∧
      ∀ u, Conforms w t u → (∀ x, O.frame ≤ x → x < O.frame + frameSize ⟨w⟩ → u.mem x = t.mem x) →
        (I.rvalue ≠ 0 → I.rvalue + resSize w rt ≤ O.frame ∨ O.frame + frameSize ⟨w⟩ ≤ I.rvalue) →
        ∃ v, Runs w L H u v ∧ v.pc = s.r 14 ∧ (∀ k, 6 ≤ k → k ≤ 13 ∨ k = 15 → v.r k = s.r k) ∧ (∀ k, fprSaved w k → v.f k = s.f k) ∧
          (I.rvalue = 0 → v.mem = u.mem) ∧
          (I.rvalue ≠ 0 → (∀ x, x < I.rvalue ∨ I.rvalue + resSize w rt ≤ x → v.mem x = u.mem x) ∧
            ∀ val, Returned w rt val (beBytes w (u.r 2)) (beBytes w (u.r 3)) (u.f 0) → Got w rt val v.mem I.rvalue) := by
  have hw := h.word
  obtain ⟨sp, hE⟩ := callEntry_ok (c := ⟨w⟩) hw h.types (fun hm => by
      rcases h.rtype with hv | hv
      · unfold retPlace at hm; rw [hv] at hm; cases hm
      · exact Spec.WF.size_pos (tab_ok hw) hv) I hb h.vals h.top h.rvalue h.room (by rw [← h.out]; exact h.apart)
  rw [← h.out] at hE
  have hsp : s.r 15 = sp := by have := hE.stack; have := hs.sp; dsimp only at *; omega
  have hfr : O.frame = O.stack + prepBytes ⟨w⟩ rt ats := by
    rw [hE.frame]; congr 1; exact Nat.mod_eq_of_lt hb
  have hpb := prepBytes_eq (c := ⟨w⟩) hw (rt := rt) h.types
  have hsa : 2 * w ≤ saveArea w := by rcases hw with rfl | rfl <;> decide
  have hty : O.retType ≤ 4 := by
    rw [hE.typ]
    split
    · exact Nat.le_refl _
    · exact s390_retType hw h.rtype
  have hst : O.stack ≤ O.frame := by omega
  have hroom : s.r 15 + w ≤ s.r 2 := by rw [hs.r2]; have := hs.sp; omega
  obtain ⟨t, ht, hc⟩ := call_head hw (L := L) (H := H) hs.pc hL (by rw [hs.r3]; exact hty) hroom
  have heq := called_regs (c := ⟨w⟩) hroom hc
  have hF : s.r 2 = O.frame := hs.r2
  have hfz : frameSize ⟨w⟩ = 16 * w + 32 := rfl
  have t15 : t.r 15 = s.r 15 := hc.rest 15 (by decide) (.inr rfl)
  have hsp' := hs.sp
  have hmt : ∀ x, ¬ Out ⟨w⟩ O.frame O.stack x → t.mem x = O.mem x := by
    intro x hx
    unfold Out at hx
    dsimp only at hx
    rw [hc.mem, savedMem_out s (by omega) (by omega), hs.mem]
  obtain ⟨a1, a2, a3, a4⟩ := hE.args t.mem hmt
  rw [← hsp, ← hF] at a1 a2 a3 a4
  have sreg := savedMem_regs s hroom
  refine ⟨t, ht, ⟨hc.pc.trans hs.r5, hc.chain.trans hs.r6, AllPassed_congr heq a1, ?_, ?_, ?_, ?_, ?_, ?_, ?_, ?_, ?_, ?_, ?_⟩, ?_⟩
  · intro x hx
    have := a2 x (by unfold places; rw [copies_congr heq]; exact hx)
    refine ⟨?_, ?_, this.2.2⟩
    · have := this.1; dsimp only at this; rw [t15]; omega
    · have := this.2.1; omega
  · unfold places; rw [← copies_congr heq]; exact a3
  · intro hm
    have e0 := heq.gpr 0 (by decide)
    have := a4 hm
    rw [e0] at this
    rw [← this]
    show t.r 2 = beNat (beBytes w (t.r (2 + 0)))
    rw [hc.args 0 (by decide), beNat_beBytes, Nat.mod_eq_of_lt]
    have := beNat_lt (s.mem.rd (s.r 2 + gprOff ⟨w⟩ 0) w)
    rwa [Mem.rd_length] at this
  · intro hr; rw [hE.ret, if_neg (fun hh => hr hh.2)]
  · intro hm hr
    have := hE.faked ⟨hm, hr⟩
    exact ⟨by rw [hE.ret, if_pos ⟨hm, hr⟩], this⟩
  · refine ⟨by rw [t15]; exact hsp', ?_⟩
    have := hE.aligned
    rw [t15]
    rcases hw with rfl | rfl
    · have : saveArea 4 = 96 := rfl; omega
    · have : saveArea 8 = 160 := rfl; omega
  · refine ⟨by rw [hfr, hpb]; have := roundSize_ge (endFrom w ats (start rt)).ns; dsimp only; omega, hE.room⟩
  · rw [t15, hc.mem, ← hF]
    refine ⟨?_, ?_⟩
    · exact wr_rd _ _ (beBytes_length _ _)
    · rw [savedMem_rd s (by omega) (by omega), hs.mem, hF]; exact hE.chain
  · intro x hx
    rw [t15] at hx
    have := hE.room
    rw [hc.mem, savedMem_out s (by rcases hw with rfl | rfl <;> omega) (by omega), hs.mem, hE.out x (by omega)]
  · intro k h2 h15
    by_cases h6 : k ≤ 6
    · obtain ⟨j, rfl⟩ : ∃ j, k = 2 + j := ⟨k - 2, by omega⟩
      rw [hc.args j (by omega)]
      have := beNat_lt (s.mem.rd (s.r 2 + gprOff ⟨w⟩ j) w)
      rwa [Mem.rd_length] at this
    · by_cases h7 : k ≤ 11 ∨ k = 15
      · rw [hc.rest k (by omega) h7]; exact hs.regs k
      · rcases (show k = 12 ∨ k = 13 ∨ k = 14 by omega) with rfl | rfl | rfl
        · rw [hc.rv]; exact hs.regs 4
        · rw [hc.frame]; exact hs.regs 2
        · rw [hc.ra, hs.r3]
          have : off w .table ≤ 400 := by rcases hw with rfl | rfl <;> decide +kernel
          omega
  · intro k
    by_cases hk : k % 2 = 1 ∨ 2 * fprs w ≤ k
    · rw [hc.frest k hk]; exact hs.fregs k
    · obtain ⟨j, rfl⟩ : ∃ j, k = 2 * j := ⟨k / 2, by omega⟩
      rw [hc.fp j (by omega), Mem.rd_length]
  · intro u hu hk hrv
    obtain ⟨v, hv, hb⟩ := call_tail hw (L := L) (H := H) (F := O.frame) (rv := O.rvalue) (ret := O.retType) hty (u := u)
      (by rw [hu.pc, hc.ra, hs.r3]) (by rw [hu.r 13 (by decide) (by decide), hc.frame, hF]) (by rw [hu.r 12 (by decide) (by decide), hc.rv, hs.r4])
    have hst : (I.rvalue = 0 → stored w O.retType O.rvalue u = u.mem) ∧
        (I.rvalue ≠ 0 → (∀ x, x < I.rvalue ∨ I.rvalue + resSize w rt ≤ x → stored w O.retType O.rvalue u x = u.mem x) ∧
            ∀ val, Returned w rt val (beBytes w (u.r 2)) (beBytes w (u.r 3)) (u.f 0) → Got w rt val (stored w O.retType O.rvalue u) I.rvalue) := by
      refine ⟨fun h0 => ?_, fun h0 => ?_⟩
      · rw [hE.typ, if_pos h0]; rfl
      · rw [hE.typ, if_neg h0, hE.ret, if_neg (fun hh => h0 hh.2)]
        exact stored_ok hw h.rtype hu.f0
    have kept : ∀ k, 11 ≤ k → k ≤ 14 → (stored w O.retType O.rvalue u).rd (O.frame + k * w) w = (savedMem w s).rd (O.frame + k * w) w := by
      intro k h1 h2
      have b1 : 11 * w ≤ k * w := Nat.mul_le_mul_right _ h1
      have b2 : k * w ≤ 14 * w := Nat.mul_le_mul_right _ h2
      rw [← hc.mem]
      apply Mem.rd_congr
      intro i hi
      rw [← hk _ (by omega) (by omega)]
      by_cases h0 : I.rvalue = 0
      · rw [hst.1 h0]
      · exact (hst.2 h0).1 _ (by have := hrv h0; omega)
    rw [hF] at sreg
    have r6 : v.r 6 = s.r 6 := by rw [hb.r6, kept 11 (by decide) (by decide), sreg.1, beNat_beBytes, Nat.mod_eq_of_lt (hs.regs 6)]
    have r12 : v.r 12 = s.r 12 := by rw [hb.r12, kept 12 (by decide) (by decide), sreg.2.1, beNat_beBytes, Nat.mod_eq_of_lt (hs.regs 12)]
    have r13 : v.r 13 = s.r 13 := by rw [hb.r13, kept 13 (by decide) (by decide), sreg.2.2.1, beNat_beBytes, Nat.mod_eq_of_lt (hs.regs 13)]
    refine ⟨v, hv, ?_, ?_, ?_, ?_, ?_⟩
    · rw [hb.pc, kept 14 (by decide) (by decide), sreg.2.2.2, beNat_beBytes, Nat.mod_eq_of_lt (hs.regs 14)]
    · intro k h1 h2
      by_cases h3 : 7 ≤ k ∧ (k ≤ 11 ∨ k = 15)
      · rw [hb.rest k h3.1 h3.2, hu.r k h1 h2, hc.rest k h3.1 h3.2]
      · rcases (show k = 6 ∨ k = 12 ∨ k = 13 by omega) with rfl | rfl | rfl <;> assumption
    · intro k hk'
      rw [hb.f, hu.f k hk', hc.frest k]
      unfold fprSaved at hk'
      rcases hw with rfl | rfl
      · rw [if_neg (by decide)] at hk'; have : fprs 4 = 2 := rfl; omega
      · rw [if_pos rfl] at hk'; have : fprs 8 = 4 := rfl; omega
    · intro h0; rw [hb.mem, hst.1 h0]
    · intro h0; rw [hb.mem]; exact hst.2 h0

/-! ## Closures -/

/-- A function with these arguments is entered: `s` is the state. -/
structure S390Arrive (w : Nat) (rt : FType) (ats : List FType) (vs : List (List Byte)) (s : M) : Prop where
  word : w = 4 ∨ w = 8
  rtype : rt.tc = .void ∨ WF (tab w) rt
  types : ∀ t ∈ ats, WF (tab w) t
  sizes : vs.map (·.length) = ats.map (·.size)
  passed : AllPassed w (mregs w s) ats vs (places w rt ats)
  regs : ∀ k, 2 ≤ k → k ≤ 15 → s.r k < 256 ^ w
  fregs : ∀ k, (s.f k).length = 8
  room : saveArea w + 2 * w ≤ s.r 15
  top : s.r 15 + saveArea w < 256 ^ w

/-- The helper is called with `cif`, `fun`, `user_data`; it finds the arguments `vs` and the place for the
result.  `m1` is memory when the handler is called: the helper has written nothing but its own frame,
from `lo`. -/
structure S390Handler (w : Nat) (rt : FType) (ats : List FType) (vs : List (List Byte)) (s t : M) (H cif fn user : Nat) : Prop where
  pc : t.pc = H
  cif : t.r 2 = cif
  fn : t.r 3 = fn
  user : t.r 4 = user
  sp : t.r 15 + (saveArea w + 2 * w) = s.r 15
  mem : ∀ x, x < t.r 15 ∨ s.r 15 + saveArea w ≤ x → t.mem x = s.mem x
  view : ∀ (lo : Nat) (m1 : Mem), lo ≤ t.r 15 → (∀ x, x < lo ∨ t.r 15 ≤ x → m1 x = t.mem x) →
    (∀ x ∈ copies w (mregs w s) ats (places w rt ats), x.1 + x.2 ≤ lo ∨ s.r 15 + saveArea w ≤ x.1) → ∀ ret,
    let po := beNat (t.mem.rd (t.r 15 + saveArea w) w)
    let V := closureView ⟨w⟩ (S390.prepCif ⟨w⟩ rt ats) ats (t.r 5) (t.r 6) po ret m1
    V.1 = (if retPlace rt = .mem then s.r 2 else ret) ∧ V.2.length = ats.length ∧ vals m1 ats V.2 = vs

/-- The helper returns; `m2` is memory after the handler, which has left alone the registers that
`.Ldoclosure` saved, and its fifth word. -/
structure S390Done (w : Nat) (rt : FType) (s t u : M) (ret : Nat) (m2 : Mem) : Prop where
  abi : Conforms w t u
  buf : ret + 8 ≤ t.r 15
  saved : ∀ x, s.r 15 + firstSaved w * w ≤ x → x < s.r 15 + 16 * w → m2 x = t.mem x
  mem : ∀ x, t.r 15 ≤ x → u.mem x = closureRet ⟨w⟩ rt (t.r 5) (t.r 6) (if retPlace rt = .mem then s.r 2 else ret) m2 x

theorem s390_closure_core {w L H : Nat} {rt : FType} {ats : List FType} {vs : List (List Byte)} {s t : M} {cif fn user : Nat} (h : S390Arrive w rt ats vs s)
    (hh : Helped w L H s t cif fn user) : S390Handler w rt ats vs s t H cif fn user ∧
      ∀ u ret m2, S390Done w rt s t u ret m2 →
        ∃ v, Runs w L H u v ∧ v.pc = s.r 14 ∧ v.r 15 = s.r 15 ∧ (∀ k, 7 ≤ k → k ≤ 13 → v.r k = s.r k) ∧ v.r 6 = beNat (m2.rd (s.r 15 + 6 * w) w) ∧
          (∀ k, fprSaved w k → v.f k = s.f k) ∧ (v.f 0).length = 8 ∧ v.mem = u.mem ∧ ∀ val, val.length = rt.size → Got w rt val m2 ret →
            Returned w rt val (beBytes w (v.r 2)) (beBytes w (v.r 3)) (v.f 0) := by
  have hcl : Clos w s t.mem := by rw [hh.mem]; exact clos_ok h.word h.room h.fregs
  have hsp : closSp w s + (saveArea w + 2 * w) = s.r 15 := by have := h.room; unfold closSp; omega
  refine ⟨⟨hh.pc, hh.cif, hh.fn, hh.user, by rw [hh.sp]; exact hsp, by rw [hh.sp]; exact hcl.out, ?_⟩, ?_⟩
  · intro lo m1 hlo hm hcp ret
    rw [hh.sp] at hlo hm
    have hov : beNat (t.mem.rd (t.r 15 + saveArea w) w) = s.r 15 + saveArea w := by
      rw [hh.sp, hcl.ov, beNat_beBytes, Nat.mod_eq_of_lt h.top]
    dsimp only
    rw [hov, hh.gpr, hh.fpr]
    exact helper_view h.word h.types h.room h.regs h.sizes h.passed hcl hm (fun x hx => (hcp x hx).imp (fun a => ⟨by omega, a⟩) id) ret
  · intro u ret m2 hd
    obtain ⟨d1, d2, d3, d4⟩ := hd
    rw [hh.sp] at d2 d4
    exact closure_back h.word h.rtype hh h.room h.regs hcl d1 d2 d3 d4

/-- Fields of the closure, which is not in the area where registers are saved. -/
theorem s390_field {w : Nat} {s : M} {a : Nat} (h : a + w ≤ s.r 15 + 2 * w ∨ s.r 15 + 7 * w ≤ a) : (argMem w s).rd a w = s.mem.rd a w :=
  stores_disj _ _ (by omega)

/-- All call-saved registers, if the handler left its fifth word alone. -/
theorem s390_conforms {w : Nat} (hw : w = 4 ∨ w = 8) {s t v : M} {m2 : Mem} (hreg : s.r 6 < 256 ^ w) (hcl : Clos w s t.mem)
    (h5 : ∀ x, s.r 15 + 6 * w ≤ x → x < s.r 15 + 7 * w → m2 x = t.mem x) (h1 : v.pc = s.r 14) (h2 : v.r 15 = s.r 15) (h3 : ∀ k, 7 ≤ k → k ≤ 13 → v.r k = s.r k)
    (h4 : v.r 6 = beNat (m2.rd (s.r 15 + 6 * w) w)) (h6 : ∀ k, fprSaved w k → v.f k = s.f k) (h7 : (v.f 0).length = 8) : Conforms w s v := by
  refine ⟨h1, ?_, h6, h7⟩
  intro k a b
  rcases (show k = 6 ∨ k = 15 ∨ 7 ≤ k ∧ k ≤ 13 by omega) with rfl | rfl | hk
  · rw [h4, show m2.rd (s.r 15 + 6 * w) w = t.mem.rd (s.r 15 + 2 * w + w * 4) w by
      rw [show s.r 15 + 2 * w + w * 4 = s.r 15 + 6 * w by omega]
      exact Mem.rd_congr fun i hi => h5 _ (by omega) (by omega), hcl.gpr 4 (by decide), beNat_beBytes]
    exact Nat.mod_eq_of_lt hreg
  · exact h2
  · exact h3 k hk.1 hk.2

/-- C83: closures.  Partial: r6 is the fifth argument and a call-saved register; it is restored from the place
that the handler gets for that argument, which the handler must not change. -/
theorem s390_closure_partial {w L H : Nat} {rt : FType} {ats : List FType} {vs : List (List Byte)} {s : M} (h : S390Arrive w rt ats vs s) (hpc : s.pc = L + off w .closure)
    (hcl : s.r 0 + 7 * w ≤ s.r 15 ∨ s.r 15 + saveArea w ≤ s.r 0) :
    ∃ t, Runs w L H s t ∧ S390Handler w rt ats vs s t H (beNat (s.mem.rd (s.r 0 + 4 * w) w)) (beNat (s.mem.rd (s.r 0 + 5 * w) w)) (beNat (s.mem.rd (s.r 0 + 6 * w) w)) ∧
      ∀ u ret m2, S390Done w rt s t u ret m2 → (∀ x, s.r 15 + 6 * w ≤ x → x < s.r 15 + 7 * w → m2 x = t.mem x) →
        ∃ v, Runs w L H u v ∧ Conforms w s v ∧ v.mem = u.mem ∧ ∀ val, val.length = rt.size → Got w rt val m2 ret →
            Returned w rt val (beBytes w (v.r 2)) (beBytes w (v.r 3)) (v.f 0) := by
  obtain ⟨t, h1, h2⟩ := closure_head h.word (L := L) (H := H) hpc
  have hsa : 7 * w ≤ saveArea w := by rcases h.word with rfl | rfl <;> decide
  have hf : ∀ k, k < 3 → closureField w k = (4 + k) * w := by intro k _; unfold closureField; rw [Nat.add_mul, Nat.mul_comm w k]
  rw [hf 0 (by decide), hf 1 (by decide), hf 2 (by decide), s390_field (by omega), s390_field (by omega), s390_field (by omega)] at h2
  obtain ⟨c1, c2⟩ := s390_closure_core h h2
  refine ⟨t, h1, c1, ?_⟩
  intro u ret m2 hd h5
  obtain ⟨v, v1, v2, v3, v4, v5, v6, v7, v8, v9⟩ := c2 u ret m2 hd
  exact ⟨v, v1, s390_conforms h.word (h.regs 6 (by decide) (by decide)) (by rw [h2.mem]; exact clos_ok h.word h.room h.fregs) h5 v2 v3 v4 v5 v6 v7, v8, v9⟩

/-- C83: Go closures, whose address is in r0 and is the handler's `user_data`. -/
theorem s390_go_closure_partial {w L H : Nat} {rt : FType} {ats : List FType} {vs : List (List Byte)} {s : M} (h : S390Arrive w rt ats vs s) (hpc : s.pc = L + off w .goClosure)
    (hcl : s.r 0 + 3 * w ≤ s.r 15 ∨ s.r 15 + saveArea w ≤ s.r 0) :
    ∃ t, Runs w L H s t ∧ S390Handler w rt ats vs s t H (beNat (s.mem.rd (s.r 0 + w) w)) (beNat (s.mem.rd (s.r 0 + 2 * w) w)) (s.r 0) ∧
      ∀ u ret m2, S390Done w rt s t u ret m2 → (∀ x, s.r 15 + 6 * w ≤ x → x < s.r 15 + 7 * w → m2 x = t.mem x) →
        ∃ v, Runs w L H u v ∧ Conforms w s v ∧ v.mem = u.mem ∧ ∀ val, val.length = rt.size → Got w rt val m2 ret →
            Returned w rt val (beBytes w (v.r 2)) (beBytes w (v.r 3)) (v.f 0) := by
  obtain ⟨t, h1, h2⟩ := go_head h.word (L := L) (H := H) hpc
  have hsa : 7 * w ≤ saveArea w := by rcases h.word with rfl | rfl <;> decide
  rw [s390_field (by omega), s390_field (by omega)] at h2
  obtain ⟨c1, c2⟩ := s390_closure_core h h2
  refine ⟨t, h1, c1, ?_⟩
  intro u ret m2 hd h5
  obtain ⟨v, v1, v2, v3, v4, v5, v6, v7, v8, v9⟩ := c2 u ret m2 hd
  exact ⟨v, v1, s390_conforms h.word (h.regs 6 (by decide) (by decide)) (by rw [h2.mem]; exact clos_ok h.word h.room h.fregs) h5 v2 v3 v4 v5 v6 v7, v8, v9⟩

/-! ## Trampolines -/

/-- C84: entering the code address of a closure that `ffi_prep_closure_loc` prepared leads to `ffi_closure_SYSV`
with the address in r0; argument registers, the stack and memory are as they were; the closure holds
`cif`, `fun` and `user_data`.  The closure is written at `c` and mapped at `x`. -/
theorem s390_trampoline {w : Nat} (hw : w = 4 ∨ w = 8) {s : M} {m : Mem} {c x e cif fn user : Nat} (hpc : s.pc = x) (hx : x < 256 ^ w) (he : e < 256 ^ w)
    (hcif : cif < 256 ^ w) (hfn : fn < 256 ^ w) (huser : user < 256 ^ w) (hm : ∀ i, i < 7 * w → s.mem (x + i) = prepClosure w m c x e cif fn user (c + i)) :
    ∃ t, tsteps w 3 s = some t ∧ Jumped s t x e ∧ beNat (t.mem.rd (x + 4 * w) w) = cif ∧ beNat (t.mem.rd (x + 5 * w) w) = fn ∧
      beNat (t.mem.rd (x + 6 * w) w) = user := by
  obtain ⟨t, h1, h2⟩ := dyn_ok hw hpc hx he hm
  obtain ⟨_, _, _, p4, p5, p6⟩ := prepClosure_rd hw m c x e cif fn user
  have hf : ∀ k, k < 3 → closureField w k = (4 + k) * w := by intro k _; unfold closureField; rw [Nat.add_mul, Nat.mul_comm w k]
  rw [hf 0 (by decide)] at p4
  rw [hf 1 (by decide)] at p5
  rw [hf 2 (by decide)] at p6
  refine ⟨t, h1, h2, ?_, ?_, ?_⟩
  · rw [h2.mem, rd_alias hm (by omega), p4, beNat_beBytes, Nat.mod_eq_of_lt hcif]
  · rw [h2.mem, rd_alias hm (by omega), p5, beNat_beBytes, Nat.mod_eq_of_lt hfn]
  · rw [h2.mem, rd_alias hm (by omega), p6, beNat_beBytes, Nat.mod_eq_of_lt huser]

/-- C84: static trampolines (64 bits): every slot of the code page at `T` goes to the target on the page behind it, with the data in r0. -/
theorem s390_static_trampoline {s : M} {T k data target : Nat} (hk : k < 256) (hpc : s.pc = T + 16 * k) (hT : s.mem.rd T 4096 = codeTable)
    (hd : beNat (s.mem.rd (T + 4096 + 16 * k) 8) = data) (ht : beNat (s.mem.rd (T + 4096 + 16 * k + 8) 8) = target) :
    ∃ t, tsteps 8 3 s = some t ∧ Jumped s t data target :=
  static_ok hk hpc hT hd ht

/-! ## A closure called through `ffi_call` -/

theorem s390_jumped_regs {w : Nat} {s t : M} {r0 d : Nat} (h : Jumped s t r0 d) : mregs w t = mregs w s := by
  unfold mregs
  rw [h.mem, h.f, h.rest 15 (by decide)]
  congr 1
  funext k
  rw [h.rest _ (by omega)]

theorem s390_vals_length {m : Mem} : ∀ {ts : List FType} {as : List Nat}, as.length = ts.length → (vals m ts as).map (·.length) = ts.map (·.size)
  | [], _, _ => by simp [vals]
  | t :: ts, [], h => by simp at h
  | t :: ts, a :: as, h => by
    rw [vals, List.map_cons, List.map_cons, Mem.rd_length, s390_vals_length (by simpa using h)]

/-- C85: `ffi_call` of a closure: the handler gets the values that `ffi_call` was given, and what it stores arrives at
`rvalue`.  The closure is mapped at `I.fn`. -/
theorem s390_round_trip_partial {w L H : Nat} {rt : FType} {ats : List FType} {I : CallIn} {O : CallOut} (h : S390Call w rt ats I O) (hb : prepBytes ⟨w⟩ rt ats < 2 ^ 32)
    (hL : L + 512 < 256 ^ w) {s : M} (hs : S390AtCall w L I O s)
    {m : Mem} {c cif fn user : Nat} (hcif : cif < 256 ^ w) (hfn : fn < 256 ^ w) (huser : user < 256 ^ w)
    (hm : ∀ i, i < 7 * w → I.mem (I.fn + i) = prepClosure w m c I.fn (L + off w .closure) cif fn user (c + i))
    (hroom : saveArea w + 2 * w + saveArea w ≤ O.stack) (hcl : I.fn + 7 * w + saveArea w ≤ O.stack ∨ I.top ≤ I.fn) :
    ∃ a b t, Runs w L H s a ∧ tsteps w 3 a = some b ∧ Runs w L H b t ∧
      S390Handler w rt ats (vals I.mem ats I.avalue) b t H cif fn user ∧ b.r 15 + saveArea w = O.stack ∧
      (∀ x ∈ copies w (mregs w b) ats (places w rt ats), b.r 15 + saveArea w ≤ x.1) ∧
      (retPlace rt = .mem → b.r 2 = O.rvalue) ∧ (I.rvalue ≠ 0 → O.rvalue = I.rvalue) ∧
      ∀ u ret m2, S390Done w rt b t u ret m2 → (∀ x, b.r 15 + 6 * w ≤ x → x < b.r 15 + 7 * w → m2 x = t.mem x) →
        (∀ x, O.frame ≤ x → x < O.frame + frameSize ⟨w⟩ → u.mem x = t.mem x) →
        (I.rvalue ≠ 0 → I.rvalue + resSize w rt ≤ O.frame ∨ O.frame + frameSize ⟨w⟩ ≤ I.rvalue) →
        ∃ v, Runs w L H u v ∧ v.pc = s.r 14 ∧ (∀ k, 6 ≤ k → k ≤ 13 ∨ k = 15 → v.r k = s.r k) ∧ (∀ k, fprSaved w k → v.f k = s.f k) ∧
          (I.rvalue = 0 → v.mem = u.mem) ∧
          (I.rvalue ≠ 0 → (∀ x, x < I.rvalue ∨ I.rvalue + resSize w rt ≤ x → v.mem x = u.mem x) ∧
            ∀ val, val.length = rt.size → Got w rt val m2 ret → Got w rt val v.mem I.rvalue) := by
  obtain ⟨a, r1, hE, hback⟩ := s390_call_partial (H := H) h hb hL hs
  have hw := h.word
  have hoff : off w .closure ≤ 400 := by rcases hw with rfl | rfl <;> decide +kernel
  obtain ⟨sp1, sp2⟩ := hE.sp
  obtain ⟨fr1, fr2⟩ := hE.frame
  have hsa : 7 * w ≤ saveArea w := by rcases hw with rfl | rfl <;> decide
  obtain ⟨b, j1, j2, j3, j4, j5⟩ := s390_trampoline hw (s := a) (m := m) (c := c) (x := I.fn) (e := L + off w .closure) (cif := cif) (fn := fn) (user := user)
    hE.pc (by rw [← hs.r5]; exact hs.regs 5) (by omega) hcif hfn huser (by
      intro i hi
      rw [hE.rest _ (by omega)]
      exact hm i hi)
  have hreg := s390_jumped_regs (w := w) j2
  have h15 := j2.rest 15 (by decide)
  have hA : S390Arrive w rt ats (vals I.mem ats I.avalue) b :=
    { word := hw, rtype := h.rtype, types := h.types, sizes := s390_vals_length h.vals, passed := by rw [hreg]; exact hE.args
      regs := fun k k1 k2 => by rw [j2.rest k k1]; exact hE.regs k k1 k2
      fregs := fun k => by rw [j2.f]; exact hE.fregs k
      room := by rw [h15]; omega
      top := by rw [h15]; have := h.top; omega }
  obtain ⟨t, r2, c1, c2⟩ := s390_closure_partial (L := L) (H := H) hA j2.pc (by rw [j2.r0, h15]; omega)
  rw [j2.r0, j3, j4, j5] at c1
  refine ⟨a, b, t, r1, j1, r2, c1, by rw [h15]; exact sp1, ?_, ?_, hE.given, ?_⟩
  · intro x hx
    rw [hreg] at hx
    have := (hE.copied x hx).1
    rw [h15]; omega
  · intro hmem; rw [j2.rest 2 (by decide)]; exact hE.mem hmem
  · intro u ret m2 hd h5 hfrm hrv
    obtain ⟨x, x1, x2, x3, x4⟩ := c2 u ret m2 hd h5
    have hcx : Conforms w a x :=
      ⟨by rw [x2.pc, j2.rest 14 (by decide)], fun k k1 k2 => by rw [x2.r k k1 k2, j2.rest k (by omega)], fun k hk => by rw [x2.f k hk, j2.f], x2.f0⟩
    obtain ⟨v, v1, v2, v3, v4, v5, v6⟩ := hback x hcx (by
      intro y y1 y2
      rw [x3, hfrm y y1 y2, c1.mem y (.inr (by rw [h15]; omega)), j2.mem]) hrv
    refine ⟨v, x1.trans v1, v2, v3, v4, fun h0 => by rw [v5 h0, x3], fun h0 => ⟨fun y hy => by rw [(v6 h0).1 y hy, x3], fun val hl hg => ?_⟩⟩
    exact (v6 h0).2 val (x4 val hl hg)

/-! ## What is wrong -/

/-- A struct of 2^(n+4) bytes. -/
def s390Big : Nat → FType
  | 0 => mkScalar (tab 8) .longdouble
  | n + 1 => mkStruct [s390Big n, s390Big n]

theorem s390_big : ∀ n, WF (tab 8) (s390Big n) ∧ (s390Big n).size = 16 * 2 ^ n ∧ (s390Big n).align = 8
  | 0 => ⟨mkScalar_wf (by decide), rfl, rfl⟩
  | n + 1 => by
    obtain ⟨h1, h2, h3⟩ := s390_big n
    refine ⟨mkStruct_wf (tab_ok (.inr rfl)) (by simp) (by intro e he; simp at he; rw [he]; exact h1), ?_, ?_⟩
    · rw [s390Big]
      generalize s390Big n = t at h2 h3
      obtain ⟨a, b, c, d⟩ := t
      have h2 : a = 16 * 2 ^ n := h2
      have h3 : b = 8 := h3
      subst h2 h3
      simp only [mkStruct, FType.size, List.map_cons, List.map_nil, buildEnd, buildAlign, FType.align]
      simp [roundUp, Nat.pow_succ]
      omega
    · rw [s390Big]
      generalize s390Big n = t at h2 h3
      obtain ⟨a, b, c, d⟩ := t
      have h3 : b = 8 := h3
      subst h3
      simp [mkStruct, FType.size, List.map_cons, List.map_nil, buildAlign, FType.align]

/-- C82, negation: the size of the argument area is cut off to 32 bits.  A struct of 4 GiB makes `cif->bytes` zero, and `ffi_call` copies
it to an address 4 GiB below the stack area that it allocated. -/
theorem s390_bytes_wrap (I : CallIn) (a : Nat) (hv : I.avalue = [a]) (ht : 2 ^ 33 ≤ I.top) (htop : I.top < 2 ^ 64) (hr : I.rvalue = 0) (rt : FType) (hrt : rt.tc = .void) :
    let O := callEntry ⟨8⟩ (S390.prepCif ⟨8⟩ rt [s390Big 28]) rt [s390Big 28] I
    (S390.prepCif ⟨8⟩ rt [s390Big 28]).bytes = 0 ∧ O.frame = O.stack ∧ beNat (O.mem.rd (O.frame + gprOff ⟨8⟩ 0) 8) + 2 ^ 32 = O.stack ∧
      O.mem.rd (O.stack - 2 ^ 32) (2 ^ 32) = (I.mem.wr O.frame (beBytes 8 I.fp)).rd a (2 ^ 32) := by
  obtain ⟨h1, h2, h3⟩ := s390_big 28
  have hs : (s390Big 28).size = 2 ^ 32 := h2
  have hp : byPtr (s390Big 28) = true ∧ argType (s390Big 28) = .pointer := by
    rcases cls (.inr rfl) h1 with h | h | h | h | h
    · omega
    · omega
    · omega
    · omega
    · rename_i h'; exact ⟨h, h'⟩
  obtain ⟨hp, hat⟩ := hp
  generalize s390Big 28 = t at hs hp hat
  have hfl : retFlags ⟨8⟩ rt = 4 := by unfold retFlags; rw [hrt]; rfl
  have hB : prepBytes ⟨8⟩ rt [t] = 2 ^ 32 := by
    have : retFlags ⟨8⟩ rt ≠ retStruct := by rw [hfl]; decide
    simp [prepBytes, prepLoop, prepArg, this, hp, hat, prepType, prepWord, maxGpr, hs, roundSize]
  have hb : (S390.prepCif ⟨8⟩ rt [t]).bytes = 0 := by show prepBytes ⟨8⟩ rt [t] % 2 ^ 32 = 0; rw [hB]; rfl
  have hf : (S390.prepCif ⟨8⟩ rt [t]).flags = 4 := hfl
  have hro : roundSize t.size = 2 ^ 32 := by rw [hs]; decide
  generalize hS : (I.top - frameSize ⟨8⟩) / 8 * 8 = S
  have hS1 : 2 ^ 32 ≤ S := by have : frameSize ⟨8⟩ = 160 := rfl; omega
  have hre : retOf (S390.prepCif ⟨8⟩ rt [t]) rt I.rvalue = (4, 0) := by unfold retOf; rw [hr, hf]; rfl
  have hO : callEntry ⟨8⟩ (S390.prepCif ⟨8⟩ rt [t]) rt [t] I = ⟨(putWord ⟨8⟩ S S (S - 2 ^ 32) ⟨0, 0, 0, S - 2 ^ 32⟩ ((I.mem.wr S (beBytes 8 I.fp)).wr (S - 2 ^ 32)
      ((I.mem.wr S (beBytes 8 I.fp)).rd a (2 ^ 32)))).2, S, S, 4, I.rvalue⟩ := by
    unfold callEntry
    rw [hre]
    simp only [hb, hf, Nat.zero_add, Nat.add_zero, hS, hv]
    rw [if_neg (by decide), if_neg (by decide)]
    simp only [callLoop, callArg, hp, hro, hs, if_true]
    rfl
  dsimp only
  rw [hO]
  refine ⟨hb, rfl, ?_, ?_⟩
  · show beNat ((Mem.wr _ (S + gprOff ⟨8⟩ 0) (beBytes 8 (S - 2 ^ 32))).rd (S + gprOff ⟨8⟩ 0) 8) + 2 ^ 32 = S
    rw [wr_rd _ _ (beBytes_length _ _), beNat_beBytes, Nat.mod_eq_of_lt (by omega)]
    omega
  · show ((Mem.wr _ (S - 2 ^ 32) ((I.mem.wr S (beBytes 8 I.fp)).rd a (2 ^ 32))).wr (S + 16) (beBytes 8 (S - 2 ^ 32))).rd (S - 2 ^ 32) (2 ^ 32) = _
    rw [Mem.rd_wr_disj _ _ _ _ _ (by rw [beBytes_length]; omega), wr_rd _ _ (Mem.rd_length _ _ _)]

/-- C83, negation: a handler of five words that assigns to its fifth argument, and changes nothing else, changes r6 of the caller. -/
theorem s390_closure_r6 {L H : Nat} {rt : FType} (hvoid : rt.tc = .void) {vs : List (List Byte)} {s : M}
    (h : S390Arrive 8 rt (List.replicate 5 (mkScalar (tab 8) .uint64)) vs s) (hpc : s.pc = L + off 8 .closure) (hroom : 184 ≤ s.r 15) (x : Nat) (hx : x < 2 ^ 64) :
    ∃ t u v, Runs 8 L H s t ∧
      S390Done 8 rt s t u (t.r 15 - 8) (t.mem.wr ((closureView ⟨8⟩ (S390.prepCif ⟨8⟩ rt (List.replicate 5 (mkScalar (tab 8) .uint64))) (List.replicate 5 (mkScalar (tab 8) .uint64))
        (t.r 5) (t.r 6) (beNat (t.mem.rd (t.r 15 + saveArea 8) 8)) (t.r 15 - 8) t.mem).2.getD 4 0) (beBytes 8 x)) ∧
      Runs 8 L H u v ∧ v.pc = s.r 14 ∧ v.r 6 = x := by
  obtain ⟨t, h1, h2⟩ := closure_head (.inr rfl) (L := L) (H := H) hpc
  obtain ⟨c1, c2⟩ := s390_closure_core h h2
  have hfl : (S390.prepCif ⟨8⟩ rt (List.replicate 5 (mkScalar (tab 8) .uint64))).flags = 4 := by show retFlags ⟨8⟩ rt = 4; unfold retFlags; rw [hvoid]; rfl
  have e : (closureView ⟨8⟩ (S390.prepCif ⟨8⟩ rt (List.replicate 5 (mkScalar (tab 8) .uint64))) (List.replicate 5 (mkScalar (tab 8) .uint64))
        (t.r 5) (t.r 6) (beNat (t.mem.rd (t.r 15 + saveArea 8) 8)) (t.r 15 - 8) t.mem).2.getD 4 0 = s.r 15 + 48 := by
    unfold closureView
    rw [hfl, if_neg (by decide), h2.gpr]
    rfl
  have hrm := h.room
  have hsp := c1.sp
  have hsa : saveArea 8 = 160 := rfl
  have hm : ∀ m : Mem, ∀ a b r, closureRet ⟨8⟩ rt a b r m = m := by intro m a b r; unfold closureRet; rw [hvoid]
  refine (?_ : ∃ u v, S390Done 8 rt s t u (t.r 15 - 8) (t.mem.wr (s.r 15 + 48) (beBytes 8 x)) ∧ Runs 8 L H u v ∧ v.pc = s.r 14 ∧ v.r 6 = x).elim fun u hu => ⟨t, u, hu.elim fun v hv => ⟨v, h1, by rw [e]; exact hv⟩⟩
  have hd : S390Done 8 rt s t { t with pc := t.r 14, mem := t.mem.wr (s.r 15 + 48) (beBytes 8 x) } (t.r 15 - 8) (t.mem.wr (s.r 15 + 48) (beBytes 8 x)) := by
    refine ⟨⟨rfl, fun _ _ _ => rfl, fun _ _ => rfl, ?_⟩, ?_, ?_, ?_⟩
    · show (t.f 0).length = 8; rw [h2.f]; exact h.fregs 0
    · omega
    · intro y h3 h4
      have h3 : s.r 15 + 104 ≤ y := h3
      exact Mem.wr_out _ _ _ _ (by rw [beBytes_length]; omega)
    · intro y _; rw [hm]
  obtain ⟨v, v1, v2, v3, v4, v5, v6, v7, v8, v9⟩ := c2 _ _ _ hd
  refine ⟨_, v, hd, v1, v2, ?_⟩
  rw [v5, wr_rd _ _ (beBytes_length _ _), beNat_beBytes]
  exact Nat.mod_eq_of_lt hx

/-! ## Cases -/

/-- `(int, unsigned long long, double, struct of three bytes, struct of a float, long double)`. -/
def s390Ats (w : Nat) : List FType :=
  [mkScalar (tab w) .sint32, mkScalar (tab w) .uint64, mkScalar (tab w) .double, mkStruct [mkScalar (tab w) .uint8, mkScalar (tab w) .uint8, mkScalar (tab w) .uint8],
    mkStruct [mkScalar (tab w) .float], mkScalar (tab w) .longdouble]

theorem s390_ats {w : Nat} (hw : w = 4 ∨ w = 8) : ∀ t ∈ s390Ats w, WF (tab w) t := by
  intro t ht
  have sc : ∀ {k : TC}, (tab w k).isSome = true → WF (tab w) (mkScalar (tab w) k) := fun h => mkScalar_wf h
  simp only [s390Ats, List.mem_cons, List.not_mem_nil, or_false] at ht
  rcases ht with rfl | rfl | rfl | rfl | rfl | rfl
  · exact sc rfl
  · exact sc rfl
  · exact sc rfl
  · exact mkStruct_wf (tab_ok hw) (by simp) (by intro e he; simp at he; rw [he]; exact sc rfl)
  · exact mkStruct_wf (tab_ok hw) (by simp) (by intro e he; simp at he; rw [he]; exact sc rfl)
  · exact sc rfl

def s390In : CallIn :=
  ⟨fun a => BitVec.ofNat 8 (7 * a), 2 ^ 20, 2 ^ 20 + 200, 2 ^ 21, [2 ^ 21 + 16, 2 ^ 21 + 24, 2 ^ 21 + 32, 2 ^ 21 + 40, 2 ^ 21 + 48, 2 ^ 21 + 64], 2 ^ 22, 77⟩

def s390Out (w : Nat) : CallOut := callEntry ⟨w⟩ (S390.prepCif ⟨w⟩ (mkScalar (tab w) .sint32) (s390Ats w)) (mkScalar (tab w) .sint32) (s390Ats w) s390In

def s390State (w : Nat) : M :=
  ⟨fun k => if k = 2 then (s390Out w).frame else if k = 3 then (s390Out w).retType else if k = 4 then (s390Out w).rvalue else if k = 5 then 2 ^ 22 else
    if k = 6 then 77 else if k = 15 then (s390Out w).stack - saveArea w else 1000 + k % 16, fun _ => List.replicate 8 3, (s390Out w).mem, 4096⟩

theorem s390_case (w : Nat) (hw : w = 4 ∨ w = 8) : S390Call w (mkScalar (tab w) .sint32) (s390Ats w) s390In (s390Out w) ∧
    prepBytes ⟨w⟩ (mkScalar (tab w) .sint32) (s390Ats w) < 2 ^ 32 ∧ S390AtCall w 4096 s390In (s390Out w) (s390State w) := by
  have hst : (s390Out w).stack ≤ 2 ^ 20 ∧ saveArea w ≤ (s390Out w).stack ∧ (s390Out w).frame ≤ 2 ^ 20 ∧ (s390Out w).retType ≤ 4 ∧ (s390Out w).rvalue = 2 ^ 21 ∧
      saveArea w + prepBytes ⟨w⟩ (mkScalar (tab w) .sint32) (s390Ats w) + frameSize ⟨w⟩ + (mkScalar (tab w) .sint32).size + 7 ≤ 2 ^ 20 := by
    rcases hw with rfl | rfl <;> decide +kernel
  obtain ⟨h1, h2, h3, h4, h5, h6⟩ := hst
  have hp : 2 ^ 22 < 256 ^ w := by rcases hw with rfl | rfl <;> decide
  refine ⟨⟨hw, .inr (mkScalar_wf rfl), s390_ats hw, rfl, rfl, by show 2 ^ 20 < _; omega, by show 2 ^ 21 < _; omega, h6, ?_⟩, by omega, ?_⟩
  · intro i t a _ ha
    right
    have : a ∈ s390In.avalue := List.mem_of_getElem? ha
    simp [s390In] at this
    show 2 ^ 20 ≤ a
    omega
  · refine ⟨rfl, rfl, rfl, rfl, rfl, rfl, ?_, rfl, ?_, fun _ => rfl⟩
    · show (s390Out w).stack - saveArea w + saveArea w = _; omega
    · intro k
      simp only [s390State]
      repeat' split
      all_goals omega

example : ∃ t, Runs 4 4096 99 (s390State 4) t ∧ S390Entry 4 (mkScalar (tab 4) .sint32) (s390Ats 4) s390In (s390Out 4) t := by
  obtain ⟨h1, h2, h3⟩ := s390_case 4 (.inl rfl)
  obtain ⟨t, r, e, _⟩ := s390_call_partial (H := 99) h1 h2 (by decide) h3
  exact ⟨t, r, e⟩

example : ∃ t, Runs 8 4096 99 (s390State 8) t ∧ S390Entry 8 (mkScalar (tab 8) .sint32) (s390Ats 8) s390In (s390Out 8) t := by
  obtain ⟨h1, h2, h3⟩ := s390_case 8 (.inr rfl)
  obtain ⟨t, r, e, _⟩ := s390_call_partial (H := 99) h1 h2 (by decide) h3
  exact ⟨t, r, e⟩

/-- What the places of that signature are: with 64 bits, r2, r3, f0, r4 (reference), f2, r5 (reference). -/
example : places 8 (mkScalar (tab 8) .sint32) (s390Ats 8) = [.word (.gpr 0), .word (.gpr 1), .fpr 0, .ref (.gpr 2), .fpr 1, .ref (.gpr 3)] := by decide +kernel
/-- With 31 bits, the `long long` is in r3 and r4, the second reference is in r6. -/
example : places 4 (mkScalar (tab 4) .sint32) (s390Ats 4) = [.word (.gpr 0), .pair 1, .fpr 0, .ref (.gpr 3), .fpr 1, .ref (.gpr 4)] := by decide +kernel

instance (w : Nat) (R : Regs) (t : FType) (v : List Byte) (p : Place) : Decidable (PassedAt w R t v p) := by
  cases p <;> dsimp only [PassedAt] <;> infer_instance

/-- A closure of five words is entered. -/
def s390Five (L : Nat) : M :=
  ⟨fun k => if k = 0 then 2 ^ 21 else if k = 15 then 2 ^ 20 else 1000 + k % 16, fun _ => List.replicate 8 3, fun _ => 0, L⟩

theorem s390_five (L : Nat) : S390Arrive 8 (.mk 1 1 .void []) (List.replicate 5 (mkScalar (tab 8) .uint64)) [beBytes 8 1002, beBytes 8 1003, beBytes 8 1004, beBytes 8 1005, beBytes 8 1006]
    (s390Five L) := by
  refine ⟨.inr rfl, .inl rfl, ?_, rfl, ?_, ?_, fun _ => rfl, (by decide : saveArea 8 + 2 * 8 ≤ (s390Five 0).r 15), (by decide : (s390Five 0).r 15 + saveArea 8 < 256 ^ 8)⟩
  · intro t ht; rw [List.eq_of_mem_replicate ht]; exact mkScalar_wf rfl
  · rw [show mregs 8 (s390Five L) = mregs 8 (s390Five 0) from rfl]
    refine ⟨?_, ?_, ?_, ?_, ?_, trivial⟩ <;> decide +kernel
  · intro k _ _; simp only [s390Five]; repeat' split
    all_goals omega

/-- The handler assigns 5 to its last argument: the caller's r6 was 1006 and is 5. -/
example : ∃ t u v, Runs 8 4096 99 (s390Five (4096 + off 8 .closure)) t ∧ Runs 8 4096 99 u v ∧ v.pc = (s390Five (4096 + off 8 .closure)).r 14 ∧
    v.r 6 ≠ (s390Five (4096 + off 8 .closure)).r 6 := by
  obtain ⟨t, u, v, h1, _, h3, h4, h5⟩ := s390_closure_r6 (H := 99) rfl (s390_five (4096 + off 8 .closure)) rfl (by decide) 5 (by decide)
  exact ⟨t, u, v, h1, h3, h4, by rw [h5]; decide⟩

example : ∃ t, Runs 8 4096 99 (s390Five (4096 + off 8 .goClosure)) t ∧ t.pc = 99 ∧ t.r 4 = 2 ^ 21 := by
  obtain ⟨t, h1, h2, _⟩ := s390_go_closure_partial (H := 99) (s390_five (4096 + off 8 .goClosure)) rfl (.inr (by decide))
  exact ⟨t, h1, h2.pc, h2.user⟩

example : ∃ t, Runs 8 4096 99 (s390Five (4096 + off 8 .closure)) t ∧ t.pc = 99 := by
  obtain ⟨t, h1, h2, _⟩ := s390_closure_partial (H := 99) (s390_five (4096 + off 8 .closure)) rfl (.inr (by decide))
  exact ⟨t, h1, h2.pc⟩

/-- `(int, double)` with 31 bits: -5 in r2, the bytes of f0. -/
example : S390Arrive 4 (mkScalar (tab 4) .double) [mkScalar (tab 4) .sint32, mkScalar (tab 4) .double] [beBytes 4 (2 ^ 32 - 5), List.replicate 8 3]
    ⟨fun k => if k = 2 then 2 ^ 32 - 5 else 4096, fun _ => List.replicate 8 3, fun _ => 0, 0⟩ := by
  refine ⟨.inl rfl, .inr (mkScalar_wf rfl), ?_, rfl, ?_, ?_, fun _ => rfl, by decide, by decide⟩
  · intro t ht
    simp only [List.mem_cons, List.not_mem_nil, or_false] at ht
    rcases ht with rfl | rfl <;> exact mkScalar_wf rfl
  · refine ⟨?_, ?_, trivial⟩ <;> decide +kernel
  · intro k _ _; dsimp only; split <;> decide

/-- `rvalue` of a signed result. -/
example : Got 8 (mkScalar (tab 8) .sint8) [0xfe] ((show Mem from fun _ => 0).wr 64 (beBytes 8 (2 ^ 64 - 2))) 64 := by
  refine ⟨fun _ => ?_, fun h => by cases h⟩
  rw [if_pos (by decide)]; decide +kernel

example : ∃ t, tsteps 8 3 ⟨fun _ => 5, fun _ => [], prepClosure 8 (fun _ => 0) 64 64 4096 1 2 3, 64⟩ = some t ∧ t.pc = 4096 ∧ t.r 0 = 64 ∧ t.r 2 = 5 := by
  obtain ⟨t, h1, h2, _⟩ := s390_trampoline (.inr rfl) (s := ⟨fun _ => 5, fun _ => [], prepClosure 8 (fun _ => 0) 64 64 4096 1 2 3, 64⟩) (m := fun _ => 0)
    (c := 64) (x := 64) (e := 4096) (cif := 1) (fn := 2) (user := 3) rfl (by decide) (by decide) (by decide) (by decide) (by decide) (fun _ _ => rfl)
  exact ⟨t, h1, h2.pc, h2.r0, h2.rest 2 (by decide)⟩

example : ∃ t, tsteps 8 3 ⟨fun _ => 5, fun _ => [], (((show Mem from fun _ => 0).wr 8192 codeTable).wr (8192 + 4096 + 16 * 3) (beBytes 8 77)).wr (8192 + 4096 + 16 * 3 + 8) (beBytes 8 99), 8192 + 16 * 3⟩ = some t ∧
    t.pc = 99 ∧ t.r 0 = 77 := by
  have hlen : codeTable.length = 4096 := by
    unfold codeTable; rw [List.length_flatten, List.map_replicate]; decide +kernel
  obtain ⟨t, h1, h2⟩ := s390_static_trampoline (k := 3) (T := 8192) (data := 77) (target := 99)
    (s := ⟨fun _ => 5, fun _ => [], (((show Mem from fun _ => 0).wr 8192 codeTable).wr (8192 + 4096 + 16 * 3) (beBytes 8 77)).wr (8192 + 4096 + 16 * 3 + 8) (beBytes 8 99), 8192 + 16 * 3⟩)
    (by decide) rfl
    (by dsimp only; rw [Mem.rd_wr_disj _ _ _ _ _ (by decide), Mem.rd_wr_disj _ _ _ _ _ (by decide), wr_rd _ _ hlen])
    (by dsimp only; rw [Mem.rd_wr_disj _ _ _ _ _ (by decide), wr_rd _ _ (beBytes_length _ _)]; decide +kernel)
    (by dsimp only; rw [wr_rd _ _ (beBytes_length _ _)]; decide +kernel)
  exact ⟨t, h1, h2.pc, h2.r0⟩

/-- A call whose target is a closure: memory with a closure at 2^22. -/
example : ∃ (I : CallIn) (m : Mem), S390Call 8 (mkScalar (tab 8) .sint32) (s390Ats 8) I
      (callEntry ⟨8⟩ (S390.prepCif ⟨8⟩ (mkScalar (tab 8) .sint32) (s390Ats 8)) (mkScalar (tab 8) .sint32) (s390Ats 8) I) ∧
    (∀ i, i < 7 * 8 → I.mem (I.fn + i) = prepClosure 8 m (2 ^ 22) I.fn (4096 + off 8 .closure) 1 2 3 (2 ^ 22 + i)) ∧ I.top ≤ I.fn := by
  have h0 := (s390_case 8 (.inr rfl)).1
  refine ⟨{ s390In with mem := prepClosure 8 s390In.mem (2 ^ 22) (2 ^ 22) (4096 + off 8 .closure) 1 2 3 }, s390In.mem, ?_, fun _ _ => rfl, by decide⟩
  exact ⟨.inr rfl, h0.rtype, h0.types, rfl, rfl, h0.top, h0.rvalue, h0.room, h0.apart⟩

example : ∃ I : CallIn, I.avalue = [0] ∧ 2 ^ 33 ≤ I.top ∧ I.top < 2 ^ 64 ∧ I.rvalue = 0 := ⟨⟨fun _ => 0, 2 ^ 34, 0, 0, [0], 0, 0⟩, rfl, by decide, by decide, rfl⟩

end Verif.Props
