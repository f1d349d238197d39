import Verif.Alpha.Whole
import Verif.Alpha.Tramp
import Verif.Spec.Build

/-!
C100-C102: Alpha (`src/alpha`), with the extensions of BWX or without.
-/
namespace Verif.Props
open Verif Verif.Spec Verif.Spec.Alpha Verif.Alpha Verif.Alpha.Asm

/-- What `ffi_call` can be asked for: the type and value of every argument, memory for the call. -/
structure AlphaCall (rt : FType) (ats : List FType) (I : CallIn) : Prop where
  rtype : rt.tc = .void ∨ WF lp64 rt
  types : ∀ t ∈ ats, WF lp64 t
  vals : I.avalue.length = ats.length
  addr : ∀ a ∈ I.avalue, a < 2 ^ 64
  top : I.top < 2 ^ 64
  rvalue : I.rvalue < 2 ^ 64
  room : prepBytes rt ats + rt.size + 64 ≤ I.top
  apart : ∀ (i : Nat) (t : FType) (a : Nat), ats[i]? = some t → I.avalue[i]? = some a → a + t.size + (prepBytes rt ats + rt.size + 64) ≤ I.top ∨ I.top ≤ a

/-- `ffi_call_int` calls `ffi_call_osf (argp, frame, flags, rvalue, fn, closure)`, src/alpha/ffi.c:309. -/
structure AlphaAtCall (E : Env) (I : CallIn) (O : CallOut) (s : M) : Prop where
  pc : s.pc = E.L
  argp : s.r 16 = O.argp
  frame : s.r 17 = O.frame
  flags : s.r 18 = O.flags
  rvalue : s.r 19 = O.rvalue
  fn : s.r 20 = I.fn
  closure : s.r 21 = I.closure
  mem : s.mem = O.mem
  regs : s.r 26 < 2 ^ 64 ∧ s.r 15 < 2 ^ 64

/-- The function is entered. -/
structure AlphaEntry (E : Env) (rt : FType) (ats : List FType) (I : CallIn) (O : CallOut) (t : M) : Prop where
  pc : t.pc = I.fn
  pv : t.r 27 = I.fn
  chain : t.r 1 = I.closure
  args : AllPassed (mregs t) (start rt) ats (vals I.mem ats I.avalue)
  hidden : retPlace rt = .mem → t.r 16 = O.rvalue
  given : I.rvalue ≠ 0 ∨ retPlace rt ≠ .mem → O.rvalue = I.rvalue
  fake : I.rvalue = 0 → retPlace rt = .mem → O.frame + 32 ≤ O.rvalue ∧ O.rvalue + rt.size ≤ I.top
  sp : t.r 30 = O.argp + 48 ∧ 16 ∣ t.r 30
  ra : t.r 26 = E.L + 88
  stack : t.r 30 + 8 * (endSlot (start rt) ats - 6) ≤ O.frame ∧ O.frame + 32 ≤ I.top
  rest : ∀ x, x + 48 < t.r 30 ∨ I.top ≤ x → t.mem x = I.mem x
  regs : RegsOk (mregs t)

/-- What `ffi_call_int` finds when `ffi_call_osf` returns: `s` is the state at its call, `u` that at the function's return. -/
def AlphaBack (E : Env) (rt : FType) (I : CallIn) (s u v : M) : Prop :=
  v.pc = s.r 26 ∧ v.r 26 = s.r 26 ∧ v.r 29 = E.gp ∧ (∀ k, 9 ≤ k → k ≤ 15 → v.r k = s.r k) ∧ (∀ k, 2 ≤ k → k ≤ 9 → v.f k = s.f k) ∧
    (I.rvalue = 0 → v.mem = u.mem) ∧
    (I.rvalue ≠ 0 → (∀ x, x < I.rvalue ∨ I.rvalue + resSize rt ≤ x → v.mem x = u.mem x) ∧
      ∀ val, Returned rt val (u.r 0) (u.f 0) (u.f 1) → u.r 0 < 2 ^ 64 → Got rt val v.mem I.rvalue)

/-- The state in which the function returns, as `ffi_call_osf` sees it. -/
structure AlphaTail (E : Env) (O : CallOut) (s u : M) : Prop where
  flags : O.flags ≤ 5
  pc : u.pc = E.L + 88
  ra : u.r 26 = E.L + 88
  frame : u.r 15 = O.frame
  st : leNat (u.mem.rd (O.frame + 16) 8) = O.flags
  rv : leNat (u.mem.rd (O.frame + 24) 8) = O.rvalue
  s26 : u.mem.rd O.frame 8 = leBytes 8 (s.r 26)
  s15 : u.mem.rd (O.frame + 8) 8 = leBytes 8 (s.r 15)

theorem alpha_call_core {E : Env} {rt : FType} {ats : List FType} {I : CallIn} (h : AlphaCall rt ats I) (hb : prepBytes rt ats < 2 ^ 32) :
    ∃ O, callEntry (Alpha.prepCif rt ats) rt ats I = some O ∧ O.argp + 48 ≤ O.frame ∧ ∀ s, AlphaAtCall E I O s → ∀ t, Called E s t →
      AlphaEntry E rt ats I O t ∧
        ∀ u, Conforms t u → (∀ x, O.frame ≤ x → x < O.frame + 32 → u.mem x = t.mem x) →
          AlphaTail E O s u ∧ ∀ v, Back E O.frame O.flags O.rvalue u v → AlphaBack E rt I s u v := by
  obtain ⟨O, hO, e⟩ := callEntry_ok h.rtype h.types I hb h.vals h.addr h.top h.rvalue h.room h.apart
  have hpb := prepBytes_eq h.rtype h.types
  have hfr := e.frame
  have hroom := e.room
  refine ⟨O, hO, by omega, fun s hs t hc => ?_⟩
  obtain ⟨g1, g2, g3, g4⟩ := savedMem_regs s
  have tmem : ∀ x, x < O.frame ∨ O.frame + 32 ≤ x → t.mem x = O.mem x := by
    intro x hx
    rw [hc.mem, savedMem_out s (by rw [hs.frame]; exact hx), hs.mem]
  have slot : ∀ k, k < 6 → leNat (s.mem.rd (s.r 16 + 8 * k) 8) = leNat (O.mem.rd (O.argp + 8 * k) 8) := by
    intro k _; rw [hs.mem, hs.argp]
  have high : ∀ k, 6 ≤ k → k < endSlot (start rt) ats → leNat (t.mem.rd (t.r 30 + 8 * (k - 6)) 8) = leNat (O.mem.rd (O.argp + 8 * k) 8) := by
    intro k h1 h2
    rw [hc.sp, hs.argp, show O.argp + 48 + 8 * (k - 6) = O.argp + 8 * k by omega]
    congr 1
    exact Mem.rd_congr fun i hi => tmem _ (.inl (by omega))
  have hsp : t.r 30 = O.argp + 48 := by rw [hc.sp, hs.argp]
  have out : ∀ x, x < O.argp ∨ I.top ≤ x → t.mem x = I.mem x := by
    intro x hx
    rw [tmem x (by omega), e.out x (by omega)]
  refine ⟨⟨hc.pc.trans hs.fn, hc.pv.trans hs.fn, hc.chain.trans hs.closure, ?_, ?_, e.given, e.fake, ⟨hsp, ?_⟩, hc.ra, ?_, ?_, ?_⟩, ?_⟩
  · apply e.passed
    · intro k hk
      unfold Regs.islot Regs.fslot mregs
      by_cases h6 : k < 6
      · dsimp only
        rw [if_pos h6, if_pos h6, if_pos h6, hc.args k h6, hc.fp k h6, slot k h6]; exact ⟨rfl, rfl⟩
      · dsimp only
        rw [if_neg h6, if_neg h6, high k (by omega) hk]; exact ⟨rfl, rfl⟩
    · exact out
  · intro hm
    rw [← e.hidden hm]
    exact (hc.args 0 (by decide)).trans (slot 0 (by decide))
  · have := e.aligned; rw [hsp]; omega
  · refine ⟨?_, hroom⟩
    rw [hsp, hfr]; omega
  · intro x hx; rw [hsp] at hx; exact out x (by omega)
  · refine ⟨fun k hk => ?_, fun k hk => ?_⟩
    · rw [mregs_int t hk, hc.args k hk]; exact rd_lt8 _ _
    · show t.f (16 + k) < _; rw [hc.fp k hk]; exact rd_lt8 _ _
  · intro u hu hk
    have hst := retFlags_st h.rtype
    have kept : ∀ o, o + 8 ≤ 32 → u.mem.rd (O.frame + o) 8 = (savedMem s).rd (s.r 17 + o) 8 := by
      intro o ho
      rw [hs.frame, ← hc.mem]
      exact Mem.rd_congr fun i hi => hk _ (by omega) (by omega)
    have k0 := kept 0 (by omega)
    rw [Nat.add_zero, Nat.add_zero] at k0
    have hrv : O.rvalue < 2 ^ 64 := by
      by_cases hm : I.rvalue ≠ 0 ∨ retPlace rt ≠ .mem
      · rw [e.given hm]; exact h.rvalue
      · have := e.fake (by omega) (by by_contra hh; exact hm (.inr hh)); have := h.top; omega
    refine ⟨⟨by rw [e.flags]; exact hst.1, by rw [hu.pc, hc.ra], by rw [hu.ra, hc.ra], by rw [hu.r 15 (by omega) (by omega), hc.frame, hs.frame],
      by rw [kept 16 (by omega), g3, hs.flags, leNat8 (by rw [e.flags]; omega)], by rw [kept 24 (by omega), g4, hs.rvalue, leNat8 hrv], by rw [k0, g1], by rw [kept 8 (by omega), g2]⟩, fun v b => ?_⟩
    refine ⟨?_, ?_, b.gp, ?_, ?_, ?_, ?_⟩
    · rw [b.pc, k0, g1, leNat8 hs.regs.1]
    · rw [b.r26, k0, g1, leNat8 hs.regs.1]
    · intro k k1 k2
      by_cases k3 : k = 15
      · subst k3; rw [b.r15, kept 8 (by omega), g2, leNat8 hs.regs.2]
      · rw [b.rest k k1 (by omega), hu.r k k1 k2, hc.rest k k1 (by omega)]
    · intro k k1 k2
      rw [b.f, hu.f k k1 k2, hc.frest k (by omega)]
    · intro h0
      rw [b.mem]
      by_cases hm : retPlace rt = .mem
      · have : O.flags = 0 := by rw [e.flags, (retFlags_mem h.rtype).2 hm]; rfl
        rw [this, ite_self]; rfl
      · rw [e.given (.inr hm), if_pos h0]; rfl
    · intro h0
      rw [b.mem, e.given (.inl h0), if_neg h0, e.flags]
      exact stored_ok h.rtype I.rvalue

/-- C100: `ffi_call`. Partial: `cif->bytes` has 32 bits; the argument area must be smaller than 4 GiB. -/
theorem C100_call_partial {E : Env} (hE : E.Ok) {rt : FType} {ats : List FType} {I : CallIn} (h : AlphaCall rt ats I) (hb : prepBytes rt ats < 2 ^ 32) :
    ∃ O, callEntry (Alpha.prepCif rt ats) rt ats I = some O ∧ ∀ s, AlphaAtCall E I O s →
      ∃ t, Runs E s t ∧ AlphaEntry E rt ats I O t ∧
        ∀ u, Conforms t u → (∀ x, O.frame ≤ x → x < O.frame + 32 → u.mem x = t.mem x) →
          ∃ v, Runs E u v ∧ v.pc = s.r 26 ∧ v.r 26 = s.r 26 ∧ v.r 29 = E.gp ∧ (∀ k, 9 ≤ k → k ≤ 15 → v.r k = s.r k) ∧ (∀ k, 2 ≤ k → k ≤ 9 → v.f k = s.f k) ∧
            (I.rvalue = 0 → v.mem = u.mem) ∧
            (I.rvalue ≠ 0 → (∀ x, x < I.rvalue ∨ I.rvalue + resSize rt ≤ x → v.mem x = u.mem x) ∧
              ∀ val, Returned rt val (u.r 0) (u.f 0) (u.f 1) → u.r 0 < 2 ^ 64 → Got rt val v.mem I.rvalue) := by
  obtain ⟨O, hO, hr, c⟩ := alpha_call_core (E := E) h hb
  refine ⟨O, hO, fun s hs => ?_⟩
  obtain ⟨t, ht, hc⟩ := call_head (E := E) hs.pc (by rw [hs.argp, hs.frame]; exact hr)
  obtain ⟨c1, c2⟩ := c s hs t hc
  refine ⟨t, ht, c1, fun u hu hk => ?_⟩
  obtain ⟨a, b⟩ := c2 u hu hk
  obtain ⟨v, hv, hbk⟩ := call_tail hE a.flags a.pc a.ra a.frame a.st a.rv
  exact ⟨v, hv, b v hbk⟩

/-! ## Closures -/

/-- A function with these arguments is entered: `s` is the state. -/
structure AlphaArrive (E : Env) (rt : FType) (ats : List FType) (vs : List (List Byte)) (s : M) : Prop where
  rtype : rt.tc = .void ∨ WF lp64 rt
  types : ∀ t ∈ ats, WF lp64 t
  sizes : vs.map (·.length) = ats.map (·.size)
  passed : AllPassed (mregs s) (start rt) ats vs
  regs : RegsOk (mregs s)
  ra : s.r 26 < 2 ^ 64
  room : 128 ≤ s.r 30
  got : leNat (s.mem.rd E.slot 8) = E.inner
  slot : E.slot + 8 ≤ s.r 30 - 128 ∨ s.r 30 ≤ E.slot

/-- `ffi_closure_osf_inner` is called with `cif`, `fun`, `user_data`; it finds the arguments `vs` and the place for the
result.  `m1` is memory when it starts on the arguments: it has written nothing but its own frame, from `lo`, where `tmp` is, too. `m2` is
memory when the handler is called. -/
structure AlphaHandler (E : Env) (rt : FType) (ats : List FType) (vs : List (List Byte)) (s t : M) (cif fn user : Nat) : Prop where
  pc : t.pc = E.inner
  pv : t.r 27 = E.inner
  gp : t.r 29 = E.gp
  cif : t.r 16 = cif
  fn : t.r 17 = fn
  user : t.r 18 = user
  sp : t.r 30 + 128 = s.r 30
  buf : t.r 19 = t.r 30 + 16
  mem : ∀ x, x < t.r 30 ∨ s.r 30 ≤ x → t.mem x = s.mem x
  view : ∀ (lo tmp : Nat) (m1 : Mem), lo ≤ tmp → tmp + 16 ≤ t.r 30 → (∀ x, x < lo ∨ t.r 30 ≤ x → m1 x = t.mem x) →
    (∀ x ∈ refs (mregs s) (start rt) ats, x.1 + x.2 ≤ lo ∨ s.r 30 + 8 * (endSlot (start rt) ats - 6) ≤ x.1) →
    ∃ ps m2, closureView (Alpha.prepCif rt ats) ats (t.r 20) tmp (t.r 19) m1 = some (if retPlace rt = .mem then s.r 16 else t.r 19, ps, m2) ∧
      ps.length = ats.length ∧ vals m2 ats ps = vs ∧
      ∀ x, x < tmp ∨ (tmp + 16 ≤ x ∧ x < t.r 30 + 32) ∨ s.r 30 + 8 * (endSlot (start rt) ats - 6) ≤ x → m2 x = m1 x

/-- `ffi_closure_osf_inner` returns; it and the handler have left alone the return address that `ffi_closure_osf` saved. -/
structure AlphaDone (rt : FType) (ats : List FType) (t u : M) : Prop where
  abi : Conforms t u
  code : u.r 0 = ldCode (Alpha.prepCif rt ats)
  saved : ∀ x, t.r 30 ≤ x → x < t.r 30 + 8 → u.mem x = t.mem x

/-- The closure has returned: `s` is the state when it was called, `u` that when `ffi_closure_osf_inner` returns, the result at `res`. -/
def AlphaCBack (E : Env) (rt : FType) (s u v : M) (res : Nat) : Prop :=
  Conforms s v ∧ v.r 29 = E.gp ∧ v.mem = u.mem ∧ v.r 0 < 2 ^ 64 ∧
    ∀ val, val.length = rt.size → (retPlace rt ≠ .mem → u.mem.rd res rt.size = val) → Returned rt val (v.r 0) (v.f 0) (v.f 1)

/-- The state in which `ffi_closure_osf_inner` returns, as `ffi_closure_osf` sees it. -/
structure AlphaCTail (E : Env) (rt : FType) (ats : List FType) (s u : M) : Prop where
  code : ldCode (Alpha.prepCif rt ats) < 11
  pc : u.pc = E.L + 380
  ra : u.r 26 = E.L + 380
  r0 : u.r 0 = ldCode (Alpha.prepCif rt ats)
  saved : u.mem.rd (u.r 30) 8 = leBytes 8 (s.r 26)
  sp : u.r 30 + 128 = s.r 30
  rest : ∀ k, 9 ≤ k → k ≤ 15 → u.r k = s.r k

theorem alpha_closure_mid {E : Env} {rt : FType} {ats : List FType} {vs : List (List Byte)} {s t : M} {cif fn user : Nat} (h : AlphaArrive E rt ats vs s)
    (a : AtInner E s t cif fn user) : AlphaHandler E rt ats vs s t cif fn user ∧
      ∀ u, AlphaDone rt ats t u → AlphaCTail E rt ats s u ∧ ∀ v, CBack E (ldCode (Alpha.prepCif rt ats)) u v → AlphaCBack E rt s u v (t.r 19) := by
  have hroom := h.room
  have hsp : t.r 30 + 128 = s.r 30 := by rw [a.sp]; omega
  have hfm : ∀ x, x < t.r 30 ∨ s.r 30 ≤ x → t.mem x = s.mem x := by
    intro x hx
    rw [a.mem, frameMem_out s _ (by rw [a.sp] at hx; omega)]
  refine ⟨⟨a.pc, a.pv, a.gp, a.cif, a.fn, a.ud, hsp, by rw [a.rvalue, a.sp], hfm, ?_⟩, ?_⟩
  · intro lo tmp m1 hlo htmp hm href
    have harg : t.r 20 = t.r 30 + 80 := by rw [a.argp, a.sp]
    generalize hB : t.r 30 = B at *
    have hB' : s.r 30 - 128 = B := by omega
    have ai : Area (B + 80) (mregs s) (start rt) (endSlot (start rt) ats) m1 := by
      constructor
      · intro k k1 k2
        have e1 : m1.rd (B + 80 + 8 * k) 8 = t.mem.rd (B + 80 + 8 * k) 8 := Mem.rd_congr fun i hi => hm _ (by omega)
        rw [e1]
        unfold Regs.islot
        by_cases h6 : k < 6
        · rw [if_pos h6, a.mem, hB', frameMem_int s B h6, mregs_int s h6]
        · rw [if_neg h6, leBytes_rd8]
          show _ = s.mem.rd (s.r 30 + 8 * (k - 6)) 8
          rw [show B + 80 + 8 * k = s.r 30 + 8 * (k - 6) by omega]
          exact Mem.rd_congr fun i hi => hfm _ (.inr (by omega))
      · intro k k1 k2
        have e1 : m1.rd (B + 80 + 8 * k - 48) 8 = t.mem.rd (B + 32 + 8 * k) 8 := by
          rw [show B + 80 + 8 * k - 48 = B + 32 + 8 * k by omega]
          exact Mem.rd_congr fun i hi => hm _ (by omega)
        rw [e1, a.mem, hB', frameMem_fp s B k2]; rfl
    have hown : ∀ x, x < tmp ∨ (tmp + 16 ≤ x ∧ x < B + 32) ∨ s.r 30 + 8 * (endSlot (start rt) ats - 6) ≤ x → ¬ Own (B + 80) tmp (start rt) (endSlot (start rt) ats) x := by
      intro x hx ho
      unfold Own at ho
      omega
    obtain ⟨ps, m2, l1, l2, l3, l4⟩ := closureLoop_ok (argp := B + 80) (tmp := tmp) (e := endSlot (start rt) ats) (R := mregs s) (by omega) (by omega) h.regs h.types h.sizes
      (Nat.le_refl _) ai h.passed (by
        intro x hx b b1 b2
        have := href x hx
        refine ⟨hown b (by omega), ?_⟩
        rw [hm b (by omega)]
        exact hfm b (by omega))
    refine ⟨ps, m2, ?_, l2, l4, fun x hx => l3 x (hown x hx)⟩
    unfold closureView
    have hfl : (Alpha.prepCif rt ats).flags = retFlags rt := rfl
    have hmem := retFlags_mem h.rtype
    rw [hfl, harg]
    by_cases hp : retPlace rt = .mem
    · rw [if_pos (hmem.2 hp), if_pos hp]
      have h1 : start rt = 1 := by unfold start; rw [if_pos hp]
      rw [h1] at l1
      rw [l1]
      have : leNat (m1.rd (B + 80) 8) = s.r 16 := by
        have e1 : m1.rd (B + 80) 8 = t.mem.rd (B + 80) 8 := Mem.rd_congr fun i hi => hm _ (by omega)
        have := frameMem_int s B (k := 0) (by omega)
        rw [e1, a.mem, hB']
        rw [Nat.mul_zero, Nat.add_zero] at this
        rw [this]
        exact leNat8 (by have := h.regs.int 0 (by omega); rwa [mregs_int s (by omega)] at this)
      simp [this]
    · rw [if_neg (fun hh => hp (hmem.1 hh)), if_neg hp]
      have h0 : start rt = 0 := by unfold start; rw [if_neg hp]
      rw [h0] at l1
      rw [l1]
      rfl
  · intro u hu
    have hst := retFlags_st h.rtype
    have hcode : ldCode (Alpha.prepCif rt ats) = retFlags rt >>> 8 &&& 0xff := rfl
    have e1 : u.mem.rd (u.r 30) 8 = leBytes 8 (s.r 26) := by
      have e1 : u.mem.rd (u.r 30) 8 = t.mem.rd (t.r 30) 8 := by rw [hu.abi.sp]; exact Mem.rd_congr fun i hi => hu.saved _ (by omega) (by omega)
      rw [e1, a.mem, a.sp, frameMem_ra]
    have hra : leNat (u.mem.rd (u.r 30) 8) = s.r 26 := by rw [e1, leNat8 h.ra]
    refine ⟨⟨by rw [hcode]; exact hst.2, by rw [hu.abi.pc, a.ra], by rw [hu.abi.ra, a.ra], hu.code, e1, by rw [hu.abi.sp, hsp],
      fun k k1 k2 => by rw [hu.abi.r k k1 k2, a.rest k k1 k2]⟩, fun v b => ?_⟩
    refine ⟨⟨?_, ?_, ?_, ?_, ?_⟩, b.gp, b.mem, by rw [b.r0]; exact ld0_lt _ _ _, ?_⟩
    · rw [b.pc, hra]
    · rw [b.r26, hra]
    · rw [b.sp, hu.abi.sp, hsp]
    · intro k k1 k2; rw [b.rest k k1 k2, hu.abi.r k k1 k2, a.rest k k1 k2]
    · intro k k1 k2
      rw [b.f k]
      rw [ldf_keep k1, hu.abi.f k k1 k2, a.f]
    · intro val hl hval
      rw [b.r0, b.f 0, b.f 1, hcode]
      refine loaded_ok h.rtype u.f hl fun hm => ?_
      rw [← hval hm, hu.abi.sp, a.rvalue, a.sp]

theorem alpha_closure_core {E : Env} (hE : E.Ok) {rt : FType} {ats : List FType} {vs : List (List Byte)} {s t : M} {cif fn user : Nat} (h : AlphaArrive E rt ats vs s)
    (a : AtInner E s t cif fn user) : AlphaHandler E rt ats vs s t cif fn user ∧
      ∀ u, AlphaDone rt ats t u → ∃ v, Runs E u v ∧ AlphaCBack E rt s u v (t.r 19) := by
  obtain ⟨h1, h2⟩ := alpha_closure_mid h a
  refine ⟨h1, fun u hu => ?_⟩
  obtain ⟨c, b⟩ := h2 u hu
  obtain ⟨v, hv, hb⟩ := closure_tail hE c.code c.pc c.ra c.r0
  exact ⟨v, hv, b v hb⟩

/-- C101: closures: the handler gets the arguments that were passed, and what it stores is returned. -/
theorem C101_closure {E : Env} (hE : E.Ok) {rt : FType} {ats : List FType} {vs : List (List Byte)} {s : M} (h : AlphaArrive E rt ats vs s) (hpc : s.pc = E.L + 288)
    (hpv : s.r 27 = E.L + 288) (hcl : s.r 1 + 48 ≤ s.r 30 - 128 ∨ s.r 30 ≤ s.r 1) :
    ∃ t, Runs E s t ∧ AlphaHandler E rt ats vs s t (leNat (s.mem.rd (s.r 1 + 24) 8)) (leNat (s.mem.rd (s.r 1 + 32) 8)) (leNat (s.mem.rd (s.r 1 + 40) 8)) ∧
      ∀ u, AlphaDone rt ats t u → ∃ v, Runs E u v ∧ Conforms s v ∧ v.r 29 = E.gp ∧ v.mem = u.mem ∧ v.r 0 < 2 ^ 64 ∧
        ∀ val, val.length = rt.size → (retPlace rt ≠ .mem → u.mem.rd (t.r 19) rt.size = val) → Returned rt val (v.r 0) (v.f 0) (v.f 1) := by
  obtain ⟨x, r1, a1⟩ := closure_start hE hpc hpv h.room hcl
  obtain ⟨t, r2, a2⟩ := do_inner a1 h.room h.slot h.got
  exact ⟨t, r1.trans r2, alpha_closure_core hE h a2⟩

/-- C101: Go closures, whose address is in $1 and is the handler's `user_data`. -/
theorem C101_go_closure {E : Env} (hE : E.Ok) {rt : FType} {ats : List FType} {vs : List (List Byte)} {s : M} (h : AlphaArrive E rt ats vs s) (hpc : s.pc = E.L + 240)
    (hpv : s.r 27 = E.L + 240) (hcl : s.r 1 + 24 ≤ s.r 30 - 128 ∨ s.r 30 ≤ s.r 1) :
    ∃ t, Runs E s t ∧ AlphaHandler E rt ats vs s t (leNat (s.mem.rd (s.r 1 + 8) 8)) (leNat (s.mem.rd (s.r 1 + 16) 8)) (s.r 1) ∧
      ∀ u, AlphaDone rt ats t u → ∃ v, Runs E u v ∧ Conforms s v ∧ v.r 29 = E.gp ∧ v.mem = u.mem ∧ v.r 0 < 2 ^ 64 ∧
        ∀ val, val.length = rt.size → (retPlace rt ≠ .mem → u.mem.rd (t.r 19) rt.size = val) → Returned rt val (v.r 0) (v.f 0) (v.f 1) := by
  obtain ⟨x, r1, a1⟩ := go_start hE hpc hpv h.room hcl
  obtain ⟨t, r2, a2⟩ := do_inner a1 h.room h.slot h.got
  exact ⟨t, r1.trans r2, alpha_closure_core hE h a2⟩

/-! ## Trampolines, and closures called through `ffi_call` -/

/-- C102: entering the code address of a closure that `ffi_prep_closure_loc` prepared, with that address in $27, leads to `ffi_closure_osf` with it in $1
and the entry in $27; all other registers and memory are as they were; the closure holds `cif`, `fun` and `user_data`.  The closure is written at `c` and mapped at `x`. -/
theorem C102_trampoline {s : M} {m : Mem} {c x e cif fn user : Nat} (hpc : s.pc = x) (hpv : s.r 27 = x) (he : e < 2 ^ 64)
    (hcif : cif < 2 ^ 64) (hfn : fn < 2 ^ 64) (huser : user < 2 ^ 64) (hm : ∀ i, i < 48 → s.mem (x + i) = prepClosure m c e cif fn user (c + i)) :
    ∃ t, tsteps 3 s = some t ∧ Jumped s t x e ∧ leNat (t.mem.rd (x + 24) 8) = cif ∧ leNat (t.mem.rd (x + 32) 8) = fn ∧ leNat (t.mem.rd (x + 40) 8) = user := by
  obtain ⟨t, h1, h2⟩ := tramp_ok hpc hpv he hm
  obtain ⟨_, _, _, _, p4, p5, p6⟩ := prepClosure_rd m c e cif fn user
  refine ⟨t, h1, h2, ?_, ?_, ?_⟩
  · rw [h2.mem, rd_alias hm (by omega), p4, leNat8 hcif]
  · rw [h2.mem, rd_alias hm (by omega), p5, leNat8 hfn]
  · rw [h2.mem, rd_alias hm (by omega), p6, leNat8 huser]

theorem alpha_vals_length {m : Mem} : ∀ {ts : List FType} {as : List Nat}, as.length = ts.length → (Spec.Alpha.vals m ts as).map (·.length) = ts.map (·.size)
  | [], _, _ => by simp [Spec.Alpha.vals]
  | t :: ts, [], h => by simp at h
  | t :: ts, a :: as, h => by
    rw [Spec.Alpha.vals, List.map_cons, List.map_cons, Mem.rd_length, alpha_vals_length (by simpa using h)]

/-- What happens after the handler: the result arrives at `rvalue`, and `ffi_call_int` goes on. -/
def AlphaReturns (E : Env) (rt : FType) (I : CallIn) (s u : M) (ret : Nat) : Prop :=
  ∃ v, Runs E u v ∧ v.pc = s.r 26 ∧ v.r 26 = s.r 26 ∧ v.r 29 = E.gp ∧ (∀ k, 9 ≤ k → k ≤ 15 → v.r k = s.r k) ∧ (∀ k, 2 ≤ k → k ≤ 9 → v.f k = s.f k) ∧
    (I.rvalue = 0 → v.mem = u.mem) ∧
    (I.rvalue ≠ 0 → (∀ x, x < I.rvalue ∨ I.rvalue + resSize rt ≤ x → v.mem x = u.mem x) ∧
      ∀ val, val.length = rt.size → (retPlace rt ≠ .mem → u.mem.rd ret rt.size = val) → Got rt val v.mem I.rvalue)

/-- The two halves put together: the function that `ffi_call_osf` calls, in state `a`, gets in state `b` to one of the entries, having changed no more than $1 and $27. -/
theorem alpha_joined {E : Env} {rt : FType} {ats : List FType} {I : CallIn} {O : CallOut} {s a b t : M} (hE : AlphaEntry E rt ats I O a)
    (hback : ∀ u, Conforms a u → (∀ x, O.frame ≤ x → x < O.frame + 32 → u.mem x = a.mem x) →
          ∃ v, Runs E u v ∧ v.pc = s.r 26 ∧ v.r 26 = s.r 26 ∧ v.r 29 = E.gp ∧ (∀ k, 9 ≤ k → k ≤ 15 → v.r k = s.r k) ∧ (∀ k, 2 ≤ k → k ≤ 9 → v.f k = s.f k) ∧
            (I.rvalue = 0 → v.mem = u.mem) ∧
            (I.rvalue ≠ 0 → (∀ x, x < I.rvalue ∨ I.rvalue + resSize rt ≤ x → v.mem x = u.mem x) ∧
              ∀ val, Returned rt val (u.r 0) (u.f 0) (u.f 1) → u.r 0 < 2 ^ 64 → Got rt val v.mem I.rvalue))
    (hr : ∀ k, k ≠ 1 → k ≠ 27 → b.r k = a.r k) (hf : b.f = a.f) (hm : b.mem = a.mem) (htm : ∀ x, x < t.r 30 ∨ b.r 30 ≤ x → t.mem x = b.mem x)
    {u : M} (hfr : ∀ x, O.frame ≤ x → x < O.frame + 32 → u.mem x = t.mem x)
    (hc : ∃ v, Runs E u v ∧ Conforms b v ∧ v.r 29 = E.gp ∧ v.mem = u.mem ∧ v.r 0 < 2 ^ 64 ∧
        ∀ val, val.length = rt.size → (retPlace rt ≠ .mem → u.mem.rd (t.r 19) rt.size = val) → Returned rt val (v.r 0) (v.f 0) (v.f 1)) :
    AlphaReturns E rt I s u (t.r 19) := by
  obtain ⟨x, x1, x2, x3, x4, x5, x6⟩ := hc
  have h30 := hr 30 (by omega) (by omega)
  obtain ⟨v, v1, v2, v3, v4, v5, v6, v7, v8⟩ := hback x
    ⟨by rw [x2.pc, hr 26 (by omega) (by omega)], by rw [x2.ra, hr 26 (by omega) (by omega)], by rw [x2.sp, h30], fun k k1 k2 => by rw [x2.r k k1 k2, hr k (by omega) (by omega)],
      fun k k1 k2 => by rw [x2.f k k1 k2, hf]⟩
    (by intro y y1 y2; rw [x4, hfr y y1 y2, htm y (.inr (by have := hE.stack; omega)), hm])
  exact ⟨v, x1.trans v1, v2, v3, v4, v5, v6, fun h0 => by rw [v7 h0, x4], fun h0 => ⟨fun y hy => by rw [(v8 h0).1 y hy, x4], fun val hl hg => (v8 h0).2 val (x6 val hl hg) x5⟩⟩

theorem alpha_jumped_regs {s t : M} (h : ∀ k, k ≠ 1 → k ≠ 27 → t.r k = s.r k) (hf : t.f = s.f) (hm : t.mem = s.mem) : mregs t = mregs s := by
  unfold mregs
  rw [hm, hf, h 30 (by omega) (by omega)]
  congr 1
  funext k
  split
  · exact h _ (by omega) (by omega)
  · rfl

/-- C102: `ffi_call` of a closure: the handler gets the values that `ffi_call` was given, and what it stores arrives at
`rvalue`.  The closure is mapped at `I.fn`.  Partial: as `C100_call_partial`. -/
theorem C102_round_trip_partial {E : Env} (hE : E.Ok) {rt : FType} {ats : List FType} {I : CallIn} (h : AlphaCall rt ats I) (hb : prepBytes rt ats < 2 ^ 32)
    {m : Mem} {c cif fn user : Nat} (hcif : cif < 2 ^ 64) (hfn : fn < 2 ^ 64) (huser : user < 2 ^ 64)
    (hm : ∀ i, i < 48 → I.mem (I.fn + i) = prepClosure m c (E.L + 288) cif fn user (c + i)) (hgot : leNat (I.mem.rd E.slot 8) = E.inner) :
    ∃ O, callEntry (Alpha.prepCif rt ats) rt ats I = some O ∧ (80 ≤ O.argp → (I.fn + 48 + 80 ≤ O.argp ∨ I.top ≤ I.fn) → (E.slot + 8 + 80 ≤ O.argp ∨ I.top ≤ E.slot) →
      ∀ s, AlphaAtCall E I O s →
      ∃ a b t, Runs E s a ∧ tsteps 3 a = some b ∧ Runs E b t ∧
        AlphaHandler E rt ats (Spec.Alpha.vals I.mem ats I.avalue) b t cif fn user ∧ (retPlace rt = .mem → b.r 16 = O.rvalue) ∧
        (I.rvalue ≠ 0 ∨ retPlace rt ≠ .mem → O.rvalue = I.rvalue) ∧
        ∀ u, AlphaDone rt ats t u → (∀ x, O.frame ≤ x → x < O.frame + 32 → u.mem x = t.mem x) → AlphaReturns E rt I s u (t.r 19)) := by
  obtain ⟨O, hO, hcall⟩ := C100_call_partial hE h hb
  refine ⟨O, hO, fun h128 hcl hsl s hs => ?_⟩
  obtain ⟨a, r1, ea, hback⟩ := hcall s hs
  obtain ⟨sp1, sp2⟩ := ea.sp
  have hstk := ea.stack
  have hbase := hE.base
  obtain ⟨b, j1, j2, j3, j4, j5⟩ := C102_trampoline (s := a) (m := m) (c := c) (x := I.fn) (e := E.L + 288) ea.pc ea.pv (by omega) hcif hfn huser
    (fun i hi => by rw [ea.rest _ (by omega)]; exact hm i hi)
  have h30 := j2.rest 30 (by omega) (by omega)
  have hreg := alpha_jumped_regs j2.rest j2.f j2.mem
  have hA : AlphaArrive E rt ats (Spec.Alpha.vals I.mem ats I.avalue) b :=
    { rtype := h.rtype, types := h.types, sizes := alpha_vals_length h.vals, passed := by rw [hreg]; exact ea.args
      regs := by rw [hreg]; exact ea.regs
      ra := by rw [j2.rest 26 (by omega) (by omega), ea.ra]; omega
      room := by rw [h30]; omega
      got := by
        rw [j2.mem, ← hgot]
        exact congrArg leNat (Mem.rd_congr fun i hi => ea.rest _ (by omega))
      slot := by rw [h30]; omega }
  obtain ⟨t, r2, c1, c2⟩ := C101_closure hE hA j2.pc j2.pv (by rw [j2.chain, h30]; omega)
  rw [j2.chain, j3, j4, j5] at c1
  exact ⟨a, b, t, r1, j1, r2, c1, fun hp => by rw [j2.rest 16 (by omega) (by omega)]; exact ea.hidden hp, ea.given,
    fun u hu hf => alpha_joined ea hback j2.rest j2.f j2.mem c1.mem hf (c2 u hu)⟩

/-- C102: `ffi_call_go` of a Go closure at `I.closure`: likewise. -/
theorem C102_go_round_trip_partial {E : Env} (hE : E.Ok) {rt : FType} {ats : List FType} {I : CallIn} (h : AlphaCall rt ats I) (hb : prepBytes rt ats < 2 ^ 32)
    {m : Mem} {cif fn : Nat} (hcif : cif < 2 ^ 64) (hfn : fn < 2 ^ 64) (hcode : I.fn = leNat (I.mem.rd I.closure 8))
    (hm : ∀ i, i < 24 → I.mem (I.closure + i) = prepGo m I.closure (E.L + 240) cif fn (I.closure + i)) (hgot : leNat (I.mem.rd E.slot 8) = E.inner) :
    ∃ O, callEntry (Alpha.prepCif rt ats) rt ats I = some O ∧ (80 ≤ O.argp → (I.closure + 24 + 80 ≤ O.argp ∨ I.top ≤ I.closure) → (E.slot + 8 + 80 ≤ O.argp ∨ I.top ≤ E.slot) →
      ∀ s, AlphaAtCall E I O s →
      ∃ a t, Runs E s a ∧ a.pc = I.fn ∧ Runs E a t ∧
        AlphaHandler E rt ats (Spec.Alpha.vals I.mem ats I.avalue) a t cif fn I.closure ∧ (retPlace rt = .mem → a.r 16 = O.rvalue) ∧
        (I.rvalue ≠ 0 ∨ retPlace rt ≠ .mem → O.rvalue = I.rvalue) ∧
        ∀ u, AlphaDone rt ats t u → (∀ x, O.frame ≤ x → x < O.frame + 32 → u.mem x = t.mem x) → AlphaReturns E rt I s u (t.r 19)) := by
  obtain ⟨O, hO, hcall⟩ := C100_call_partial hE h hb
  refine ⟨O, hO, fun h128 hcl hsl s hs => ?_⟩
  obtain ⟨a, r1, ea, hback⟩ := hcall s hs
  obtain ⟨sp1, sp2⟩ := ea.sp
  have hstk := ea.stack
  have hbase := hE.base
  obtain ⟨p0, p1, p2⟩ := prepGo_rd m I.closure (E.L + 240) cif fn
  have hfn' : I.fn = E.L + 240 := by
    have := rd_alias (o := 0) (n := 8) hm (by omega)
    rw [Nat.add_zero] at this
    rw [hcode, this, p0, leNat8 (by omega)]
  have fld : ∀ o, o + 8 ≤ 24 → a.mem.rd (I.closure + o) 8 = (prepGo m I.closure (E.L + 240) cif fn).rd (I.closure + o) 8 := by
    intro o ho
    rw [← rd_alias hm ho]
    exact Mem.rd_congr fun i hi => ea.rest _ (by omega)
  have hA : AlphaArrive E rt ats (Spec.Alpha.vals I.mem ats I.avalue) a :=
    { rtype := h.rtype, types := h.types, sizes := alpha_vals_length h.vals, passed := ea.args
      regs := ea.regs
      ra := by rw [ea.ra]; omega
      room := by omega
      got := by
        rw [← hgot]
        exact congrArg leNat (Mem.rd_congr fun i hi => ea.rest _ (by omega))
      slot := by omega }
  obtain ⟨t, r2, c1, c2⟩ := C101_go_closure hE hA (ea.pc.trans hfn') (ea.pv.trans hfn') (by rw [ea.chain]; omega)
  rw [ea.chain, fld 8 (by omega), fld 16 (by omega), p1, p2, leNat8 hcif, leNat8 hfn] at c1
  exact ⟨a, t, r1, ea.pc, r2, c1, ea.hidden, ea.given,
    fun u hu hf => alpha_joined ea hback (fun _ _ _ => rfl) rfl rfl c1.mem hf (c2 u hu)⟩

/-! ## What is wrong -/

/-- A struct of 2^(n+4) bytes. -/
def alphaBig : Nat → FType
  | 0 => mkScalar lp64 .longdouble
  | n + 1 => mkStruct [alphaBig n, alphaBig n]

theorem alpha_big : ∀ n, WF lp64 (alphaBig n) ∧ (alphaBig n).size = 16 * 2 ^ n ∧ (alphaBig n).align = 16
  | 0 => ⟨mkScalar_wf (by decide), rfl, rfl⟩
  | n + 1 => by
    obtain ⟨h1, h2, h3⟩ := alpha_big n
    refine ⟨mkStruct_wf lp64_ok (by simp) (by intro e he; simp at he; rw [he]; exact h1), ?_, ?_⟩
    · rw [alphaBig]
      generalize alphaBig n = t at h2 h3
      obtain ⟨a, b, c, d⟩ := t
      have h2 : a = 16 * 2 ^ n := h2
      have h3 : b = 16 := h3
      subst h2 h3
      simp only [mkStruct, FType.size, List.map_cons, List.map_nil, buildEnd, buildAlign, FType.align]
      simp [roundUp, Nat.pow_succ]
      omega
    · rw [alphaBig]
      generalize alphaBig n = t at h2 h3
      obtain ⟨a, b, c, d⟩ := t
      have h3 : b = 16 := h3
      subst h3
      simp [mkStruct, FType.size, List.map_cons, List.map_nil, buildAlign, FType.align]

/-- C100, negation: the size of the argument area is cut off to 32 bits.  A struct of 4 GiB makes `cif->bytes` zero, and `ffi_call` copies
it over 4 GiB above the stack area that it allocated. -/
theorem C100_bytes_wrap (I : CallIn) (a : Nat) (hv : I.avalue = [a]) (ht : 64 ≤ I.top) (hr : I.rvalue = 0) (rt : FType) (hrt : rt.tc = .void) :
    ∃ O, callEntry (Alpha.prepCif rt [alphaBig 28]) rt [alphaBig 28] I = some O ∧ (Alpha.prepCif rt [alphaBig 28]).bytes = 0 ∧ I.top < O.argp + 48 ∧
      O.mem.rd O.argp (2 ^ 32) = I.mem.rd a (2 ^ 32) := by
  obtain ⟨h1, h2, h3⟩ := alpha_big 28
  have hs : (alphaBig 28).size = 2 ^ 32 := h2
  have htc : (alphaBig 28).tc = .struct := rfl
  generalize alphaBig 28 = t at hs htc
  have hfl : retFlags rt = 0 := by unfold retFlags; rw [hrt]; rfl
  have hB : prepBytes rt [t] = 2 ^ 32 := by
    have : retFlags rt ≠ retInMem := by rw [hfl]; decide
    simp [prepBytes, argBytes, this, htc, hs, align8]
  have hb : (Alpha.prepCif rt [t]).bytes = 0 := by show prepBytes rt [t] % 2 ^ 32 = 0; rw [hB]; rfl
  have hf : (Alpha.prepCif rt [t]).flags = 0 := hfl
  have hO : callEntry (Alpha.prepCif rt [t]) rt [t] I = some ⟨I.mem.wr (alloca I.top 32) (I.mem.rd a (2 ^ 32)), alloca I.top 32, alloca I.top 32, 0, I.rvalue⟩ := by
    unfold callEntry
    rw [hf, hb, hv]
    simp [callLoop, callArg, htc, hs, retInMem, hr]
  refine ⟨_, hO, hb, ?_, ?_⟩
  · show I.top < alloca I.top 32 + 48; unfold alloca; omega
  · exact wr_rd _ _ (Mem.rd_length _ _ _)

/-- C100, negation: an argument that is passed by reference is the caller's own object, not a copy: the function gets its address. -/
theorem C100_shared {E : Env} (hE : E.Ok) {rt : FType} {I : CallIn} {a : Nat} (hrt : rt.tc = .void) (h : AlphaCall rt [mkScalar lp64 .longdouble] I) (hv : I.avalue = [a]) :
    ∃ O, callEntry (Alpha.prepCif rt [mkScalar lp64 .longdouble]) rt [mkScalar lp64 .longdouble] I = some O ∧
      ∀ s, AlphaAtCall E I O s → ∃ t, Runs E s t ∧ t.pc = I.fn ∧ refs (mregs t) 0 [mkScalar lp64 .longdouble] = [(a, 16)] := by
  have hfl : retFlags rt = 0 := by unfold retFlags; rw [hrt]; rfl
  have hb : prepBytes rt [mkScalar lp64 .longdouble] = 48 := by
    have : retFlags rt ≠ retInMem := by rw [hfl]; decide
    simp only [prepBytes, this, if_false]; rfl
  have ha : a < 2 ^ 64 := h.addr a (by rw [hv]; simp)
  obtain ⟨O, hO, hcall⟩ := C100_call_partial hE h (by rw [hb]; decide)
  refine ⟨O, hO, fun s hs => ?_⟩
  have hbase := hE.base
  obtain ⟨O', hO', e'⟩ := callEntry_ok h.rtype h.types I (by rw [hb]; decide) h.vals h.addr h.top h.rvalue h.room h.apart
  rw [hO] at hO'
  cases hO'
  obtain ⟨t, r, hc⟩ := call_head (E := E) hs.pc (by rw [hs.argp, hs.frame, e'.frame, hb])
  refine ⟨t, r, hc.pc.trans hs.fn, ?_⟩
  have h16 : t.r 16 = a := by
    rw [hc.args 0 (by omega), hs.mem, hs.argp]
    unfold callEntry at hO
    have hf : (Alpha.prepCif rt [mkScalar lp64 .longdouble]).flags = 0 := hfl
    rw [hf, hv] at hO
    have : (0 : Nat) ≠ retInMem := by decide
    simp only [this, and_false, if_false, callLoop, callArg, mkScalar, FType.tc, Option.some.injEq] at hO
    rw [← hO]
    show leNat ((Mem.wr _ (_ + 8 * 0) (leBytes 8 a)).rd (_ + 8 * 0) 8) = a
    rw [wr_rd _ _ (leBytes_length _ _), leNat8 ha]
  show [((mregs t).islot 0, 16)] ++ [] = _
  have : (mregs t).islot 0 = a := by
    unfold Regs.islot
    rw [if_pos (by decide), mregs_int t (by decide)]; exact h16
  rw [this]; rfl

/-! ## Cases -/

/-- `(signed char, float, struct of three bytes, double _Complex, long double, short _Complex, unsigned int)`. -/
def alphaAts : List FType :=
  [mkScalar lp64 .sint8, mkScalar lp64 .float, mkStruct [mkScalar lp64 .uint8, mkScalar lp64 .uint8, mkScalar lp64 .uint8], mkComplex lp64 .double,
    mkScalar lp64 .longdouble, mkComplex lp64 .sint16, mkScalar lp64 .uint32]

theorem alpha_ats : ∀ t ∈ alphaAts, WF lp64 t := by
  intro t ht
  have sc : ∀ {k : TC}, (lp64 k).isSome = true → WF lp64 (mkScalar lp64 k) := fun h => mkScalar_wf h
  simp only [alphaAts, List.mem_cons, List.not_mem_nil, or_false] at ht
  rcases ht with rfl | rfl | rfl | rfl | rfl | rfl | rfl
  · exact sc rfl
  · exact sc rfl
  · exact mkStruct_wf lp64_ok (by simp) (by intro e he; simp at he; rw [he]; exact sc rfl)
  · exact mkComplex_wf rfl rfl
  · exact sc rfl
  · exact mkComplex_wf rfl rfl
  · exact sc rfl

/-- A float result; the closure is at 2^22. -/
def alphaIn : CallIn :=
  ⟨Mem.wr (Mem.wr (prepClosure (fun a => BitVec.ofNat 8 (7 * a)) (2 ^ 22) (4096 + 288) 11 22 33) (2 ^ 23) (leBytes 8 99)) (2 ^ 24)
      (leBytes 8 (4096 + 240) ++ leBytes 8 11 ++ leBytes 8 22), 2 ^ 20, 2 ^ 21,
    [2 ^ 21 + 16, 2 ^ 21 + 24, 2 ^ 21 + 32, 2 ^ 21 + 48, 2 ^ 21 + 64, 2 ^ 21 + 80, 2 ^ 21 + 88], 2 ^ 22, 2 ^ 24⟩

def alphaEnv (b : Bool) : Env := ⟨b, 4096, 99, 2 ^ 23 + 8, fun l => 2 ^ 23 - 4096 - off b l, fun _ => 8, 2 ^ 64 - 8⟩

theorem alpha_env (b : Bool) : (alphaEnv b).Ok ∧ (alphaEnv b).slot = 2 ^ 23 := by
  refine ⟨⟨by show 4096 + 1024 < 2 ^ 64; decide, ?_⟩, by show (2 ^ 23 + 8 + (2 ^ 64 - 8)) % 2 ^ 64 = 2 ^ 23; decide⟩
  intro l
  show (4096 + off b l + (2 ^ 23 - 4096 - off b l) + 8) % 2 ^ 64 = 2 ^ 23 + 8
  have : off b l ≤ 1024 := by cases l <;> have := off_eq b <;> omega
  omega

theorem alpha_case : AlphaCall (mkScalar lp64 .float) alphaAts alphaIn ∧ prepBytes (mkScalar lp64 .float) alphaAts < 2 ^ 32 := by
  have hpb : prepBytes (mkScalar lp64 .float) alphaAts = 72 := by decide +kernel
  refine ⟨⟨.inr (mkScalar_wf rfl), alpha_ats, rfl, ?_, by show 2 ^ 20 < 2 ^ 64; decide, by show 2 ^ 21 < 2 ^ 64; decide, ?_, ?_⟩, by rw [hpb]; decide⟩
  · intro a ha; simp [alphaIn] at ha; omega
  · rw [hpb]; show 72 + 4 + 64 ≤ 2 ^ 20; decide
  · intro i t a _ ha
    right
    have : a ∈ alphaIn.avalue := List.mem_of_getElem? ha
    simp [alphaIn] at this
    show 2 ^ 20 ≤ a
    omega

def alphaState (O : CallOut) : M :=
  ⟨fun k => if k = 16 then O.argp else if k = 17 then O.frame else if k = 18 then O.flags else if k = 19 then O.rvalue else if k = 20 then 2 ^ 22 else
    if k = 21 then 2 ^ 24 else 1000 + k % 32, fun k => k, O.mem, 4096⟩

theorem alpha_state (b : Bool) (O : CallOut) : AlphaAtCall (alphaEnv b) alphaIn O (alphaState O) :=
  ⟨rfl, rfl, rfl, rfl, rfl, rfl, rfl, rfl, by show 1000 + 26 < 2 ^ 64 ∧ 1000 + 15 < 2 ^ 64; decide⟩

theorem alpha_argp {O : CallOut} (h : callEntry (Alpha.prepCif (mkScalar lp64 .float) alphaAts) (mkScalar lp64 .float) alphaAts alphaIn = some O) : O.argp = 1048464 := by
  have : (callEntry (Alpha.prepCif (mkScalar lp64 .float) alphaAts) (mkScalar lp64 .float) alphaAts alphaIn).map (·.argp) = some 1048464 := by decide +kernel
  rw [h] at this
  exact Option.some.inj this

/-- The function is entered; one that returns 1.0f has it stored. -/
example (b : Bool) : ∃ O t u v, Runs (alphaEnv b) (alphaState O) t ∧ AlphaEntry (alphaEnv b) (mkScalar lp64 .float) alphaAts alphaIn O t ∧
    Runs (alphaEnv b) u v ∧ u.f 0 = 0x3ff0000000000000 ∧ v.mem.rd (2 ^ 21) 4 = leBytes 4 0x3f800000 := by
  obtain ⟨h, hb⟩ := alpha_case
  obtain ⟨O, _, hc⟩ := C100_call_partial (alpha_env b).1 h hb
  obtain ⟨t, r, e, k⟩ := hc _ (alpha_state b O)
  obtain ⟨v, v1, _, _, _, _, _, _, v2⟩ := k ⟨upd t.r 0 0, upd t.f 0 (lds 0x3f800000), t.mem, t.r 26⟩
    ⟨rfl, rfl, rfl, fun k k1 k2 => by show upd t.r 0 0 k = t.r k; unfold upd; rw [if_neg (by omega)],
      fun k k1 k2 => by show upd t.f 0 _ k = t.f k; unfold upd; rw [if_neg (by omega)]⟩ (fun _ _ _ => rfl)
  refine ⟨O, t, _, v, r, e, v1, (show lds 0x3f800000 = 0x3ff0000000000000 by decide +kernel), ?_⟩
  exact (v2 (by decide)).2 (leBytes 4 0x3f800000) ⟨rfl, (by intro h; cases h), (fun _ => show lds 0x3f800000 = fpReg .float (leBytes 4 0x3f800000) by decide +kernel), (by intro h; cases h)⟩ (show 0 < 2 ^ 64 by decide)

/-- The closure at 2^22 is called, and its handler gets the arguments. -/
example (b : Bool) : ∃ O a c t, Runs (alphaEnv b) (alphaState O) a ∧ tsteps 3 a = some c ∧ Runs (alphaEnv b) c t ∧
    AlphaHandler (alphaEnv b) (mkScalar lp64 .float) alphaAts (Spec.Alpha.vals alphaIn.mem alphaAts alphaIn.avalue) c t 11 22 33 := by
  obtain ⟨h, hb⟩ := alpha_case
  obtain ⟨he, hsl⟩ := alpha_env b
  have hm : ∀ i, i < 48 → alphaIn.mem (alphaIn.fn + i) = prepClosure (fun a => BitVec.ofNat 8 (7 * a)) (2 ^ 22) (4096 + 288) 11 22 33 (2 ^ 22 + i) := by
    intro i hi
    show (Mem.wr (Mem.wr _ _ _) _ _) (2 ^ 22 + i) = _
    rw [Mem.wr_out _ _ _ _ (by simp; omega), Mem.wr_out _ _ _ _ (by simp; omega)]
  have hg : leNat (alphaIn.mem.rd (alphaEnv b).slot 8) = (alphaEnv b).inner := by
    rw [hsl]
    show leNat ((Mem.wr (Mem.wr _ _ _) _ _).rd (2 ^ 23) 8) = 99
    rw [Mem.rd_wr_disj _ _ _ _ _ (by simp), wr_rd _ _ (leBytes_length _ _)]
    decide
  obtain ⟨O, hO, k⟩ := C102_round_trip_partial he h hb (by decide) (by decide) (by decide) hm hg
  have hp := alpha_argp hO
  obtain ⟨a, c, t, r1, j, r2, c1, _⟩ := k (by omega) (.inr (by decide)) (.inr (by rw [hsl]; decide)) _ (alpha_state b O)
  exact ⟨O, a, c, t, r1, j, r2, c1⟩

/-- The Go closure at 2^24 is called, and its handler gets the arguments. -/
example (b : Bool) : ∃ O a t, Runs (alphaEnv b) { alphaState O with r := upd (alphaState O).r 20 (4096 + 240) } a ∧ Runs (alphaEnv b) a t ∧
    AlphaHandler (alphaEnv b) (mkScalar lp64 .float) alphaAts (Spec.Alpha.vals alphaIn.mem alphaAts alphaIn.avalue) a t 11 22 (2 ^ 24) := by
  obtain ⟨h, hb⟩ := alpha_case
  obtain ⟨he, hsl⟩ := alpha_env b
  have h' : AlphaCall (mkScalar lp64 .float) alphaAts { alphaIn with fn := 4096 + 240 } := ⟨h.rtype, h.types, h.vals, h.addr, h.top, h.rvalue, h.room, h.apart⟩
  have hrd : alphaIn.mem.rd (2 ^ 24) 24 = leBytes 8 (4096 + 240) ++ leBytes 8 11 ++ leBytes 8 22 := by
    show (Mem.wr _ _ _).rd (2 ^ 24) 24 = _
    rw [wr_rd _ _ (by simp)]
  have hgo : (prepGo (fun _ => 0) (2 ^ 24) (4096 + 240) 11 22).rd (2 ^ 24) 24 = leBytes 8 (4096 + 240) ++ leBytes 8 11 ++ leBytes 8 22 := by
    obtain ⟨p0, p1, p2⟩ := prepGo_rd (fun _ => 0) (2 ^ 24) (4096 + 240) 11 22
    rw [show 24 = 8 + 8 + 8 from rfl, Mem.rd_append, Mem.rd_append, p0, p1]
    exact congrArg _ p2
  have hm : ∀ i, i < 24 → alphaIn.mem (2 ^ 24 + i) = prepGo (fun _ => 0) (2 ^ 24) (4096 + 240) 11 22 (2 ^ 24 + i) := by
    intro i hi
    have e1 := Mem.rd_getD alphaIn.mem (2 ^ 24) 24 i hi
    have e2 := Mem.rd_getD (prepGo (fun _ => 0) (2 ^ 24) (4096 + 240) 11 22) (2 ^ 24) 24 i hi
    rw [← e1, ← e2, hrd, hgo]
  have hg : leNat (alphaIn.mem.rd (alphaEnv b).slot 8) = (alphaEnv b).inner := by
    rw [hsl]
    show leNat ((Mem.wr (Mem.wr _ _ _) _ _).rd (2 ^ 23) 8) = 99
    rw [Mem.rd_wr_disj _ _ _ _ _ (by simp), wr_rd _ _ (leBytes_length _ _)]
    decide
  have hc : 4096 + 240 = leNat (alphaIn.mem.rd (2 ^ 24) 8) := by
    rw [← Mem.rd_take alphaIn.mem (2 ^ 24) (n := 24) (k := 8) (by decide), hrd]
    decide +kernel
  obtain ⟨O, hO, k⟩ := C102_go_round_trip_partial he h' hb (m := fun _ => 0) (cif := 11) (fn := 22) (by decide) (by decide) hc hm hg
  have hp : O.argp = 1048464 := alpha_argp hO
  obtain ⟨a, t, r1, _, r2, c1, _⟩ := k (by omega) (.inr (by decide)) (.inr (by rw [hsl]; decide)) { alphaState O with r := upd (alphaState O).r 20 (4096 + 240) }
    ⟨rfl, rfl, rfl, rfl, rfl, rfl, rfl, rfl, by show 1000 + 26 < 2 ^ 64 ∧ 1000 + 15 < 2 ^ 64; decide⟩
  exact ⟨O, a, t, r1, r2, c1⟩

/-- The caller's object. -/
example (b : Bool) : ∃ O t, Runs (alphaEnv b) (alphaState O) t ∧ refs (mregs t) 0 [mkScalar lp64 .longdouble] = [(2 ^ 21 + 16, 16)] := by
  have hpb : prepBytes (.mk 1 1 .void []) [mkScalar lp64 .longdouble] = 48 := by decide +kernel
  obtain ⟨O, _, k⟩ := C100_shared (alpha_env b).1 (rt := .mk 1 1 .void []) (I := { alphaIn with avalue := [2 ^ 21 + 16] }) (a := 2 ^ 21 + 16) rfl
    ⟨.inl rfl, by intro t ht; simp at ht; rw [ht]; exact mkScalar_wf rfl, rfl, by intro a ha; simp at ha; omega, by show 2 ^ 20 < 2 ^ 64; decide, by show 2 ^ 21 < 2 ^ 64; decide,
      by rw [hpb]; show 48 + 1 + 64 ≤ 2 ^ 20; decide, by
        intro i t a _ ha
        right
        have : a ∈ [2 ^ 21 + 16] := List.mem_of_getElem? ha
        simp at this
        show 2 ^ 20 ≤ a
        omega⟩ rfl
  obtain ⟨t, r, _, e⟩ := k (alphaState O) ⟨rfl, rfl, rfl, rfl, rfl, rfl, rfl, rfl, by show 1000 + 26 < 2 ^ 64 ∧ 1000 + 15 < 2 ^ 64; decide⟩
  exact ⟨O, t, r, e⟩

end Verif.Props
