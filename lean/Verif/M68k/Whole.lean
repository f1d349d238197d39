import Verif.M68k.Closure

/- Whole calls: the pieces of `ffi_call_SYSV` put together. -/
namespace Verif.M68k
open Verif Verif.Spec.M68k
open Verif.Or1k (wr_rd be4 beNat_rd_lt)

theorem bytes_total {E : Env} {s : M} {S A : Nat} {rt : FType} {ats : List FType} {avalue : List Nat} {rvalue fn : Nat} (h : Entry E s S A rt ats avalue rvalue fn) :
    A + total ats + 8 ≤ S := by
  have h1 := h.room
  rw [prepBytes_eq h.tys] at h1
  omega

/-- The function is called with the arguments. -/
structure Called (E : Env) (s f : M) (S A : Nat) (rt : FType) (ats : List FType) (avalue : List Nat) (rvalue fn : Nat) : Prop where
  pc : f.pc = fn
  sp : f.a 7 = A - 4
  args : AllPassed f.mem (f.a 7 + 4) ats (vals s.mem ats avalue)
  res : inMem rt = true → f.a 1 = rvalue
  d : ∀ r, 2 ≤ r → f.d r = s.d r
  a : ∀ r, 2 ≤ r → r ≤ 5 → f.a r = s.a r
  frame : ∀ x, S ≤ x → f.mem x = s.mem x
  fp : f.a 6 = S - 4
  ret : f.mem.rd (A - 4) 4 = beBytes 4 (E.L.at_ 10)
  sfp : f.mem.rd (S - 4) 4 = beBytes 4 (s.a 6)
  sd2 : f.mem.rd (S - 8) 4 = beBytes 4 (s.d 2)

theorem call_enter {E : Env} {s : M} {S A : Nat} {rt : FType} {ats : List FType} {avalue : List Nat} {rvalue fn : Nat} (h : Entry E s S A rt ats avalue rvalue fn) :
    ∃ t, Runs E s t ∧ t.pc = E.L.fn .prep ∧ t.mem.rd (t.a 7 + 4) 4 = beBytes 4 A ∧ t.mem.rd (t.a 7 + 8) 4 = s.mem.rd (S + 4) 4 ∧ t.a 7 + 12 = A ∧
      ∀ p, PrepDone E t p A rt ats avalue rvalue → ∃ f, Runs E p f ∧ Called E s f S A rt ats avalue rvalue fn := by
  have hl := h.low
  have hb := bytes_total h
  obtain ⟨t, r, w⟩ := run_prep h.pc h.sp h.read hl
  refine ⟨t, r, w.pc, by rw [w.sp, show A - 12 + 4 = A - 8 by omega]; exact w.stack, by rw [w.sp, show A - 12 + 8 = A - 4 by omega]; exact w.ecif, by rw [w.sp]; omega, fun p hp => ?_⟩
  have hpc : p.pc = E.L.at_ 6 := by
    rw [hp.pc, w.sp]
    exact r4_of w.ret (E.L.lt' (by omega))
  obtain ⟨f, rf, wf⟩ := run_fn (S := S) (A := A) hpc (by rw [hp.sp, w.sp]; omega) (by rw [hp.a 6 (by omega) (by omega), w.fp]) hl (by omega)
  obtain ⟨q1, q2⟩ := prepArgs_ok (m0 := s.mem) (lo := A - 12) (hi := S) (ts := ats) (as := avalue) (argp := A) (m := t.mem) (fun t ht => Ty.cls (h.tys t ht)) h.len h.apart (by omega) (by omega)
    (fun x hx => w.frame x (by omega))
  have hfr (x : Nat) (hx : A + total ats ≤ x) : f.mem x = t.mem x := by
    rw [wf.frame x (by omega), hp.mem x (by omega), q1 x (by omega)]
  have hrd (b n : Nat) (hx : A + total ats ≤ b) : f.mem.rd b n = t.mem.rd b n := Mem.rd_congr fun i _ => hfr _ (by omega)
  have hp20 : p.mem.rd (S + 20) 4 = s.mem.rd (S + 20) 4 := Mem.rd_congr fun i hi => by
    rw [hp.mem _ (by omega), q1 _ (by omega), w.frame _ (by omega)]
  refine ⟨f, rf, ?_, wf.sp, ?_, ?_, ?_, ?_, ?_, wf.fp, wf.ret, ?_, ?_⟩
  · rw [wf.pc, r4_congr hp20, r4_of h.mfn h.flt]
  · rw [wf.sp, show A - 4 + 4 = A by omega]
    exact q2 f.mem fun x h1 _ => by rw [wf.frame x (by omega), hp.mem x h1]
  · intro hm
    rw [wf.a1, hp.a0, structPtr, if_pos (flags_inMem hm)]
  · intro r hr
    rw [wf.d, hp.d r hr, w.d]
  · intro r h2 h5
    rw [wf.a r (by omega) (by omega) (by omega), hp.a r h2 (by omega), w.a r (by omega) (by omega)]
  · intro x hx
    rw [hfr x (by omega), w.frame x (by omega)]
  · rw [hrd _ _ (by omega), w.sfp]
  · rw [hrd _ _ (by omega), w.sd2]

/-- The call has returned. -/
structure Returns (s u z : M) (S rvalue : Nat) (m : Mem) : Prop where
  pc : z.pc = r4 s.mem S
  sp : z.a 7 = S + 4
  d : ∀ r, 2 ≤ r → r ≤ 7 → z.d r = s.d r
  a : ∀ r, 2 ≤ r → r ≤ 6 → z.a r = s.a r
  mem : z.mem = m

theorem call_return {E : Env} {s f u : M} {S A : Nat} {rt : FType} {ats : List FType} {avalue : List Nat} {rvalue fn : Nat} (h : Entry E s S A rt ats avalue rvalue fn)
    (hc : Called E s f S A rt ats avalue rvalue fn) (hu : FnDone f u S) (hap : rvalue = 0 ∨ rvalue + 12 ≤ S - 8 ∨ S + 4 ≤ rvalue) :
    (rvalue = 0 ∨ flags rt = 0 → ∃ z, Runs E u z ∧ Returns s u z S rvalue u.mem) ∧
      ∀ n, n < 10 → flags rt = 2 ^ n → rvalue ≠ 0 → ∃ z, Runs E u z ∧ Returns s u z S rvalue (u.mem.wr rvalue (stored E n (u.d 0) (u.d 1) (2 ^ n) (u.a 0) u.fp0)) := by
  have hl := h.low
  have hb := bytes_total h
  have hrd (b n : Nat) (h1 : S ≤ b) (h2 : b + n ≤ S + 24) : u.mem.rd b n = s.mem.rd b n := Mem.rd_congr fun i _ => by rw [hu.mem _ (by omega) (by omega), hc.frame _ (by omega)]
  have hrf (b n : Nat) (h1 : S - 8 ≤ b) (h2 : b + n ≤ S + 24) : u.mem.rd b n = f.mem.rd b n := Mem.rd_congr fun i _ => hu.mem _ (by omega) (by omega)
  have hflt : flags rt < 2 ^ 32 := by
    have h8 := h.rty
    rcases h8 with h8 | h8
    · unfold flags; rw [h8]; show 0 < 2 ^ 32; decide
    · rcases flags_bit h8 with ⟨_, h⟩ | ⟨_, n, hn, h⟩
      · rw [h]; decide
      · rw [h]; exact Nat.pow_lt_pow_right (by omega) (by omega)
  have hbk : AtBack E u S A (s.a 6) (s.d 2) (r4 s.mem S) := by
    refine ⟨?_, ?_, ?_, ?_, ?_, ?_, ?_, (h.reg 6).2, (h.reg 2).1, r4_lt _ _⟩
    · rw [hu.pc, hc.sp]; exact r4_of hc.ret (E.L.lt' (by omega))
    · rw [hu.sp, hc.sp]; omega
    · rw [hu.a 6 (by omega) (by omega), hc.fp]
    · rw [hrf _ _ (by omega) (by omega), hc.sfp]
    · rw [hrf _ _ (by omega) (by omega), hc.sd2]
    · rw [hrd _ _ (by omega) (by omega), be_r4]
    · rw [r4_congr (hrd (S + 8) 4 (by omega) (by omega))]; exact h.read
  obtain ⟨b1, b2⟩ := run_back hbk (rv := rvalue) (f := flags rt) (by omega) (by rw [r4_congr (hrd (S + 16) 4 (by omega) (by omega)), r4_of h.mrvalue h.rlt])
    (by rw [r4_congr (hrd (S + 12) 4 (by omega) (by omega)), r4_of h.mflags hflt]) hap
  have fin {z : M} {m : Mem} (d : Done u z S (s.a 6) (s.d 2) (r4 s.mem S) m) : Returns s u z S rvalue m := by
    refine ⟨d.pc, d.sp, fun r h2 h7 => ?_, fun r h2 h6 => ?_, d.mem⟩
    · by_cases e : r = 2
      · subst e; exact d.d2
      · rw [d.d r (by omega) e, hu.d r h2 h7, hc.d r h2]
    · by_cases e : r = 6
      · subst e; exact d.fp
      · rw [d.a r (by omega) e (by omega), hu.a r h2 h6, hc.a r h2 (by omega)]
  refine ⟨fun h0 => ?_, fun n hn hf h0 => ?_⟩
  · obtain ⟨z, r, d⟩ := b1 h0
    exact ⟨z, r, fin d⟩
  · obtain ⟨z, r, d⟩ := b2 n hn hf h0
    exact ⟨z, r, fin d⟩

/-- The call has returned, and the result is stored. -/
theorem call_result {E : Env} {s f u : M} {S A : Nat} {rt : FType} {ats : List FType} {avalue : List Nat} {rvalue fn : Nat} (h : Entry E s S A rt ats avalue rvalue fn)
    (c : Called E s f S A rt ats avalue rvalue fn) (hu : FnDone f u S) (hap : rvalue = 0 ∨ rvalue + 12 ≤ S - 8 ∨ S + 4 ≤ rvalue) :
    ∃ z, Runs E u z ∧ z.pc = r4 s.mem S ∧ z.a 7 = S + 4 ∧ (∀ r, 2 ≤ r → r ≤ 7 → z.d r = s.d r) ∧ (∀ r, 2 ≤ r → r ≤ 6 → z.a r = s.a r) ∧
      (rvalue = 0 → z.mem = u.mem) ∧ (∀ x, x < rvalue ∨ rvalue + 12 ≤ x → z.mem x = u.mem x) ∧
      ∀ v, rvalue ≠ 0 → Returned E.F E.fpu rt v ⟨u.d 0, u.d 1, u.d 2, u.a 0, u.fp0⟩ → Exact E.F rt v →
        (rt.tc = .uint8 ∨ rt.tc = .uint16 → u.d 0 < 256 ^ rt.size) → (rt.tc = .longdouble → E.fpu = true) → Got rt v z.mem rvalue := by
  obtain ⟨b1, b2⟩ := call_return h c hu hap
  by_cases h0 : rvalue = 0 ∨ flags rt = 0
  · obtain ⟨z, r, d⟩ := b1 h0
    refine ⟨z, r, d.pc, d.sp, d.d, d.a, fun _ => d.mem, fun x _ => by rw [d.mem], fun v hv _ _ _ _ => ?_⟩
    have hf := h0.resolve_left hv
    rcases h.rty with hvoid | hty
    · unfold Got; rw [hvoid]; trivial
    · rcases flags_bit hty with ⟨hm, _⟩ | ⟨_, n, _, hn⟩
      · unfold Got
        rw [(flags_inMem hm).1]
        exact .inl hm
      · rw [hn] at hf
        have := Nat.two_pow_pos n
        omega
  · have hty : Spec.M68k.Ty rt := h.rty.resolve_left fun hv => h0 (.inr (by unfold flags; rw [hv]))
    rcases flags_bit hty with ⟨_, hf⟩ | ⟨_, n, hn, hf⟩
    · exact absurd (.inr hf) h0
    · obtain ⟨z, r, d⟩ := b2 n hn hf fun hr => h0 (.inl hr)
      refine ⟨z, r, d.pc, d.sp, d.d, d.a, fun hr => absurd (.inl hr) h0, fun x hx => ?_, fun v _ hr hx hu' hl => ?_⟩
      · rw [d.mem]
        have := stored_len E (n := n) (d0 := u.d 0) (d1 := u.d 1) (d2 := 2 ^ n) (a0 := u.a 0) (fp0 := u.fp0)
        exact Mem.wr_out _ _ _ _ (by omega)
      · rw [d.mem]
        exact stored_got hty hf hr hx hu' hl

/-- `ffi_closure_SYSV_inner` has returned, src/m68k/ffi.c:308-322: it returns the flags; it has kept what functions have to keep. -/
structure InnerDone (t p : M) (S : Nat) (rt : FType) : Prop where
  pc : p.pc = r4 t.mem (t.a 7)
  sp : p.a 7 = t.a 7 + 4
  d0 : p.d 0 = flags rt
  d : ∀ r, 2 ≤ r → r ≤ 7 → p.d r = t.d r
  a : ∀ r, 2 ≤ r → r ≤ 6 → p.a r = t.a r
  mem : ∀ x, S - 4 ≤ x → x < S + 4 → p.mem x = t.mem x

end Verif.M68k
