import Verif.M68k.Whole
import Verif.Spec.Build

/-
Properties C108, C109 and C110: 68000 under Linux, src/m68k.
-/
namespace Verif.Props
open Verif Verif.M68k
open Verif.Spec.M68k hiding Ty

/-- C108: `ffi_call_SYSV` calls `ffi_prep_args` with the place of the arguments, and then the function: all arguments are on the stack where the function looks for them, with the values
of the objects, the address of a struct result is in a1, and the registers of the caller are as they were. -/
theorem C108_call_enter {E : Env} {s : M} {S A : Nat} {rt : FType} {ats : List FType} {avalue : List Nat} {rvalue fn : Nat} (h : Entry E s S A rt ats avalue rvalue fn) :
    ∃ t, Runs E s t ∧ t.pc = E.L.fn .prep ∧ t.mem.rd (t.a 7 + 4) 4 = beBytes 4 A ∧ t.mem.rd (t.a 7 + 8) 4 = s.mem.rd (S + 4) 4 ∧
      ∀ p, PrepDone E t p A rt ats avalue rvalue →
        ∃ f, Runs E p f ∧ f.pc = fn ∧ AllPassed f.mem (f.a 7 + 4) ats (vals s.mem ats avalue) ∧ (inMem rt = true → f.a 1 = rvalue) ∧
          (∀ r, 2 ≤ r → f.d r = s.d r) ∧ (∀ r, 2 ≤ r → r ≤ 5 → f.a r = s.a r) ∧ ∀ x, S ≤ x → f.mem x = s.mem x := by
  obtain ⟨t, r, h1, h2, h3, _, h5⟩ := call_enter h
  refine ⟨t, r, h1, h2, h3, fun p hp => ?_⟩
  obtain ⟨f, rf, c⟩ := h5 p hp
  exact ⟨f, rf, c.pc, c.args, c.res, c.d, c.a, c.frame⟩

/-- C108: whatever the function returns, `ffi_call_SYSV` returns to its caller with its registers and its stack, and writes at most 12 bytes at `rvalue`;
if `rvalue` is not null, the result is there, unless it is one of the cases below: unsigned integers smaller than a word that the function has not extended, and `long double` without
a floating-point unit. -/
theorem C108_call_return_partial {E : Env} {s : M} {S A : Nat} {rt : FType} {ats : List FType} {avalue : List Nat} {rvalue fn : Nat} (h : Entry E s S A rt ats avalue rvalue fn)
    (hap : rvalue = 0 ∨ rvalue + 12 ≤ S - 8 ∨ S + 4 ≤ rvalue) :
    ∃ t, Runs E s t ∧ t.pc = E.L.fn .prep ∧ ∀ p, PrepDone E t p A rt ats avalue rvalue → ∃ f, Runs E p f ∧ f.pc = fn ∧ ∀ u, FnDone f u S →
      ∃ z, Runs E u z ∧ z.pc = r4 s.mem S ∧ z.a 7 = S + 4 ∧ (∀ r, 2 ≤ r → r ≤ 7 → z.d r = s.d r) ∧ (∀ r, 2 ≤ r → r ≤ 6 → z.a r = s.a r) ∧
        (rvalue = 0 → z.mem = u.mem) ∧ (∀ x, x < rvalue ∨ rvalue + 12 ≤ x → z.mem x = u.mem x) ∧
        ∀ v, rvalue ≠ 0 → Returned E.F E.fpu rt v ⟨u.d 0, u.d 1, u.d 2, u.a 0, u.fp0⟩ → Exact E.F rt v →
          (rt.tc = .uint8 ∨ rt.tc = .uint16 → u.d 0 < 256 ^ rt.size) → (rt.tc = .longdouble → E.fpu = true) → Got rt v z.mem rvalue := by
  obtain ⟨t, r', h1, _, _, _, h5⟩ := call_enter h
  refine ⟨t, r', h1, fun p hp => ?_⟩
  obtain ⟨f, rf, c⟩ := h5 p hp
  refine ⟨f, rf, c.pc, fun u hu => ?_⟩
  exact call_result h c hu hap

/-- C108, violated: an unsigned integer smaller than a word is stored as the function has left it in d0, though signed ones are extended: the bytes above the value are not zero. -/
theorem C108_unsigned {E : Env} {s : M} {S A : Nat} {rt : FType} {ats : List FType} {avalue : List Nat} {rvalue fn : Nat} (h : Entry E s S A rt ats avalue rvalue fn)
    (hap : rvalue + 12 ≤ S - 8 ∨ S + 4 ≤ rvalue) (h0 : rvalue ≠ 0) (hrt : rt.tc = .uint8 ∨ rt.tc = .uint16) :
    ∃ t, Runs E s t ∧ t.pc = E.L.fn .prep ∧ ∀ p, PrepDone E t p A rt ats avalue rvalue → ∃ f, Runs E p f ∧ f.pc = fn ∧ ∀ u, FnDone f u S → u.d 0 < 2 ^ 32 → 256 ^ rt.size ≤ u.d 0 →
      ∃ z, Runs E u z ∧ z.pc = r4 s.mem S ∧ z.mem.rd rvalue 4 = beBytes 4 (u.d 0) ∧ ∀ v, v.length = rt.size → ¬ Got rt v z.mem rvalue := by
  obtain ⟨t, r', h1, _, _, _, h5⟩ := call_enter h
  refine ⟨t, r', h1, fun p hp => ?_⟩
  obtain ⟨f, rf, c⟩ := h5 p hp
  refine ⟨f, rf, c.pc, fun u hu hlt hge => ?_⟩
  have hf : flags rt = 2 ^ 0 := by unfold flags; rcases hrt with e | e <;> rw [e] <;> rfl
  obtain ⟨z, r, d⟩ := (call_return h c hu (.inr hap)).2 0 (by omega) hf h0
  have e : z.mem.rd rvalue 4 = beBytes 4 (u.d 0) := by
    rw [d.mem]
    exact Or1k.wr_rd _ _ (beBytes_length _ _)
  refine ⟨z, r, d.pc, e, fun v hv hg => ?_⟩
  have hsz : rt.size = 1 ∨ rt.size = 2 := by
    have hty := h.rty.resolve_left (by rcases hrt with e | e <;> rw [e] <;> decide)
    cases M68k.Ty.cls hty with
    | small n h hs => omega
    | recd h _ => rcases hrt with e | e <;> rw [e] at h <;> cases h
    | plain h => rcases hrt with e | e <;> simp [e] at h
  have hg : (beNat (z.mem.rd rvalue 4) : Int) = intVal rt.tc v % 2 ^ 32 := by
    unfold Got at hg
    rcases hrt with e | e <;> rw [e] at hg ⊢ <;> exact hg
  rw [e, Or1k.be4 hlt] at hg
  have hb := beNat_lt v
  rw [hv] at hb
  have hi : intVal rt.tc v = beNat v := by
    unfold intVal
    rcases hrt with e | e <;> rw [e] <;> simp [signed]
  rw [hi] at hg
  rcases hsz with e | e <;> rw [e] at hb hge <;> omega

/-- C108, violated: without a floating-point unit the third word of a `long double` is lost.  It is in d2, but d2 has been loaded with the flags: their number 16 is stored. -/
theorem C108_ldouble {E : Env} {s : M} {S A : Nat} {rt : FType} {ats : List FType} {avalue : List Nat} {rvalue fn : Nat} (h : Entry E s S A rt ats avalue rvalue fn)
    (hap : rvalue + 12 ≤ S - 8 ∨ S + 4 ≤ rvalue) (h0 : rvalue ≠ 0) (hrt : rt.tc = .longdouble) (hE : E.fpu = false) :
    ∃ t, Runs E s t ∧ t.pc = E.L.fn .prep ∧ ∀ p, PrepDone E t p A rt ats avalue rvalue → ∃ f, Runs E p f ∧ f.pc = fn ∧ ∀ u, FnDone f u S →
      ∃ z, Runs E u z ∧ z.pc = r4 s.mem S ∧ z.mem.rd (rvalue + 8) 4 = beBytes 4 16 ∧
        ∀ v, Returned E.F E.fpu rt v ⟨u.d 0, u.d 1, u.d 2, u.a 0, u.fp0⟩ → u.d 2 < 2 ^ 32 → u.d 2 ≠ 16 → ¬ Got rt v z.mem rvalue := by
  obtain ⟨t, r', h1, _, _, _, h5⟩ := call_enter h
  refine ⟨t, r', h1, fun p hp => ?_⟩
  obtain ⟨f, rf, c⟩ := h5 p hp
  refine ⟨f, rf, c.pc, fun u hu => ?_⟩
  have hf : flags rt = 2 ^ 4 := by unfold flags; rw [hrt]; rfl
  obtain ⟨z, r, d⟩ := (call_return h c hu (.inr hap)).2 4 (by omega) hf h0
  have hs : stored E 4 (u.d 0) (u.d 1) (2 ^ 4) (u.a 0) u.fp0 = beBytes 4 (u.d 0) ++ beBytes 4 (u.d 1) ++ beBytes 4 16 := by simp [stored, hE]
  have e12 : z.mem.rd rvalue 12 = beBytes 4 (u.d 0) ++ beBytes 4 (u.d 1) ++ beBytes 4 16 := by
    rw [d.mem, hs]
    exact Or1k.wr_rd _ _ (by simp)
  have e := e12
  rw [show (12 : Nat) = 8 + 4 from rfl, Mem.rd_append] at e
  have e4 := (List.append_inj e (by simp)).2
  refine ⟨z, r, d.pc, e4, fun v hv hlt hne hg => ?_⟩
  have hsz : rt.size = 12 := by
    have hty := h.rty.resolve_left (by rw [hrt]; decide)
    cases M68k.Ty.cls hty with
    | small n h hs => simp [hrt] at h
    | recd h _ => rw [hrt] at h; cases h
    | plain h => simp [hrt] at h; exact h
  unfold Got at hg
  rw [hrt] at hg
  have hg : z.mem.rd rvalue rt.size = v := hg
  rw [hsz, e12] at hg
  have hv := hv.2
  rw [hrt] at hv
  have hv : (if E.fpu then u.fp0 = E.F.ldx v else beBytes 4 (u.d 0) ++ beBytes 4 (u.d 1) ++ beBytes 4 (u.d 2) = v) := hv
  rw [hE, if_neg (by decide), ← hg] at hv
  have := (List.append_inj hv (by simp)).2
  have := congrArg beNat this
  rw [Or1k.be4 hlt, Or1k.be4 (by decide)] at this
  exact hne this

/-- C108, violated: if the caller does not want the result (`rvalue` is null), room is made for structs of more than 8 bytes.  Smaller ones may be returned in memory too (3, 5, 6 or 7 bytes, or a
struct as first member): the function gets a null pointer for its result. -/
theorem C108_null_struct {rt : FType} {room : Nat} (hm : inMem rt = true) :
    (rt.size ≤ 8 → structPtr rt (callRvalue rt 0 room) = 0) ∧ (8 < rt.size → structPtr rt (callRvalue rt 0 room) = room) := by
  have h := flags_inMem hm
  refine ⟨fun hs => ?_, fun hs => ?_⟩
  · rw [structPtr, if_pos h, callRvalue, if_neg (by omega)]
  · rw [structPtr, if_pos h, callRvalue, if_pos ⟨rfl, h.1, hs⟩]

example : inMem (.mk 3 1 .struct [.mk 1 1 .uint8 [], .mk 1 1 .uint8 [], .mk 1 1 .uint8 []]) = true ∧
    inMem (.mk 8 2 .struct [.mk 4 2 .struct [.mk 4 2 .sint32 []], .mk 4 2 .sint32 []]) = true ∧
    inMem (.mk 8 2 .struct [.mk 8 2 .struct [.mk 4 2 .sint32 [], .mk 4 2 .sint32 []]]) = false := by decide

/-- C109: `ffi_closure_SYSV` calls `ffi_closure_SYSV_inner` with the closure, room for the result and the address of the arguments; the addresses that are given to the handler are those of the
values that the caller has passed.  When it returns, the result is where the caller looks for it (small integers
extended to words, pointers in d0 as well as in a0), and its registers and its stack are as they have to be. -/
theorem C109_closure {E : Env} {s : M} {S : Nat} {rt : FType} {ats : List FType} {vs : List (List Byte)} (hp : s.pc = E.lbl .closure) (hS : s.a 7 = S) (h32 : 32 ≤ S)
    (hreg : s.a 6 < 2 ^ 32) (hrt : rt.tc = .void ∨ Spec.M68k.Ty rt) (hm : inMem rt = false) (htys : ∀ t ∈ ats, Spec.M68k.Ty t) (hlen : vs.map List.length = ats.map FType.size)
    (hargs : AllPassed s.mem (S + 4) ats vs) :
    ∃ t, Runs E s t ∧ t.pc = E.L.fn .inner ∧ t.mem.rd (t.a 7 + 4) 4 = beBytes 4 (s.a 0) ∧ t.mem.rd (t.a 7 + 8) 4 = beBytes 4 (S - 16) ∧ t.mem.rd (t.a 7 + 12) 4 = beBytes 4 (S + 4) ∧
      vals t.mem ats (closureView (S + 4) ats) = vs ∧ (closureView (S + 4) ats).length = ats.length ∧ t.a 7 + 16 ≤ S - 16 ∧ (∀ x, S ≤ x → t.mem x = s.mem x) ∧
      ∀ p, InnerDone t p S rt →
        ∃ z, Runs E p z ∧ z.pc = r4 s.mem S ∧ z.a 7 = S + 4 ∧ (∀ r, 2 ≤ r → r ≤ 7 → (r = 2 → rt.tc ≠ .longdouble ∨ E.fpu = true) → z.d r = s.d r) ∧
          (∀ r, 2 ≤ r → r ≤ 6 → z.a r = s.a r) ∧ z.mem = p.mem ∧
          ∀ v, v.length = rt.size → Got rt v p.mem (S - 16) → Returned E.F E.fpu rt v ⟨z.d 0, z.d 1, z.d 2, z.a 0, z.fp0⟩ ∧
            (rt.tc = .uint8 ∨ rt.tc = .sint8 ∨ rt.tc = .uint16 ∨ rt.tc = .sint16 → (z.d 0 : Int) = intVal rt.tc v % 2 ^ 32) ∧ (rt.tc = .pointer → z.d 0 = z.a 0) := by
  obtain ⟨t, r, w⟩ := run_inner hp hS h32
  have hv := closureView_ok (m := t.mem) (fun t ht => M68k.Ty.cls (htys t ht)) hlen (allPassed_congr (fun x hx => w.frame x (by omega)) hargs)
  refine ⟨t, r, w.pc, by rw [w.sp, show S - 4 - 12 - 16 + 4 = S - 4 - 12 - 12 by omega]; exact w.closure, by rw [w.sp, show S - 4 - 12 - 16 + 8 = S - 4 - 12 - 8 by omega]; exact w.resp,
    by rw [w.sp, show S - 4 - 12 - 16 + 12 = S - 4 - 12 - 4 by omega]; exact w.args, hv.1, hv.2, by rw [w.sp]; omega, fun x hx => w.frame x (.inr hx), fun p hd => ?_⟩
  have hpc : p.pc = E.L.at_ (target E.fpu E.old .closure + 6) := by
    have hl : ∀ x y : Bool, target x y .closure + 6 < 200 := by decide +kernel
    rw [hd.pc, w.sp]
    exact r4_of w.ret (E.L.lt' (hl E.fpu E.old))
  have hsf : p.mem.rd (S - 4) 4 = beBytes 4 (s.a 6) := by
    rw [← w.sfp]
    exact Mem.rd_congr fun i hi => hd.mem _ (by omega) (by omega)
  have hra : p.mem.rd S 4 = beBytes 4 (r4 s.mem S) := by
    rw [be_r4]
    exact Mem.rd_congr fun i hi => by rw [hd.mem _ (by omega) (by omega), w.frame _ (by omega)]
  obtain ⟨b1, b2⟩ := run_cret (E := E) h32 hpc (by rw [hd.a 6 (by omega) (by omega), w.fp]) hd.d0 hsf hra hreg (r4_lt _ _)
  have fin {z : M} {n : Nat} (c : CDone E p z S n (s.a 6) (r4 s.mem S)) (hn : n = 4 → rt.tc = .longdouble) :
      z.pc = r4 s.mem S ∧ z.a 7 = S + 4 ∧ (∀ r, 2 ≤ r → r ≤ 7 → (r = 2 → rt.tc ≠ .longdouble ∨ E.fpu = true) → z.d r = s.d r) ∧ (∀ r, 2 ≤ r → r ≤ 6 → z.a r = s.a r) ∧ z.mem = p.mem := by
    refine ⟨c.pc, c.sp, fun r h2 h7 h4 => ?_, fun r h2 h6 => ?_, c.mem⟩
    · rw [c.d r h2 fun e => (h4 e).imp_left fun h e => h (hn e), hd.d r h2 h7, w.d]
    · by_cases e : r = 6
      · subst e; exact c.fp
      · rw [c.a r (by omega) e (by omega), hd.a r h2 h6, w.a r e (by omega)]
  rcases hrt with hvoid | hty
  · have hf : flags rt = 0 := by unfold flags; rw [hvoid]
    obtain ⟨z, rz, c⟩ := b1 hf
    obtain ⟨f1, f2, f3, f4, f5⟩ := fin c (fun h => by omega)
    refine ⟨z, rz, f1, f2, f3, f4, f5, fun v hvl _ => ⟨⟨hvl, ?_⟩, ?_, ?_⟩⟩
    · rw [hvoid]
      trivial
    · rw [hvoid]; simp
    · rw [hvoid]; simp
  · rcases flags_bit hty with ⟨h, _⟩ | ⟨_, n, hn, hf⟩
    · rw [h] at hm; cases hm
    · obtain ⟨z, rz, c, l⟩ := b2 n hn hf
      have h4 : n = 4 → rt.tc = .longdouble := by
        intro e
        subst e
        have hc := M68k.Ty.cls hty
        obtain ⟨sz, al, tc, es⟩ := rt
        cases hc with
        | small n h _ => rcases h with ⟨_, h | h⟩ | ⟨_, h | h⟩ <;> cases h <;> simp [flags, FType.tc] at hf
        | recd h _ =>
          cases h
          rcases flags_regs hm with ⟨_, h⟩ | ⟨_, h⟩ | ⟨_, h⟩ | ⟨_, h⟩ <;> rw [h] at hf <;> exact absurd hf (by decide)
        | plain h =>
          rcases h with ⟨h, _⟩ | ⟨h, _⟩ | ⟨h, _⟩ | ⟨h, _⟩ | ⟨h, _⟩ | ⟨h, _⟩ | ⟨h, _⟩ | ⟨h, _⟩ <;> cases h <;> first | rfl | simp [flags, FType.tc] at hf
      obtain ⟨f1, f2, f3, f4, f5⟩ := fin c h4
      exact ⟨z, rz, f1, f2, f3, f4, f5, fun v hvl hg => ⟨loaded_returned hty hvl hm hf hg l, loaded_full hty hvl hf hg l⟩⟩

/-- C109: `ffi_closure_struct_SYSV` gives the handler the address of the result that is in a1. -/
theorem C109_struct {E : Env} {s : M} {S : Nat} {rt : FType} {ats : List FType} {vs : List (List Byte)} (hp : s.pc = E.lbl .cstruct) (hS : s.a 7 = S) (h32 : 32 ≤ S)
    (hreg : s.a 6 < 2 ^ 32) (htys : ∀ t ∈ ats, Spec.M68k.Ty t) (hlen : vs.map List.length = ats.map FType.size) (hargs : AllPassed s.mem (S + 4) ats vs) :
    ∃ t, Runs E s t ∧ t.pc = E.L.fn .inner ∧ t.mem.rd (t.a 7 + 4) 4 = beBytes 4 (s.a 0) ∧ t.mem.rd (t.a 7 + 8) 4 = beBytes 4 (s.a 1) ∧ t.mem.rd (t.a 7 + 12) 4 = beBytes 4 (S + 4) ∧
      vals t.mem ats (closureView (S + 4) ats) = vs ∧ (closureView (S + 4) ats).length = ats.length ∧ (∀ x, S ≤ x → t.mem x = s.mem x) ∧
      ∀ p, InnerDone t p S rt →
        ∃ z, Runs E p z ∧ z.pc = r4 s.mem S ∧ z.a 7 = S + 4 ∧ (∀ r, 2 ≤ r → r ≤ 7 → z.d r = s.d r) ∧ (∀ r, 2 ≤ r → r ≤ 6 → z.a r = s.a r) ∧ z.mem = p.mem := by
  obtain ⟨t, r, w⟩ := run_inner_struct hp hS h32
  have hv := closureView_ok (m := t.mem) (fun t ht => M68k.Ty.cls (htys t ht)) hlen (allPassed_congr (fun x hx => w.frame x (by omega)) hargs)
  refine ⟨t, r, w.pc, by rw [w.sp, show S - 4 - 0 - 16 + 4 = S - 4 - 0 - 12 by omega]; exact w.closure, by rw [w.sp, show S - 4 - 0 - 16 + 8 = S - 4 - 0 - 8 by omega]; exact w.resp,
    by rw [w.sp, show S - 4 - 0 - 16 + 12 = S - 4 - 0 - 4 by omega]; exact w.args, hv.1, hv.2, fun x hx => w.frame x (.inr hx), fun p hd => ?_⟩
  have hpc : p.pc = E.L.at_ (target E.fpu E.old .cstruct + 6) := by
    have hl : ∀ x y : Bool, target x y .cstruct + 6 < 200 := by decide +kernel
    rw [hd.pc, w.sp]
    exact r4_of w.ret (E.L.lt' (hl E.fpu E.old))
  have hsf : p.mem.rd (S - 4) 4 = beBytes 4 (s.a 6) := by
    rw [← w.sfp]
    exact Mem.rd_congr fun i hi => hd.mem _ (by omega) (by omega)
  have hra : p.mem.rd S 4 = beBytes 4 (r4 s.mem S) := by
    rw [be_r4]
    exact Mem.rd_congr fun i hi => by rw [hd.mem _ (by omega) (by omega), w.frame _ (by omega)]
  obtain ⟨z, rz, c⟩ := run_cret_struct (E := E) (by omega) hpc (by rw [hd.a 6 (by omega) (by omega), w.fp]) hsf hra hreg (r4_lt _ _)
  refine ⟨z, rz, c.pc, c.sp, fun r h2 h7 => ?_, fun r h2 h6 => ?_, c.mem⟩
  · rw [c.d r h2 fun _ => .inl (by decide), hd.d r h2 h7, w.d]
  · by_cases e : r = 6
    · subst e; exact c.fp
    · rw [c.a r (by omega) e (by omega), hd.a r h2 h6, w.a r e (by omega)]

/-- C110: the two instructions of the trampoline, wherever it is mapped, load the address of the closure into a0 and jump to the function for structs in memory exactly if the result is one;
nothing else changes. -/
theorem C110_trampoline {E : Env} {rt : FType} {codeloc tramp : Nat} {m : Mem} {s : M} (hrt : rt.tc = .void ∨ Spec.M68k.Ty rt) (hc : codeloc < 2 ^ 32)
    (hm : ∀ i < 12, s.mem (codeloc + i) = prepTramp E rt codeloc tramp m (tramp + i)) (hp : s.pc = codeloc) :
    (∃ t u, tstep s = some t ∧ tstep t = some u ∧ u.pc = (if inMem rt then E.lbl .cstruct else E.lbl .closure) ∧ u.a 0 = codeloc ∧ (∀ r, r ≠ 0 → u.a r = s.a r) ∧ u.d = s.d ∧
      u.mem = s.mem ∧ u.fp0 = s.fp0) ∧ ∀ x, x < tramp ∨ tramp + 12 ≤ x → prepTramp E rt codeloc tramp m x = m x := by
  have e : closureTarget E rt = if inMem rt then E.lbl .cstruct else E.lbl .closure := by
    unfold closureTarget
    rcases hrt with hv | hty
    · rw [if_neg (by rw [hv]; simp), if_neg (by simp [inMem, hv])]
    · rcases flags_bit hty with ⟨h, _⟩ | ⟨h, n, _, hf⟩
      · rw [if_pos (flags_inMem h), if_pos h]
      · rw [if_neg (by rw [hf]; have := Nat.two_pow_pos n; omega), h, if_neg (by decide)]
  rw [← e]
  refine ⟨tramp_ok hc hm hp, fun x hx => ?_⟩
  unfold prepTramp
  rw [w4_out (by omega), Mem.wr_out _ _ _ _ (by rw [beBytes_length]; omega), w4_out (by omega), Mem.wr_out _ _ _ _ (by rw [beBytes_length]; omega)]

/-! A state in which a call starts: a function that takes an unsigned byte and a struct of three bytes and returns a signed byte. -/

def m68kEnv (fpu old : Bool) : Env :=
  { fpu := fpu, old := old
    F := ⟨beNat, beNat, beNat, beBytes 4, beBytes 8, beBytes 12, fun _ => by simp, fun _ => by simp, fun _ => by simp⟩
    L := ⟨fun k => 4096 + 2 * k, fun | .prep => 8192 | .inner => 8200, fun i j h => by show 4096 + 2 * i < 4096 + 2 * j; omega, by decide⟩ }

def m68kMem : Mem := w4 (w4 (w4 (w4 (w4 (w4 (fun _ => 7) 65536 300) 65540 65600) 65544 8) 65548 256) 65552 70000) 65556 9000

def m68kStart (fpu old : Bool) : M :=
  { d := fun _ => 5, a := fun r => if r = 7 then 65536 else 66000, fp0 := 0, z := false, c := false, mem := m68kMem, pc := (m68kEnv fpu old).lbl .call }

theorem m68k_u8 : Spec.M68k.Ty (.mk 1 1 .uint8 []) := ⟨Spec.mkScalar_wf (tab := tab) (tc := .uint8) rfl, fun h => by cases h⟩

theorem m68k_s8 : Spec.M68k.Ty (.mk 1 1 .sint8 []) := ⟨Spec.mkScalar_wf (tab := tab) (tc := .sint8) rfl, fun h => by cases h⟩

theorem m68k_three : Spec.M68k.Ty (.mk 3 1 .struct [.mk 1 1 .uint8 [], .mk 1 1 .uint8 [], .mk 1 1 .uint8 []]) :=
  ⟨Spec.mkStruct_wf tab_ok (es := [.mk 1 1 .uint8 [], .mk 1 1 .uint8 [], .mk 1 1 .uint8 []]) (by simp) (fun e he => by simp at he; subst he; exact m68k_u8.1), fun h => by cases h⟩

theorem m68k_entry (fpu old : Bool) : Entry (m68kEnv fpu old) (m68kStart fpu old) 65536 (65536 - 16) (.mk 1 1 .sint8 [])
    [.mk 1 1 .uint8 [], .mk 3 1 .struct [.mk 1 1 .uint8 [], .mk 1 1 .uint8 [], .mk 1 1 .uint8 []]] [70100, 70200] 70000 9000 := by
  refine ⟨rfl, rfl, ?_, ?_, ?_, ?_, by decide, by decide, by decide, by decide, by decide, fun r => ?_, .inr m68k_s8, ?_, rfl, ?_⟩
  · show m68kMem.rd 65544 4 = beBytes 4 8
    unfold m68kMem
    rw [rd_w4 (by omega), rd_w4 (by omega), rd_w4 (by omega), rd_w4_same]
  · show m68kMem.rd 65548 4 = beBytes 4 256
    unfold m68kMem
    rw [rd_w4 (by omega), rd_w4 (by omega), rd_w4_same]
  · show m68kMem.rd 65552 4 = beBytes 4 70000
    unfold m68kMem
    rw [rd_w4 (by omega), rd_w4_same]
  · show m68kMem.rd 65556 4 = beBytes 4 9000
    unfold m68kMem
    rw [rd_w4_same]
  · refine ⟨by show 5 < 2 ^ 32; decide, ?_⟩
    show (if r = 7 then 65536 else 66000) < 2 ^ 32
    split <;> decide
  · intro t ht
    simp at ht
    rcases ht with rfl | rfl
    · exact m68k_u8
    · exact m68k_three
  · intro i t a h1 h2
    match i, h1, h2 with
    | 0, h1, h2 => cases h1; cases h2; exact .inr (by decide)
    | 1, h1, h2 => cases h1; cases h2; exact .inr (by decide)
    | _ + 2, h1, _ => simp at h1

/-- The call starts, `ffi_prep_args` stores the arguments and the function gets them. -/
example (fpu old : Bool) : ∃ t p f, Runs (m68kEnv fpu old) (m68kStart fpu old) t ∧ t.pc = 8192 ∧ Runs (m68kEnv fpu old) p f ∧ f.pc = 9000 ∧
    AllPassed f.mem (f.a 7 + 4) [.mk 1 1 .uint8 [], .mk 3 1 .struct [.mk 1 1 .uint8 [], .mk 1 1 .uint8 [], .mk 1 1 .uint8 []]] [[7], [7, 7, 7]] := by
  obtain ⟨t, r, h1, _, _, h5⟩ := C108_call_enter (m68k_entry fpu old)
  obtain ⟨f, rf, h6, h7, _⟩ := h5
    { t with pc := r4 t.mem (t.a 7), a := upd (upd t.a 0 0) 7 (t.a 7 + 4)
             mem := M68k.prepArgs [.mk 1 1 .uint8 [], .mk 3 1 .struct [.mk 1 1 .uint8 [], .mk 1 1 .uint8 [], .mk 1 1 .uint8 []]] [70100, 70200] (65536 - 16) t.mem }
    ⟨rfl, rfl, fun _ _ => rfl, fun r h2 h6 => by show upd (upd t.a 0 0) 7 _ r = _; rw [upd, if_neg (by omega), upd, if_neg (by omega)], rfl, fun _ _ => rfl⟩
  refine ⟨t, _, f, r, h1, rf, h6, ?_⟩
  have e : vals (m68kStart fpu old).mem [.mk 1 1 .uint8 [], .mk 3 1 .struct [.mk 1 1 .uint8 [], .mk 1 1 .uint8 [], .mk 1 1 .uint8 []]] [70100, 70200] = [[7], [7, 7, 7]] := by
    show [m68kMem.rd 70100 1, m68kMem.rd 70200 3] = _
    unfold m68kMem
    rw [rd_w4 (by omega), rd_w4 (by omega), rd_w4 (by omega), rd_w4 (by omega), rd_w4 (by omega), rd_w4 (by omega), rd_w4 (by omega), rd_w4 (by omega), rd_w4 (by omega), rd_w4 (by omega),
      rd_w4 (by omega), rd_w4 (by omega)]
    rfl
  rw [e] at h7
  exact h7

/-- Values that the conventions tell apart. -/
example : Returned (m68kEnv true false).F false (.mk 1 1 .uint8 []) [255] ⟨0x1ff, 0, 0, 0, 0⟩ ∧ ¬ Returned (m68kEnv true false).F false (.mk 1 1 .uint8 []) [255] ⟨0x1fe, 0, 0, 0, 0⟩ := by
  constructor
  · exact ⟨rfl, (by decide : beBytes 1 0x1ff = [255])⟩
  · rintro ⟨_, h⟩
    revert h
    show ¬ beBytes 1 0x1fe = [255]
    decide

/-- A closure is called with a byte and returns a signed byte. -/
example : AllPassed (w4 (fun _ => 0) 65540 200) (65536 + 4) [.mk 1 1 .uint8 []] [[200]] ∧ closureView (65536 + 4) [.mk 1 1 .uint8 [], .mk 8 2 .double []] = [65543, 65544] := by
  refine ⟨⟨?_, trivial⟩, by decide⟩
  show (beNat ((w4 (fun _ => 0) 65540 200).rd 65540 4) : Int) = intVal .uint8 [200] % 2 ^ 32
  rw [rd_w4_same, Or1k.be4 (by decide)]
  decide

end Verif.Props
