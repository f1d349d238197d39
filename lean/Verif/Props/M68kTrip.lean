import Verif.Props.M68k

/-
Property C111: a closure of the 68000 is called with `ffi_call`.
-/
namespace Verif.Props
open Verif Verif.M68k
open Verif.Spec.M68k hiding Ty

theorem m68k_vals_length (m : Mem) : ∀ {ts : List FType} {as : List Nat}, as.length = ts.length → (vals m ts as).map List.length = ts.map FType.size
  | [], [], _ => rfl
  | [], _ :: _, h => by simp at h
  | _ :: _, [], h => by simp at h
  | t :: ts, a :: as, h => by
    simp only [vals, List.map_cons, Mem.rd_length]
    rw [m68k_vals_length m (by simpa using h)]

/-- C111: a closure is called with `ffi_call` and its result is not in memory.  The trampoline is entered with the arguments; it enters `ffi_closure_SYSV`, which calls the inner function with addresses
of the values that `avalue` has given.  When the inner function returns, the result that the handler has stored is at `rvalue`, and the caller of `ffi_call_SYSV` goes on with its registers and its
stack.  Missing: `long double` without a floating-point unit, as `C108_ldouble` says. -/
theorem C111_round_trip_partial {E : Env} {s : M} {S A : Nat} {rt : FType} {ats : List FType} {avalue : List Nat} {rvalue codeloc tramp : Nat} {m : Mem}
    (h : Entry E s S A rt ats avalue rvalue codeloc) (hap : rvalue = 0 ∨ rvalue + 12 ≤ S - 8 ∨ S + 4 ≤ rvalue) (hm : inMem rt = false) (hA : 36 ≤ A)
    (hld : rt.tc = .longdouble → E.fpu = true) :
    ∃ t, Runs E s t ∧ t.pc = E.L.fn .prep ∧ ∀ p, PrepDone E t p A rt ats avalue rvalue → ∃ f, Runs E p f ∧ f.pc = codeloc ∧
      ((∀ i < 12, f.mem (codeloc + i) = prepTramp E rt codeloc tramp m (tramp + i)) →
        ∃ g c i, tstep f = some g ∧ tstep g = some c ∧ Runs E c i ∧ i.pc = E.L.fn .inner ∧ i.mem.rd (i.a 7 + 4) 4 = beBytes 4 codeloc ∧ i.mem.rd (i.a 7 + 8) 4 = beBytes 4 (A - 20) ∧
          i.mem.rd (i.a 7 + 12) 4 = beBytes 4 A ∧ vals i.mem ats (closureView A ats) = vals s.mem ats avalue ∧
          ∀ q, InnerDone i q (A - 4) rt → (∀ x, S - 8 ≤ x → x < S + 24 → q.mem x = i.mem x) →
            ∃ z, Runs E q z ∧ z.pc = r4 s.mem S ∧ z.a 7 = S + 4 ∧ (∀ r, 2 ≤ r → r ≤ 7 → z.d r = s.d r) ∧ (∀ r, 2 ≤ r → r ≤ 6 → z.a r = s.a r) ∧
              (rvalue = 0 → z.mem = q.mem) ∧ (∀ x, x < rvalue ∨ rvalue + 12 ≤ x → z.mem x = q.mem x) ∧
              ∀ v, rvalue ≠ 0 → v.length = rt.size → Got rt v q.mem (A - 20) → Exact E.F rt v → Got rt v z.mem rvalue) := by
  obtain ⟨t, r1, h1, _, _, _, h5⟩ := call_enter h
  refine ⟨t, r1, h1, fun p hp => ?_⟩
  obtain ⟨f, rf, c⟩ := h5 p hp
  refine ⟨f, rf, c.pc, fun htr => ?_⟩
  obtain ⟨⟨g, k, e1, e2, kpc, ka0, ka, kd, kmem, _⟩, _⟩ := C110_trampoline h.rty h.flt htr c.pc
  rw [hm, if_neg (by decide)] at kpc
  have hAS := h.room
  have hS := h.high
  have e4 : A - 4 + 4 = A := by omega
  have e20 : A - 4 - 16 = A - 20 := by omega
  obtain ⟨i, ri, i1, i2, i3, i4, i5, _, _, i8, i9⟩ := C109_closure (S := A - 4) (rt := rt) (vs := vals s.mem ats avalue) kpc (by rw [ka 7 (by decide), c.sp]) (by omega)
    (by rw [ka 6 (by decide), c.fp]; omega) h.rty hm h.tys (m68k_vals_length s.mem h.len) (by rw [kmem, ← c.sp]; exact c.args)
  rw [e20] at i3
  rw [e4] at i4 i5
  refine ⟨g, k, i, e1, e2, ri, i1, by rw [i2, ka0], i3, i4, i5, fun q hq hk => ?_⟩
  obtain ⟨u, ru, u1, u2, u3, u4, u5, u6⟩ := i9 q hq
  rw [e20] at u6
  have hfd : FnDone f u S := by
    refine ⟨by rw [u1, kmem, c.sp], by rw [u2, c.sp], fun r h2 h7 => ?_, fun r h2 h6 => ?_, fun x hx hx' => ?_⟩
    · rw [u3 r h2 h7 fun _ => ?_, kd]
      by_cases hl : rt.tc = .longdouble
      · exact .inr (hld hl)
      · exact .inl hl
    · rw [u4 r h2 h6, ka r (by omega)]
    · rw [u5, hk x hx hx', i8 x (by omega), kmem]
  obtain ⟨z, rz, z1, z2, z3, z4, z5, z6, z7⟩ := call_result h c hfd hap
  refine ⟨z, ru.trans rz, z1, z2, z3, z4, fun h0 => by rw [z5 h0, u5], fun x hx => by rw [z6 x hx, u5], fun v h0 hl hg hx => ?_⟩
  obtain ⟨w1, w2, _⟩ := u6 v hl hg
  refine z7 v h0 w1 hx (fun hu => ?_) hld
  have w2 := w2 (by rcases hu with h | h <;> simp [h])
  have hi : intVal rt.tc v = beNat v := by
    unfold intVal
    rcases hu with e | e <;> rw [e] <;> simp [signed]
  have hb := beNat_lt v
  rw [hl] at hb
  have hty := h.rty.resolve_left (by rcases hu with e | e <;> rw [e] <;> decide)
  have hsz : rt.size = 1 ∨ rt.size = 2 := by
    cases M68k.Ty.cls hty with
    | small n h hs => omega
    | recd h _ => rcases hu with e | e <;> rw [e] at h <;> cases h
    | plain h => rcases hu with e | e <;> simp [e] at h
  rw [hi] at w2
  rcases hsz with e | e <;> rw [e] at hb ⊢ <;> omega

/-- C111: the same for results in memory: the handler gets `rvalue` itself, and `ffi_call_SYSV` stores nothing. -/
theorem C111_round_trip_struct {E : Env} {s : M} {S A : Nat} {rt : FType} {ats : List FType} {avalue : List Nat} {rvalue codeloc tramp : Nat} {m : Mem}
    (h : Entry E s S A rt ats avalue rvalue codeloc) (hap : rvalue = 0 ∨ rvalue + 12 ≤ S - 8 ∨ S + 4 ≤ rvalue) (hm : inMem rt = true) (hA : 36 ≤ A) :
    ∃ t, Runs E s t ∧ t.pc = E.L.fn .prep ∧ ∀ p, PrepDone E t p A rt ats avalue rvalue → ∃ f, Runs E p f ∧ f.pc = codeloc ∧
      ((∀ i < 12, f.mem (codeloc + i) = prepTramp E rt codeloc tramp m (tramp + i)) →
        ∃ g c i, tstep f = some g ∧ tstep g = some c ∧ Runs E c i ∧ i.pc = E.L.fn .inner ∧ i.mem.rd (i.a 7 + 4) 4 = beBytes 4 codeloc ∧ i.mem.rd (i.a 7 + 8) 4 = beBytes 4 rvalue ∧
          i.mem.rd (i.a 7 + 12) 4 = beBytes 4 A ∧ vals i.mem ats (closureView A ats) = vals s.mem ats avalue ∧
          ∀ q, InnerDone i q (A - 4) rt → (∀ x, S - 8 ≤ x → x < S + 24 → q.mem x = i.mem x) →
            ∃ z, Runs E q z ∧ z.pc = r4 s.mem S ∧ z.a 7 = S + 4 ∧ (∀ r, 2 ≤ r → r ≤ 7 → z.d r = s.d r) ∧ (∀ r, 2 ≤ r → r ≤ 6 → z.a r = s.a r) ∧ z.mem = q.mem) := by
  obtain ⟨t, r1, h1, _, _, _, h5⟩ := call_enter h
  refine ⟨t, r1, h1, fun p hp => ?_⟩
  obtain ⟨f, rf, c⟩ := h5 p hp
  refine ⟨f, rf, c.pc, fun htr => ?_⟩
  obtain ⟨⟨g, k, e1, e2, kpc, ka0, ka, kd, kmem, _⟩, _⟩ := C110_trampoline h.rty h.flt htr c.pc
  rw [hm, if_pos rfl] at kpc
  have hAS := h.room
  have hS := h.high
  have e4 : A - 4 + 4 = A := by omega
  obtain ⟨i, ri, i1, i2, i3, i4, i5, _, i8, i9⟩ := C109_struct (S := A - 4) (rt := rt) (vs := vals s.mem ats avalue) kpc (by rw [ka 7 (by decide), c.sp]) (by omega)
    (by rw [ka 6 (by decide), c.fp]; omega) h.tys (m68k_vals_length s.mem h.len) (by rw [kmem, ← c.sp]; exact c.args)
  rw [e4] at i4 i5
  refine ⟨g, k, i, e1, e2, ri, i1, by rw [i2, ka0], by rw [i3, ka 1 (by decide), c.res hm], i4, i5, fun q hq hk => ?_⟩
  obtain ⟨u, ru, u1, u2, u3, u4, u5⟩ := i9 q hq
  have hfd : FnDone f u S := by
    refine ⟨by rw [u1, kmem, c.sp], by rw [u2, c.sp], fun r h2 h7 => by rw [u3 r h2 h7, kd], fun r h2 h6 => by rw [u4 r h2 h6, ka r (by omega)], fun x hx hx' => ?_⟩
    rw [u5, hk x hx hx', i8 x (by omega), kmem]
  obtain ⟨z, rz, d⟩ := (call_return h c hfd hap).1 (.inr (flags_inMem hm).2)
  exact ⟨z, ru.trans rz, d.pc, d.sp, d.d, d.a, by rw [d.mem, u5]⟩

/-- The state of `m68k_entry` starts such a call: a function of an unsigned byte and a struct of three bytes that returns a signed byte. -/
example (fpu old : Bool) (tramp : Nat) (m : Mem) := C111_round_trip_partial (tramp := tramp) (m := m) (m68k_entry fpu old) (.inr (.inr (by decide))) (by decide) (by decide) (fun h => by cases h)

/-- A state in which a function of an unsigned byte that returns a struct of three bytes is called. -/
def m68kStart3 (fpu old : Bool) : M :=
  { m68kStart fpu old with mem := w4 m68kMem 65548 0 }

theorem m68k_entry_struct (fpu old : Bool) : Entry (m68kEnv fpu old) (m68kStart3 fpu old) 65536 (65536 - 16)
    (.mk 3 1 .struct [.mk 1 1 .uint8 [], .mk 1 1 .uint8 [], .mk 1 1 .uint8 []]) [.mk 1 1 .uint8 []] [70100] 70000 9000 := by
  refine ⟨rfl, rfl, ?_, ?_, ?_, ?_, by decide, by decide, by decide, by decide, by decide, fun r => ?_, .inr m68k_three, ?_, rfl, ?_⟩
  · show (w4 m68kMem 65548 0).rd 65544 4 = beBytes 4 8
    unfold m68kMem
    rw [rd_w4 (by omega), rd_w4 (by omega), rd_w4 (by omega), rd_w4 (by omega), rd_w4_same]
  · show (w4 m68kMem 65548 0).rd 65548 4 = beBytes 4 0
    rw [rd_w4_same]
  · show (w4 m68kMem 65548 0).rd 65552 4 = beBytes 4 70000
    unfold m68kMem
    rw [rd_w4 (by omega), rd_w4 (by omega), rd_w4_same]
  · show (w4 m68kMem 65548 0).rd 65556 4 = beBytes 4 9000
    unfold m68kMem
    rw [rd_w4 (by omega), rd_w4_same]
  · refine ⟨by show 5 < 2 ^ 32; decide, ?_⟩
    show (if r = 7 then 65536 else 66000) < 2 ^ 32
    split <;> decide
  · intro t ht
    simp at ht
    subst ht
    exact m68k_u8
  · intro i t a h1 h2
    match i, h1, h2 with
    | 0, h1, h2 => cases h1; cases h2; exact .inr (by decide)
    | _ + 1, h1, _ => simp at h1

example (fpu old : Bool) (tramp : Nat) (m : Mem) := C111_round_trip_struct (tramp := tramp) (m := m) (m68k_entry_struct fpu old) (.inr (.inr (by decide))) (by decide) (by decide)

end Verif.Props
