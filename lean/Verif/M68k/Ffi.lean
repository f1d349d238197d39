import Verif.M68k.AsmRet

/- `ffi_call` with `ffi_call_SYSV`. -/
namespace Verif.M68k
open Verif Verif.Spec.M68k
open Verif.Or1k (wr_rd be4 beNat_rd_lt)

theorem flags_inMem {rt : FType} (h : inMem rt = true) : rt.tc = .struct ∧ flags rt = 0 := by
  obtain ⟨s, al, tc, es⟩ := rt
  simp only [inMem, FType.tc, FType.elems, FType.size, Bool.and_eq_true, beq_iff_eq, Bool.or_eq_true, Bool.not_eq_true', Bool.or_eq_false_iff, beq_eq_false_iff_ne] at h
  obtain ⟨rfl, h⟩ := h
  refine ⟨rfl, ?_⟩
  show (if nested es then 0 else if s = 1 then 64 else if s = 2 then 128 else if s = 4 then 1 else if s = 8 then 2 else 0) = 0
  have e : nested es = first es := by cases es with | nil => rfl | cons a es => cases es <;> rfl
  rw [e]
  rcases h with h | h
  · rw [if_pos h]
  · obtain ⟨⟨⟨h1, h2⟩, h3⟩, h4⟩ := h
    rw [if_neg h1, if_neg h2, if_neg h3, if_neg h4, ite_self]

theorem flags_regs {s al : Nat} {es : List FType} (h : inMem (.mk s al .struct es) = false) :
    s = 1 ∧ flags (.mk s al .struct es) = 2 ^ 6 ∨ s = 2 ∧ flags (.mk s al .struct es) = 2 ^ 7 ∨ s = 4 ∧ flags (.mk s al .struct es) = 2 ^ 0 ∨ s = 8 ∧ flags (.mk s al .struct es) = 2 ^ 1 := by
  have e : nested es = first es := by cases es with | nil => rfl | cons a es => cases es <;> rfl
  have hf : first es = false := by
    by_contra hc
    rw [Bool.not_eq_false] at hc
    simp [inMem, FType.tc, FType.elems, hc] at h
  have hs : s = 1 ∨ s = 2 ∨ s = 4 ∨ s = 8 := by
    by_contra hc
    have : inMem (.mk s al .struct es) = true := by
      simp only [inMem, FType.tc, FType.elems, FType.size, Bool.and_eq_true, beq_iff_eq, Bool.or_eq_true, Bool.not_eq_true', Bool.or_eq_false_iff, beq_eq_false_iff_ne]
      exact ⟨trivial, .inr ⟨⟨⟨by omega, by omega⟩, by omega⟩, by omega⟩⟩
    rw [this] at h
    cases h
  rw [← e] at hf
  rcases hs with rfl | rfl | rfl | rfl <;> simp [flags, FType.tc, FType.elems, FType.size, hf]

/-- The flags have at most one bit. -/
theorem flags_bit {rt : FType} (h : Ty rt) : inMem rt = true ∧ flags rt = 0 ∨ inMem rt = false ∧ ∃ n, n < 10 ∧ flags rt = 2 ^ n := by
  by_cases hm : inMem rt = true
  · exact .inl ⟨hm, (flags_inMem hm).2⟩
  · rw [Bool.not_eq_true] at hm
    refine .inr ⟨hm, ?_⟩
    have hc := Ty.cls h
    obtain ⟨s, al, tc, es⟩ := rt
    cases hc with
    | small n h _ =>
      rcases h with ⟨_, h | h⟩ | ⟨_, h | h⟩ <;> cases h
      · exact ⟨0, by omega, rfl⟩
      · exact ⟨8, by omega, rfl⟩
      · exact ⟨0, by omega, rfl⟩
      · exact ⟨9, by omega, rfl⟩
    | recd h _ =>
      cases h
      rcases flags_regs hm with ⟨_, h⟩ | ⟨_, h⟩ | ⟨_, h⟩ | ⟨_, h⟩ <;> exact ⟨_, by omega, h⟩
    | plain h =>
      rcases h with ⟨h, _⟩ | ⟨h, _⟩ | ⟨h, _⟩ | ⟨h, _⟩ | ⟨h, _⟩ | ⟨h, _⟩ | ⟨h, _⟩ | ⟨h, _⟩ <;> cases h
      · exact ⟨0, by omega, rfl⟩
      · exact ⟨0, by omega, rfl⟩
      · exact ⟨2, by omega, rfl⟩
      · exact ⟨5, by omega, rfl⟩
      · exact ⟨1, by omega, rfl⟩
      · exact ⟨1, by omega, rfl⟩
      · exact ⟨3, by omega, rfl⟩
      · exact ⟨4, by omega, rfl⟩

/-- Storing and loading the value by `fmove` does not change it (signalling NaNs may change). -/
def Exact (F : Fpu) (t : FType) (v : List Byte) : Prop :=
  match t.tc with
  | .float => F.sts (F.lds v) = v
  | .double => F.std (F.ldd v) = v
  | .longdouble => F.stx (F.ldx v) = v
  | _ => True

theorem pow2_inj {a b : Nat} (h : (2 : Nat) ^ a = 2 ^ b) : a = b := Nat.pow_right_injective (Nat.le_refl 2) h

theorem low_bytes {n d : Nat} {v : List Byte} (h : beBytes n d = v) : d % 256 ^ n = beNat v := by
  rw [← h, beNat_beBytes]

theorem ext8_int {d : Nat} {v : List Byte} (hl : v.length = 1) (h : beBytes 1 d = v) : (ext8to32 d : Int) = intVal .sint8 v % 2 ^ 32 ∧ ext8to32 d < 2 ^ 32 := by
  have h := low_bytes h
  have hb := beNat_lt v
  rw [hl] at hb
  simp only [intVal, signed, hl, true_and]
  unfold ext8to32
  split <;> split <;> omega

theorem ext16_int {d : Nat} {v : List Byte} (hl : v.length = 2) (h : beBytes 2 d = v) : (ext16to32 d : Int) = intVal .sint16 v % 2 ^ 32 ∧ ext16to32 d < 2 ^ 32 := by
  have h := low_bytes h
  have hb := beNat_lt v
  rw [hl] at hb
  simp only [intVal, signed, hl, true_and]
  unfold ext16to32
  split <;> split <;> omega

theorem zero_int {d n : Nat} {v : List Byte} {tc : TC} (ht : signed tc = false) (hd : d < 256 ^ n) (hn : n = 1 ∨ n = 2) (h : beBytes n d = v) : (d : Int) = intVal tc v % 2 ^ 32 := by
  have h := low_bytes h
  rw [Nat.mod_eq_of_lt hd] at h
  simp only [intVal, ht]
  rw [if_neg (by simp), ← h]
  rcases hn with rfl | rfl <;> omega

/-- What is stored is the result. -/
theorem stored_got {E : Env} {rt : FType} {v : List Byte} {d0 d1 d2 a0 fp0 n rv : Nat} {m : Mem} (ht : Ty rt) (hn : flags rt = 2 ^ n)
    (hr : Returned E.F E.fpu rt v ⟨d0, d1, d2, a0, fp0⟩) (hx : Exact E.F rt v) (hu : rt.tc = .uint8 ∨ rt.tc = .uint16 → d0 < 256 ^ rt.size)
    (hld : rt.tc = .longdouble → E.fpu = true) : Got rt v (m.wr rv (stored E n d0 d1 (2 ^ n) a0 fp0)) rv := by
  have hc := Ty.cls ht
  obtain ⟨s, al, tc, es⟩ := rt
  obtain ⟨hl, hr⟩ := hr
  have hl : v.length = s := hl
  have key {bs : List Byte} (h : bs = v) : (m.wr rv bs).rd rv s = v := by subst h; exact wr_rd _ _ hl
  cases hc with
  | small k h hs =>
    have hs : s = k := hs
    subst hs
    rcases h with ⟨rfl, h | h⟩ | ⟨rfl, h | h⟩ <;> cases h
    · obtain rfl : 0 = n := pow2_inj hn
      show (beNat ((m.wr rv (beBytes 4 d0)).rd rv 4) : Int) = _
      rw [wr_rd _ _ (beBytes_length _ _), be4 (Nat.lt_trans (hu (.inl rfl)) (show 256 ^ 1 < 2 ^ 32 by decide))]
      exact zero_int rfl (hu (.inl rfl)) (.inl rfl) hr
    · obtain rfl : 8 = n := pow2_inj hn
      show (beNat ((m.wr rv (beBytes 4 (ext8to32 d0))).rd rv 4) : Int) = _
      rw [wr_rd _ _ (beBytes_length _ _), be4 (ext8_int hl hr).2]
      exact (ext8_int hl hr).1
    · obtain rfl : 0 = n := pow2_inj hn
      show (beNat ((m.wr rv (beBytes 4 d0)).rd rv 4) : Int) = _
      rw [wr_rd _ _ (beBytes_length _ _), be4 (Nat.lt_trans (hu (.inr rfl)) (show 256 ^ 2 < 2 ^ 32 by decide))]
      exact zero_int rfl (hu (.inr rfl)) (.inr rfl) hr
    · obtain rfl : 9 = n := pow2_inj hn
      show (beNat ((m.wr rv (beBytes 4 (ext16to32 d0))).rd rv 4) : Int) = _
      rw [wr_rd _ _ (beBytes_length _ _), be4 (ext16_int hl hr).2]
      exact (ext16_int hl hr).1
  | recd h _ =>
    cases h
    by_cases hm : inMem (.mk s al .struct es) = true
    · exact .inl hm
    · refine .inr (key ?_)
      have hr := hr.resolve_left hm
      rw [Bool.not_eq_true] at hm
      rcases flags_regs hm with ⟨rfl, h⟩ | ⟨rfl, h⟩ | ⟨rfl, h⟩ | ⟨rfl, h⟩ <;> rw [h] at hn <;> obtain rfl := pow2_inj hn <;> exact hr
  | plain h =>
    rcases h with ⟨h, h'⟩ | ⟨h, h'⟩ | ⟨h, h'⟩ | ⟨h, h'⟩ | ⟨h, h'⟩ | ⟨h, h'⟩ | ⟨h, h'⟩ | ⟨h, h'⟩ <;> cases h <;> cases h'
    · obtain rfl : 0 = n := pow2_inj hn
      exact key hr
    · obtain rfl : 0 = n := pow2_inj hn
      exact key hr
    · obtain rfl : 2 = n := pow2_inj hn
      refine key ?_
      have hr : if E.fpu then fp0 = E.F.lds v else beBytes 4 d0 = v := hr
      show (if E.fpu then E.F.sts fp0 else beBytes 4 d0) = v
      split at hr
      · rw [if_pos (by assumption), hr]; exact hx
      · rw [if_neg (by assumption)]; exact hr
    · obtain rfl : 5 = n := pow2_inj hn
      exact key hr
    · obtain rfl : 1 = n := pow2_inj hn
      exact key hr
    · obtain rfl : 1 = n := pow2_inj hn
      exact key hr
    · obtain rfl : 3 = n := pow2_inj hn
      refine key ?_
      have hr : if E.fpu then fp0 = E.F.ldd v else beBytes 4 d0 ++ beBytes 4 d1 = v := hr
      show (if E.fpu then E.F.std fp0 else beBytes 4 d0 ++ beBytes 4 d1) = v
      split at hr
      · rw [if_pos (by assumption), hr]; exact hx
      · rw [if_neg (by assumption)]; exact hr
    · obtain rfl : 4 = n := pow2_inj hn
      refine key ?_
      have hf := hld rfl
      have hr : if E.fpu then fp0 = E.F.ldx v else beBytes 4 d0 ++ beBytes 4 d1 ++ beBytes 4 d2 = v := hr
      show (if E.fpu then E.F.stx fp0 else beBytes 4 d0 ++ beBytes 4 d1 ++ beBytes 4 (2 ^ 4)) = v
      rw [if_pos hf] at hr ⊢
      rw [hr]
      exact hx

/-- `ffi_call` calls `ffi_call_SYSV`, src/m68k/ffi.c:242-243: the parameters are on the stack. -/
structure Entry (E : Env) (s : M) (S A : Nat) (rt : FType) (ats : List FType) (avalue : List Nat) (rvalue fn : Nat) : Prop where
  pc : s.pc = E.lbl .call
  sp : s.a 7 = S
  bytes : s.mem.rd (S + 8) 4 = beBytes 4 (prepBytes rt ats)
  mflags : s.mem.rd (S + 12) 4 = beBytes 4 (flags rt)
  mrvalue : s.mem.rd (S + 16) 4 = beBytes 4 rvalue
  mfn : s.mem.rd (S + 20) 4 = beBytes 4 fn
  room : A + prepBytes rt ats + 8 = S
  low : 12 ≤ A
  high : S < 2 ^ 32
  rlt : rvalue < 2 ^ 32
  flt : fn < 2 ^ 32
  reg : ∀ r, s.d r < 2 ^ 32 ∧ s.a r < 2 ^ 32
  rty : rt.tc = .void ∨ Ty rt
  tys : ∀ t ∈ ats, Ty t
  len : avalue.length = ats.length
  apart : ∀ (i : Nat) (t : FType) (a : Nat), ats[i]? = some t → avalue[i]? = some a → a + t.size ≤ A - 12 ∨ S ≤ a

/-- `ffi_prep_args` has returned: it has done what the model of it does, and has kept what functions have to keep. -/
structure PrepDone (E : Env) (t p : M) (A : Nat) (rt : FType) (ats : List FType) (avalue : List Nat) (rvalue : Nat) : Prop where
  pc : p.pc = r4 t.mem (t.a 7)
  sp : p.a 7 = t.a 7 + 4
  d : ∀ r, 2 ≤ r → p.d r = t.d r
  a : ∀ r, 2 ≤ r → r ≤ 6 → p.a r = t.a r
  a0 : p.a 0 = structPtr rt rvalue
  mem : ∀ x, A ≤ x → p.mem x = prepArgs ats avalue A t.mem x

/-- The function has returned: it has not changed what belongs to its callers. -/
structure FnDone (t u : M) (S : Nat) : Prop where
  pc : u.pc = r4 t.mem (t.a 7)
  sp : u.a 7 = t.a 7 + 4
  d : ∀ r, 2 ≤ r → r ≤ 7 → u.d r = t.d r
  a : ∀ r, 2 ≤ r → r ≤ 6 → u.a r = t.a r
  mem : ∀ x, S - 8 ≤ x → x < S + 24 → u.mem x = t.mem x

theorem Entry.read {E : Env} {s : M} {S A : Nat} {rt : FType} {ats : List FType} {avalue : List Nat} {rvalue fn : Nat} (h : Entry E s S A rt ats avalue rvalue fn) :
    A + r4 s.mem (S + 8) + 8 = S := by
  have := h.room
  have := h.high
  rw [r4_of h.bytes (by omega)]
  omega

end Verif.M68k
