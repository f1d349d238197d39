import Verif.Raw.ClosureLemmas
import Verif.Raw.JavaLemmas
import Verif.X64.TrampModel

/-
Property theorems for the raw APIs: C25–C28.
-/
namespace Verif.Props
open Verif Spec.Raw Verif.Raw

/-- The argument objects do not meet the raw area of `n` bytes at `r`. -/
def ArgsApart (ts : List FType) (as : List Nat) (r n : Nat) : Prop :=
  ∀ (i : Nat) t a, ts[i]? = some t → as[i]? = some a → a + t.size ≤ r ∨ r + n ≤ a

/-- `ps` point to objects with the bytes the objects `as` have in `m`: either the
original object, or a copy inside the raw area. -/
def Carries (ts : List FType) (as ps : List Nat) (r n : Nat) (m m' : Mem) : Prop :=
  ps.length = ts.length ∧ ∀ (i : Nat) t a p, ts[i]? = some t → as[i]? = some a → ps[i]? = some p →
    p = a ∨ (r ≤ p ∧ p + t.size ≤ r + n ∧ m'.rd p t.size = m.rd a t.size)

/-! ## C25 -/

/-- C25, encoding: for every configuration and signature, `ffi_ptrarray_to_raw` succeeds,
advances by at most `ffi_raw_size` and changes nothing outside that many bytes. -/
theorem C25_encode {c : Cfg} (hc : CfgOk c) (ts : List FType) (as : List Nat) (r : Nat) (m : Mem)
    (hl : as.length = ts.length) (ht : ∀ t ∈ ts, TypeOk c t) :
    ∃ m' e, ptrarrayToRaw c ts as r m = .ok (m', e) ∧ e ≤ r + rawSize c ts ∧
      ∀ x, x < r ∨ r + rawSize c ts ≤ x → m' x = m x := by
  obtain ⟨m', h1, h2⟩ := toRawLoop_frame (fun m t a h => raw_put hc m t a h) ts as r m hl ht
  have := rawSize_ge hc ts ht
  exact ⟨m', _, h1, by omega, fun x hx => h2 x (by omega)⟩

/-- C25, decoding: whatever the raw area holds, `ffi_raw_to_ptrarray` walks over at most
`ffi_raw_size` bytes and every scalar argument it finds lies inside.  Full claim for
big-endian targets and targets whose `ffi_arg` has pointer width; on the remaining ones
(little-endian, `FFI_SIZEOF_ARG` above the pointer size) for arguments not above pointer
size.  What is missing is false, see `C25_overrun`. -/
theorem C25_decode_partial {c : Cfg} (hc : CfgOk c) (ts : List FType) (r : Nat) (m : Mem)
    (ht : ∀ t ∈ ts, TypeOk c t) (hs : ∀ t ∈ ts, Steppable c t) :
    ∃ ps e, rawToPtrarray c ts r m = .ok (ps, e) ∧ e ≤ r + rawSize c ts ∧ ps.length = ts.length ∧
      ∀ (i : Nat) t p, ts[i]? = some t → ps[i]? = some p → byAddr t.tc = false →
        r ≤ p ∧ p + t.size ≤ r + rawSize c ts := by
  have key : ∃ ps, toPtrLoop (rawGet c) ts r m = .ok (ps, r + sumW (rawW c) ts) ∧ ps.length = ts.length ∧
      ∀ (i : Nat) t p, ts[i]? = some t → ps[i]? = some p → byAddr t.tc = false →
        r ≤ p ∧ p + t.size ≤ r + sumW (rawW c) ts := by
    clear * - hc ht hs
    induction ts generalizing r with
    | nil => exact ⟨[], rfl, rfl, by simp⟩
    | cons t ts ih =>
      obtain ⟨q, g1, g2⟩ := raw_get hc m t r (ht t (by simp)) (hs t (by simp))
      obtain ⟨ps, i1, i2, i3⟩ := ih (r + rawW c t) (fun t h => ht t (by simp [h])) (fun t h => hs t (by simp [h]))
      refine ⟨q :: ps, ?_, by simp [i2], ?_⟩
      · rw [toPtrLoop, g1]
        simp only [i1, sumW, Except.ok.injEq, Prod.mk.injEq, true_and]
        omega
      · intro i t' p h1 h2 h3
        simp only [sumW]
        cases i with
        | zero =>
          simp only [List.getElem?_cons_zero, Option.some.injEq] at h1 h2
          subst h1; subst h2
          have := g2 h3
          omega
        | succ i =>
          simp only [List.getElem?_cons_succ] at h1 h2
          have := i3 i t' p h1 h2 h3
          omega
  obtain ⟨ps, k1, k2, k3⟩ := key
  have hsz := rawSize_ge hc ts ht
  refine ⟨ps, _, k1, by omega, k2, fun i t p h1 h2 h3 => ?_⟩
  have := k3 i t p h1 h2 h3
  omega

/-- C25 is false on little-endian targets with 4-byte pointers and 8-byte `ffi_arg`
(x32): for every signature without complex arguments that has a scalar above 4 bytes,
`ffi_raw_to_ptrarray` walks past `ffi_raw_size`. -/
theorem C25_overrun {c : Cfg} (hc : CfgOk c) (hbe : c.be = false) (hp : c.ptr = 4) (ha : c.arg = 8)
    (ts : List FType) (r : Nat) (m : Mem) (ht : ∀ t ∈ ts, TypeOk c t) (hn : ∀ t ∈ ts, t.tc ≠ .complex)
    (hbig : ∃ t ∈ ts, 4 < t.size ∧ t.tc ≠ .struct) :
    ∃ ps e, rawToPtrarray c ts r m = .ok (ps, e) ∧ r + rawSize c ts < e := by
  obtain ⟨ps, h⟩ := leWalk hc hbe ts r m ht
  refine ⟨ps, _, h, ?_⟩
  rw [rawSize_eq hc ts ht hn]
  have := sumW_lt (w := rawW c) (w' := leAdv c) ts (fun t _ => (leAdv_ge hp ha t).1) (by
    obtain ⟨t, h1, h2, h3⟩ := hbig
    refine ⟨t, h1, (leAdv_ge hp ha t).2 h2 ?_⟩
    have := hn t h1
    cases htc : t.tc <;> simp_all [byAddr])
  omega

/-! Configurations and signatures for the examples. -/
def cfg64 : Cfg := ⟨false, 8, 8, 8⟩
def cfgBE : Cfg := ⟨true, 4, 8, 4⟩
def cfgX32 : Cfg := ⟨false, 4, 8, 8⟩
def rDouble : FType := .mk 8 8 .double []
def rS16 : FType := .mk 2 2 .sint16 []
def rU8 : FType := .mk 1 1 .uint8 []
def rStruct : FType := .mk 12 4 .struct []
def rLD : FType := .mk 16 16 .longdouble []

theorem cfg64_ok : CfgOk cfg64 := ⟨by decide, by decide, by decide, by decide⟩
theorem cfgBE_ok : CfgOk cfgBE := ⟨by decide, by decide, by decide, by decide⟩
theorem cfgX32_ok : CfgOk cfgX32 := ⟨by decide, by decide, by decide, by decide⟩

theorem rawSig_ok (c : Cfg) : ∀ t ∈ [rS16, rDouble, rStruct, rU8, rLD], TypeOk c t := by
  intro t ht
  simp only [List.mem_cons, List.not_mem_nil, or_false] at ht
  rcases ht with rfl | rfl | rfl | rfl | rfl <;>
    exact ⟨by intro n h; simp [scalarSize, rS16, rDouble, rStruct, rU8, rLD, FType.tc] at h <;> exact h, by decide, by decide⟩

/-- All arguments of a mixed signature are stepped over on LP64 and on big-endian. -/
example : (∀ t ∈ [rS16, rDouble, rStruct, rU8, rLD], Steppable cfg64 t) ∧
    (∀ t ∈ [rS16, rDouble, rStruct, rU8, rLD], Steppable cfgBE t) :=
  ⟨fun _ _ => .inr (.inl rfl), fun _ _ => .inl rfl⟩

example : rawSize cfg64 [rS16, rDouble, rStruct, rU8, rLD] = 48 := by decide

example : ∃ ps e, rawToPtrarray cfg64 [rS16, rDouble, rStruct, rU8, rLD] 1000 (fun _ => 7) = .ok (ps, e) ∧
    e ≤ 1000 + 48 := by
  obtain ⟨ps, e, h, h', _⟩ := C25_decode_partial cfg64_ok [rS16, rDouble, rStruct, rU8, rLD] 1000 (fun _ => 7)
    (rawSig_ok _) (fun _ _ => .inr (.inl rfl))
  exact ⟨ps, e, h, h'⟩

/-- The x32 hypotheses are met by `(double, short)`. -/
example : ∃ ps e, rawToPtrarray cfgX32 [rDouble, rS16] 1000 (fun _ => 7) = .ok (ps, e) ∧ 1000 + 16 < e :=
  C25_overrun cfgX32_ok rfl rfl rfl [rDouble, rS16] 1000 (fun _ => 7)
    (fun t ht => rawSig_ok _ t (by simp at ht ⊢; rcases ht with rfl | rfl <;> simp))
    (by simp [rDouble, rS16, FType.tc]) ⟨rDouble, by simp, by decide, by decide⟩

/-! ## C26 -/

/-- C26: encoding an argument vector into a raw area (disjoint from the argument
objects) and decoding it yields, for every argument, the original object or a copy with
its bytes inside the raw area; also if memory outside the area changed in between.
Partial as `C25_decode_partial`; the rest is false, see `C26_x32`. -/
theorem C26_round_trip_partial {c : Cfg} (hc : CfgOk c) (ts : List FType) (as : List Nat) (r : Nat) (m : Mem)
    (hl : as.length = ts.length) (ht : ∀ t ∈ ts, TypeOk c t) (hs : ∀ t ∈ ts, Steppable c t)
    (ha : ∀ a ∈ as, a < 256 ^ c.ptr) (hd : ArgsApart ts as r (rawSize c ts)) :
    ∃ m' e, ptrarrayToRaw c ts as r m = .ok (m', e) ∧
      ∀ m'' : Mem, (∀ x, r ≤ x → x < r + rawSize c ts → m'' x = m' x) →
        ∃ ps, rawToPtrarray c ts r m'' = .ok (ps, e) ∧ Carries ts as ps r (rawSize c ts) m m'' := by
  have hsz := rawSize_ge hc ts ht
  obtain ⟨m', h1, _, h3⟩ := round_trip (raw_step hc) ts as r m hl (fun t h => ⟨ht t h, hs t h⟩) ha (by
    intro i t a g1 g2
    rcases hd i t a g1 g2 with h | h
    · exact .inl h
    · right; omega)
  refine ⟨m', _, h1, fun m'' hm => ?_⟩
  obtain ⟨ps, k1, k2, k3⟩ := h3 m'' (fun x x1 x2 => hm x x1 (by omega))
  refine ⟨ps, k1, k2, fun i t a p g1 g2 g3 => ?_⟩
  rcases k3 i t a p g1 g2 g3 with h | ⟨x, y, z⟩
  · exact .inl h
  · exact .inr ⟨x, by omega, z⟩

/-- C26 is false on x32: converting `(double, uint8)` to raw form and back gives for the
second argument an address past the raw area, whatever is stored there. -/
theorem C26_x32 (m : Mem) (a b r : Nat) (_hr : 16 ≤ r) :
    ∃ m' e ps e', ptrarrayToRaw cfgX32 [rDouble, rU8] [a, b] r m = .ok (m', e) ∧
      rawToPtrarray cfgX32 [rDouble, rU8] r m' = .ok (ps, e') ∧ ps[1]? = some (r + 16) ∧
      rawSize cfgX32 [rDouble, rU8] = 16 ∧ m' (r + 16) = m (r + 16) := by
  refine ⟨_, _, _, _, rfl, rfl, rfl, by decide, ?_⟩
  rw [Mem.wr_out, Mem.wr_out]
  · right; rw [Mem.rd_length]; show r + 8 ≤ r + 16; omega
  · right; rw [storeU_length]; show r + 8 + 8 ≤ r + 16; omega

example : ∃ m' e, ptrarrayToRaw cfgBE [rS16, rDouble, rStruct, rU8, rLD] [64, 72, 80, 96, 112] 1000 (fun x => BitVec.ofNat 8 x) =
      .ok (m', e) ∧
    ∀ m'' : Mem, (∀ x, 1000 ≤ x → x < 1000 + 48 → m'' x = m' x) →
      ∃ ps, rawToPtrarray cfgBE [rS16, rDouble, rStruct, rU8, rLD] 1000 m'' = .ok (ps, e) ∧
        Carries [rS16, rDouble, rStruct, rU8, rLD] [64, 72, 80, 96, 112] ps 1000 48 (fun x => BitVec.ofNat 8 x) m'' :=
  C26_round_trip_partial cfgBE_ok [rS16, rDouble, rStruct, rU8, rLD] [64, 72, 80, 96, 112] 1000 _ rfl (rawSig_ok _)
    (fun _ _ => .inl rfl) (by decide) (by
      intro i t a h1 h2
      left
      match i with
      | 0 | 1 | 2 | 3 | 4 => simp at h1 h2; subst h1; subst h2; decide
      | i + 5 => simp at h1)

/-! ## C28 -/

/-- C28: the size query of the Java raw API is exactly the space both conversions use,
encoding changes nothing else, and the round trip preserves every argument value, for
every signature of Java argument types and every configuration. -/
theorem C28_arguments {c : Cfg} (hc : CfgOk c) (ts : List FType) (as : List Nat) (r : Nat) (m : Mem)
    (hl : as.length = ts.length) (ht : ∀ t ∈ ts, TypeOk c t) (hj : ∀ t ∈ ts, javaType t.tc = true)
    (n : Nat) (hn : javaSize c ts = .ok n) (hd : ArgsApart ts as r n) :
    ∃ m', javaToRaw c ts as r m = .ok (m', r + n) ∧
      (∀ x, x < r ∨ r + n ≤ x → m' x = m x) ∧
      ∀ m'' : Mem, (∀ x, r ≤ x → x < r + n → m'' x = m' x) →
        ∃ ps, javaToPtrarray c ts r m'' = .ok (ps, r + n) ∧ Carries ts as ps r n m m'' := by
  rw [javaSize_eq c ts hj, Except.ok.injEq] at hn
  subst hn
  obtain ⟨m', h1, h2, h3⟩ := round_trip (java_step hc) ts as r m hl (fun t h => ⟨ht t h, hj t h⟩) (fun _ _ => trivial) hd
  exact ⟨m', h1, h2, h3⟩

/-- The size query does not abort on Java argument types. -/
theorem C28_size_total (c : Cfg) (ts : List FType) (hj : ∀ t ∈ ts, javaType t.tc = true) :
    ∃ n, javaSize c ts = .ok n := ⟨_, javaSize_eq c ts hj⟩

/-- Integer result types up to 32 bits, and whether they are signed. -/
def narrowInt : TC → Option Bool
  | .uint8 | .uint16 | .uint32 => some false
  | .sint8 | .sint16 | .sint32 => some true
  | _ => none

/-- `v` is a 32-bit value widened to 64 bits. -/
def widened (signed : Bool) (v : BitVec 64) : Prop :=
  v = if signed then (v.setWidth 32).signExtend 64 else (v.setWidth 32).setWidth 64

/-- C28, results on big-endian targets with 64-bit `ffi_arg`: a result of at most 32 bits
is moved to the first word of the result object, where Java code reads it, and moved
back unchanged. -/
theorem C28_narrow_result {c : Cfg} (hbe : c.be = true) (ha : c.arg = 8) {tc : TC} {s : Bool}
    (ht : narrowInt tc = some s) (v : BitVec 64) (hv : widened s v) :
    ∃ u, javaRvalueToRaw c tc v = .ok u ∧ u.extractLsb' 32 32 = v.setWidth 32 ∧
      javaRawToRvalue c tc u = .ok v := by
  refine ⟨v <<< 32, ?_, ?_, ?_⟩
  · cases tc <;> simp [narrowInt] at ht <;> simp [javaRvalueToRaw, hbe, ha]
  · ext i hi
    simp [BitVec.getElem_extractLsb']
    omega
  · have h1 : (v <<< 32) >>> 32 = (v.setWidth 32).setWidth 64 := by
      ext i hi
      simp
      by_cases h : i < 32
      · simp [h]; omega
      · simp [h]; omega
    have h2 : (v <<< 32).sshiftRight 32 = (v.setWidth 32).signExtend 64 := by
      ext i hi
      rw [BitVec.getElem_sshiftRight, BitVec.getElem_signExtend]
      by_cases h : i < 32
      · have : 32 + i < 64 := by omega
        simp [h, this, ← BitVec.getLsbD_eq_getElem]
      · have : ¬ 32 + i < 64 := by omega
        simp [h, this, BitVec.msb_eq_getLsbD_last]
    unfold widened at hv
    cases s with
    | false =>
      have e : javaRawToRvalue c tc (v <<< 32) = .ok ((v <<< 32) >>> 32) := by
        cases tc <;> simp only [narrowInt, Option.some.injEq, reduceCtorEq, Bool.true_eq_false] at ht <;>
          simp only [javaRawToRvalue, hbe, ha, and_self, if_true]
      rw [if_neg (by decide)] at hv
      rw [e, h1, ← hv]
    | true =>
      have e : javaRawToRvalue c tc (v <<< 32) = .ok ((v <<< 32).sshiftRight 32) := by
        cases tc <;> simp only [narrowInt, Option.some.injEq, reduceCtorEq, Bool.false_eq_true] at ht <;>
          simp only [javaRawToRvalue, hbe, ha, and_self, if_true]
      rw [if_pos rfl] at hv
      rw [e, h2, ← hv]

/-- C28, all other results of Java methods are left alone in both directions, where
pointers have the width of a Java slot. -/
theorem C28_other_result_partial {c : Cfg} {tc : TC} (ht : javaType tc = true) (hn : narrowInt tc = none)
    (hp : tc = .pointer → c.jraw ≠ 4 ∨ c.be = false ∨ c.arg ≠ 8) (v : BitVec 64) :
    javaRvalueToRaw c tc v = .ok v ∧ javaRawToRvalue c tc v = .ok v := by
  cases tc <;> simp [javaType] at ht <;> simp [narrowInt] at hn <;>
    simp only [javaRvalueToRaw, javaRawToRvalue, ite_self, and_self]
  have := hp rfl
  by_cases h : c.be = true ∧ c.arg = 8
  · have h4 : c.jraw ≠ 4 := by
      rcases this with h1 | h1 | h1
      · exact h1
      · rw [h.1] at h1; exact absurd h1 (by decide)
      · exact absurd h.2 h1
    simp [h4]
  · simp [h]

/-- C28 is false for pointer results with 32-bit Java slots on big-endian targets with
64-bit `ffi_arg` (MIPS n32): every pointer other than null is changed by
`ffi_java_rvalue_to_raw` followed by `ffi_java_raw_to_rvalue`, since the latter has no
pointer case. -/
theorem C28_pointer_result {c : Cfg} (hbe : c.be = true) (ha : c.arg = 8) (hj : c.jraw = 4)
    (v : BitVec 64) (hv : widened false v) (h0 : v ≠ 0) :
    ∃ u w, javaRvalueToRaw c .pointer v = .ok u ∧ javaRawToRvalue c .pointer u = .ok w ∧ w ≠ v := by
  refine ⟨v <<< 32, v <<< 32, by simp [javaRvalueToRaw, hbe, ha, hj], by simp [javaRawToRvalue, hbe, ha], ?_⟩
  intro h
  apply h0
  unfold widened at hv
  simp only [Bool.false_eq_true, if_false] at hv
  ext i hi
  by_cases h32 : i < 32
  · rw [← h]; simp [h32]
  · rw [hv]; simp; omega

example : widened false (0x12345678 : BitVec 64) ∧ widened true (0xffffffff80000000 : BitVec 64) ∧
    CfgOk ⟨true, 4, 8, 4⟩ := ⟨by unfold widened; decide, by unfold widened; decide, cfgBE_ok⟩

/-- Outside the Java types: a `long double` is counted as one slot but copied whole with
32-bit slots, past the space the size query reports. -/
theorem C28_long_double_overrun {c : Cfg} (hj : c.jraw = 4) (t : FType) (htc : t.tc = .longdouble)
    (h1 : 4 < t.size) (h2 : t.size < 2 ^ 31) (m : Mem) (a r : Nat) :
    ∃ m' e, javaSize c [t] = .ok 4 ∧ javaToRaw c [t] [a] r m = .ok (m', e) ∧ r + 4 < e ∧
      ∀ x, r + 4 ≤ x → x < r + t.size → m' x = m (a + (x - r)) := by
  refine ⟨m.wr r (m.rd a t.size), r + ffiAlign t.size c.jraw / c.jraw * c.jraw, ?_, ?_, ?_, ?_⟩
  · simp [javaSize, htc, hj, Except.map]
  · simp [javaToRaw, toRawLoop, javaPut, htc, hj]
  · rw [hj, align_div (.inl rfl) h2]
    have := roundUp_ge (v := t.size) (show 0 < 4 by decide)
    omega
  · intro x h3 h4
    have := Mem.wr_in m r (m.rd a t.size) (x - r) (by rw [Mem.rd_length]; omega)
    rw [show r + (x - r) = x by omega] at this
    rw [this, Mem.rd_getD _ _ _ _ (by omega)]

example : ∃ n m', javaSize cfgBE [rS16, rDouble, rU8] = .ok n ∧ n = 16 ∧
    javaToRaw cfgBE [rS16, rDouble, rU8] [64, 72, 80] 1000 (fun x => BitVec.ofNat 8 x) = .ok (m', 1000 + n) := by
  obtain ⟨m', h, _⟩ := C28_arguments cfgBE_ok [rS16, rDouble, rU8] [64, 72, 80] 1000 (fun x => BitVec.ofNat 8 x) rfl
    (fun t ht => rawSig_ok _ t (by simp at ht ⊢; rcases ht with rfl | rfl | rfl <;> simp)) (by simp [rS16, rDouble, rU8, FType.tc, javaType])
    16 rfl (by
      intro i t a h1 h2
      left
      match i with
      | 0 | 1 | 2 => simp at h1 h2; subst h1; subst h2; decide
      | i + 3 => simp at h1)
  exact ⟨16, m', rfl, rfl, h⟩

/-! ## C27 -/

/-- A raw closure prepared and later invoked: `v` is memory at preparation, `m` memory at
invocation (the closure's bytes unchanged, at the address the entry code uses and at
`codeloc`), `area` the stack block for the raw arguments. -/
structure RawClosureCall (c : Cfg) (ts : Nat) (v : VM) (cl cif fn ud codeloc translate : Nat)
    (kind : Kind) (entry : Nat) (m : Mem) (tys : List FType) (as : List Nat) (area n : Nat) : Prop where
  cfg : CfgOk c
  fits : cif < 256 ^ c.ptr ∧ fn < 256 ^ c.ptr ∧ ud < 256 ^ c.ptr ∧ codeloc < 256 ^ c.ptr ∧ translate < 256 ^ c.ptr
  -- the closure object occupies distinct bytes
  inj : ∀ i j, i < ts + 5 * c.ptr → j < ts + 5 * c.ptr → v.tr (cl + j) = v.tr (cl + i) → j = i
  -- the entry code knows the closure by an address of the object
  entryOk : ∀ i, i < ts + 5 * c.ptr → v.tr (entry + i) = v.tr (cl + i)
  kept : ∀ i, i < ts + 5 * c.ptr →
    m (entry + i) = (prepRaw c ts translate kind v cl cif fn ud codeloc).view (entry + i) ∧
    m (codeloc + i) = (prepRaw c ts translate kind v cl cif fn ud codeloc).view (codeloc + i)
  -- the stack block is not part of the memory at `codeloc`
  apart : area + n ≤ codeloc ∨ codeloc + ts + 5 * c.ptr ≤ area
  len : as.length = tys.length
  types : ∀ t ∈ tys, TypeOk c t

theorem enter_codeloc {c : Cfg} {ts : Nat} {v : VM} {cl cif fn ud codeloc translate : Nat}
    {kind : Kind} {entry : Nat} {m : Mem} {tys : List FType} {as : List Nat} {area n : Nat}
    (h : RawClosureCall c ts v cl cif fn ud codeloc translate kind entry m tys as area n)
    (api : Api) {m' : Mem} {e : Nat} (hm : api.conv c tys as area m = .ok (m', e))
    (hf : ∀ x, x < area ∨ area + n ≤ x → m' x = m x) :
    let w := (prepRaw c ts translate kind v cl cif fn ud codeloc).view
    enter api c ts translate tys as m entry area =
      some (.ok ⟨field c w (codeloc + ts + 3 * c.ptr), cif, area, field c w (codeloc + ts + 4 * c.ptr), m'⟩) := by
  obtain ⟨f1, f2, f3, f4, f5⟩ := h.fits
  obtain ⟨g1, g2, g3, _, _⟩ := prepRaw_fields (kind := kind) f1 f5 f4 f2 f3 h.inj h.entryOk
  have ke : ∀ k, k ≤ 4 → field c m (entry + ts + k * c.ptr) =
      field c (prepRaw c ts translate kind v cl cif fn ud codeloc).view (entry + ts + k * c.ptr) := by
    intro k hk
    have hk' : k * c.ptr ≤ 4 * c.ptr := Nat.mul_le_mul_right _ hk
    apply field_congr
    intro i hi
    have := (h.kept (ts + k * c.ptr + i) (by omega)).1
    rwa [show entry + (ts + k * c.ptr + i) = entry + ts + k * c.ptr + i by omega] at this
  have kc : ∀ k, k ≤ 4 → field c m' (codeloc + ts + k * c.ptr) =
      field c (prepRaw c ts translate kind v cl cif fn ud codeloc).view (codeloc + ts + k * c.ptr) := by
    intro k hk
    have hk' : k * c.ptr ≤ 4 * c.ptr := Nat.mul_le_mul_right _ hk
    apply field_congr
    intro i hi
    have := (h.kept (ts + k * c.ptr + i) (by omega)).2
    rw [show codeloc + (ts + k * c.ptr + i) = codeloc + ts + k * c.ptr + i by omega] at this
    rw [hf _ (by have := h.apart; omega), this]
  have k0 := ke 0 (by omega)
  have k1 := ke 1 (by omega)
  simp only [Nat.zero_mul, Nat.add_zero, Nat.one_mul] at k0 k1
  intro w
  unfold enter
  rw [k1, g2, if_pos rfl, k0, g1, ke 2 (by omega), g3]
  unfold translateArgs
  rw [hm]
  simp only [w, kc 3 (by omega), kc 4 (by omega)]

/-- C27 where the code address is an alias of the closure object (dynamic trampolines,
one or two mappings): invoking a raw closure calls the user's function with the user's
data, the prepared `cif` and the raw area holding the arguments.  The claim for static
trampolines is false, see `C27_static`. -/
theorem C27_raw_partial {c : Cfg} {ts : Nat} {v : VM} {cl cif fn ud codeloc translate : Nat}
    {kind : Kind} {entry : Nat} {m : Mem} {tys : List FType} {as : List Nat} {area : Nat}
    (h : RawClosureCall c ts v cl cif fn ud codeloc translate kind entry m tys as area (rawSize c tys))
    (al : ∀ i, i < ts + 5 * c.ptr → v.tr (codeloc + i) = v.tr (cl + i)) :
    ∃ m' e, ptrarrayToRaw c tys as area m = .ok (m', e) ∧
      enter .raw c ts translate tys as m entry area = some (.ok ⟨fn, cif, area, ud, m'⟩) := by
  obtain ⟨m', e, h1, _, h2⟩ := C25_encode h.cfg tys as area m h.len h.types
  refine ⟨m', e, h1, ?_⟩
  obtain ⟨f1, f2, f3, f4, f5⟩ := h.fits
  obtain ⟨_, _, _, g4, g5⟩ := prepRaw_fields (kind := kind) f1 f5 f4 f2 f3 h.inj al
  have := enter_codeloc h .raw h1 h2
  simp only [g4, g5] at this
  exact this

/-- The same for Java raw closures. -/
theorem C27_java_partial {c : Cfg} {ts : Nat} {v : VM} {cl cif fn ud codeloc translate : Nat}
    {kind : Kind} {entry : Nat} {m : Mem} {tys : List FType} {as : List Nat} {area n : Nat}
    (hn : javaSize c tys = .ok n) (hj : ∀ t ∈ tys, javaType t.tc = true)
    (h : RawClosureCall c ts v cl cif fn ud codeloc translate kind entry m tys as area n)
    (al : ∀ i, i < ts + 5 * c.ptr → v.tr (codeloc + i) = v.tr (cl + i)) :
    ∃ m' e, javaToRaw c tys as area m = .ok (m', e) ∧
      enter .java c ts translate tys as m entry area = some (.ok ⟨fn, cif, area, ud, m'⟩) := by
  obtain ⟨m', h1, h2⟩ := toRawLoop_frame (java_step h.cfg).put tys as area m h.len fun t ht => ⟨h.types t ht, hj t ht⟩
  rw [javaSize_eq c tys hj, Except.ok.injEq] at hn
  rw [hn] at h1 h2
  refine ⟨m', _, h1, ?_⟩
  obtain ⟨f1, f2, f3, f4, f5⟩ := h.fits
  obtain ⟨_, _, _, g4, g5⟩ := prepRaw_fields (kind := kind) f1 f5 f4 f2 f3 h.inj al
  have := enter_codeloc h .java h1 h2
  simp only [g4, g5] at this
  exact this

/-- C27 is false with static trampolines: there the code address is a slot of the
trampoline code page, not an alias of the closure.  Whatever function and data the user
gave, the function called and the data passed are read from the code page: they do not
depend on the user's choice at all. -/
theorem C27_static {c : Cfg} {ts : Nat} {v : VM} {cl cif fn ud codeloc translate : Nat}
    {entry : Nat} {m : Mem} {tys : List FType} {as : List Nat} {area : Nat}
    (h : RawClosureCall c ts v cl cif fn ud codeloc translate .static entry m tys as area (rawSize c tys))
    (page : ∀ i j, i < ts + 5 * c.ptr → j < ts + 5 * c.ptr → v.tr (codeloc + i) ≠ v.tr (cl + j)) :
    ∃ m', enter .raw c ts translate tys as m entry area =
      some (.ok ⟨dec c.be (v.view.rd (codeloc + ts + 3 * c.ptr) c.ptr), cif, area,
        dec c.be (v.view.rd (codeloc + ts + 4 * c.ptr) c.ptr), m'⟩) := by
  obtain ⟨m', e, h1, _, h2⟩ := C25_encode h.cfg tys as area m h.len h.types
  refine ⟨m', ?_⟩
  have := enter_codeloc h .raw h1 h2
  simp only at this
  rw [this]
  have hk : ∀ k, k ≤ 4 → field c (prepRaw c ts translate .static v cl cif fn ud codeloc).view (codeloc + ts + k * c.ptr) =
      field c v.view (codeloc + ts + k * c.ptr) := by
    intro k hk
    have hk' : k * c.ptr ≤ 4 * c.ptr := Nat.mul_le_mul_right _ hk
    apply field_congr
    intro i hi
    apply prepRaw_static_frame
    intro j hj
    have := page (ts + k * c.ptr + i) j (by omega) hj
    rwa [show codeloc + (ts + k * c.ptr + i) = codeloc + ts + k * c.ptr + i by omega] at this
  rw [hk 3 (by omega), hk 4 (by omega)]
  rfl

/-! Concrete closures on x86-64: `FFI_TRAMPOLINE_SIZE` is 32.  The raw closure object is
at 0x10000; dynamic: also mapped at 0x20000 for execution; static: `codeloc` is slot 0 of
a page of trampolines at 0x20000. -/

def vmDual : VM := ⟨fun _ => 0, fun a => if 0x20000 ≤ a ∧ a < 0x21000 then a - 0x10000 else a⟩

def vmStatic : VM :=
  ⟨fun a => if 0x20000 ≤ a ∧ a < 0x21000 then (X64.staticTramp true).getD ((a - 0x20000) % X64.trampSize true) 0x90 else 0,
   fun a => a⟩

example : RawClosureCall cfg64 32 vmDual 0x10000 0x500 0x600 0x700 0x20000 0x800 (.dynamic (List.replicate 32 0x90)) 0x20000
    (prepRaw cfg64 32 0x800 (.dynamic (List.replicate 32 0x90)) vmDual 0x10000 0x500 0x600 0x700 0x20000).view
    [rS16, rDouble] [0x7000, 0x7008] 0x6000 16 ∧
    ∀ i, i < 32 + 5 * 8 → vmDual.tr (0x20000 + i) = vmDual.tr (0x10000 + i) := by
  have al : ∀ i, i < 32 + 5 * 8 → vmDual.tr (0x20000 + i) = vmDual.tr (0x10000 + i) := by
    intro i hi
    simp only [vmDual]
    rw [if_pos (by omega), if_neg (by omega)]
    omega
  refine ⟨⟨cfg64_ok, by decide, ?_, al, fun _ _ => ⟨rfl, rfl⟩, by decide, rfl, ?_⟩, al⟩
  · intro i j hi hj h
    simp only [cfg64] at hi hj
    simp only [vmDual] at h
    rw [if_neg (by omega), if_neg (by omega)] at h
    omega
  · intro t ht
    exact rawSig_ok _ t (by simp at ht ⊢; rcases ht with rfl | rfl <;> simp)

/-- With static trampolines the "function" called is trampoline code read as an address. -/
example : ∃ m', enter .raw cfg64 32 0x800 [rS16, rDouble] [0x7000, 0x7008]
      (prepRaw cfg64 32 0x800 .static vmStatic 0x10000 0x500 0x600 0x700 0x20000).view 0x10000 0x6000 =
    some (.ok ⟨0x82454894c00000f, 0x500, 0x6000, 0x4100000fe9158b4c, m'⟩) := by
  obtain ⟨m', h⟩ := C27_static (c := cfg64) (ts := 32) (v := vmStatic) (cl := 0x10000) (cif := 0x500) (fn := 0x600)
    (ud := 0x700) (codeloc := 0x20000) (translate := 0x800) (entry := 0x10000)
    (m := (prepRaw cfg64 32 0x800 .static vmStatic 0x10000 0x500 0x600 0x700 0x20000).view)
    (tys := [rS16, rDouble]) (as := [0x7000, 0x7008]) (area := 0x6000)
    ⟨cfg64_ok, by decide, fun i j _ _ h => by simp only [vmStatic] at h; omega, fun _ _ => rfl, fun _ _ => ⟨rfl, rfl⟩,
      by decide, rfl, fun t ht => rawSig_ok _ t (by simp at ht ⊢; rcases ht with rfl | rfl <;> simp)⟩
    (fun i j hi hj h => by simp only [vmStatic] at h; simp only [cfg64] at hi hj; omega)
  refine ⟨m', h.trans ?_⟩
  congr 3

end Verif.Props
