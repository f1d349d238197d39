import Verif.I386.Closure

/-! Results of calls and closures, and the stack pointer after a closure. -/
namespace Verif.I386
open Verif Verif.Spec Verif.Spec.X86

theorem ofCode_code (fl : Flag) : Flag.ofCode fl.code = some fl := by cases fl <;> rfl

theorem code_lt (fl : Flag) : fl.code < 14 := by cases fl <;> decide

/-- Types of results. -/
def Result (D : Data) (rt : FType) : Prop := rt.tc = .void ∨ WF D.tab rt

/-- Flags of results that are not returned in memory. -/
inductive Direct : FType → Flag → Prop
  | void {t} : t.tc = .void → Direct t .void
  | float {t} : t.tc = .float → t.size = 4 → Direct t .float
  | double {t} : t.tc = .double → t.size = 8 → Direct t .double
  | ldouble {t} : t.tc = .longdouble → 12 ≤ t.size → Direct t .ldouble
  | sint8 {t} : t.tc = .sint8 → t.size = 1 → Direct t .sint8
  | sint16 {t} : t.tc = .sint16 → t.size = 2 → Direct t .sint16
  | uint8 {t} : t.tc = .uint8 → t.size = 1 → Direct t .uint8
  | uint16 {t} : t.tc = .uint16 → t.size = 2 → Direct t .uint16
  | int64 {t} : t.tc = .sint64 ∨ t.tc = .uint64 ∨ t.tc = .struct ∨ t.tc = .complex → t.size = 8 → Direct t .int64
  | int32 {t} : t.tc = .sint32 ∨ t.tc = .uint32 ∨ t.tc = .pointer ∨ t.tc = .struct ∨ t.tc = .complex → t.size = 4 →
      Direct t .int32
  | struct1 {t} : t.tc = .struct → t.size = 1 → Direct t .struct1b
  | struct2 {t} : t.tc = .struct ∨ t.tc = .complex → t.size = 2 → Direct t .struct2b

theorem structFlag_mem (c : Cfg) : isMem (structFlag c) = true := by
  unfold structFlag; cases c.abi <;> rfl

/-- `ffi_prep_cif_machdep` classifies results as the conventions do. -/
theorem retFlag_spec {c : Cfg} {D : Data} (hD : D.Ok) {rt : FType} (h : Result D rt) :
    ∃ fl, retFlag c rt = some fl ∧ (isMem fl = true → fl = structFlag c) ∧
      isMem fl = inMemory (c.win32 || c.darwin) rt ∧ (isMem fl = false → Direct rt fl) := by
  have hm := structFlag_mem c
  rcases h with h | h
  · refine ⟨.void, (by unfold retFlag; rw [h]), fun h => (by cases h), (by unfold inMemory; rw [h]; rfl), fun _ => .void h⟩
  · obtain ⟨ha, hl⟩ := hD
    obtain ⟨a8, ls, la⟩ := D
    dsimp only at ha hl
    cases h with
    | @scalar tc s a ht =>
      cases tc <;> simp only [Data.tab, Option.some.injEq, Prod.mk.injEq, reduceCtorEq] at ht <;>
        obtain ⟨rfl, rfl⟩ := ht
      case float => exact ⟨_, rfl, fun h => (by cases h), rfl, fun _ => .float rfl rfl⟩
      case double => exact ⟨_, rfl, fun h => (by cases h), rfl, fun _ => .double rfl rfl⟩
      case longdouble =>
        refine ⟨_, rfl, fun h => (by cases h), rfl, fun _ => .ldouble rfl ?_⟩
        rcases hl with ⟨rfl, _⟩ | ⟨rfl, _⟩ <;> simp
      case uint8 => exact ⟨_, rfl, fun h => (by cases h), rfl, fun _ => .uint8 rfl rfl⟩
      case sint8 => exact ⟨_, rfl, fun h => (by cases h), rfl, fun _ => .sint8 rfl rfl⟩
      case uint16 => exact ⟨_, rfl, fun h => (by cases h), rfl, fun _ => .uint16 rfl rfl⟩
      case sint16 => exact ⟨_, rfl, fun h => (by cases h), rfl, fun _ => .sint16 rfl rfl⟩
      case uint32 => exact ⟨_, rfl, fun h => (by cases h), rfl, fun _ => .int32 (by simp) rfl⟩
      case sint32 => exact ⟨_, rfl, fun h => (by cases h), rfl, fun _ => .int32 (by simp) rfl⟩
      case pointer => exact ⟨_, rfl, fun h => (by cases h), rfl, fun _ => .int32 (by simp) rfl⟩
      case uint64 => exact ⟨_, rfl, fun h => (by cases h), rfl, fun _ => .int64 (by simp) rfl⟩
      case sint64 => exact ⟨_, rfl, fun h => (by cases h), rfl, fun _ => .int64 (by simp) rfl⟩
    | @complex tc s a hb ht =>
      cases tc <;> simp only [complexBase, Bool.false_eq_true] at hb <;>
        simp only [Data.tab, Option.some.injEq, Prod.mk.injEq] at ht <;>
        obtain ⟨rfl, rfl⟩ := ht <;> simp only [retFlag, FType.tc_mk, FType.elems_mk, inMemory, FType.size_mk]
      case double => exact ⟨_, rfl, fun _ => rfl, by rw [hm]; rfl, fun h => by rw [hm] at h; cases h⟩
      case longdouble =>
        refine ⟨_, rfl, fun _ => rfl, ?_, fun h => by rw [hm] at h; cases h⟩
        rw [hm]
        rcases hl with ⟨rfl, _⟩ | ⟨rfl, _⟩ <;> rfl
      case uint64 => exact ⟨_, rfl, fun _ => rfl, by rw [hm]; rfl, fun h => by rw [hm] at h; cases h⟩
      case sint64 => exact ⟨_, rfl, fun _ => rfl, by rw [hm]; rfl, fun h => by rw [hm] at h; cases h⟩
      case float => exact ⟨_, rfl, fun h => (by cases h), rfl, fun _ => .int64 (by simp) rfl⟩
      case uint32 => exact ⟨_, rfl, fun h => (by cases h), rfl, fun _ => .int64 (by simp) rfl⟩
      case sint32 => exact ⟨_, rfl, fun h => (by cases h), rfl, fun _ => .int64 (by simp) rfl⟩
      case uint16 => exact ⟨_, rfl, fun h => (by cases h), rfl, fun _ => .int32 (by simp) rfl⟩
      case sint16 => exact ⟨_, rfl, fun h => (by cases h), rfl, fun _ => .int32 (by simp) rfl⟩
      case uint8 => exact ⟨_, rfl, fun h => (by cases h), rfl, fun _ => .struct2 (by simp) rfl⟩
      case sint8 => exact ⟨_, rfl, fun h => (by cases h), rfl, fun _ => .struct2 (by simp) rfl⟩
    | @struct ms s a hne hl' hms =>
      simp only [retFlag, FType.tc_mk, inMemory, FType.size_mk]
      cases hw : c.win32 || c.darwin with
      | false =>
        simp only [if_false, Bool.false_eq_true, Bool.false_and, Bool.not_false]
        exact ⟨_, rfl, fun _ => rfl, hm, fun h => by rw [hm] at h; cases h⟩
      | true =>
        simp only [if_true, Bool.true_and]
        by_cases h1 : s = 1
        · subst h1; exact ⟨_, rfl, fun h => (by cases h), rfl, fun _ => .struct1 rfl rfl⟩
        by_cases h2 : s = 2
        · subst h2; exact ⟨_, rfl, fun h => (by cases h), rfl, fun _ => .struct2 (by simp) rfl⟩
        by_cases h4 : s = 4
        · subst h4; exact ⟨_, rfl, fun h => (by cases h), rfl, fun _ => .int32 (by simp) rfl⟩
        by_cases h8 : s = 8
        · subst h8; exact ⟨_, rfl, fun h => (by cases h), rfl, fun _ => .int64 (by simp) rfl⟩
        refine ⟨structFlag c, by simp [h1, h2, h4, h8], fun _ => rfl, by rw [hm]; simp [h1, h2, h4, h8],
          fun h => by rw [hm] at h; cases h⟩

/-! ## `ffi_call` -/

theorem take_take4 {l : List Byte} {n : Nat} (h : n ≤ 4) : (l.take 4).take n = l.take n := by
  rw [List.take_take, Nat.min_eq_left h]

theorem rd_wr {m : Mem} {a n : Nat} {bs : List Byte} (h : bs.length = n) : (m.wr a bs).rd a n = bs := by
  have := Mem.rd_wr_same m a bs
  rwa [h] at this

theorem widenedTo_of_not {t : FType} (h : word t.tc = false) (v w : List Byte) : WidenedTo t v w := by
  intro h'; rw [h] at h'; cases h'

theorem getD_left {l r : List Byte} {i : Nat} (h : i < l.length) : (l ++ r).getD i 0 = l.getD i 0 := by
  rw [List.getD_eq_getElem?_getD, List.getD_eq_getElem?_getD, List.getElem?_append_left h]

theorem getD_right {l r : List Byte} {i : Nat} (h : l.length ≤ i) : (l ++ r).getD i 0 = r.getD (i - l.length) 0 := by
  rw [List.getD_eq_getElem?_getD, List.getD_eq_getElem?_getD, List.getElem?_append_right h]

/-- Bytes written for an integer. -/
theorem deliver_small {m : Mem} {p n : Nat} {t : FType} {v : List Byte} {sg : Bool} (hn : t.size = n)
    (hn' : n = 1 ∨ n = 2) (hl : v.length = n) (hsg : word t.tc = true → signed t.tc = sg) (hld : t.tc ≠ .longdouble) :
    Delivered (m.wr p (widen sg v)) p t v := by
  intro _
  have hw := widen_spec (sg := sg) (bs := v) (by omega)
  have h4 : (m.wr p (widen sg v)).rd p 4 = widen sg v := rd_wr hw.1
  refine ⟨?_, ?_⟩
  · unfold valueBytes
    rw [if_neg hld, hn, ← Mem.rd_take (n := 4) _ _ (by omega), h4, widen_take hl]
  · intro h
    rw [h4, List.take_of_length_le (by omega), hsg h]
    exact hw.2

/-- The result is stored where the caller of `ffi_call` asked for it, and nothing else
outside the frame changes. -/
theorem finishCall_spec {cvt : Nat → X87 → List Byte} {frame p : Nat} {ebx eax edx v : List Byte} {st0 : X87} {m : Mem}
    {t : FType} {fl : Flag} (hfl : Direct t fl) (hflag : m.rd (frame + 12) 4 = leBytes 4 fl.code)
    (hp : m.rd (frame + 16) 4 = leBytes 4 p) (hp32 : p < 2 ^ 32) (hebx : ebx.length = 4)
    (heax : eax.length = 4) (hedx : edx.length = 4) (hv : v.length = valueBytes t)
    (hret : Returned t v eax (some edx) (some (st0.w, st0.bs))) :
    ∃ m', finishCall cvt frame ebx eax edx st0 m = some m' ∧ Delivered m' p t v ∧
      (∀ x, (x < frame + 8 ∨ frame + 12 ≤ x) → (x < p ∨ p + resultRoom t ≤ x) → m' x = m x) ∧
      ((p + resultRoom t ≤ frame + 8 ∨ frame + 12 ≤ p) → m'.rd (frame + 8) 4 = ebx) := by
  have hcode := code_lt fl
  unfold finishCall
  dsimp only
  have h12 : (m.wr (frame + 8) ebx).rd (frame + 12) 4 = leBytes 4 fl.code := by
    rw [Mem.rd_wr_disj _ _ _ _ _ (by omega), hflag]
  have h16 : (m.wr (frame + 8) ebx).rd (frame + 16) 4 = leBytes 4 p := by
    rw [Mem.rd_wr_disj _ _ _ _ _ (by omega), hp]
  rw [h12, h16, leNat_leBytes, leNat_leBytes, Nat.mod_eq_of_lt (show fl.code < 256 ^ 4 by omega),
    Nat.mod_eq_of_lt (show fl.code < 16 by omega), Nat.mod_eq_of_lt (show p < 256 ^ 4 by omega), ofCode_code]
  generalize hm1 : m.wr (frame + 8) ebx = m1
  have hk1 : ∀ x, (x < frame + 8 ∨ frame + 12 ≤ x) → m1 x = m x := by
    intro x hx; rw [← hm1, Mem.wr_out _ _ _ _ (by omega)]
  have hb1 : m1.rd (frame + 8) 4 = ebx := by rw [← hm1, rd_wr hebx]
  have fin : ∀ bs : List Byte, bs.length ≤ resultRoom t → Delivered (m1.wr p bs) p t v →
      ∃ m', some (m1.wr p bs) = some m' ∧ Delivered m' p t v ∧
      (∀ x, (x < frame + 8 ∨ frame + 12 ≤ x) → (x < p ∨ p + resultRoom t ≤ x) → m' x = m x) ∧
      ((p + resultRoom t ≤ frame + 8 ∨ frame + 12 ≤ p) → m'.rd (frame + 8) 4 = ebx) := by
    intro bs hb hd
    refine ⟨_, rfl, hd, ?_, ?_⟩
    · intro x h1 h2; rw [Mem.wr_out _ _ _ _ (by omega), hk1 x h1]
    · intro h; rw [Mem.rd_wr_disj _ _ _ _ _ (by omega), hb1]
  have same : ∀ bs : List Byte, bs = v → v.length = valueBytes t → word t.tc = false → valueBytes t ≤ resultRoom t →
      ∃ m', some (m1.wr p bs) = some m' ∧ Delivered m' p t v ∧
      (∀ x, (x < frame + 8 ∨ frame + 12 ≤ x) → (x < p ∨ p + resultRoom t ≤ x) → m' x = m x) ∧
      ((p + resultRoom t ≤ frame + 8 ∨ frame + 12 ≤ p) → m'.rd (frame + 8) 4 = ebx) := by
    intro bs he hl hw hr
    subst he
    exact fin _ (by omega) (fun _ => ⟨rd_wr hl, widenedTo_of_not hw _ _⟩)
  cases hfl with
  | void h =>
    refine ⟨m1, rfl, fun h' => absurd h h', fun x h1 _ => hk1 x h1, fun _ => hb1⟩
  | float h hs =>
    simp only [Returned, h, Option.some.injEq, Prod.mk.injEq] at hret
    simp only [Option.map_some, X87.store, hret.1, if_true]
    exact same _ hret.2 hv (by rw [h]; rfl) (by simp [valueBytes, resultRoom, h, word])
  | double h hs =>
    simp only [Returned, h, Option.some.injEq, Prod.mk.injEq] at hret
    simp only [Option.map_some, X87.store, hret.1, if_true]
    exact same _ hret.2 hv (by rw [h]; rfl) (by simp [valueBytes, resultRoom, h, word])
  | ldouble h hs =>
    simp only [Returned, h, Option.some.injEq, Prod.mk.injEq] at hret
    simp only [Option.map_some, X87.store, hret.1, if_true]
    exact same _ hret.2 hv (by rw [h]; rfl) (by simp [valueBytes, resultRoom, h, word]; omega)
  | sint8 h hs =>
    simp [Returned, h, hs] at hret
    have hv1 : v.length = 1 := by rw [hv]; simp [valueBytes, h, hs]
    simp only [Option.map_some]
    rw [hret]
    exact fin _ (by rw [(widen_spec (.inl hv1)).1]; simp [resultRoom, h, word])
      (deliver_small hs (by omega) hv1 (fun _ => by rw [h]; rfl) (by rw [h]; simp))
  | uint8 h hs =>
    simp [Returned, h, hs] at hret
    have hv1 : v.length = 1 := by rw [hv]; simp [valueBytes, h, hs]
    simp only [Option.map_some]
    rw [hret]
    exact fin _ (by rw [(widen_spec (.inl hv1)).1]; simp [resultRoom, h, word])
      (deliver_small hs (by omega) hv1 (fun _ => by rw [h]; rfl) (by rw [h]; simp))
  | sint16 h hs =>
    simp [Returned, h, hs] at hret
    have hv1 : v.length = 2 := by rw [hv]; simp [valueBytes, h, hs]
    simp only [Option.map_some]
    rw [hret]
    exact fin _ (by rw [(widen_spec (.inr hv1)).1]; simp [resultRoom, h, word])
      (deliver_small hs (by omega) hv1 (fun _ => by rw [h]; rfl) (by rw [h]; simp))
  | uint16 h hs =>
    simp [Returned, h, hs] at hret
    have hv1 : v.length = 2 := by rw [hv]; simp [valueBytes, h, hs]
    simp only [Option.map_some]
    rw [hret]
    exact fin _ (by rw [(widen_spec (.inr hv1)).1]; simp [resultRoom, h, word])
      (deliver_small hs (by omega) hv1 (fun _ => by rw [h]; rfl) (by rw [h]; simp))
  | int64 h hs =>
    have hr : eax ++ edx = v := by rcases h with h | h | h | h <;> simpa [Returned, h, hs] using hret
    have hw : word t.tc = false := by rcases h with h | h | h | h <;> rw [h] <;> rfl
    have hvb : valueBytes t = 8 := by rcases h with h | h | h | h <;> simp [valueBytes, h, hs]
    have hrr : resultRoom t = 8 := by rcases h with h | h | h | h <;> simp [resultRoom, h, hs, word]
    have e : (m1.wr (p + 4) edx).wr p eax = m1.wr p (eax ++ edx) := by
      funext x
      unfold Mem.wr
      rw [heax, hedx, List.length_append, heax, hedx]
      by_cases h1 : p ≤ x ∧ x < p + 4
      · rw [if_pos h1, if_pos (by omega), getD_left (by omega)]
      · rw [if_neg h1]
        by_cases h2 : p + 4 ≤ x ∧ x < p + 4 + 4
        · rw [if_pos h2, if_pos (by omega), getD_right (by omega), heax,
            show x - (p + 4) = x - p - 4 by omega]
        · rw [if_neg h2, if_neg (by omega)]
    simp only [Option.map_some]
    rw [e]
    exact same _ hr hv hw (by omega)
  | int32 h hs =>
    have hr : eax = v := by
      have : eax.take 4 = v := by rcases h with h | h | h | h | h <;> simpa [Returned, h, hs] using hret
      rwa [List.take_of_length_le (by omega)] at this
    have hvb : valueBytes t = 4 := by rcases h with h | h | h | h | h <;> simp [valueBytes, h, hs]
    have hrr : resultRoom t = 4 := by rcases h with h | h | h | h | h <;> simp [resultRoom, h, hs, word]
    simp only [Option.map_some]
    rw [hr]
    refine fin _ (by omega) (fun _ => ⟨rd_wr hv, fun _ => ?_⟩)
    rw [rd_wr (by omega), List.take_of_length_le (by omega)]
    exact wide4 _ (by omega)
  | struct1 h hs =>
    simp [Returned, h, hs] at hret
    simp only [Option.map_some]
    exact same _ hret hv (by rw [h]; rfl) (by simp [valueBytes, resultRoom, h, word])
  | struct2 h hs =>
    have hr : eax.take 2 = v := by rcases h with h | h <;> simpa [Returned, h, hs] using hret
    simp only [Option.map_some]
    exact same _ hr hv (by rcases h with h | h <;> rw [h] <;> rfl)
      (by rcases h with h | h <;> simp [valueBytes, resultRoom, h, word])

/-- With a result in memory, or one that is not wanted, nothing is stored. -/
theorem finishCall_none {cvt : Nat → X87 → List Byte} {frame : Nat} {ebx eax edx : List Byte} {st0 : X87} {m : Mem}
    {fl : Flag} (hfl : isMem fl = true ∨ fl = .void) (hflag : m.rd (frame + 12) 4 = leBytes 4 fl.code)
    (hebx : ebx.length = 4) : finishCall cvt frame ebx eax edx st0 m = some (m.wr (frame + 8) ebx) := by
  have hcode := code_lt fl
  unfold finishCall
  dsimp only
  have h12 : (m.wr (frame + 8) ebx).rd (frame + 12) 4 = leBytes 4 fl.code := by
    rw [Mem.rd_wr_disj _ _ _ _ _ (by omega), hflag]
  rw [h12, leNat_leBytes, Nat.mod_eq_of_lt (show fl.code < 256 ^ 4 by omega),
    Nat.mod_eq_of_lt (show fl.code < 16 by omega), ofCode_code]
  rcases hfl with h | h
  · have : fl = .structPop ∨ fl = .structArg := by simpa [isMem] using h
    rcases this with rfl | rfl <;> rfl
  · rw [h]; rfl

/-! ## Closures -/

theorem innerRet_mod (c : Cfg) (fl : Flag) (bytes narg : Nat) : innerRet c fl bytes narg % 16 = fl.code := by
  have := code_lt fl
  unfold innerRet
  split <;> omega

/-- A closure returns what its handler stored at the address it was given. -/
theorem loadTable_spec {frame : Nat} {m : Mem} {t : FType} {fl : Flag} (hfl : Direct t fl) {v : List Byte}
    (hv : t.tc ≠ .void → m.rd frame (valueBytes t) = v) :
    Returned t v (loadTable frame m fl).1 (loadTable frame m fl).2.1
        ((loadTable frame m fl).2.2.map fun x => (x.w, x.bs)) ∧
      (t.tc ≠ .void → WidenedTo t v (loadTable frame m fl).1) := by
  have sm : ∀ (n : Nat) (sg : Bool), (n = 1 ∨ n = 2) → m.rd frame n = v → t.size = n →
      (widen sg (List.take n (m.rd frame 4))).take t.size = v ∧
      ((word t.tc = true → signed t.tc = sg) → WidenedTo t v (widen sg (List.take n (m.rd frame 4)))) := by
    intro n sg hn hr hs
    have hl : v.length = n := by rw [← hr]; simp
    rw [Mem.rd_take _ _ (by omega), hr, hs]
    refine ⟨widen_take hl, fun hsg hw => ?_⟩
    rw [List.take_of_length_le (by rw [(widen_spec (by omega)).1]), hsg hw]
    exact (widen_spec (by omega)).2
  cases hfl with
  | void h => exact ⟨by simp [Returned, h], fun h' => absurd h h'⟩
  | float h hs =>
    have := hv (by rw [h]; simp)
    simp only [valueBytes, h, hs] at this
    exact ⟨by simpa [Returned, h, loadTable] using this, fun _ => widenedTo_of_not (by rw [h]; rfl) _ _⟩
  | double h hs =>
    have := hv (by rw [h]; simp)
    simp only [valueBytes, h, hs] at this
    exact ⟨by simpa [Returned, h, loadTable] using this, fun _ => widenedTo_of_not (by rw [h]; rfl) _ _⟩
  | ldouble h hs =>
    have := hv (by rw [h]; simp)
    simp only [valueBytes, h] at this
    exact ⟨by simpa [Returned, h, loadTable] using this, fun _ => widenedTo_of_not (by rw [h]; rfl) _ _⟩
  | sint8 h hs =>
    have := hv (by rw [h]; simp)
    simp only [valueBytes, h, hs] at this
    have := sm 1 true (by omega) (by simpa using this) hs
    exact ⟨by simpa [Returned, h, hs, loadTable] using this.1, fun _ => this.2 (fun _ => by rw [h]; rfl)⟩
  | uint8 h hs =>
    have := hv (by rw [h]; simp)
    simp only [valueBytes, h, hs] at this
    have := sm 1 false (by omega) (by simpa using this) hs
    exact ⟨by simpa [Returned, h, hs, loadTable] using this.1, fun _ => this.2 (fun _ => by rw [h]; rfl)⟩
  | sint16 h hs =>
    have := hv (by rw [h]; simp)
    simp only [valueBytes, h, hs] at this
    have := sm 2 true (by omega) (by simpa using this) hs
    exact ⟨by simpa [Returned, h, hs, loadTable] using this.1, fun _ => this.2 (fun _ => by rw [h]; rfl)⟩
  | uint16 h hs =>
    have := hv (by rw [h]; simp)
    simp only [valueBytes, h, hs] at this
    have := sm 2 false (by omega) (by simpa using this) hs
    exact ⟨by simpa [Returned, h, hs, loadTable] using this.1, fun _ => this.2 (fun _ => by rw [h]; rfl)⟩
  | int64 h hs =>
    have hnv : t.tc ≠ .void := by rcases h with h | h | h | h <;> rw [h] <;> simp
    have hvb : valueBytes t = 8 := by rcases h with h | h | h | h <;> simp [valueBytes, h, hs]
    have := hv hnv
    rw [hvb] at this
    have e : m.rd frame 4 ++ m.rd (frame + 4) 4 = v := by rw [← this, ← Mem.rd_append]
    refine ⟨?_, fun _ => widenedTo_of_not (by rcases h with h | h | h | h <;> rw [h] <;> rfl) _ _⟩
    rcases h with h | h | h | h <;> simpa [Returned, h, hs, loadTable] using e
  | int32 h hs =>
    have hnv : t.tc ≠ .void := by rcases h with h | h | h | h | h <;> rw [h] <;> simp
    have hvb : valueBytes t = 4 := by rcases h with h | h | h | h | h <;> simp [valueBytes, h, hs]
    have := hv hnv
    rw [hvb] at this
    refine ⟨?_, fun _ _ => ?_⟩
    · have e : (m.rd frame 4).take 4 = v := by rw [List.take_of_length_le (by simp)]; exact this
      rcases h with h | h | h | h | h <;> simpa [Returned, h, hs, loadTable] using e
    · have hl : v.length = 4 := by rw [← this]; simp
      show (intVal _ v - leNat ((m.rd frame 4).take 4)) % 2 ^ 32 = 0
      rw [List.take_of_length_le (by simp), this]
      exact wide4 _ hl
  | struct1 h hs =>
    have := hv (by rw [h]; simp)
    simp only [valueBytes, h, hs] at this
    have := sm 1 false (by omega) (by simpa using this) hs
    exact ⟨by simpa [Returned, h, hs, loadTable] using this.1, fun _ => widenedTo_of_not (by rw [h]; rfl) _ _⟩
  | struct2 h hs =>
    have hnv : t.tc ≠ .void := by rcases h with h | h <;> rw [h] <;> simp
    have hvb : valueBytes t = 2 := by rcases h with h | h <;> simp [valueBytes, h, hs]
    have := hv hnv
    rw [hvb] at this
    have := sm 2 false (by omega) (by simpa using this) hs
    refine ⟨?_, fun _ => widenedTo_of_not (by rcases h with h | h <;> rw [h] <;> rfl) _ _⟩
    rcases h with h | h <;> simpa [Returned, h, hs, loadTable] using this.1

end Verif.I386
