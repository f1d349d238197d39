import Verif.Arm.Closure
import Verif.Spec.Build

/-
Properties C66-C70: 32-bit ARM.
-/
namespace Verif.Props
open Verif Spec Arm
open Verif.Spec.A32 (IsCprc cprc fpWords Place Pos run Fits lowest placeArg placeFrom endFrom stackAt words RPlace retPlace
  cat Regs PassedAt AllPassed Returned places)
open Verif.Spec.X86 (word signed intVal WidenedTo resultRoom)

/-! ## Types used in the examples -/

def armVoid : FType := .mk 1 1 .void []
def armI8 := mkScalar A32.tab .sint8
def armU16 := mkScalar A32.tab .uint16
def armI32 := mkScalar A32.tab .sint32
def armI64 := mkScalar A32.tab .sint64
def armF32 := mkScalar A32.tab .float
def armF64 := mkScalar A32.tab .double
/-- `double _Complex` -/
def armC64 := mkComplex A32.tab .double
/-- `struct { float x; struct { float y, z; } s; }` -/
def armF3 := mkStruct [armF32, mkStruct [armF32, armF32]]
/-- `struct { int a, b, c; }` -/
def armS12 := mkStruct [armI32, armI32, armI32]
/-- `struct { double x; int y; }` -/
def armS16 := mkStruct [armF64, armI32]

theorem wf_armI8 : WF A32.tab armI8 := mkScalar_wf rfl
theorem wf_armU16 : WF A32.tab armU16 := mkScalar_wf rfl
theorem wf_armI32 : WF A32.tab armI32 := mkScalar_wf rfl
theorem wf_armI64 : WF A32.tab armI64 := mkScalar_wf rfl
theorem wf_armF32 : WF A32.tab armF32 := mkScalar_wf rfl
theorem wf_armF64 : WF A32.tab armF64 := mkScalar_wf rfl
theorem wf_armC64 : WF A32.tab armC64 := mkComplex_wf rfl rfl
theorem wf_armF3 : WF A32.tab armF3 :=
  mkStruct_wf Arm.tab_ok (by simp) (by simpa using ⟨wf_armF32, mkStruct_wf Arm.tab_ok (by simp) (by simpa using wf_armF32)⟩)
theorem wf_armS12 : WF A32.tab armS12 := mkStruct_wf Arm.tab_ok (by simp) (by simpa using wf_armI32)
theorem wf_armS16 : WF A32.tab armS16 := mkStruct_wf Arm.tab_ok (by simp) (by simpa using ⟨wf_armF64, wf_armI32⟩)

/-- Distinct bytes in memory; `n` argument objects from 8192 on, 64 bytes apart. -/
def armIn (n : Nat) (rv : Option Nat) : CallIn :=
  ⟨4096, fun x => BitVec.ofNat 8 (x % 251), (List.range n).map fun i => 8192 + 64 * i, rv, [1, 2, 3, 4], [5, 6, 7, 8], [9, 10, 11, 12],
    fun _ => [0, 0, 0, 0]⟩

/-! ## C66 — candidates for VFP registers, and which registers they get -/

theorem arm_cprc_iff {t : FType} {n w : Nat} : cprc t = some (n, w) ↔ IsCprc t n w := by
  unfold cprc IsCprc
  constructor
  · intro h
    split at h
    · cases h
    · rename_i k ks hl
      split at h
      · cases h
      · rename_i w' hw
        split at h
        · rename_i hc
          simp only [Option.some.injEq, Prod.mk.injEq] at h
          obtain ⟨rfl, rfl⟩ := h
          refine ⟨by omega, by omega, k, hw, ?_, hc.2.2⟩
          rw [hl, List.replicate_succ, ← hc.2.1]
        · cases h
  · rintro ⟨h1, h2, k, hk, hl, hs⟩
    obtain ⟨m, rfl⟩ : ∃ m, n = m + 1 := ⟨n - 1, by omega⟩
    rw [hl, List.replicate_succ]
    simp only [hk, List.length_replicate]
    rw [if_pos ⟨by omega, trivial, hs⟩]

/-- C66: `vfp_type_p` returns the number of members and their type exactly for the
candidates of the standard, and zero for all other types. -/
theorem C66_vfp_type_p {t : FType} (h : WF A32.tab t) :
    ∃ c, vfpTypeP t = .ok c ∧ (∀ n w, IsCprc t n w → c = n * 256 + (if w = 2 then 3 else 2)) ∧
      ((¬ ∃ n w, IsCprc t n w) → c = 0) := by
  obtain ⟨c, h1, h2⟩ := vfpTypeP_spec h
  refine ⟨c, h1, fun n w hc => ?_, fun hn => ?_⟩
  · rw [arm_cprc_iff.2 hc] at h2
    obtain ⟨-, -, hw, hc, -⟩ := h2
    rcases hw with rfl | rfl <;> simpa using hc
  · cases hc : cprc t with
    | none => rw [hc] at h2; exact h2
    | some x => exact absurd ⟨x.1, x.2, arm_cprc_iff.1 hc⟩ hn

example : IsCprc armF3 3 1 ∧ vfpTypeP armF3 = .ok 770 := ⟨arm_cprc_iff.1 (by decide +kernel), by decide +kernel⟩
example : (¬ ∃ n w, IsCprc armS16 n w) ∧ vfpTypeP armS16 = .ok 0 := by
  refine ⟨?_, by decide +kernel⟩
  rintro ⟨n, w, h⟩
  have h1 := arm_cprc_iff.2 h
  have h2 : cprc armS16 = none := by decide +kernel
  rw [h2] at h1
  cases h1

theorem arm_run_nodup (k n : Nat) : (run k n).Nodup := by
  unfold run List.Nodup
  rw [List.pairwise_map]
  exact List.Pairwise.imp (fun h => by omega) List.nodup_range

theorem arm_ks_length : ∀ (ts : List FType) (u : List Nat), (∀ k ∈ u, k < 16) → u.Nodup → (ksFrom ts u).length + u.length ≤ 16
  | [], u, h, hn => by
    have := (List.subperm_of_subset hn (fun k hk => List.mem_range.2 (h k hk))).length_le
    simp [ksFrom] at this ⊢
    exact this
  | t :: ts, u, h, hn => by
    rw [ksFrom]
    cases hc : cprc t with
    | none => exact arm_ks_length ts u h hn
    | some x =>
      obtain ⟨n, w⟩ := x
      dsimp only
      have hnw := cprc_nw hc
      obtain ⟨r, hl⟩ : ∃ r, lowest u (n * w) w = r := ⟨_, rfl⟩
      rw [hl]
      rcases r with _ | k
      · dsimp only
        rw [(ks_full ts).1]
        have := (List.subperm_of_subset hn (fun k hk => List.mem_range.2 (h k hk))).length_le
        simpa using this
      · dsimp only
        obtain ⟨-, ⟨-, f2, f3⟩, -⟩ := lowest_some.1 hl
        have ih := arm_ks_length ts (u ++ run k (n * w)) (by
          intro x hx
          rw [List.mem_append, mem_run] at hx
          rcases hx with hx | hx
          · exact h x hx
          · omega) (by
          rw [List.nodup_append]
          refine ⟨hn, ?_, ?_⟩
          · exact arm_run_nodup _ _
          · rintro a ha b hb rfl
            rw [mem_run] at hb
            exact f3 (a - k) (by omega) (by rw [show k + (a - k) = a by omega]; exact ha))
        have hlen : (run k (n * w)).length = n * w := by simp [run]
        rw [List.length_append, hlen] at ih
        rw [List.length_cons]
        omega

/-- C66: `layout_vfp_args` gives the candidates the registers that the standard gives
them, each the lowest-numbered free run; at most 16 of the 16 entries of `vfp_args` are
set, and `vfp_used` has the registers that are not available any more. -/
theorem C66_layout {rt : FType} {ts : List FType} (h : ∀ t ∈ ts, WF A32.tab t) :
    ∃ v, layoutVfp ts = .ok v ∧
      v.args = (places true rt ts).filterMap (fun l => match l with | .vfp k => some k | _ => none) ∧
      v.args.length ≤ 16 ∧ (∀ k ∈ v.args, k < 16) ∧
      ∀ i, v.used.testBit i = decide (i ∈ (endFrom false true ts (A32.start true rt)).used) := by
  obtain ⟨v, h1, h2, h3⟩ := layoutLoop_spec h rel_start
  have hk : v.args = (places true rt ts).filterMap (fun l => match l with | .vfp k => some k | _ => none) := by
    have := ks_placeFrom false ts (A32.start true rt)
    rw [h2]
    exact this.symm
  refine ⟨v, h1, hk, ?_, fun k hm => ?_, fun i => ?_⟩
  · rw [h2]
    simpa using arm_ks_length ts [] (by simp) (by simp)
  · rw [hk, List.mem_filterMap] at hm
    obtain ⟨l, hl, he⟩ := hm
    have : ∀ (ts : List FType) (p : Pos), ∀ l ∈ placeFrom false true ts p, ∀ k, l = .vfp k → k < 16 := by
      intro ts
      induction ts with
      | nil => intro p l hl; simp [placeFrom] at hl
      | cons t ts ih =>
        intro p l hl k hlk
        rw [placeFrom, List.mem_cons] at hl
        rcases hl with rfl | hl
        · obtain ⟨-, n, w, -, h4, h5, h6⟩ := place_vfp false hlk
          have := cprc_nw h6
          omega
        · exact ih _ _ hl k hlk
    cases l with
    | vfp k' => cases he; exact this ts _ _ hl _ rfl
    | core => cases he
    | stack => cases he
  · rw [h3, used_endFrom]
    rfl

/-- The lowest-numbered run, said without searching. -/
theorem C66_lowest (u : List Nat) (n w : Nat) :
    (∀ k, lowest u n w = some k ↔ k < 17 ∧ Fits u n w k ∧ ∀ j < k, ¬ Fits u n w j) ∧ (lowest u n w = none ↔ ∀ k, ¬ Fits u n w k) :=
  ⟨fun _ => lowest_some, lowest_none⟩

/-- Back-filling: the second `float` gets s1, left free by the `double`. -/
example : layoutVfp [armF32, armF64, armF32, armF3, armI32, armF64] = .ok ⟨895, 7, [0, 2, 1, 4, 8]⟩ := by decide +kernel

/-! ## Where the places of calls and closures are those of the standard -/

/-- The core registers are closed when an argument that was to be in them goes to the
stack (rule C.6); libffi does this only if it is the first argument on the stack.  The
signature is such that this does not matter. -/
def ArmConforms (hard : Bool) (rt : FType) (ats : List FType) : Prop :=
  placeFrom true hard ats (A32.start hard rt) = places hard rt ats

theorem arm_same_step {hard : Bool} {t : FType} {p : Pos} (h : p.nsaa ≠ 0 → p.ncrn = 4) : placeArg true hard t p = placeArg false hard t p := by
  unfold placeArg
  split
  · rfl
  · dsimp only
    generalize (if 8 ≤ t.align then roundUp p.ncrn 2 else p.ncrn) = g
    split
    · rfl
    · split
      · rfl
      · congr 2
        by_cases h0 : p.nsaa = 0
        · simp [h0]
        · simp [h h0]

/-- Without VFP registers: FFI_SYSV, and all variadic functions. -/
theorem arm_conforms_soft (rt : FType) (ats : List FType) : ArmConforms false rt ats := by
  have key : ∀ (ts : List FType) (p : Pos), (p.nsaa ≠ 0 → p.ncrn = 4) → placeFrom true false ts p = placeFrom false false ts p := by
    intro ts
    induction ts with
    | nil => intro p _; rfl
    | cons t ts ih =>
      intro p h
      rw [placeFrom, placeFrom, arm_same_step h]
      congr 1
      apply ih
      unfold placeArg
      rw [if_neg (by decide)]
      dsimp only
      have hge : p.ncrn = 4 → 4 ≤ (if 8 ≤ t.align then roundUp p.ncrn 2 else p.ncrn) := by
        intro h; rw [h]; split <;> decide
      generalize (if 8 ≤ t.align then roundUp p.ncrn 2 else p.ncrn) = g at hge ⊢
      split
      · rename_i h1
        intro h0
        have := hge (h h0)
        dsimp only at h0 ⊢
        omega
      · split
        · intro _; rfl
        · intro _; rfl
  exact key ats _ (fun h => absurd rfl h)

/-- With VFP registers, if every candidate gets registers. -/
theorem arm_conforms_regs {rt : FType} {ats : List FType}
    (h : ∀ q ∈ ats.zip (places true rt ats), (∃ n w, IsCprc q.1 n w) → ∃ k, q.2 = .vfp k) : ArmConforms true rt ats := by
  have key : ∀ (ts : List FType) (p : Pos), (p.nsaa ≠ 0 → p.ncrn = 4) →
      (∀ q ∈ ts.zip (placeFrom false true ts p), (∃ n w, IsCprc q.1 n w) → ∃ k, q.2 = .vfp k) →
      placeFrom true true ts p = placeFrom false true ts p := by
    intro ts
    induction ts with
    | nil => intro p _ _; rfl
    | cons t ts ih =>
      intro p hp hq
      rw [placeFrom, placeFrom, arm_same_step hp]
      rw [placeFrom, List.zip_cons_cons] at hq
      congr 1
      refine ih _ ?_ fun q hm => hq q (List.mem_cons_of_mem _ hm)
      have h0 := hq _ (List.mem_cons_self ..)
      dsimp only at h0
      revert h0
      unfold placeArg
      rw [if_pos rfl]
      cases hc : cprc t with
      | some x =>
        obtain ⟨n, w⟩ := x
        dsimp only
        obtain ⟨r, hl⟩ : ∃ r, lowest p.used (n * w) w = r := ⟨_, rfl⟩
        rw [hl]
        rcases r with _ | k
        · dsimp only
          intro h0
          obtain ⟨k, hk⟩ := h0 ⟨n, w, arm_cprc_iff.1 hc⟩
          cases hk
        · intro _; exact hp
      | none =>
        intro _
        dsimp only
        have hge : p.ncrn = 4 → 4 ≤ (if 8 ≤ t.align then roundUp p.ncrn 2 else p.ncrn) := by
          intro h; rw [h]; split <;> decide
        generalize (if 8 ≤ t.align then roundUp p.ncrn 2 else p.ncrn) = g at hge ⊢
        split
        · rename_i h1
          intro h0
          have := hge (hp h0)
          dsimp only at h0 ⊢
          omega
        · split
          · intro _; rfl
          · intro _; rfl
  exact key ats _ (fun h => absurd rfl h) h

/-- With VFP registers, if every other argument is at most one word. -/
theorem arm_conforms_words {rt : FType} {ats : List FType}
    (h : ∀ t ∈ ats, (∃ n w, IsCprc t n w) ∨ t.size ≤ 4 ∧ t.align < 8) : ArmConforms true rt ats := by
  have key : ∀ (ts : List FType) (p : Pos), p.ncrn ≤ 4 → (∀ t ∈ ts, (∃ n w, IsCprc t n w) ∨ t.size ≤ 4 ∧ t.align < 8) →
      placeFrom true true ts p = placeFrom false true ts p := by
    intro ts
    induction ts with
    | nil => intro p _ _; rfl
    | cons t ts ih =>
      intro p hp hq
      have h0 := hq t (by simp)
      have hst : placeArg true true t p = placeArg false true t p ∧ (placeArg false true t p).2.ncrn ≤ 4 := by
        unfold placeArg
        rw [if_pos rfl]
        cases hc : cprc t with
        | some x =>
          obtain ⟨n, w⟩ := x
          dsimp only
          refine ⟨rfl, ?_⟩
          split <;> exact hp
        | none =>
          rcases h0 with ⟨n, w, h0⟩ | ⟨h0, h1⟩
          · rw [arm_cprc_iff.2 h0] at hc; cases hc
          · dsimp only
            have hg : (if 8 ≤ t.align then roundUp p.ncrn 2 else p.ncrn) = p.ncrn := if_neg (by omega)
            rw [hg]
            have hw : words t ≤ 1 := by unfold words; omega
            by_cases hle : p.ncrn + words t ≤ 4
            · rw [if_pos hle, if_pos hle]; exact ⟨rfl, hle⟩
            · have e : p.ncrn = 4 := by omega
              have h4 : ¬ (p.ncrn < 4 ∧ p.nsaa = 0) := by omega
              rw [if_neg hle, if_neg hle, if_neg h4, if_neg h4]
              refine ⟨?_, ?_⟩
              · simp [e]
              · simp
      rw [placeFrom, placeFrom, hst.1]
      congr 1
      exact ih _ hst.2 fun t ht => hq t (by simp [ht])
  exact key ats _ (by unfold A32.start; dsimp only; split <;> omega) h

/-! ## C67, C68 — calls -/

/-- A prepared call: well-formed types, the size of the block not wrapped. -/
structure ArmCall (hard var : Bool) (rt : FType) (ats : List FType) (c : Arm.Cif) : Prop where
  rtOk : rt.tc = .void ∨ WF A32.tab rt
  atsOk : ∀ t ∈ ats, WF A32.tab t
  fits : Fits32 rt ats
  prep : prep hard var rt ats = .ok c

theorem ArmCall.prepared {hard var : Bool} {rt : FType} {ats : List FType} {c : Arm.Cif} (h : ArmCall hard var rt ats c) :
    Prepared (hard && !var) rt ats c := by
  obtain ⟨c', h1, h2⟩ := prep_spec hard var h.rtOk h.atsOk
  rw [h.prep] at h1
  cases h1
  exact h2

/-- No complex result in memory, or no argument aligned to eight bytes. -/
def ArmRoom (hard : Bool) (rt : FType) (ats : List FType) : Prop :=
  rt.tc = .complex → retPlace hard rt = .mem → ∀ t ∈ ats, t.align < 8

/-- C67 (partial: room is lacking for some functions with complex results, and rule C.6 is
not obeyed): the function is entered with all arguments where `placeFrom true` says. -/
theorem C67_arguments_partial {hard var : Bool} {rt : FType} {ats : List FType} {c : Arm.Cif} {I : CallIn} (h : ArmCall hard var rt ats c)
    (hr : ArmRoom (hard && !var) rt ats) (hI : CallOk c rt ats I) :
    ∃ O, callEntry c rt ats I = .ok O ∧ O.ip = I.closure ∧ 8 ∣ O.entry.sp ∧
      (retPlace (hard && !var) rt = .mem → O.entry.r 0 = leBytes 4 O.rvalue) ∧
      AllPassed O.entry ats (argVals I.mem ats I.avalue) (placeFrom true (hard && !var) ats (A32.start (hard && !var) rt)) := by
  obtain ⟨O, h1, h2, h3⟩ := callEntry_spec h.atsOk h.prepared (room true h.atsOk h.prepared h.fits hr) hI
  refine ⟨O, h1, h2.ip, ?_, fun hm => h2.r0 ((flag_struct h.prepared.flag).2 hm), h3⟩
  have := h2.al
  have := h2.sp
  omega

/-- C67: where the signature is such that rule C.6 does not matter, arguments are where
the standard says. -/
theorem C67_conforms_partial {hard var : Bool} {rt : FType} {ats : List FType} {c : Arm.Cif} {I : CallIn} (h : ArmCall hard var rt ats c)
    (hr : ArmRoom (hard && !var) rt ats) (hc : ArmConforms (hard && !var) rt ats) (hI : CallOk c rt ats I) :
    ∃ O, callEntry c rt ats I = .ok O ∧ AllPassed O.entry ats (argVals I.mem ats I.avalue) (places (hard && !var) rt ats) := by
  obtain ⟨O, h1, -, -, -, h2⟩ := C67_arguments_partial h hr hI
  exact ⟨O, h1, by rw [← hc]; exact h2⟩

/-- C67: in variadic functions and under FFI_SYSV arguments are always where the standard
says, as far as there is room. -/
theorem C67_soft {hard var : Bool} {rt : FType} {ats : List FType} {c : Arm.Cif} {I : CallIn} (h : ArmCall hard var rt ats c)
    (hs : hard = false ∨ var = true) (hr : ArmRoom false rt ats) (hI : CallOk c rt ats I) :
    ∃ O, callEntry c rt ats I = .ok O ∧ AllPassed O.entry ats (argVals I.mem ats I.avalue) (places false rt ats) := by
  have e : (hard && !var) = false := by rcases hs with rfl | rfl <;> simp
  have := C67_conforms_partial (I := I) h (by rw [e]; exact hr) (by rw [e]; exact arm_conforms_soft rt ats) hI
  rwa [e] at this

/-- Computed check of the places. -/
def armPassed (R : Regs) : List FType → List (List Byte) → List Place → Bool
  | t :: ts, v :: vs, l :: ls => decide (R.at t.size l = v) && armPassed R ts vs ls
  | _, _, _ => true

theorem armPassed_of {R : Regs} : ∀ {ts : List FType} {vs : List (List Byte)} {ls : List Place}, AllPassed R ts vs ls →
    armPassed R ts vs ls = true
  | t :: ts, v :: vs, l :: ls, h => by
    rw [armPassed, decide_eq_true h.1.1, armPassed_of h.2]; rfl
  | [], _, _, _ => rfl
  | _ :: _, [], _, _ => rfl
  | _ :: _, _ :: _, [], _ => rfl

def armCif (hard : Bool) (rt : FType) (ats : List FType) : Arm.Cif :=
  match prep hard false rt ats with
  | .ok c => c
  | .error _ => ⟨hard, .void, 0, ⟨0, 0, []⟩⟩

/-- Checks a call: true if it succeeds and the arguments are where the standard says. -/
def armCheck (hard : Bool) (rt : FType) (ats : List FType) (I : CallIn) : Bool :=
  match callEntry (armCif hard rt ats) rt ats I with
  | .ok O => armPassed O.entry ats (argVals I.mem ats I.avalue) (places hard rt ats)
  | .error _ => true

/-- A signature with all kinds of places: VFP registers, core registers, one argument
split between registers and stack, stack. -/
def armSig : List FType := [armF32, armF64, armF32, armI8, armF3, armI64, armS12, armU16, armI32]

theorem armSig_wf : ∀ t ∈ armSig, WF A32.tab t := by
  intro t ht
  simp only [armSig, List.mem_cons, List.not_mem_nil, or_false] at ht
  rcases ht with rfl | rfl | rfl | rfl | rfl | rfl | rfl | rfl | rfl
  · exact wf_armF32
  · exact wf_armF64
  · exact wf_armF32
  · exact wf_armI8
  · exact wf_armF3
  · exact wf_armI64
  · exact wf_armS12
  · exact wf_armU16
  · exact wf_armI32

theorem arm_call {hard : Bool} {rt : FType} {ats : List FType} (hr : rt.tc = .void ∨ WF A32.tab rt) (ha : ∀ t ∈ ats, WF A32.tab t)
    (hf : Fits32 rt ats) : ArmCall hard false rt ats (armCif hard rt ats) := by
  obtain ⟨c, h1, -⟩ := prep_spec hard false hr ha
  refine ⟨hr, ha, hf, ?_⟩
  unfold armCif
  rw [h1]

instance (rt : FType) (ats : List FType) : Decidable (Fits32 rt ats) := by unfold Fits32; infer_instance

/-- Decidable form of the conditions on the state. -/
theorem arm_callOk {c : Arm.Cif} {rt : FType} {ats : List FType} {n : Nat} {rv : Option Nat} (h1 : n = ats.length)
    (h2 : need c rt (armIn n rv) + 8 ≤ 4096) : CallOk c rt ats (armIn n rv) := by
  refine ⟨by simp [armIn, h1], rfl, rfl, rfl, h2, by show 4096 < 2 ^ 32; decide, fun q hq i _ => Or.inl ?_⟩
  have hm := (List.of_mem_zip hq).2
  simp only [armIn, List.mem_map] at hm
  obtain ⟨j, -, hj⟩ := hm
  show 4096 ≤ q.2 + i
  omega

theorem armSig_call : ArmCall true false armS16 armSig (armCif true armS16 armSig) :=
  arm_call (.inr wf_armS16) armSig_wf (by decide +kernel)

theorem armSig_ok : CallOk (armCif true armS16 armSig) armS16 armSig (armIn 9 none) := arm_callOk rfl (by decide +kernel)

example : places true armS16 armSig = [.vfp 0, .vfp 2, .vfp 1, .core 1, .vfp 4, .core 2, .stack 0, .stack 12, .stack 16] := by decide +kernel
example : places false armVoid [armI8, armI32, armI32, armS12, armF64] = [.core 0, .core 1, .core 2, .core 3, .stack 8] := by decide +kernel
example : ArmConforms true armS16 armSig := by unfold ArmConforms; decide +kernel
example := C67_conforms_partial armSig_call (fun h => absurd h (by decide)) (by unfold ArmConforms; decide +kernel) armSig_ok
example : armCheck true armS16 armSig (armIn 9 none) = true := by decide +kernel
example := C67_soft (arm_call (hard := false) (.inr wf_armS16) armSig_wf (by decide +kernel)) (.inl rfl) (fun h => absurd h (by decide))
  (arm_callOk (n := 9) (rv := none) rfl (by decide +kernel))

/-- C67 violated: after a VFP argument on the stack, an argument that does not fit into
the core registers does not close them (AAPCS32, rule C.6).  With nine `double`, three
`int`, a `long long` and an `int`, libffi passes the last `int` in r3; it belongs on the
stack. -/
def armLate : List FType := List.replicate 9 armF64 ++ [armI32, armI32, armI32, armI64, armI32]

theorem armLate_wf : ∀ t ∈ armLate, WF A32.tab t := by
  intro t ht
  simp only [armLate, List.mem_append, List.mem_replicate, List.mem_cons, List.not_mem_nil, or_false] at ht
  rcases ht with ⟨-, rfl⟩ | rfl | rfl | rfl | rfl | rfl
  · exact wf_armF64
  · exact wf_armI32
  · exact wf_armI32
  · exact wf_armI32
  · exact wf_armI64
  · exact wf_armI32

theorem C67_core_left_open : ∃ c I O, ArmCall true false armVoid armLate c ∧ ArmRoom true armVoid armLate ∧ CallOk c armVoid armLate I ∧
    callEntry c armVoid armLate I = .ok O ∧ ¬ AllPassed O.entry armLate (argVals I.mem armLate I.avalue) (places true armVoid armLate) ∧
    (places true armVoid armLate).getLast? = some (.stack 16) ∧ O.entry.r 3 = I.mem.rd (I.avalue.getD 13 0) 4 := by
  have h1 : ArmCall true false armVoid armLate (armCif true armVoid armLate) := arm_call (.inl rfl) armLate_wf (by decide +kernel)
  have h2 : CallOk (armCif true armVoid armLate) armVoid armLate (armIn 14 none) := arm_callOk rfl (by decide +kernel)
  have h3 : ArmRoom true armVoid armLate := fun h => absurd h (by decide)
  obtain ⟨O, h4, -, -, -, h5⟩ := C67_arguments_partial h1 h3 h2
  refine ⟨_, _, O, h1, h3, h2, h4, fun hp => ?_, by decide +kernel, ?_⟩
  · have hc : armCheck true armVoid armLate (armIn 14 none) = false := by decide +kernel
    unfold armCheck at hc
    rw [h4] at hc
    dsimp only at hc
    rw [armPassed_of hp] at hc
    cases hc
  · have hc : (match callEntry (armCif true armVoid armLate) armVoid armLate (armIn 14 none) with
        | .ok O => decide (O.entry.r 3 = (armIn 14 none).mem.rd ((armIn 14 none).avalue.getD 13 0) 4) | .error _ => false) = true := by
      decide +kernel
    rw [h4] at hc
    exact of_decide_eq_true hc

/-- C68 (partial: not for some functions with complex results): the preparation of a call
writes only into its own block below the caller's frame, and `ffi_call_SYSV` and
`ffi_call_int` find there what they saved: the return address, the frame pointer, the
address and kind of the result. -/
theorem C68_stores_partial {hard var : Bool} {rt : FType} {ats : List FType} {c : Arm.Cif} {I : CallIn} (h : ArmCall hard var rt ats c)
    (hr : ArmRoom (hard && !var) rt ats) (hI : CallOk c rt ats I) :
    ∃ O, callEntry c rt ats I = .ok O ∧ O.entry.sp ≤ O.frame ∧ O.frame + 20 + rsize c.flag rt I.rvalue ≤ I.sp ∧
      (∀ x, x + need c rt I + 8 ≤ I.sp ∨ O.frame + 20 ≤ x → O.entry.mem x = I.mem x) ∧
      O.entry.mem.rd O.frame 4 = I.fp ∧ O.entry.mem.rd (O.frame + 4) 4 = I.lr ∧ O.entry.mem.rd (O.frame + 8) 4 = leBytes 4 O.rvalue ∧
      O.entry.mem.rd (O.frame + 12) 4 = leBytes 4 (callFlag c.flag I.rvalue).num := by
  obtain ⟨O, h1, h2, -⟩ := callEntry_spec h.atsOk h.prepared (room true h.atsOk h.prepared h.fits hr) hI
  have := h.prepared.min
  have h3 := h2.frame
  have h4 := h2.sp
  refine ⟨O, h1, by omega, h2.hi, fun x hx => h2.keep x ?_, h2.fp, h2.lr, h2.rvp, h2.flag⟩
  have := h2.lo
  have := hI.lo
  omega

example := C68_stores_partial armSig_call (fun h => absurd h (by decide)) armSig_ok

/-- C68 violated: four bytes are missing when the result is complex and returned in
memory.  `double _Complex f (double, int)` under FFI_SYSV: the block has 16 bytes, all
loaded into r0-r3; the `int` lies behind it, where `ffi_call_SYSV` then saves the frame
pointer.  The function gets the frame pointer instead of the `int`. -/
theorem C68_overflow : ∃ c I O, ArmCall false false armC64 [armF64, armI32] c ∧ CallOk c armC64 [armF64, armI32] I ∧
    callEntry c armC64 [armF64, armI32] I = .ok O ∧ places false armC64 [armF64, armI32] = [.core 2, .stack 0] ∧
    O.frame = O.entry.sp ∧ O.entry.at 4 (.stack 0) = I.fp ∧ I.mem.rd (I.avalue.getD 1 0) 4 ≠ I.fp := by
  have h1 : ArmCall false false armC64 [armF64, armI32] (armCif false armC64 [armF64, armI32]) :=
    arm_call (.inr wf_armC64) (by simpa using ⟨wf_armF64, wf_armI32⟩) (by decide +kernel)
  have h2 : CallOk (armCif false armC64 [armF64, armI32]) armC64 [armF64, armI32] (armIn 2 (some 16384)) := arm_callOk rfl (by decide +kernel)
  have hc : (match callEntry (armCif false armC64 [armF64, armI32]) armC64 [armF64, armI32] (armIn 2 (some 16384)) with
      | .ok O => decide (O.frame = O.entry.sp ∧ O.entry.at 4 (.stack 0) = (armIn 2 (some 16384)).fp) | .error _ => false) = true := by
    decide +kernel
  cases hO : callEntry (armCif false armC64 [armF64, armI32]) armC64 [armF64, armI32] (armIn 2 (some 16384)) with
  | error e => rw [hO] at hc; cases hc
  | ok O =>
    rw [hO] at hc
    obtain ⟨h3, h4⟩ := of_decide_eq_true hc
    exact ⟨_, _, O, h1, h2, hO, by decide +kernel, h3, h4, by decide +kernel⟩

/-! ## C69 — closures -/

/-- C69 (partial: rule C.6 is not obeyed): a closure or Go closure entered with arguments
where `placeFrom true` says calls the function of its object with the object's
description and data, addresses of all arguments, aligned and with narrow integers
widened, and the caller's address of the result if it is returned in memory.  Nothing
above the stack pointer changes. -/
theorem C69_arguments_partial {hard var : Bool} {rt : FType} {ats : List FType} {c : Arm.Cif} {kind : Kind} {self : Nat} {lr : List Byte}
    {E : Regs} (h : ArmCall hard var rt ats c) (hE : EntryOk c ats self lr E)
    (htop : E.sp + (endFrom true (hard && !var) ats (A32.start (hard && !var) rt)).nsaa < 2 ^ 32) :
    ∃ V, closureEntry c rt ats kind self lr E = .ok V ∧
      V.cif = E.mem.rd (self + match kind with | .closure => 12 | .go => 4) 4 ∧
      V.handler = E.mem.rd (self + match kind with | .closure => 16 | .go => 8) 4 ∧
      V.userData = (match kind with | .closure => E.mem.rd (self + 20) 4 | .go => leBytes 4 self) ∧
      (retPlace (hard && !var) rt = .mem → V.rvalue = leNat (E.r 0)) ∧
      (∀ q ∈ ats.zip V.args, q.1.align ∣ q.2) ∧ (∀ x, E.sp ≤ x → V.mem x = E.mem x) ∧
      ∀ vals, AllPassed E ats vals (placeFrom true (hard && !var) ats (A32.start (hard && !var) rt)) → Stored V.mem ats vals V.args := by
  obtain ⟨V, h1, h2, h3, h4⟩ := closureEntry_spec (kind := kind) h.atsOk h.prepared hE htop
  exact ⟨V, h1, h2.cif, by cases kind <;> exact h2.handler, by cases kind <;> exact h2.userData, fun hm => by rw [h2.rvalue, if_pos ((flag_struct h.prepared.flag).2 hm)], h3,
    fun x hx => h2.keep x (.inr hx), h4⟩

/-- C69: where the signature is such that rule C.6 does not matter, a closure finds the
arguments where the standard puts them. -/
theorem C69_conforms_partial {hard var : Bool} {rt : FType} {ats : List FType} {c : Arm.Cif} {kind : Kind} {self : Nat} {lr : List Byte}
    {E : Regs} {vals : List (List Byte)} (h : ArmCall hard var rt ats c) (hE : EntryOk c ats self lr E)
    (htop : E.sp + (endFrom true (hard && !var) ats (A32.start (hard && !var) rt)).nsaa < 2 ^ 32)
    (hc : ArmConforms (hard && !var) rt ats) (hp : AllPassed E ats vals (places (hard && !var) rt ats)) :
    ∃ V, closureEntry c rt ats kind self lr E = .ok V ∧ Stored V.mem ats vals V.args := by
  obtain ⟨V, h1, -, -, -, -, -, -, h2⟩ := C69_arguments_partial (kind := kind) h hE htop
  exact ⟨V, h1, h2 _ (by rw [hc]; exact hp)⟩

theorem arm_entry_lengths {c : Arm.Cif} {rt : FType} {ats : List FType} {I : CallIn} {O : CallOut} (h : callEntry c rt ats I = .ok O)
    (hs : ∀ i, (I.s i).length = 4) : (∀ i, (O.entry.r i).length = 4) ∧ ∀ i, (O.entry.s i).length = 4 := by
  unfold callEntry at h
  dsimp only at h
  split at h
  · cases h
  · cases h
    refine ⟨fun i => Mem.rd_length .., fun i => ?_⟩
    unfold enter
    dsimp only
    split
    · exact Mem.rd_length ..
    · exact hs i

/-- C69: a closure that is called through `ffi_call` with the same description finds all
arguments, whatever the signature, and the address of the result.  The object is not in
the stack below the caller's frame. -/
theorem C69_round_trip {hard var : Bool} {rt : FType} {ats : List FType} {c : Arm.Cif} {I : CallIn} {kind : Kind} {self : Nat}
    {lr : List Byte} (h : ArmCall hard var rt ats c) (hr : ArmRoom (hard && !var) rt ats) (hI : CallOk c rt ats I)
    (hs : ∀ i, (I.s i).length = 4) (hlr : lr.length = 4) (hlo : need c rt I + 128 ≤ I.sp)
    (hself : I.sp ≤ self ∨ self + 24 + need c rt I + 128 ≤ I.sp) :
    ∃ O V, callEntry c rt ats I = .ok O ∧ closureEntry c rt ats kind self lr O.entry = .ok V ∧
      V.handler = I.mem.rd (self + match kind with | .closure => 16 | .go => 8) 4 ∧
      Stored V.mem ats (argVals I.mem ats I.avalue) V.args ∧
      (retPlace (hard && !var) rt = .mem → I.rvalue.all (· < 2 ^ 32) → V.rvalue = O.rvalue) := by
  have hroom := room true h.atsOk h.prepared h.fits hr
  obtain ⟨O, h1, h2, h3⟩ := callEntry_spec h.atsOk h.prepared hroom hI
  have q1 := h2.frame
  have q2 := h2.sp
  have q3 := h2.hi
  have q4 := hI.hi
  have q5 := h2.lo
  have q6 := h2.al
  have q7 := h.prepared.min
  obtain ⟨k1, k2⟩ := arm_entry_lengths h1 hs
  have hE : EntryOk c ats self lr O.entry := ⟨by omega, by omega, by omega, k1, k2, hlr, by omega⟩
  obtain ⟨V, g1, -, g4, -, g2, -, -, g3⟩ := C69_arguments_partial (kind := kind) h hE (by omega)
  refine ⟨O, V, h1, g1, ?_, g3 _ h3, fun hm hv => ?_⟩
  · rw [g4]
    refine Mem.rd_congr fun i hi => h2.keep _ ?_
    cases kind <;> dsimp only <;> omega
  · rw [g2 hm, h2.r0 ((flag_struct h.prepared.flag).2 hm), leNat_leBytes]
    apply Nat.mod_eq_of_lt
    rw [h2.rvalue]
    split
    · omega
    · cases hI' : I.rvalue with
      | none => simp
      | some p => rw [hI'] at hv; simpa using hv

example (kind : Kind) := C69_round_trip (kind := kind) (self := 65536) (lr := [1, 2, 3, 4]) armSig_call (fun h => absurd h (by decide)) armSig_ok
  (fun _ => rfl) rfl (by decide +kernel) (.inl (by decide))

/-- Registers and memory at the entry of a closure; the object is at 65536. -/
def armEntry : Regs := ⟨fun i => [BitVec.ofNat 8 (i + 1), 2, 3, 4], fun i => [BitVec.ofNat 8 (i + 16), 0, 1, 2], fun x => BitVec.ofNat 8 (x % 251), 4096⟩

theorem armEntry_ok (c : Arm.Cif) (ats : List FType) : EntryOk c ats 65536 [1, 2, 3, 4] armEntry :=
  ⟨by decide, by decide, by decide, fun _ => rfl, fun _ => rfl, rfl, .inr (by decide)⟩

example (kind : Kind) := C69_arguments_partial (kind := kind) armSig_call (armEntry_ok _ _) (by decide +kernel)

/-- What is passed at the places, if nothing is to be widened. -/
def armTaken (R : Regs) (ts : List FType) (ls : List Place) : List (List Byte) := (ts.zip ls).map fun q => R.at q.1.size q.2

example : ∃ V, closureEntry (armCif true armS16 [armF32, armF64, armI32, armI64, armF64]) armS16 [armF32, armF64, armI32, armI64, armF64]
    .closure 65536 [1, 2, 3, 4] armEntry = .ok V ∧
    Stored V.mem [armF32, armF64, armI32, armI64, armF64]
      [[16, 0, 1, 2], [18, 0, 1, 2, 19, 0, 1, 2], [2, 2, 3, 4], [3, 2, 3, 4, 4, 2, 3, 4], [20, 0, 1, 2, 21, 0, 1, 2]] V.args := by
  have hw : ∀ t ∈ [armF32, armF64, armI32, armI64, armF64], WF A32.tab t := by
    simpa using ⟨wf_armF32, wf_armF64, wf_armI32, wf_armI64, wf_armF64⟩
  refine C69_conforms_partial (arm_call (hard := true) (.inr wf_armS16) hw (by decide +kernel)) (armEntry_ok _ _) (by decide +kernel)
    (by unfold ArmConforms; decide +kernel) ?_
  have e : places (true && !false) armS16 [armF32, armF64, armI32, armI64, armF64] = [.vfp 0, .vfp 2, .core 1, .core 2, .vfp 4] := by decide +kernel
  rw [e]
  refine ⟨⟨by decide +kernel, fun h => absurd h (by decide)⟩, ⟨by decide +kernel, fun h => absurd h (by decide)⟩, ⟨by decide +kernel, ?_⟩,
    ⟨by decide +kernel, fun h => absurd h (by decide)⟩, ⟨by decide +kernel, fun h => absurd h (by decide)⟩, trivial⟩
  intro _
  decide +kernel

/-- C69 violated: a closure entered by a caller that obeys the standard (the last `int` of
`armLate` on the stack) looks for it in r3. -/
theorem C69_core_left_open : ∃ c E vals V, ArmCall true false armVoid armLate c ∧ EntryOk c armLate 65536 [1, 2, 3, 4] E ∧
    AllPassed E armLate vals (places true armVoid armLate) ∧
    closureEntry c armVoid armLate .closure 65536 [1, 2, 3, 4] E = .ok V ∧ ¬ Stored V.mem armLate vals V.args := by
  have h1 : ArmCall true false armVoid armLate (armCif true armVoid armLate) := arm_call (.inl rfl) armLate_wf (by decide +kernel)
  have h2 := armEntry_ok (armCif true armVoid armLate) armLate
  obtain ⟨V, h3, -⟩ := C69_arguments_partial (kind := .closure) h1 h2 (by decide +kernel)
  refine ⟨_, armEntry, armTaken armEntry armLate (places true armVoid armLate), V, h1, h2, ?_, h3, fun hs => ?_⟩
  · have e : places true armVoid armLate = [.vfp 0, .vfp 2, .vfp 4, .vfp 6, .vfp 8, .vfp 10, .vfp 12, .vfp 14, .stack 0, .core 0, .core 1,
      .core 2, .stack 8, .stack 16] := by decide +kernel
    rw [e]
    have w : ∀ l, (armEntry.at 4 l).length = 4 → PassedAt armEntry armI32 (armEntry.at armI32.size l) l := by
      intro l hlen
      refine ⟨rfl, fun _ => ?_⟩
      have e4 : armI32.size = 4 := by decide +kernel
      rw [e4, List.take_of_length_le (by omega)]
      unfold intVal
      rw [hlen]
      split <;> omega
    have d : ∀ l, PassedAt armEntry armF64 (armEntry.at armF64.size l) l := fun l => ⟨rfl, fun h => absurd h (by decide)⟩
    have i : ∀ l, PassedAt armEntry armI64 (armEntry.at armI64.size l) l := fun l => ⟨rfl, fun h => absurd h (by decide)⟩
    exact ⟨d _, d _, d _, d _, d _, d _, d _, d _, d _, w _ (by decide +kernel), w _ (by decide +kernel), w _ (by decide +kernel), i _, w _ (by decide +kernel), trivial⟩
  · have hc : (match closureEntry (armCif true armVoid armLate) armVoid armLate .closure 65536 [1, 2, 3, 4] armEntry with
        | .ok V => decide (V.mem.rd (V.args.getD 13 0) 4 = armEntry.at 4 (.stack 16)) | .error _ => true) = false := by decide +kernel
    rw [h3] at hc
    have hl : ∀ {ts : List FType} {vs : List (List Byte)} {as : List Nat} (i : Nat), Stored V.mem ts vs as → i < ts.length →
        V.mem.rd (as.getD i 0) ((ts.getD i armVoid).size) = vs.getD i [] := by
      intro ts
      induction ts with
      | nil => intro vs as i _ hi; simp at hi
      | cons t ts ih =>
        intro vs as i h hi
        cases vs with
        | nil => exact h.elim
        | cons v vs =>
          cases as with
          | nil => exact h.elim
          | cons a as =>
            cases i with
            | zero => exact h.1.1
            | succ i => simpa using ih i h.2 (by simpa using hi)
    have := hl 13 hs (by decide)
    refine absurd ?_ (of_decide_eq_false hc)
    have e1 : (armLate.getD 13 armVoid).size = 4 := by decide +kernel
    have e2 : (armTaken armEntry armLate (places true armVoid armLate)).getD 13 [] = armEntry.at 4 (.stack 16) := by decide +kernel
    rw [e1, e2] at this
    exact this

/-! ## C70 — results -/

/-- C70: a result that the function returns in registers is stored at the address given to
`ffi_call`, integers narrower than 32 bits widened; no other byte changes, except in the
temporary area of the call.  (`Holds`: not for `_Complex` types of two bytes.) -/
theorem C70_call_partial {hard var : Bool} {rt : FType} {ats : List FType} {c : Arm.Cif} {I : CallIn} {O : CallOut} {m : Mem}
    {r s : Nat → List Byte} {v : List Byte} {p : Nat} (h : ArmCall hard var rt ats c) (hr : ArmRoom (hard && !var) rt ats)
    (hI : CallOk c rt ats I) (hO : callEntry c rt ats I = .ok O) (hrv : I.rvalue = some p) (hp : p < 2 ^ 32)
    (hm : ∀ x, O.frame + 8 ≤ x → x < O.frame + 16 → m x = O.entry.mem x) (lr : ∀ i, (r i).length = 4) (ls : ∀ i, (s i).length = 4)
    (hv : retPlace (hard && !var) rt ≠ .mem → Returned (hard && !var) rt v r s) :
    ∃ m', finishCall rt I.rvalue O.rvalue O.frame r s m = some m' ∧
      (rt.tc ≠ .void → retPlace (hard && !var) rt ≠ .mem → m'.rd p rt.size = v ∧ WidenedTo rt v (m'.rd p 4)) ∧
      (Holds rt → ∀ x, (x < p ∨ p + (if retPlace (hard && !var) rt = .mem then 0 else resultRoom rt) ≤ x) →
        (x < O.frame + 20 ∨ O.frame + 20 + rsize c.flag rt I.rvalue ≤ x) → m' x = m x) := by
  obtain ⟨O', h1, h2, -⟩ := callEntry_spec h.atsOk h.prepared (room true h.atsOk h.prepared h.fits hr) hI
  rw [hO] at h1
  cases h1
  exact finish_some h.rtOk h.prepared h2 hI.hi hrv hp hm lr ls hv

/-- C70: if no address is given, nothing is stored after the call. -/
theorem C70_call_null {hard var : Bool} {rt : FType} {ats : List FType} {c : Arm.Cif} {I : CallIn} {O : CallOut} {m : Mem}
    {r s : Nat → List Byte} (h : ArmCall hard var rt ats c) (hr : ArmRoom (hard && !var) rt ats)
    (hI : CallOk c rt ats I) (hO : callEntry c rt ats I = .ok O) (hrv : I.rvalue = none)
    (hm : ∀ x, O.frame + 8 ≤ x → x < O.frame + 16 → m x = O.entry.mem x) :
    finishCall rt I.rvalue O.rvalue O.frame r s m = some m := by
  obtain ⟨O', h1, h2, -⟩ := callEntry_spec h.atsOk h.prepared (room true h.atsOk h.prepared h.fits hr) hI
  rw [hO] at h1
  cases h1
  exact finish_none h2 hrv hm

/-- C70: the value that the handler of a closure leaves at `rvalue` is returned where the
standard says, with the stack pointer and return address of the caller. -/
theorem C70_closure {hard var : Bool} {rt : FType} {ats : List FType} {c : Arm.Cif} {kind : Kind} {self : Nat} {lr : List Byte}
    {E : Regs} {V : View} {m : Mem} {v : List Byte} (h : ArmCall hard var rt ats c) (hE : EntryOk c ats self lr E)
    (htop : E.sp + (endFrom true (hard && !var) ats (A32.start (hard && !var) rt)).nsaa < 2 ^ 32)
    (hV : closureEntry c rt ats kind self lr E = .ok V) (hm : ∀ x, V.frame - 8 ≤ x → x < V.frame → m x = V.mem x)
    (hv : rt.tc ≠ .void → retPlace (hard && !var) rt ≠ .mem → m.rd V.rvalue rt.size = v ∧ WidenedTo rt v (m.rd V.rvalue 4)) :
    (closureExit c.flag V.frame m).sp = E.sp ∧ (closureExit c.flag V.frame m).pc = lr ∧
      (rt.tc ≠ .void → retPlace (hard && !var) rt ≠ .mem → ∀ r s : Nat → List Byte, (∀ i, (r i).length = 4) → (∀ i, (s i).length = 4) →
        (∀ i b, (closureExit c.flag V.frame m).r i = some b → r i = b) →
        (∀ i b, (closureExit c.flag V.frame m).s i = some b → s i = b) → Returned (hard && !var) rt v r s) := by
  obtain ⟨V', h1, h2, -⟩ := closureEntry_spec (kind := kind) h.atsOk h.prepared hE htop
  rw [hV] at h1
  cases h1
  exact closureExit_spec h.prepared h2 hE.hi hE.lo hm hv

/-- C70 violated: the temporary area for a result in memory that is not wanted is four
bytes off every multiple of eight, whatever the alignment of the type. -/
theorem C70_temporary_misaligned {hard var : Bool} {rt : FType} {ats : List FType} {c : Arm.Cif} {I : CallIn} {O : CallOut}
    (h : ArmCall hard var rt ats c) (hr : ArmRoom (hard && !var) rt ats) (hI : CallOk c rt ats I) (hO : callEntry c rt ats I = .ok O)
    (hrv : I.rvalue = none) (hm : retPlace (hard && !var) rt = .mem) (ha : rt.align = 8) :
    O.entry.r 0 = leBytes 4 O.rvalue ∧ ¬ rt.align ∣ O.rvalue := by
  obtain ⟨O', h1, h2, -⟩ := callEntry_spec h.atsOk h.prepared (room true h.atsOk h.prepared h.fits hr) hI
  rw [hO] at h1
  cases h1
  have hfl := (flag_struct h.prepared.flag).2 hm
  refine ⟨h2.r0 hfl, ?_⟩
  have hs : rsize c.flag rt I.rvalue ≠ 0 := by
    rw [hrv, hfl]
    show rt.size ≠ 0
    rcases h.rtOk with h0 | h0
    · unfold retPlace at hm; rw [h0] at hm; cases hm
    · have := h0.size_pos Arm.tab_ok; omega
  rw [h2.rvalue, if_pos hs, ha]
  have := h2.frame
  have := h2.al
  have := h.prepared.mod
  omega

example : ∃ O, callEntry (armCif true armS16 armSig) armS16 armSig (armIn 9 none) = .ok O ∧ ¬ 8 ∣ O.rvalue := by
  obtain ⟨O, h1, -⟩ := C67_arguments_partial armSig_call (fun h => absurd h (by decide)) armSig_ok
  have := C70_temporary_misaligned armSig_call (fun h => absurd h (by decide)) armSig_ok h1 rfl (by decide +kernel) (by decide +kernel)
  exact ⟨O, h1, this.2⟩

/-- `signed char _Complex` -/
def armC8 := mkComplex A32.tab .sint8

/-- C70 violated: four bytes are stored for a complex result of two bytes. -/
theorem C70_complex_char : ∃ c I O m' r, ArmCall true false armC8 [] c ∧ CallOk c armC8 [] I ∧ callEntry c armC8 [] I = .ok O ∧
    armC8.size = 2 ∧ I.rvalue = some 16384 ∧ finishCall armC8 I.rvalue O.rvalue O.frame r (fun _ => [0, 0, 0, 0]) O.entry.mem = some m' ∧
    m' 16386 ≠ O.entry.mem 16386 := by
  have h1 : ArmCall true false armC8 [] (armCif true armC8 []) := arm_call (.inr (mkComplex_wf rfl rfl)) (by simp) (by decide +kernel)
  have h2 : CallOk (armCif true armC8 []) armC8 [] (armIn 0 (some 16384)) := arm_callOk rfl (by decide +kernel)
  have hc : (match callEntry (armCif true armC8 []) armC8 [] (armIn 0 (some 16384)) with
      | .ok O => (match finishCall armC8 (some 16384) O.rvalue O.frame (fun _ => [1, 1, 1, 1]) (fun _ => [0, 0, 0, 0]) O.entry.mem with
        | some m' => decide (m' 16386 ≠ O.entry.mem 16386) | none => false)
      | .error _ => false) = true := by decide +kernel
  obtain ⟨O, h3, -⟩ := C67_arguments_partial h1 (fun _ h => by revert h; decide +kernel) h2
  rw [h3] at hc
  dsimp only at hc
  cases hf : finishCall armC8 (some 16384) O.rvalue O.frame (fun _ => [1, 1, 1, 1]) (fun _ => [0, 0, 0, 0]) O.entry.mem with
  | none => rw [hf] at hc; cases hc
  | some m' =>
    rw [hf] at hc
    exact ⟨_, _, O, m', _, h1, h2, h3, by decide +kernel, rfl, hf, of_decide_eq_true hc⟩

/-- A function that has returned `struct { float x; struct { float y, z; } s; }`, and one
that has returned a negative `signed char`. -/
example : Returned true armF3 [1, 1, 1, 1, 2, 2, 2, 2, 3, 3, 3, 3] (fun _ => [0, 0, 0, 0]) (fun i => List.replicate 4 (BitVec.ofNat 8 (i + 1))) := by
  refine ⟨by decide +kernel, fun h => ?_, fun _ => by decide +kernel⟩
  exact absurd h (by decide +kernel)
example : Returned true armI8 [0x80] (fun i => if i = 0 then [0x80, 0xff, 0xff, 0xff] else [0, 0, 0, 0]) (fun _ => [0, 0, 0, 0]) := by
  refine ⟨by decide +kernel, fun _ => ⟨by decide +kernel, fun _ => by decide +kernel⟩, fun h => ?_⟩
  exact absurd h (by decide +kernel)
example : retPlace true armF3 = .vfp ∧ retPlace false armF3 = .mem ∧ retPlace true armS16 = .mem ∧ retPlace false armF64 = .core := by
  decide +kernel
example : Holds armC64 ∧ Holds armI8 := ⟨fun _ => by decide +kernel, fun h => absurd h (by decide)⟩

/-- A call whose result, three `float`, is stored at 16384: the conditions of
`C70_call_partial` hold. -/
example : ∃ O m', callEntry (armCif true armF3 armSig) armF3 armSig (armIn 9 (some 16384)) = .ok O ∧
    finishCall armF3 (some 16384) O.rvalue O.frame (fun _ => [0, 0, 0, 0]) (fun i => List.replicate 4 (BitVec.ofNat 8 (i + 1))) O.entry.mem = some m' ∧
    m'.rd 16384 12 = [1, 1, 1, 1, 2, 2, 2, 2, 3, 3, 3, 3] := by
  have h1 : ArmCall true false armF3 armSig (armCif true armF3 armSig) := arm_call (.inr wf_armF3) armSig_wf (by decide +kernel)
  have h2 : CallOk (armCif true armF3 armSig) armF3 armSig (armIn 9 (some 16384)) := arm_callOk rfl (by decide +kernel)
  have h3 : ArmRoom (true && !false) armF3 armSig := fun h => absurd h (by decide)
  obtain ⟨O, h4, -⟩ := C67_arguments_partial h1 h3 h2
  obtain ⟨m', h5, h6, -⟩ := C70_call_partial (p := 16384) (m := O.entry.mem) (r := fun _ => [0, 0, 0, 0])
    (s := fun i => List.replicate 4 (BitVec.ofNat 8 (i + 1))) (v := [1, 1, 1, 1, 2, 2, 2, 2, 3, 3, 3, 3]) h1 h3 h2 h4 rfl (by decide)
    (fun _ _ _ => rfl) (fun _ => rfl) (fun _ => rfl)
    (fun _ => ⟨by decide +kernel, fun h => absurd h (by decide +kernel), fun _ => by decide +kernel⟩)
  exact ⟨O, m', h4, h5, (h6 (by decide) (by decide +kernel)).1⟩

/-- A closure that returns three `float`. -/
example : ∃ V, closureEntry (armCif true armF3 armSig) armF3 armSig .closure 65536 [1, 2, 3, 4] armEntry = .ok V ∧
    (closureExit (armCif true armF3 armSig).flag V.frame (V.mem.wr V.rvalue [1, 1, 1, 1, 2, 2, 2, 2, 3, 3, 3, 3])).pc = [1, 2, 3, 4] := by
  have h1 : ArmCall true false armF3 armSig (armCif true armF3 armSig) := arm_call (.inr wf_armF3) armSig_wf (by decide +kernel)
  obtain ⟨V, h2, h3, -⟩ := closureEntry_spec (kind := .closure) h1.atsOk h1.prepared (armEntry_ok _ _) (by decide +kernel)
  have hr : V.rvalue = V.frame + 64 := by rw [h3.rvalue]; exact if_neg (by decide +kernel)
  refine ⟨V, h2, ?_⟩
  refine (C70_closure (v := [1, 1, 1, 1, 2, 2, 2, 2, 3, 3, 3, 3]) h1 (armEntry_ok _ _) (by decide +kernel) h2 (fun x _ hx => ?_) (fun _ _ => ⟨?_, fun h => absurd h (by decide)⟩)).2.1
  · exact Mem.wr_out _ _ _ _ (by rw [hr]; omega)
  · have e : armF3.size = [1, 1, 1, 1, 2, 2, 2, 2, 3, 3, 3, (3 : Byte)].length := by decide +kernel
    rw [e]
    exact Mem.rd_wr_same _ _ _

end Verif.Props
