import Verif.Alpha.Model
import Verif.Base.BufLemmas

/-! Lemmas about `ffi_prep_cif_machdep` and `ffi_call_int`. -/
namespace Verif.Alpha
open Verif Verif.Spec Verif.Spec.Alpha

theorem wr_rd (m : Mem) (a : Nat) {n : Nat} {bs : List Byte} (h : bs.length = n) : (m.wr a bs).rd a n = bs := by
  rw [← h, Mem.rd_wr_same]

theorem rd_lt8 (m : Mem) (a : Nat) : leNat (m.rd a 8) < 2 ^ 64 := by
  have := leNat_lt (m.rd a 8)
  rw [Mem.rd_length] at this
  exact this

theorem leBytes_rd8 (m : Mem) (a : Nat) : leBytes 8 (leNat (m.rd a 8)) = m.rd a 8 := by
  have := leBytes_leNat (m.rd a 8)
  rwa [Mem.rd_length] at this

theorem leNat8 {v : Nat} (h : v < 2 ^ 64) : leNat (leBytes 8 v) = v := by
  rw [leNat_leBytes]; exact Nat.mod_eq_of_lt h

theorem rd_flat (m : Mem) (b : Nat) : ∀ K, ((List.range K).flatMap fun k => m.rd (b + 8 * k) 8) = m.rd b (8 * K)
  | 0 => rfl
  | K + 1 => by
    rw [List.range_succ, List.flatMap_append, rd_flat m b K, Nat.mul_succ, Mem.rd_append]
    simp

theorem rd_part (m : Mem) (a s : Nat) : (m.rd a (2 * s)).take (2 * s / 2) = m.rd a s ∧ (m.rd a (2 * s)).drop (2 * s / 2) = m.rd (a + s) s := by
  have e : 2 * s / 2 = s := by omega
  rw [e, Nat.two_mul, Mem.rd_append]
  constructor
  · rw [List.take_left' (Mem.rd_length _ _ _)]
  · rw [List.drop_left' (Mem.rd_length _ _ _)]

theorem sext_ok {n v : Nat} (hn : n = 1 ∨ n = 2 ∨ n = 4) (hv : v < 256 ^ n) :
    sext n v < 2 ^ 64 ∧ (sext n v : Int) = (if 2 ^ (8 * n - 1) ≤ v then (v : Int) - 2 ^ (8 * n) else v) % 2 ^ 64 := by
  unfold sext
  rcases hn with rfl | rfl | rfl <;> split <;> omega

theorem sext_low {n v : Nat} (hn : n = 1 ∨ n = 2 ∨ n = 4) : sext n v % 256 ^ n = v % 256 ^ n := by
  unfold sext
  rcases hn with rfl | rfl | rfl <;> split <;> omega

/-- The value that is stored for a number is what the convention asks for. -/
theorem extend_ok {tc : TC} {s al : Nat} (h : lp64 tc = some (s, al)) (hl : tc ≠ .longdouble) (m : Mem) (a n : Nat) :
    ∃ v, extend m a tc n = some v ∧ v < 2 ^ 64 ∧ ∀ R : Regs, R.islot n = v → R.fslot n = v → ScalarAt R n tc (m.rd a s) := by
  have hlt : ∀ n, leNat (m.rd a n) < 256 ^ n := fun n => by have := leNat_lt (m.rd a n); rwa [Mem.rd_length] at this
  have sg : ∀ {n : Nat}, (n = 1 ∨ n = 2 ∨ n = 4) → sext n (leNat (m.rd a n)) < 2 ^ 64 ∧ (sext n (leNat (m.rd a n)) : Int) =
      (if 2 ^ (8 * n - 1) ≤ leNat (m.rd a n) then (leNat (m.rd a n) : Int) - 2 ^ (8 * n) else leNat (m.rd a n)) % 2 ^ 64 :=
    fun hn => sext_ok hn (hlt _)
  have h1 := hlt 1
  have h2 := hlt 2
  have h8 := hlt 8
  cases tc <;> simp [lp64] at h hl <;> obtain ⟨rfl, rfl⟩ := h
  case float =>
    by_cases hn : n < 6
    · exact ⟨_, if_pos hn, lds_lt (hlt 4), fun R _ hf => by unfold ScalarAt; rw [if_pos hn, hf]⟩
    · refine ⟨_, if_neg hn, (sg (.inr (.inr rfl))).1, fun R _ hf => ?_⟩
      unfold ScalarAt
      rw [if_neg hn, hf, leBytes_take _ (by decide), ← leBytes_mod, sext_low (.inr (.inr rfl)), leBytes_mod]
      have := leBytes_leNat (m.rd a 4)
      rwa [Mem.rd_length] at this
  case double => exact ⟨_, rfl, h8, fun R _ hf => hf⟩
  case sint8 => exact ⟨_, rfl, (sg (.inl rfl)).1, fun R hi _ => by unfold ScalarAt; rw [hi, (sg (.inl rfl)).2]; simp [intVal, signed]⟩
  case sint16 => exact ⟨_, rfl, (sg (.inr (.inl rfl))).1, fun R hi _ => by unfold ScalarAt; rw [hi, (sg (.inr (.inl rfl))).2]; simp [intVal, signed]⟩
  case sint32 => exact ⟨_, rfl, (sg (.inr (.inr rfl))).1, fun R hi _ => by unfold ScalarAt; rw [hi, (sg (.inr (.inr rfl))).2]; simp [intVal, signed]⟩
  case uint32 => exact ⟨_, rfl, (sg (.inr (.inr rfl))).1, fun R hi _ => by unfold ScalarAt; rw [hi, (sg (.inr (.inr rfl))).2]; simp [intVal, signed]⟩
  case uint8 => exact ⟨_, rfl, by omega, fun R hi _ => by unfold ScalarAt; rw [hi]; simp [intVal, signed]; omega⟩
  case uint16 => exact ⟨_, rfl, by omega, fun R hi _ => by unfold ScalarAt; rw [hi]; simp [intVal, signed]; omega⟩
  case uint64 => exact ⟨_, rfl, h8, fun R hi _ => by unfold ScalarAt; rw [hi]; simp [intVal, signed]; omega⟩
  case pointer => exact ⟨_, rfl, h8, fun R hi _ => by unfold ScalarAt; rw [hi]; simp [intVal, signed]; omega⟩
  case sint64 =>
    refine ⟨_, rfl, h8, fun R hi _ => ?_⟩
    unfold ScalarAt
    rw [hi]
    simp only [intVal, signed, Mem.rd_length, true_and]
    split <;> omega

theorem put_out {argp n v : Nat} {m : Mem} {x : Nat} (h : x < argp + 8 * n ∨ argp + 8 * (n + 1) ≤ x) : put argp n v m x = m x :=
  Mem.wr_out _ _ _ _ (by rw [leBytes_length]; omega)

theorem put_rd {argp n v : Nat} {m : Mem} (h : v < 2 ^ 64) : leNat ((put argp n v m).rd (argp + 8 * n) 8) = v := by
  unfold put
  rw [wr_rd _ _ (leBytes_length _ _), leNat8 h]

/-- What a round does. -/
structure ArgOk (argp : Nat) (t : FType) (a n : Nat) (m m' : Mem) : Prop where
  out : ∀ x, x < argp + 8 * n ∨ argp + 8 * (n + slots t) ≤ x → m' x = m x
  passed : ∀ R : Regs, (∀ k, n ≤ k → k < n + slots t → R.islot k = leNat (m'.rd (argp + 8 * k) 8) ∧ R.fslot k = leNat (m'.rd (argp + 8 * k) 8)) →
    (∀ x, a ≤ x → x < a + t.size → R.mem x = m x) → PassedAt R n t (m.rd a t.size)

theorem ref_ok {argp a n : Nat} {t : FType} {m : Mem} (hr : byRef t = true) (ha : a < 2 ^ 64) : ArgOk argp t a n m (put argp n a m) := by
  have hs : slots t = 1 := by unfold slots; rw [if_pos hr]
  constructor
  · intro x hx; rw [hs] at hx; exact put_out hx
  · intro R hR hm
    unfold PassedAt
    rw [if_pos hr, (hR n (Nat.le_refl _) (by omega)).1, put_rd ha]
    exact Mem.rd_congr fun i hi => hm _ (by omega) (by omega)

theorem callArg_ok {t : FType} (ht : WF lp64 t) {argp a n hi : Nat} {m : Mem} (ha : a < 2 ^ 64) (hh : argp + 8 * (n + slots t) ≤ hi)
    (hap : a + t.size ≤ argp ∨ hi ≤ a) : ∃ m', callArg argp t a n m = some (n + slots t, m') ∧ ArgOk argp t a n m m' := by
  cases ht with
  | @scalar tc s al h =>
    by_cases hl : tc = .longdouble
    · subst hl
      exact ⟨_, rfl, ref_ok rfl ha⟩
    · have hr : byRef (.mk s al tc []) = false := by
        cases tc <;> simp [lp64] at h hl <;> rfl
      have hs : slots (.mk s al tc []) = 1 := by
        cases tc <;> simp [lp64] at h hl <;> rfl
      obtain ⟨v, e1, e2, e3⟩ := extend_ok h hl m a n
      refine ⟨put argp n v m, ?_, ?_⟩
      · have : callArg argp (.mk s al tc []) a n m = (match extend m a tc n with | none => none | some v => some (n + 1, put argp n v m)) := by
          cases tc <;> simp [lp64] at h hl <;> rfl
        rw [this, e1, hs]
      · constructor
        · intro x hx; rw [hs] at hx; exact put_out hx
        · intro R hR _
          have := hR n (Nat.le_refl _) (by omega)
          rw [put_rd e2] at this
          have hp := e3 R this.1 this.2
          unfold PassedAt
          rw [if_neg (by rw [hr]; decide)]
          cases tc <;> simp [lp64] at h hl <;> exact hp
  | @complex tc s al hb h =>
    by_cases hl : tc = .longdouble
    · subst hl
      exact ⟨_, rfl, ref_ok rfl ha⟩
    · have hr : byRef (.mk (2 * s) al .complex [.mk s al tc []]) = false := by
        cases tc <;> simp [lp64] at h hl <;> rfl
      have hs : slots (.mk (2 * s) al .complex [.mk s al tc []]) = 2 := by unfold slots; rw [if_neg (by rw [hr]; decide)]; rfl
      have hsz : 1 ≤ s ∧ s ≤ 8 := by
        cases tc <;> simp [lp64] at h hl <;> omega
      obtain ⟨v, e1, e2, e3⟩ := extend_ok h hl m a n
      obtain ⟨w, f1, f2, f3⟩ := extend_ok h hl (put argp n v m) (a + s) (n + 1)
      rw [hs] at hh
      have hap : a + 2 * s ≤ argp ∨ hi ≤ a := hap
      have hrd : (put argp n v m).rd (a + s) s = m.rd (a + s) s := Mem.rd_congr fun i hi => put_out (by omega)
      rw [hrd] at f3
      refine ⟨put argp (n + 1) w (put argp n v m), ?_, ?_⟩
      · show (if tc = .longdouble then _ else _) = _
        rw [if_neg hl, hs]
        show (match extend m a tc n with | none => none | some v => _) = _
        rw [e1]
        show (match extend (put argp n v m) (a + s) tc (n + 1) with | none => none | some v' => _) = _
        rw [f1]
      · constructor
        · intro x hx
          rw [hs] at hx
          rw [put_out (by omega), put_out (by omega)]
        · intro R hR _
          have q0 := hR n (Nat.le_refl _) (by omega)
          have q1 := hR (n + 1) (by omega) (by omega)
          rw [put_rd f2] at q1
          have : (put argp (n + 1) w (put argp n v m)).rd (argp + 8 * n) 8 = (put argp n v m).rd (argp + 8 * n) 8 :=
            Mem.rd_congr fun i hi => put_out (by omega)
          rw [this, put_rd e2] at q0
          unfold PassedAt
          rw [if_neg (by rw [hr]; decide)]
          show ScalarAt R n tc ((m.rd a (2 * s)).take (2 * s / 2)) ∧ ScalarAt R (n + 1) tc ((m.rd a (2 * s)).drop (2 * s / 2))
          rw [(rd_part m a s).1, (rd_part m a s).2]
          exact ⟨e3 R q0.1 q0.2, f3 R q1.1 q1.2⟩
  | @struct es s al offs he hl =>
    have hs : slots (.mk s al .struct es) = (s + 7) / 8 := rfl
    refine ⟨m.wr (argp + 8 * n) (m.rd a s), ?_, ?_⟩
    · show some (n + align8 s / 8, _) = some (n + slots _, _)
      rw [hs]
      unfold align8
      rw [Nat.mul_div_cancel _ (by decide)]
      rfl
    · constructor
      · intro x hx
        rw [hs] at hx
        exact Mem.wr_out _ _ _ _ (by rw [Mem.rd_length]; omega)
      · intro R hR _
        show ((List.range ((s + 7) / 8)).flatMap fun k => leBytes 8 (R.islot (n + k))).take s = m.rd a s
        have : ((List.range ((s + 7) / 8)).flatMap fun k => leBytes 8 (R.islot (n + k))) =
            (List.range ((s + 7) / 8)).flatMap fun k => (m.wr (argp + 8 * n) (m.rd a s)).rd (argp + 8 * n + 8 * k) 8 := by
          rw [List.flatMap_def, List.flatMap_def]
          congr 1
          apply List.map_congr_left
          intro k hk
          rw [(hR (n + k) (by omega) (by rw [hs]; have := List.mem_range.1 hk; omega)).1, leBytes_rd8, Nat.mul_add, Nat.add_assoc]
        rw [this, rd_flat, Mem.rd_take _ _ (by omega), wr_rd _ _ (Mem.rd_length _ _ _)]

theorem endSlot_le : ∀ (ts : List FType) (n : Nat), n ≤ endSlot n ts
  | [], _ => Nat.le_refl _
  | t :: ts, n => by have := endSlot_le ts (n + slots t); unfold endSlot; omega

/-- The arguments are passed. -/
theorem callLoop_ok {argp hi : Nat} {m0 : Mem} : ∀ {ts : List FType} {as : List Nat} {n : Nat} {m : Mem}, (∀ t ∈ ts, WF lp64 t) → as.length = ts.length →
    (∀ a ∈ as, a < 2 ^ 64) → argp + 8 * endSlot n ts ≤ hi →
    (∀ (i : Nat) (t : FType) (a : Nat), ts[i]? = some t → as[i]? = some a → a + t.size ≤ argp ∨ hi ≤ a) →
    (∀ x, x < argp ∨ hi ≤ x → m x = m0 x) →
    ∃ m', callLoop argp ts as n m = some (endSlot n ts, m') ∧ (∀ x, x < argp + 8 * n ∨ argp + 8 * endSlot n ts ≤ x → m' x = m x) ∧
      ∀ R : Regs, (∀ k, n ≤ k → k < endSlot n ts → R.islot k = leNat (m'.rd (argp + 8 * k) 8) ∧ R.fslot k = leNat (m'.rd (argp + 8 * k) 8)) →
        (∀ x, x < argp ∨ hi ≤ x → R.mem x = m0 x) → AllPassed R n ts (vals m0 ts as)
  | [], [], n, m, _, _, _, _, _, _ => ⟨m, rfl, fun _ _ => rfl, fun _ _ _ => trivial⟩
  | [], _ :: _, _, _, _, hl, _, _, _, _ => by cases hl
  | _ :: _, [], _, _, _, hl, _, _, _, _ => by cases hl
  | t :: ts, a :: as, n, m, hwf, hl, ha, hh, hap, hm => by
    have hh : argp + 8 * endSlot (n + slots t) ts ≤ hi := hh
    have hle := endSlot_le ts (n + slots t)
    have hap0 := hap 0 t a rfl rfl
    obtain ⟨m1, e1, o1⟩ := callArg_ok (hwf t (by simp)) (argp := argp) (a := a) (n := n) (hi := hi) (m := m) (ha a (by simp)) (by omega) hap0
    obtain ⟨m', e2, o2, p2⟩ := callLoop_ok (m0 := m0) (ts := ts) (as := as) (n := n + slots t) (m := m1) (hi := hi) (fun u hu => hwf u (by simp [hu])) (by simpa using hl)
      (fun b hb => ha b (by simp [hb])) hh (fun i u b h1 h2 => hap (i + 1) u b h1 h2) (fun x hx => (o1.out x (by omega)).trans (hm x hx))
    have hmem : ∀ x, x < argp + 8 * (n + slots t) → m' x = m1 x := fun x hx => o2 x (.inl hx)
    refine ⟨m', ?_, ?_, ?_⟩
    · rw [callLoop, e1]; exact e2
    · intro x hx
      have hx : x < argp + 8 * n ∨ argp + 8 * endSlot (n + slots t) ts ≤ x := hx
      rw [o2 x (by omega), o1.out x (by omega)]
    · intro R hR hr
      have hval : m0.rd a t.size = m.rd a t.size := Mem.rd_congr fun i hi => (hm _ (by omega)).symm
      refine ⟨?_, p2 R (fun k h1 h2 => hR k (by omega) h2) hr⟩
      rw [hval]
      refine o1.passed R (fun k h1 h2 => ?_) (fun x h1 h2 => (hr x (by omega)).trans (hm x (by omega)).symm)
      have := hR k h1 (show k < endSlot (n + slots t) ts by omega)
      have e : m'.rd (argp + 8 * k) 8 = m1.rd (argp + 8 * k) 8 := Mem.rd_congr fun i hi => hmem _ (by omega)
      rwa [e] at this

/-! ## Sizes -/

theorem argBytes_eq {t : FType} (h : WF lp64 t) : argBytes t = 8 * slots t := by
  cases h with
  | @scalar tc s al h => cases tc <;> simp [lp64] at h <;> rfl
  | @complex tc s al hb h => cases tc <;> simp [lp64] at h <;> rfl
  | @struct es s al offs he hl => exact Nat.mul_comm _ _

theorem sum_eq : ∀ {ts : List FType} {n : Nat}, (∀ t ∈ ts, WF lp64 t) → (ts.map argBytes).sum + 8 * n = 8 * endSlot n ts
  | [], n, _ => by simp [endSlot]
  | t :: ts, n, h => by
    have := sum_eq (ts := ts) (n := n + slots t) (fun u hu => h u (by simp [hu]))
    rw [List.map_cons, List.sum_cons, argBytes_eq (h t (by simp))]
    unfold endSlot
    omega

/-- Results in memory are those of the convention. -/
theorem retFlags_mem {rt : FType} (h : rt.tc = .void ∨ WF lp64 rt) : retFlags rt = retInMem ↔ retPlace rt = .mem := by
  rcases h with h | h
  · constructor <;> intro h' <;> [unfold retFlags at h'; unfold retPlace at h'] <;> rw [h] at h' <;> cases h'
  · cases h with
    | @scalar tc s al h => cases tc <;> simp [lp64] at h <;> obtain ⟨rfl, rfl⟩ := h <;> decide
    | @complex tc s al hb h => cases tc <;> simp [lp64] at h <;> obtain ⟨rfl, rfl⟩ := h <;> first | decide | cases hb
    | @struct es s al offs he hl => exact ⟨fun _ => rfl, fun _ => rfl⟩

theorem prepBytes_eq {rt : FType} {ats : List FType} (hr : rt.tc = .void ∨ WF lp64 rt) (h : ∀ t ∈ ats, WF lp64 t) :
    prepBytes rt ats = max 48 (8 * endSlot (start rt) ats) := by
  unfold prepBytes
  have := sum_eq (n := start rt) h
  have hm := retFlags_mem hr
  unfold start at *
  dsimp only
  by_cases hh : retPlace rt = .mem
  · rw [if_pos hh] at *
    rw [if_pos (hm.2 hh)]
    split <;> omega
  · rw [if_neg hh] at *
    rw [if_neg (fun h => hh (hm.1 h))]
    split <;> omega

/-! ## `ffi_call_int` -/

structure EntryOk (rt : FType) (ats : List FType) (I : CallIn) (O : CallOut) : Prop where
  aligned : 16 ∣ O.argp
  frame : O.frame = O.argp + prepBytes rt ats
  room : O.frame + 32 ≤ I.top
  flags : O.flags = retFlags rt &&& 0xff
  given : I.rvalue ≠ 0 ∨ retPlace rt ≠ .mem → O.rvalue = I.rvalue
  fake : I.rvalue = 0 → retPlace rt = .mem → O.frame + 32 ≤ O.rvalue ∧ O.rvalue + rt.size ≤ I.top
  out : ∀ x, x < O.argp ∨ O.argp + 8 * endSlot (start rt) ats ≤ x → O.mem x = I.mem x
  hidden : retPlace rt = .mem → leNat (O.mem.rd O.argp 8) = O.rvalue
  passed : ∀ R : Regs, (∀ k, k < endSlot (start rt) ats → R.islot k = leNat (O.mem.rd (O.argp + 8 * k) 8) ∧ R.fslot k = leNat (O.mem.rd (O.argp + 8 * k) 8)) →
    (∀ x, x < O.argp ∨ I.top ≤ x → R.mem x = I.mem x) → AllPassed R (start rt) ats (vals I.mem ats I.avalue)

theorem callEntry_ok {rt : FType} {ats : List FType} (hrt : rt.tc = .void ∨ WF lp64 rt) (hts : ∀ t ∈ ats, WF lp64 t) (I : CallIn)
    (hb : prepBytes rt ats < 2 ^ 32) (hl : I.avalue.length = ats.length) (ha : ∀ a ∈ I.avalue, a < 2 ^ 64) (htop : I.top < 2 ^ 64) (hrv : I.rvalue < 2 ^ 64)
    (hroom : prepBytes rt ats + rt.size + 64 ≤ I.top)
    (hap : ∀ (i : Nat) (t : FType) (a : Nat), ats[i]? = some t → I.avalue[i]? = some a → a + t.size + (prepBytes rt ats + rt.size + 64) ≤ I.top ∨ I.top ≤ a) :
    ∃ O, callEntry (prepCif rt ats) rt ats I = some O ∧ EntryOk rt ats I O := by
  have hpb := prepBytes_eq hrt hts
  have hmem := retFlags_mem hrt
  have hcb : (prepCif rt ats).bytes = prepBytes rt ats := Nat.mod_eq_of_lt hb
  have hst : (if retFlags rt = retInMem then 1 else 0) = start rt := by
    unfold start
    by_cases h : retPlace rt = .mem
    · rw [if_pos h, if_pos (hmem.2 h)]
    · rw [if_neg h, if_neg (fun hh => h (hmem.1 hh))]
  have key : ∀ rvalue T, rvalue < 2 ^ 64 → T ≤ I.top → I.top ≤ T + rt.size + 15 →
      ∃ m', callLoop (alloca T (prepBytes rt ats + 32)) ats I.avalue (start rt)
        (if retFlags rt = retInMem then put (alloca T (prepBytes rt ats + 32)) 0 rvalue I.mem else I.mem) = some (endSlot (start rt) ats, m') ∧
        (∀ x, x < alloca T (prepBytes rt ats + 32) ∨ alloca T (prepBytes rt ats + 32) + 8 * endSlot (start rt) ats ≤ x → m' x = I.mem x) ∧
        (retPlace rt = .mem → leNat (m'.rd (alloca T (prepBytes rt ats + 32)) 8) = rvalue) ∧
        ∀ R : Regs, (∀ k, k < endSlot (start rt) ats → R.islot k = leNat (m'.rd (alloca T (prepBytes rt ats + 32) + 8 * k) 8) ∧
            R.fslot k = leNat (m'.rd (alloca T (prepBytes rt ats + 32) + 8 * k) 8)) →
          (∀ x, x < alloca T (prepBytes rt ats + 32) ∨ I.top ≤ x → R.mem x = I.mem x) → AllPassed R (start rt) ats (vals I.mem ats I.avalue) := by
    intro rvalue T hr2 hT1 hT2
    obtain ⟨A, hA⟩ : ∃ A, alloca T (prepBytes rt ats + 32) = A := ⟨_, rfl⟩
    rw [hA]
    have hA1 : A + (prepBytes rt ats + 32) ≤ T ∧ T ≤ A + (prepBytes rt ats + 32) + 15 := by unfold alloca at hA; omega
    have h1 : start rt = 1 ∨ start rt = 0 := by unfold start; split <;> simp
    have hle := endSlot_le ats (start rt)
    have hM : ∀ x, x < A ∨ A + 8 * start rt ≤ x → (if retFlags rt = retInMem then put A 0 rvalue I.mem else I.mem) x = I.mem x := by
      intro x hx
      rw [← hst] at hx
      split
      · rename_i h; rw [if_pos h] at hx; exact put_out (by omega)
      · rfl
    obtain ⟨m', e, o, p⟩ := callLoop_ok (argp := A) (hi := I.top) (m0 := I.mem) (ts := ats) (as := I.avalue) (n := start rt)
      (m := if retFlags rt = retInMem then put A 0 rvalue I.mem else I.mem) hts hl ha (by omega)
      (fun i t a h1 h2 => by rcases hap i t a h1 h2 with h | h <;> omega)
      (fun x hx => hM x (by omega))
    refine ⟨m', e, ?_, ?_, ?_⟩
    · intro x hx
      rw [o x (by omega), hM x (by omega)]
    · intro hh
      have e1 : start rt = 1 := by unfold start; rw [if_pos hh]
      have : m'.rd A 8 = (put A 0 rvalue I.mem).rd A 8 := by
        apply Mem.rd_congr
        intro i hi
        rw [o _ (by omega), if_pos (hmem.2 hh)]
      rw [this]
      exact put_rd (n := 0) hr2
    · intro R hR hm
      exact p R (fun k _ h2 => hR k h2) hm
  unfold callEntry
  dsimp only
  rw [hcb, show (prepCif rt ats).flags = retFlags rt from rfl, hst]
  by_cases hf : I.rvalue = 0 ∧ retFlags rt = retInMem
  · rw [if_pos hf, if_pos hf]
    have hA : alloca I.top rt.size + rt.size ≤ I.top ∧ I.top ≤ alloca I.top rt.size + rt.size + 15 := by unfold alloca; omega
    obtain ⟨m', e, o, hh, p⟩ := key (alloca I.top rt.size) (alloca I.top rt.size) (by omega) (by omega) (by omega)
    rw [e]
    refine ⟨_, rfl, ?_⟩
    have hA1 : alloca (alloca I.top rt.size) (prepBytes rt ats + 32) + (prepBytes rt ats + 32) ≤ alloca I.top rt.size := by
      show (_ - _) / 16 * 16 + _ ≤ _
      omega
    exact ⟨Nat.dvd_mul_left _ _, rfl, by dsimp only; omega, rfl, fun h => (h.elim (fun h => absurd hf.1 h) (fun h => absurd (hmem.1 hf.2) h)),
      fun _ _ => ⟨by dsimp only; omega, by dsimp only; omega⟩, o, hh, p⟩
  · rw [if_neg hf, if_neg hf]
    obtain ⟨m', e, o, hh, p⟩ := key I.rvalue I.top hrv (Nat.le_refl _) (by omega)
    rw [e]
    refine ⟨_, rfl, ?_⟩
    have hA1 : alloca I.top (prepBytes rt ats + 32) + (prepBytes rt ats + 32) ≤ I.top := by unfold alloca; omega
    exact ⟨Nat.dvd_mul_left _ _, rfl, by dsimp only; omega, rfl, fun _ => rfl, fun h h' => absurd ⟨h, hmem.2 h'⟩ hf, o, hh, p⟩

end Verif.Alpha
