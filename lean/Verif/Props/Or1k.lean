import Verif.Or1k.Ffi
import Verif.Or1k.Closure
import Verif.Spec.Build

/-! C105, C106, C107: OpenRISC. -/
namespace Verif.Props
open Verif Verif.Or1k Verif.Spec Verif.Spec.Or1k

/-! ## C105: calls -/

/-- What `ffi_call` is given: types, addresses of objects that lie neither in the copies nor below them. -/
structure Or1kArgs (low top : Nat) (ats : List FType) (avalue : List Nat) : Prop where
  types : ∀ t ∈ ats, Ty t
  length : avalue.length = ats.length
  addr : ∀ a ∈ avalue, a < 2 ^ 32
  bound : top < 2 ^ 32
  room : low + (ats.map fun t => t.size + 3).sum ≤ top
  apart : ∀ (i : Nat) (t : FType) (a : Nat), ats[i]? = some t → avalue[i]? = some a → a + t.size ≤ low ∨ top ≤ a

/-- C105: `ffi_call_SYSV` comes to `ffi_prep_args`, and from there to the function, which finds all arguments as the convention wants them.
Partial: of a function that is not variadic, no argument may be one of eight bytes for which there is one register left. -/
theorem C105_call_enter_partial {L low prep fn top : Nat} {rt : FType} {nf : Nat} {ats : List FType} {avalue : List Nat} {rvalue : Nat} {m : Mem} {s : M}
    (h : Or1kArgs low top ats avalue) (hf : nf < ats.length ∨ nf = ats.length ∧ Whole nf (start rt) ats) (hs : Call L low prep fn rt nf ats rvalue s)
    (hm : s.mem = (copyArgs ats avalue top m).2.2) (hsp : s.r 1 ≤ (copyArgs ats avalue top m).2.1) :
    ∃ t, Runs L s t ∧ t.pc = prep ∧ t.r 4 = s.r 4 ∧ ∀ u, PrepDone low rt nf ats (copyArgs ats avalue top m).1 rvalue t u →
      ∃ w, Runs L u w ∧ Entered L low rt nf ats fn rvalue (vals m ats avalue) s w := by
  have hc : ∀ t ∈ ats, Cls t := fun t ht => Or1k.Ty.cls (h.types t ht)
  obtain ⟨as', top', m', e, l', b', r1, r2, o, v, q, _⟩ := copyArgs_ok (m := m) h.length h.addr h.bound (Nat.le_refl top) h.room h.apart
  rw [e] at hm hsp ⊢
  dsimp only at hm hsp ⊢
  obtain ⟨t, r, hp⟩ := call_prep hs.pc
  refine ⟨t, r, by rw [hp.pc, hs.prep], hp.ecif, fun u hu => ?_⟩
  obtain ⟨w, rw', he⟩ := enter hs hc (fits hc hf) l' b' (fun i t a h1 h2 => by have := q i t a h1 h2; omega) hp hu
  rw [hm, v] at he
  exact ⟨w, rw', he⟩

/-- The structs that the function finds are the copies: the caller's objects are not reachable from them. -/
theorem C105_copies {low top : Nat} {ats : List FType} {avalue : List Nat} {m : Mem} (h : Or1kArgs low top ats avalue) (i : Nat) (t : FType) (a : Nat) (ht : ats[i]? = some t)
    (hs : t.tc = .struct) (ha : (copyArgs ats avalue top m).1[i]? = some a) :
    (copyArgs ats avalue top m).2.1 ≤ a ∧ a + t.size ≤ top ∧ ∀ x, x < (copyArgs ats avalue top m).2.1 ∨ top ≤ x → (copyArgs ats avalue top m).2.2 x = m x := by
  obtain ⟨as', top', m', e, l', b', r1, r2, o, v, q, q2⟩ := copyArgs_ok (m := m) h.length h.addr h.bound (Nat.le_refl top) h.room h.apart
  rw [e] at ha ⊢
  exact ⟨(q2 i t a ht hs ha).1, (q2 i t a ht hs ha).2, o⟩

/-- C105: `ffi_call_SYSV` returns with all registers restored that it must keep, and with the result stored; nothing else is written.  Partial: results that are not `void`. -/
theorem C105_call_return_partial {L low : Nat} {rt : FType} {nf : Nat} {ats : List FType} {fn rvalue : Nat} {vs : List (List Byte)} {val : List Byte} {s w v : M}
    (he : Entered L low rt nf ats fn rvalue vs s w) (hrt : Ty rt) (hw : ∀ k, s.r k < 2 ^ 32) (hs : 24 ≤ s.r 1) (hd : FnDone s w v) (h11 : v.r 11 < 2 ^ 32)
    (hr : rt.tc = .struct ∨ rvalue + 8 ≤ s.r 1 - 24 ∨ s.r 1 ≤ rvalue) (hv : Returned rt val (v.r 11) (v.r 12)) :
    ∃ z, Runs L v z ∧ Left s v z ∧ Got rt val z.mem rvalue ∧
      ∀ x, x < rvalue ∨ rvalue + (if rt.tc = .struct then 0 else 4 * words rt) ≤ x → z.mem x = v.mem x := by
  obtain ⟨z, r, l, e⟩ := leave he hw hs hd hr
  have h18 : v.r 18 = rvalue := by rw [hd.keeps 18 (by simp [kept]), he.r18]
  have h20 : v.r 20 = flags rt := by rw [hd.keeps 20 (by simp [kept]), he.r20]
  have := stored_ok (Or1k.Ty.cls hrt) h20 h11 hv
  rw [h18] at this
  exact ⟨z, r, l, by rw [e]; exact this.1, fun x hx => by rw [e]; exact this.2 x hx⟩

/-- A call of a function without a result, and without variadic arguments, that returns: the registers are restored. -/
theorem C105_void_return {L low nf : Nat} {ats : List FType} {fn rvalue : Nat} {vs : List (List Byte)} {s w v : M}
    (he : Entered L low (.mk 1 1 .void []) nf ats fn rvalue vs s w) (hw : ∀ k, s.r k < 2 ^ 32) (hs : 24 ≤ s.r 1) (hd : FnDone s w v)
    (hr : rvalue + 8 ≤ s.r 1 - 24 ∨ s.r 1 ≤ rvalue) : ∃ z, Runs L v z ∧ Left s v z := by
  obtain ⟨z, r, l, _⟩ := leave he hw hs hd (.inr hr)
  exact ⟨z, r, l⟩

/-- Why C105 is partial: whatever `rvalue` is, NULL as well, r11 is stored there when a function without a result returns. -/
theorem C105_void_written {L low nf : Nat} {ats : List FType} {fn rvalue : Nat} {vs : List (List Byte)} {s w v : M}
    (he : Entered L low (.mk 1 1 .void []) nf ats fn rvalue vs s w) (hw : ∀ k, s.r k < 2 ^ 32) (hs : 24 ≤ s.r 1) (hd : FnDone s w v)
    (hr : rvalue + 8 ≤ s.r 1 - 24 ∨ s.r 1 ≤ rvalue) : ∃ z, Runs L v z ∧ z.pc = s.r 9 ∧ z.mem.rd rvalue 4 = beBytes 4 (v.r 11) := by
  obtain ⟨z, r, l, e⟩ := leave he hw hs hd (.inr hr)
  have h18 : v.r 18 = rvalue := by rw [hd.keeps 18 (by simp [kept]), he.r18]
  have h20 : v.r 20 = 0 := by rw [hd.keeps 20 (by simp [kept]), he.r20]; rfl
  refine ⟨z, r, l.pc, ?_⟩
  rw [e, storedMem, if_neg (by omega), if_neg (by omega), h18, wr_rd _ _ (beBytes_length _ _)]

/-- Why C105 is partial: `ffi_call` puts the addresses of its copies, which are gone when it returns, into the array of its caller. -/
theorem C105_avalue_changed {low top : Nat} {ats : List FType} {avalue : List Nat} (m : Mem) (h : Or1kArgs low top ats avalue) {i : Nat} {t : FType} {a : Nat}
    (ht : ats[i]? = some t) (hs : t.tc = .struct) (h0 : 0 < t.size) (ha : avalue[i]? = some a) :
    ∃ b, (copyArgs ats avalue top m).1[i]? = some b ∧ b ≠ a ∧ low ≤ b ∧ b + t.size ≤ top := by
  obtain ⟨as', top', m', e, l', b', r1, r2, o, v, q, q2⟩ := copyArgs_ok (m := m) h.length h.addr h.bound (Nat.le_refl top) h.room h.apart
  obtain ⟨hi, _⟩ := List.getElem?_eq_some_iff.1 ht
  have hb : as'[i]? = some as'[i] := List.getElem?_eq_getElem (by omega)
  have h1 := q2 i t _ ht hs hb
  have h2 := h.apart i t a ht ha
  rw [e]
  exact ⟨as'[i], hb, by omega, by omega, by omega⟩

/-- The types of a call that fails. -/
def or1kLost : List FType := [mkScalar tab .sint32, mkScalar tab .sint32, mkScalar tab .sint32, mkScalar tab .sint32, mkScalar tab .sint32, mkScalar tab .double]

/-- A word is stored. -/
def or1kWord (base c a : Nat) (m : Mem) : Mem := m.wr (base + c) (beBytes 4 (beNat (m.rd a 4)))

theorem or1k_word_step {base a c : Nat} {nf : Int} {ts : List FType} {as : List Nat} {m : Mem} (h : nf ≠ 0) :
    prepLoop base nf (mkScalar tab .sint32 :: ts) (a :: as) c m = prepLoop base (nf - 1) ts as (c + 4) (or1kWord base c a m) := by
  rw [prepLoop, if_neg (fun q => h q.1)]
  rfl

theorem or1k_double_step {base a : Nat} {m : Mem} : prepLoop base 1 [mkScalar tab .double] [a] 20 m = (32, m.wr (base + 24) (m.rd a 8)) := by
  rw [prepLoop, if_neg (fun q => absurd q.1 (by decide))]
  rfl

theorem or1k_lost_area (base rvalue a0 a1 a2 a3 a4 a : Nat) (m : Mem) : ∃ X : Mem,
    Or1k.prepArgs base (mkScalar tab .sint32) 6 or1kLost [a0, a1, a2, a3, a4, a] rvalue m = (base + 24, X.wr (base + 24) (X.rd a 8)) ∧ ∀ x, base + 20 ≤ x → X x = m x := by
  refine ⟨or1kWord base 16 a4 (or1kWord base 12 a3 (or1kWord base 8 a2 (or1kWord base 4 a1 (or1kWord base 0 a0 m)))), ?_, fun x hx => ?_⟩
  · have e : prepLoop base ((6 : Nat) : Int) or1kLost [a0, a1, a2, a3, a4, a] 0 m = (32,
        (or1kWord base 16 a4 (or1kWord base 12 a3 (or1kWord base 8 a2 (or1kWord base 4 a1 (or1kWord base 0 a0 m))))).wr (base + 24)
          ((or1kWord base 16 a4 (or1kWord base 12 a3 (or1kWord base 8 a2 (or1kWord base 4 a1 (or1kWord base 0 a0 m))))).rd a 8)) := by
      unfold or1kLost
      rw [or1k_word_step (by decide), or1k_word_step (by decide), or1k_word_step (by decide), or1k_word_step (by decide), or1k_word_step (by decide)]
      exact or1k_double_step
    unfold Or1k.prepArgs
    rw [if_neg (show ¬ (mkScalar tab .sint32).tc = .struct by decide), e]
    rfl
  · unfold or1kWord
    repeat rw [Mem.wr_out _ _ _ _ (by rw [beBytes_length]; omega)]

/-- Why C105 is partial: five words and a `double`.  The area is four bytes too small, and the caller of `ffi_call` finds the second word of the `double` in r20. -/
theorem C105_r20_lost {L low prep fn rvalue a0 a1 a2 a3 a4 a : Nat} {s : M} (hs : Call L low prep fn (mkScalar tab .sint32) 6 or1kLost rvalue s) (ha : s.r 1 ≤ a)
    (hr : rvalue + 8 ≤ s.r 1 - 24 ∨ s.r 1 ≤ rvalue) :
    ∃ t, Runs L s t ∧ t.pc = prep ∧ ∀ u, PrepDone low (mkScalar tab .sint32) 6 or1kLost [a0, a1, a2, a3, a4, a] rvalue t u →
      ∃ w, Runs L u w ∧ w.pc = fn ∧ ∀ v, FnDone s w v → ∃ z, Runs L v z ∧ z.pc = s.r 9 ∧ z.r 1 = s.r 1 ∧ z.r 20 = beNat (s.mem.rd (a + 4) 4) := by
  have room := hs.room
  have hw := hs.word
  have hsz : callSize (mkScalar tab .sint32) 6 or1kLost = 28 := by decide +kernel
  rw [hsz] at room
  obtain ⟨t, r, hp⟩ := call_prep hs.pc
  refine ⟨t, r, by rw [hp.pc, hs.prep], fun u hu => ?_⟩
  have hbase : t.r 3 = s.r 1 - 52 := by rw [hp.base, hs.size, hsz]; omega
  have hsp : t.r 1 = s.r 1 - 52 := by rw [hp.sp, hs.size, hsz]; omega
  obtain ⟨X, eX, oX⟩ := or1k_lost_area (s.r 1 - 52) rvalue a0 a1 a2 a3 a4 a t.mem
  obtain ⟨w, rw', hw'⟩ := call_fn (L := L) (u := u) (by rw [hu.pc, hp.ra])
  refine ⟨w, rw', by rw [hw'.pc, hu.keeps 16 (by simp), hp.r16, hs.fn], fun v hv => ?_⟩
  have k14 : v.r 14 = s.r 1 := by rw [hv.keeps 14 (by simp [kept]), hw'.rest 14 (by simp), hu.keeps 14 (by simp), hp.r14]
  have k18 : v.r 18 = rvalue := by rw [hv.keeps 18 (by simp [kept]), hw'.rest 18 (by simp), hu.keeps 18 (by simp), hp.r18, hs.rvalue]
  have k20 : v.r 20 = 0 := by rw [hv.keeps 20 (by simp [kept]), hw'.rest 20 (by simp), hu.keeps 20 (by simp), hp.r20, hs.flags]; rfl
  obtain ⟨z, rz, hz⟩ := call_tail (L := L) (u := v) (by rw [hv.pc, hw'.ra])
  have mem : ∀ x, s.r 1 - 24 ≤ x → x < s.r 1 → storedMem v x = X.wr (s.r 1 - 52 + 24) (X.rd a 8) x := by
    intro x h1 h2
    rw [storedMem, if_neg (by omega), if_neg (by omega), k18, Mem.wr_out _ _ _ _ (by rw [beBytes_length]; omega), hv.frame x h1 h2, hw'.mem, hu.mem x (by omega), hbase, eX]
  have keep : ∀ b, s.r 1 - 20 ≤ b → b + 4 ≤ s.r 1 → (storedMem v).rd b 4 = (savedMem s).rd b 4 := by
    intro b h1 h2
    refine Mem.rd_congr fun i hi => ?_
    rw [mem _ (by omega) (by omega), Mem.wr_out _ _ _ _ (by rw [Mem.rd_length]; omega), oX _ (by omega), hp.mem]
  have sv := saved_saved (s := s) (by omega)
  have z1 : z.r 1 = s.r 1 := by rw [hz.sp, k14, keep _ (by omega) (by omega), sv.r1, be4 (hw 1)]
  refine ⟨z, rz, by rw [hz.pc, hz.ra, k14, keep _ (by omega) (by omega), sv.r9, be4 (hw 9)], z1, ?_⟩
  rw [hz.r20, z1]
  congr 1
  have e1 : X.rd a 8 = s.mem.rd a 8 := Mem.rd_congr fun i hi => by rw [oX _ (by omega), hp.mem, savedMem_out (by omega) (by omega)]
  have e2 : (X.wr (s.r 1 - 52 + 24) (X.rd a 8)).rd (s.r 1 - 52 + 24) (4 + 4) = s.mem.rd a (4 + 4) := by rw [wr_rd _ _ (Mem.rd_length _ _ _), e1]
  rw [Mem.rd_append, Mem.rd_append] at e2
  have e3 := (List.append_inj e2 (by simp)).2
  rw [← e3, show s.r 1 - 52 + 24 + 4 = s.r 1 - 24 by omega]
  exact Mem.rd_congr fun i hi => mem _ (by omega) (by omega)

/-! ## C106: closures -/

/-- C106: the handler of a closure gets pointers to the arguments that the caller has passed.  `m` is memory when the handler is called: `ffi_closure_SYSV` has its frame in `[lo, R.sp)`,
with the registers at `ra`. -/
theorem C106_args {m : Mem} {ra lo : Nat} {R : Regs} {rt : FType} {nf : Nat} {ats : List FType} {vs : List (List Byte)} (hra : lo ≤ ra ∧ ra + 24 ≤ R.sp)
    (hr : ∀ k, k < 6 → R.r k < 2 ^ 32 ∧ m.rd (ra + 4 * k) 4 = beBytes 4 (R.r k)) (hm : ∀ x, x < lo ∨ R.sp ≤ x → m x = R.mem x) (ht : ∀ t ∈ ats, Ty t)
    (hl : vs.map List.length = ats.map FType.size) (hp : AllPassed R nf (start rt) ats vs) (hrefs : ∀ q ∈ refs R nf (start rt) ats, q.1 + q.2 ≤ lo ∨ R.sp ≤ q.1) :
    (closureView m ra R.sp rt nf ats).length = ats.length ∧ vals m ats (closureView m ra R.sp rt nf ats) = vs :=
  have h := closureView_ok hra rfl hr hm (fun t h => Or1k.Ty.cls (ht t h)) hl hp hrefs
  ⟨h.2, h.1⟩

/-- C106: what the handler has stored is returned in r11 and r12. -/
theorem C106_result {rt : FType} (ht : Ty rt) {m : Mem} {rv : Nat} {v : List Byte} (hl : v.length = rt.size) (hg : Got rt v m rv) :
    Returned rt v (closureRes m rv).1 (closureRes m rv).2 :=
  closureRes_ok (Or1k.Ty.cls ht) hl hg

/-! ## C107: the trampoline -/

/-- C107: the trampoline enters `ffi_closure_SYSV` with the closure in r13 and the stack pointer in r17; other registers but r15 are as they were. -/
theorem C107_trampoline {m : Mem} {a cls fn : Nat} {s : T} (hm : m.rd a 24 = trampBytes cls fn) (hc : cls < 2 ^ 32) (hf : fn < 2 ^ 32) (hp : s.pc = a) (hn : s.npc = a + 4) :
    ∃ t, tsteps m 6 s = some t ∧ t.pc = fn ∧ t.npc = fn + 4 ∧ t.r 13 = cls ∧ t.r 17 = s.r 1 ∧ ∀ k, k ≠ 13 → k ≠ 15 → k ≠ 17 → t.r k = s.r k :=
  tramp_runs hm hc hf hp hn

/-! ## Cases -/

/-- Six arguments, two of them variadic: a negative byte, a struct, a `double`, a word, a `double`, a negative halfword. -/
def or1kAts : List FType := [mkScalar tab .sint8, mkStruct [mkScalar tab .uint16, mkScalar tab .uint32], mkScalar tab .double, mkScalar tab .uint32, mkScalar tab .double, mkScalar tab .sint16]

def or1kVals : List Nat := [2 ^ 20 + 1, 2 ^ 20 + 8, 2 ^ 20 + 16, 2 ^ 20 + 24, 2 ^ 20 + 32, 2 ^ 20 + 40]

def or1kMem : Mem := fun x => BitVec.ofNat 8 (200 + 3 * x)

theorem or1k_tab : TabOk tab := by
  intro tc s a h
  cases tc <;> simp [tab] at h <;> obtain ⟨rfl, rfl⟩ := h <;> decide

theorem or1k_args : Or1kArgs 0 (2 ^ 16) or1kAts or1kVals := by
  refine ⟨?_, rfl, by decide, by decide, by decide, ?_⟩
  · intro t ht
    simp only [or1kAts, List.mem_cons, List.not_mem_nil, or_false] at ht
    have hs : ∀ e ∈ [mkScalar tab .uint16, mkScalar tab .uint32], WF tab e := by
      intro e he
      simp only [List.mem_cons, List.not_mem_nil, or_false] at he
      rcases he with rfl | rfl <;> exact mkScalar_wf rfl
    rcases ht with rfl | rfl | rfl | rfl | rfl | rfl
    · exact ⟨mkScalar_wf rfl, by decide⟩
    · exact ⟨mkStruct_wf or1k_tab (by decide) hs, by decide⟩
    all_goals exact ⟨mkScalar_wf rfl, by decide⟩
  · intro i t a _ ha
    right
    have : a ∈ or1kVals := List.mem_of_getElem? ha
    simp only [or1kVals, List.mem_cons, List.not_mem_nil, or_false] at this
    omega

/-- `ffi_call_SYSV` is entered at 4096; `ffi_prep_args` is at 5000, the function at 6000. -/
def or1kState (m : Mem) (size flags : Nat) : M :=
  ⟨fun k => if k = 1 then 60000 else if k = 3 then size else if k = 5 then 5000 else if k = 6 then 2 ^ 21 else if k = 7 then 6000 else if k = 8 then flags else 100 + k % 32, false, m, 4096⟩

theorem or1k_word (m : Mem) (size flags k : Nat) (h1 : size < 2 ^ 16) (h2 : flags < 2 ^ 16) : (or1kState m size flags).r k < 2 ^ 32 := by
  show (if k = 1 then _ else _) < _
  repeat' split
  all_goals omega

/-- `ffi_call` is at `ffi_call_SYSV`. -/
theorem or1k_call {rt : FType} {nf : Nat} {ats : List FType} (m : Mem) (hs : callSize rt nf ats < 2 ^ 12) (hf : flags rt < 2 ^ 16) :
    Call 4096 0 5000 6000 rt nf ats (2 ^ 21) (or1kState m (callSize rt nf ats) (flags rt)) :=
  ⟨rfl, rfl, rfl, rfl, rfl, rfl, by show 0 + _ + 24 ≤ 60000; omega, fun k => or1k_word _ _ _ k (by omega) hf⟩

/-- `ffi_prep_args` returns. -/
theorem or1k_prep (rt : FType) (nf : Nat) (ats : List FType) (as : List Nat) (rv : Nat) (t : M) :
    PrepDone 0 rt nf ats as rv t ⟨upd t.r 11 (Or1k.prepArgs (t.r 3) rt nf ats as rv t.mem).1, t.flag, (Or1k.prepArgs (t.r 3) rt nf ats as rv t.mem).2, t.r 9⟩ :=
  ⟨rfl, rfl, fun _ _ => rfl, fun k hk => by show upd _ _ _ _ = _; unfold upd; rw [if_neg (by omega)]⟩

/-- The function returns `a` and `b`. -/
theorem or1k_done (s w : M) (a b : Nat) : FnDone s w ⟨upd (upd w.r 11 a) 12 b, w.flag, w.mem, w.r 9⟩ :=
  ⟨rfl, fun k hk => by unfold kept at hk; show upd _ _ _ _ = _; unfold upd; rw [if_neg (by omega), if_neg (by omega)], fun _ _ _ => rfl⟩

/-- C105: six arguments, of which the last two are variadic, and a `double` that is returned. -/
example : ∃ t u w v z, Runs 4096 (or1kState (copyArgs or1kAts or1kVals (2 ^ 16) or1kMem).2.2 56 11) t ∧ t.pc = 5000 ∧ u.pc = t.r 9 ∧ Runs 4096 u w ∧
    Entered 4096 0 (mkScalar tab .double) 4 or1kAts 6000 (2 ^ 21) (Spec.Or1k.vals or1kMem or1kAts or1kVals) (or1kState (copyArgs or1kAts or1kVals (2 ^ 16) or1kMem).2.2 56 11) w ∧
    v.pc = w.r 9 ∧ v.r 11 = 0x3ff80000 ∧ v.r 12 = 7 ∧ Runs 4096 v z ∧ z.r 20 = 120 ∧ z.r 1 = 60000 ∧ z.mem.rd (2 ^ 21) 8 = beBytes 4 0x3ff80000 ++ beBytes 4 7 := by
  have hsz : callSize (mkScalar tab .double) 4 or1kAts = 56 := by decide +kernel
  have hc := or1k_call (rt := mkScalar tab .double) (nf := 4) (ats := or1kAts) (copyArgs or1kAts or1kVals (2 ^ 16) or1kMem).2.2 (by rw [hsz]; decide) (by decide)
  rw [hsz, show flags (mkScalar tab .double) = 11 by decide +kernel] at hc
  obtain ⟨t, r, p, _, k⟩ := C105_call_enter_partial (m := or1kMem) or1k_args (.inl (by decide)) hc rfl (by show 60000 ≤ _; decide +kernel)
  obtain ⟨w, rw', e⟩ := k _ (or1k_prep _ _ _ _ _ t)
  obtain ⟨z, rz, l, g, _⟩ := C105_call_return_partial (val := beBytes 4 0x3ff80000 ++ beBytes 4 7) e ⟨mkScalar_wf rfl, by decide⟩ hc.word (by show 24 ≤ 60000; decide)
    (or1k_done _ w 0x3ff80000 7) (by show 0x3ff80000 < 2 ^ 32; decide) (.inr (.inr (by show 60000 ≤ 2 ^ 21; decide))) ⟨by decide, rfl⟩
  exact ⟨t, _, w, _, z, r, p, rfl, rw', e, rfl, rfl, rfl, rz, l.keeps 20 (by simp [kept]), l.keeps 1 (by simp [kept]), g⟩

/-- A function that is not variadic: registers are full to the last. -/
example : Whole 4 (start (mkScalar tab .double)) [mkScalar tab .double, mkScalar tab .double, mkScalar tab .double, mkScalar tab .sint8] ∧
    ¬ Whole 6 (start (mkScalar tab .sint32)) or1kLost :=
  ⟨⟨by decide, by decide, by decide, by decide, trivial⟩, fun h => h.2.2.2.2.2.1 (by decide)⟩

/-- r11 is stored although there is no result. -/
example : ∃ w v z, Entered 4096 0 (.mk 1 1 .void []) 4 or1kAts 6000 (2 ^ 21) (Spec.Or1k.vals or1kMem or1kAts or1kVals) (or1kState (copyArgs or1kAts or1kVals (2 ^ 16) or1kMem).2.2 56 0) w ∧
    v.pc = w.r 9 ∧ Runs 4096 v z ∧ z.mem.rd (2 ^ 21) 4 = beBytes 4 77 ∧ z.pc = 109 := by
  have hsz : callSize (.mk 1 1 .void []) 4 or1kAts = 56 := by decide +kernel
  have hc := or1k_call (rt := .mk 1 1 .void []) (nf := 4) (ats := or1kAts) (copyArgs or1kAts or1kVals (2 ^ 16) or1kMem).2.2 (by rw [hsz]; decide) (by decide)
  rw [hsz, show flags (.mk 1 1 .void []) = 0 by decide +kernel] at hc
  obtain ⟨t, r, p, _, k⟩ := C105_call_enter_partial (m := or1kMem) or1k_args (.inl (by decide)) hc rfl (by show 60000 ≤ _; decide +kernel)
  obtain ⟨w, rw', e⟩ := k _ (or1k_prep _ _ _ _ _ t)
  have hr : 2 ^ 21 + 8 ≤ (or1kState (copyArgs or1kAts or1kVals (2 ^ 16) or1kMem).2.2 56 0).r 1 - 24 ∨ (or1kState (copyArgs or1kAts or1kVals (2 ^ 16) or1kMem).2.2 56 0).r 1 ≤ 2 ^ 21 :=
    .inr (by show 60000 ≤ 2 ^ 21; decide)
  obtain ⟨z, rz, p', g⟩ := C105_void_written e hc.word (by show 24 ≤ 60000; decide) (or1k_done _ w 77 0) hr
  exact ⟨w, _, z, e, rfl, rz, g, p'⟩

/-- The address of the struct is replaced. -/
example : ∃ b, (copyArgs or1kAts or1kVals (2 ^ 16) or1kMem).1[1]? = some b ∧ b ≠ 2 ^ 20 + 8 ∧ 0 ≤ b ∧ b + 8 ≤ 2 ^ 16 :=
  C105_avalue_changed or1kMem or1k_args (i := 1) (t := mkStruct [mkScalar tab .uint16, mkScalar tab .uint32]) rfl rfl (by decide) rfl

/-- r20 was 120 and is 0x11223344. -/
example : ∃ t u w v z, Runs 4096 (or1kState (or1kMem.wr (2 ^ 20 + 68) (beBytes 4 0x11223344)) 28 0) t ∧ u.pc = t.r 9 ∧ Runs 4096 u w ∧ w.pc = 6000 ∧ v.pc = w.r 9 ∧ Runs 4096 v z ∧
    (or1kState (or1kMem.wr (2 ^ 20 + 68) (beBytes 4 0x11223344)) 28 0).r 20 = 120 ∧ z.r 20 = 0x11223344 := by
  have hsz : callSize (mkScalar tab .sint32) 6 or1kLost = 28 := by decide +kernel
  have hc := or1k_call (rt := mkScalar tab .sint32) (nf := 6) (ats := or1kLost) (or1kMem.wr (2 ^ 20 + 68) (beBytes 4 0x11223344)) (by rw [hsz]; decide) (by decide)
  rw [hsz, show flags (mkScalar tab .sint32) = 0 by decide +kernel] at hc
  obtain ⟨t, r, p, k⟩ := C105_r20_lost (a0 := 2 ^ 20) (a1 := 2 ^ 20) (a2 := 2 ^ 20) (a3 := 2 ^ 20) (a4 := 2 ^ 20) (a := 2 ^ 20 + 64) hc (by show 60000 ≤ 2 ^ 20 + 64; decide)
    (.inr (by show 60000 ≤ 2 ^ 21; decide))
  obtain ⟨w, rw', pw, k⟩ := k _ (or1k_prep _ _ _ _ _ t)
  obtain ⟨z, rz, _, _, h⟩ := k _ (or1k_done _ w 0 0)
  refine ⟨t, _, w, _, z, r, rfl, rw', pw, rfl, rz, rfl, ?_⟩
  rw [h]
  show beNat ((or1kMem.wr (2 ^ 20 + 68) _).rd (2 ^ 20 + 68) 4) = _
  rw [wr_rd _ _ (beBytes_length _ _)]
  decide

/-- C106: a halfword, a `double`, and a variadic struct at 5000. -/
def or1kRegs : Regs := ⟨fun k => if k = 0 then 0xfffffffe else k, Mem.wr (fun x => BitVec.ofNat 8 x) 2000 (beBytes 4 5000), 2000⟩

def or1kFrame : Mem := or1kRegs.mem.wr 1000 (beBytes 4 0xfffffffe ++ beBytes 4 1 ++ beBytes 4 2 ++ beBytes 4 3 ++ beBytes 4 4 ++ beBytes 4 5)

def or1kSeen : List FType := [mkScalar tab .sint16, mkScalar tab .double, mkStruct [mkScalar tab .uint16, mkScalar tab .uint32]]

example : Spec.Or1k.vals or1kFrame or1kSeen (closureView or1kFrame 1000 2000 (mkScalar tab .uint8) 2 or1kSeen) =
    [[0xff, 0xfe], [0, 0, 0, 1, 0, 0, 0, 2], [0x88, 0x89, 0x8a, 0x8b, 0x8c, 0x8d, 0x8e, 0x8f]] := by
  refine (C106_args (R := or1kRegs) (lo := 900) (by decide) ?_ ?_ ?_ (by decide) ?_ ?_).2
  · intro k hk
    rcases (show k = 0 ∨ k = 1 ∨ k = 2 ∨ k = 3 ∨ k = 4 ∨ k = 5 by omega) with rfl | rfl | rfl | rfl | rfl | rfl <;> decide +kernel
  · intro x hx
    have hx : x < 900 ∨ 2000 ≤ x := hx
    exact Mem.wr_out _ _ _ _ (by simp; omega)
  · intro t ht
    simp only [or1kSeen, List.mem_cons, List.not_mem_nil, or_false] at ht
    have hs : ∀ e ∈ [mkScalar tab .uint16, mkScalar tab .uint32], WF tab e := by
      intro e he
      simp only [List.mem_cons, List.not_mem_nil, or_false] at he
      rcases he with rfl | rfl <;> exact mkScalar_wf rfl
    rcases ht with rfl | rfl | rfl
    · exact ⟨mkScalar_wf rfl, by decide⟩
    · exact ⟨mkScalar_wf rfl, by decide⟩
    · exact ⟨mkStruct_wf or1k_tab (by decide) hs, by decide⟩
  · refine ⟨?_, ?_, ?_, trivial⟩
    · show ((0xfffffffe : Nat) : Int) = intVal .sint16 [0xff, 0xfe] % 2 ^ 32
      decide +kernel
    · show beBytes 4 1 ++ beBytes 4 2 = _
      decide +kernel
    · show or1kRegs.mem.rd (beNat (or1kRegs.mem.rd 2000 4)) 8 = _
      decide +kernel
  · intro q hq
    have : refs or1kRegs 2 (start (mkScalar tab .uint8)) or1kSeen = [(5000, 8)] := by decide +kernel
    rw [this] at hq
    simp only [List.mem_cons, List.not_mem_nil, or_false] at hq
    rw [hq]
    decide

/-- A negative halfword is returned. -/
example : Returned (mkScalar tab .sint16) [0xff, 0xfe] (closureRes (Mem.wr (fun _ => 0) 800 (beBytes 4 0xfffffffe)) 800).1 (closureRes (Mem.wr (fun _ => 0) 800 (beBytes 4 0xfffffffe)) 800).2 :=
  C106_result ⟨mkScalar_wf rfl, by decide⟩ rfl (by show (beNat (Mem.rd _ 800 4) : Int) = intVal .sint16 [0xff, 0xfe] % 2 ^ 32; decide +kernel)

/-- C107: a closure at 0x12348000, `ffi_closure_SYSV` at 0xdeadbeec. -/
example : ∃ t, tsteps (Mem.wr (fun _ => 0) 0x12348000 (trampBytes 0x12348000 0xdeadbeec)) 6 ⟨fun k => 7 * k, 0x12348000, 0x12348004⟩ = some t ∧ t.pc = 0xdeadbeec ∧ t.r 13 = 0x12348000 ∧
    t.r 17 = 7 ∧ t.r 3 = 21 := by
  obtain ⟨t, h, h1, _, h2, h3, h4⟩ := C107_trampoline (m := Mem.wr (fun _ => 0) 0x12348000 (trampBytes 0x12348000 0xdeadbeec)) (s := ⟨fun k => 7 * k, 0x12348000, 0x12348004⟩)
    (wr_rd _ _ (by rfl)) (by decide) (by decide) rfl rfl
  exact ⟨t, h, h1, h2, h3, h4 3 (by decide) (by decide) (by decide)⟩

end Verif.Props
