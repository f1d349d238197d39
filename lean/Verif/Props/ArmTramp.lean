import Verif.Props.ArmAsm
import Verif.Arm.Tramp
import Verif.Ppc.Tramp

/-! C99: trampolines of 32-bit ARM, decoded from their bytes. -/
namespace Verif.Props
open Verif Verif.Arm Verif.Arm.Asm

variable {c : Ctx} {lo : Nat}

/-- C99: a closure is prepared for `FFI_SYSV` and `FFI_VFP` only, whatever kind it is of. -/
theorem C99_abi (entry : Bool → Nat) (abi used closure parm cif fn ud : Nat) (m : Mem) :
    ((prepClosure entry abi used closure cif fn ud m).isSome ↔ abi = 1 ∨ abi = 2) ∧
    ((prepStatic entry abi used closure parm cif fn ud m).isSome ↔ abi = 1 ∨ abi = 2) ∧
    ((prepGo entry abi used closure cif fn m).isSome ↔ abi = 1 ∨ abi = 2) := by
  have : ∀ {f : Bool → Mem}, ((selVfp abi used).map f).isSome ↔ abi = 1 ∨ abi = 2 := by
    intro f
    unfold selVfp
    rw [Option.isSome_map]
    split
    · simp [*]
    · split
      · simp [*]
      · simp only [Option.isSome_some, true_iff]; omega
  exact ⟨this, this, this⟩

example := C99_abi (fun v => if v then 4096 else 8192) 2 1 65536 12288 1 2 3 (fun _ => 0)

/-- Which entry point a closure gets: that for VFP registers iff the ABI is `FFI_VFP` and the
signature uses them. -/
def armVfp (abi used : Nat) : Bool := decide (abi = 2 ∧ used ≠ 0)

theorem arm_sel {abi used : Nat} (h : abi = 1 ∨ abi = 2) : selVfp abi used = some (armVfp abi used) := by
  unfold selVfp armVfp
  rcases h with h | h <;> subst h <;> simp

/-- The trampoline has done what it should: execution is at the entry point, with the address
of the trampoline in ip, and nothing else has changed. -/
def ArmJumped (lo code entry : Nat) (s w : MState) : Prop :=
  w.pc = entry ∧ w.r = upd s.r 12 code ∧ ∀ y, y < lo ∨ s.r 13 ≤ y → w.mem y = s.mem y

theorem arm_move {m m' : Mem} {a b n k : Nat} {bs : List Byte} (h : ∀ i, i < n → m (a + i) = m' (b + i)) (hk : k + bs.length ≤ n)
    (hc : Code m' (b + k) bs) : Code m (a + k) bs := by
  unfold Code at *
  have : m.rd (a + k) bs.length = m'.rd (b + k) bs.length := by
    apply bytes_ext
    · rw [Mem.rd_length, Mem.rd_length]
    · intro i hi
      rw [Mem.rd_length] at hi
      rw [Mem.rd_getD _ _ _ _ hi, Mem.rd_getD _ _ _ _ hi, Nat.add_assoc, h _ (by omega), ← Nat.add_assoc]
  rw [this, hc]

/-- C99, dynamic trampolines: `ffi_prep_closure_loc` has written a closure, which is mapped for
execution at `code`.  However it is interrupted, the trampoline decodes at every step and comes
to the entry point for the signature with the address of the closure in ip. -/
theorem C99_dynamic {entry : Bool → Nat} {abi used closure cif fn ud code : Nat} {m m' : Mem} {s t : MState}
    (hp : prepClosure entry abi used closure cif fn ud m = some m') (hv : ∀ i, i < 24 → s.mem (code + i) = m' (closure + i))
    (h4 : code % 4 = 0) (hl : code + 24 ≤ 2 ^ 32) (he : entry (armVfp abi used) < 2 ^ 32) (hd : code + 24 ≤ lo ∨ s.r 13 ≤ code)
    (hpc : s.pc = code) (hr : TReach lo s t) :
    ((∃ v, tstep t = some v) ∧ t.r 13 = s.r 13 ∧ t.r 14 = s.r 14 ∧ ∃ w, TReach lo t w ∧ ArmJumped lo code (entry (armVfp abi used)) s w) ∨
    ∃ w, ArmJumped lo code (entry (armVfp abi used)) s w ∧ TReach lo w t := by
  have habi : abi = 1 ∨ abi = 2 := (C99_abi entry abi used closure 0 cif fn ud m).1.1 (by rw [hp]; rfl)
  obtain ⟨ht, -⟩ := prep_tramp (arm_sel habi) hp
  have mv : ∀ {k : Nat} {bs : List Byte}, k + bs.length ≤ 24 → Code m' (closure + k) bs → Code s.mem (code + k) bs :=
    fun hk hc => arm_move hv hk hc
  have ht' : Tramp s.mem code (entry (armVfp abi used)) :=
    ⟨by simpa using mv (k := 0) (by simp) (by simpa using ht.w0), mv (by simp) ht.w1, mv (by simp) ht.entry⟩
  have hst := dyn_step (lo := lo) ht' h4 (by omega) he (by omega)
  have h0 : DynAt lo code (entry (armVfp abi used)) s 0 s := ⟨fun _ _ => rfl, hpc, rfl⟩
  rcases stages dyn_irq hst hr (Nat.zero_le _) h0 with ⟨j, hj, hP⟩ | ⟨w, hw, hr'⟩
  · obtain ⟨v, hv, -⟩ := hst j t hj hP
    obtain ⟨w, hw, hr'⟩ := stages_end (lo := lo) hst (2 - j) (by omega) hP
    refine .inl ⟨⟨v, hv⟩, ?_, ?_, w, hr', hw.2.1, hw.2.2, hw.1⟩
    · match j, hP with
      | 0, h => rw [h.2.2]
      | 1, h => rw [h.2.2]; rfl
    · match j, hP with
      | 0, h => rw [h.2.2]
      | 1, h => rw [h.2.2]; rfl
  · exact .inr ⟨w, ⟨hw.2.1, hw.2.2, hw.1⟩, hr'⟩

/-- Execution at the label of an entry point in sysv.S. -/
def armAt (l : Lbl) (w : MState) (sv : Nat → List Byte) (le : Bool) : St := ⟨.at_ (off l), w.r, sv, le, w.mem⟩

/-- The fields in memory are what the inner function gets. -/
theorem arm_inner_fields {e : ArmEntry} (hgo : e ≠ .go) {vfp : Bool} {s f : St} {a cif fn ud : Nat} (h : ArmClosPre e vfp lo s) (hr : Reach c lo s f)
    (ha : f.pc = .out a) (hF : Fields s.mem (e.obj s) cif fn ud) (hc : cif < 2 ^ 32) (hn : fn < 2 ^ 32) (hu : ud < 2 ^ 32) :
    f.r 0 = cif ∧ f.r 1 = fn ∧ f.r 2 = ud := by
  obtain ⟨-, hag⟩ := arm_entered h hr ha
  have e0 : (armInner e vfp c s).r 0 = leNat (s.mem.rd (e.obj s + cifAt (decide (e = .go))) 4) := rfl
  have e1 : (armInner e vfp c s).r 1 = leNat (s.mem.rd (e.obj s + cifAt (decide (e = .go)) + 4) 4) := rfl
  have e2 : (armInner e vfp c s).r 2 = udata (decide (e = .go)) s.mem (e.obj s) := rfl
  rw [hag.r, e0, e1, e2, decide_eq_false hgo]
  exact ⟨rd_word hF.cif hc, rd_word hF.fn hn, rd_word hF.ud hu⟩

/-- C99, dynamic trampolines composed with the entry points: the inner function is called with
the `ffi_cif`, function and user data given to `ffi_prep_closure_loc`. -/
theorem C99_dynamic_inner {entry : Bool → Nat} {abi used closure cif fn ud code : Nat} {m m' : Mem} {s w : MState}
    (hp : prepClosure entry abi used closure cif fn ud m = some m') (hv : ∀ i, i < 24 → s.mem (code + i) = m' (closure + i))
    (hw : ArmJumped lo code (entry (armVfp abi used)) s w) (hd : code + 24 ≤ lo ∨ s.r 13 ≤ code) (hroom : lo + 120 ≤ s.r 13)
    (hsp : s.r 13 < 2 ^ 32) (hlr : s.r 14 < 2 ^ 32) {sv : Nat → List Byte} (hs : ∀ i, i < 16 → (sv i).length = 4) {le : Bool}
    (hc : cif < 2 ^ 32) (hn : fn < 2 ^ 32) (hu : ud < 2 ^ 32) {f : St} (hr : Reach c lo (armAt (.clos (armVfp abi used)) w sv le) f) {a : Nat}
    (ha : f.pc = .out a) :
    a = c.ext (if armVfp abi used then 1 else 0) ∧ f.r 0 = cif ∧ f.r 1 = fn ∧ f.r 2 = ud ∧ Saved f.r s.r := by
  have habi : abi = 1 ∨ abi = 2 := (C99_abi entry abi used closure 0 cif fn ud m).1.1 (by rw [hp]; rfl)
  obtain ⟨-, hF⟩ := prep_tramp (arm_sel habi) hp
  obtain ⟨w1, w2, w3⟩ := hw
  have r12 : w.r 12 = code := by rw [w2]; rfl
  have r13 : w.r 13 = s.r 13 := by rw [w2]; rfl
  have r14 : w.r 14 = s.r 14 := by rw [w2]; rfl
  have mv : ∀ {k : Nat} {bs : List Byte}, k + bs.length ≤ 24 → Code m' (closure + k) bs → Code w.mem (code + k) bs :=
    fun hk hc => arm_move (fun i hi => by rw [w3 _ (by omega), hv i hi]) hk hc
  have pre : ArmClosPre .closure (armVfp abi used) lo (armAt (.clos (armVfp abi used)) w sv le) :=
    ⟨rfl, by show _ ≤ w.r 13; omega, by show w.r 13 < _; omega, by show w.r 14 < _; omega, by show w.r 12 + 24 ≤ lo ∨ w.r 13 ≤ w.r 12; omega, hs⟩
  have fl : Fields (armAt (.clos (armVfp abi used)) w sv le).mem (ArmEntry.closure.obj (armAt (.clos (armVfp abi used)) w sv le)) cif fn ud := by
    show Fields w.mem (w.r 12) cif fn ud
    rw [r12]
    exact ⟨mv (by simp) hF.cif, mv (by simp) hF.fn, mv (by simp) hF.ud⟩
  obtain ⟨f0, f1, f2⟩ := arm_inner_fields (by decide) pre hr ha fl hc hn hu
  obtain ⟨ea, hag⟩ := arm_entered pre hr ha
  refine ⟨ea, f0, f1, f2, fun i h1 h2 => ?_⟩
  rw [hag.r, (arm_inner_regs).2.2.2 i h1 h2]
  show w.r i = _
  rw [w2]
  exact if_neg (by omega)

/-- C99, Go closures: called with its address in ip, a closure prepared by
`ffi_prep_go_closure` holds the address of the entry point for the signature, and the inner
function is called with the `ffi_cif` and function it was given, and the closure itself. -/
theorem C99_go {entry : Bool → Nat} {abi used closure cif fn : Nat} {m m' : Mem} (hp : prepGo entry abi used closure cif fn m = some m')
    (he : entry (armVfp abi used) < 2 ^ 32) (hc : cif < 2 ^ 32) (hn : fn < 2 ^ 32) {s f : St} (h : ArmClosPre .go (armVfp abi used) lo s)
    (h12 : s.r 12 = closure) (hm : ∀ i, i < 12 → s.mem (closure + i) = m' (closure + i)) (hr : Reach c lo s f) {a : Nat} (ha : f.pc = .out a) :
    leNat (m'.rd closure 4) = entry (armVfp abi used) ∧ a = c.ext (if armVfp abi used then 1 else 0) ∧ f.r 0 = cif ∧ f.r 1 = fn ∧ f.r 2 = closure := by
  have habi : abi = 1 ∨ abi = 2 := (C99_abi entry abi used closure 0 cif fn 0 m).2.2.1 (by rw [hp]; rfl)
  unfold prepGo at hp
  rw [arm_sel habi] at hp
  simp only [Option.map_some, Option.some.injEq] at hp
  have c0 : Code m' closure (leBytes 4 (entry (armVfp abi used))) := by
    rw [← hp]; exact Code.wr (Code.wr Code.same (by simp)) (by simp)
  have c1 : Code m' (closure + 4) (leBytes 4 cif) := by rw [← hp]; exact Code.wr Code.same (by simp)
  have c2 : Code m' (closure + 8) (leBytes 4 fn) := by rw [← hp]; exact Code.same
  have mv : ∀ {k : Nat} {bs : List Byte}, k + bs.length ≤ 12 → Code m' (closure + k) bs → Code s.mem (closure + k) bs :=
    fun hk hc => hc.congr fun i hi => by rw [Nat.add_assoc]; exact hm _ (by omega)
  obtain ⟨ea, hag⟩ := arm_entered h hr ha
  have e0 : (armInner .go (armVfp abi used) c s).r 0 = leNat (s.mem.rd (s.r 12 + 4) 4) := rfl
  have e1 : (armInner .go (armVfp abi used) c s).r 1 = leNat (s.mem.rd (s.r 12 + 8) 4) := rfl
  have e2 : (armInner .go (armVfp abi used) c s).r 2 = s.r 12 := rfl
  refine ⟨rd_word c0 he, ea, ?_, ?_, ?_⟩
  · rw [hag.r, e0, h12]; exact rd_word (mv (by simp) c1) hc
  · rw [hag.r, e1, h12]; exact rd_word (mv (by simp) c2) hn
  · rw [hag.r, e2, h12]

/-! ## Static trampolines -/

theorem arm_table (k i : Nat) (hk : k < 204) (hi : i < 20) : codeTable.getD (20 * k + i) 0 = (slotWords.flatMap (leBytes 4)).getD i 0 :=
  Ppc.Asm.flat_getD (slotWords.flatMap (leBytes 4)) i hi _ k hk

theorem arm_table_length : codeTable.length = 4080 := by decide +kernel

/-- A slot of a table mapped at `T`. -/
theorem arm_slot {m : Mem} {T k : Nat} (hT : Code m T codeTable) (hk : k < 204) : Code m (T + 20 * k) (slotWords.flatMap (leBytes 4)) := by
  unfold Code at *
  rw [arm_table_length] at hT
  rw [show (slotWords.flatMap (leBytes 4)).length = 20 from rfl]
  apply bytes_ext
  · rw [Mem.rd_length]; rfl
  · intro i hi
    rw [Mem.rd_length] at hi
    rw [Mem.rd_getD _ _ _ _ hi, ← arm_table k i hk hi, ← hT, Mem.rd_getD _ _ _ _ (by omega), Nat.add_assoc]

/-- A static trampoline has done what it should: execution is at the entry point; the data are
at the stack pointer plus 4, which is 8 lower. -/
def ArmPushed (lo data entry : Nat) (s w : MState) : Prop :=
  w.pc = entry ∧ w.r 13 = s.r 13 - 8 ∧ (∀ i, i ≠ 12 → i ≠ 13 → w.r i = s.r i) ∧ leNat (w.mem.rd (s.r 13 - 4) 4) = data ∧
    ∀ y, y < lo ∨ s.r 13 ≤ y → w.mem y = s.mem y

/-- What `ffi_prep_closure_loc` writes with a static trampoline. -/
theorem arm_static_mem {alt : Bool → Nat} {abi used closure parm cif fn ud : Nat} {m m' : Mem}
    (hp : prepStatic alt abi used closure parm cif fn ud m = some m') (hd : parm + 8 ≤ closure ∨ closure + 24 ≤ parm) :
    (abi = 1 ∨ abi = 2) ∧ Code m' parm (leBytes 4 closure) ∧ Code m' (parm + 4) (leBytes 4 (alt (armVfp abi used))) ∧ Fields m' closure cif fn ud := by
  have habi : abi = 1 ∨ abi = 2 := (C99_abi alt abi used closure parm cif fn ud m).2.1.1 (by rw [hp]; rfl)
  unfold prepStatic at hp
  rw [arm_sel habi] at hp
  simp only [Option.map_some, Option.some.injEq] at hp
  rw [← hp]
  have out : ∀ {a : Nat} {bs : List Byte} {m2 : Mem}, Code m2 a bs → parm ≤ a → a + bs.length ≤ parm + 8 → Code (fields closure cif fn ud m2) a bs :=
    fun h h1 h2 => h.congr fun i hi => fields_out (by omega)
  exact ⟨habi, out Code.same (by omega) (by simp), out (Code.wr Code.same (by simp)) (by omega) (by simp), fields_ok⟩

/-- C99, static trampolines: the table is mapped at `T`, its parameters 4096 bytes further.
However it is interrupted, every slot comes to the entry point set for it with its closure
pushed; nothing at or above the stack pointer of the caller is changed. -/
theorem C99_static {alt : Bool → Nat} {abi used closure cif fn ud T k : Nat} {m m' : Mem} {s t : MState} (hk : k < 204)
    (hp : prepStatic alt abi used closure (T + 4096 + 20 * k) cif fn ud m = some m')
    (hdj : T + 4096 + 20 * k + 8 ≤ closure ∨ closure + 24 ≤ T + 4096 + 20 * k)
    (hT : Code s.mem T codeTable) (hv : ∀ i, i < 8 → s.mem (T + 4096 + 20 * k + i) = m' (T + 4096 + 20 * k + i))
    (h4 : T % 4 = 0) (hl : T + 8192 ≤ 2 ^ 32) (hcl : closure < 2 ^ 32) (he : alt (armVfp abi used) < 2 ^ 32)
    (hd : T + 8192 ≤ lo ∨ s.r 13 ≤ T) (hroom : lo + 8 ≤ s.r 13) (hsp : s.r 13 < 2 ^ 32) (hpc : s.pc = T + 20 * k) (hr : TReach lo s t) :
    ((∃ v, tstep t = some v) ∧ t.r 14 = s.r 14 ∧ ∃ w, TReach lo t w ∧ ArmPushed lo closure (alt (armVfp abi used)) s w) ∨
    ∃ w, ArmPushed lo closure (alt (armVfp abi used)) s w ∧ TReach lo w t := by
  obtain ⟨-, p1, p2, -⟩ := arm_static_mem hp hdj
  have q1 : leNat (s.mem.rd (T + 20 * k + 4096) 4) = closure := by
    rw [show T + 20 * k + 4096 = T + 4096 + 20 * k by omega]
    exact rd_word (p1.congr fun i hi => hv i (by rw [leBytes_length] at hi; omega)) hcl
  have q2 : leNat (s.mem.rd (T + 20 * k + 4100) 4) = alt (armVfp abi used) := by
    rw [show T + 20 * k + 4100 = T + 4096 + 20 * k + 4 by omega]
    exact rd_word (p2.congr fun i hi => by rw [Nat.add_assoc]; exact hv (4 + i) (by rw [leBytes_length] at hi; omega)) he
  have hst := slot_step (lo := lo) (s := s) (arm_slot hT hk) (by omega) (by omega) (by omega) hsp (by omega) q1 q2 hcl (by omega)
  have h0 : SlotAt lo (T + 20 * k) closure (alt (armVfp abi used)) s 0 s := ⟨fun _ _ => rfl, hpc, rfl⟩
  have fin : ∀ {w}, SlotAt lo (T + 20 * k) closure (alt (armVfp abi used)) s 5 w → ArmPushed lo closure (alt (armVfp abi used)) s w := by
    intro w hw
    obtain ⟨w0, w1, w2, w3⟩ := hw
    refine ⟨w1, by rw [w2]; rfl, fun i h1 h2 => ?_, w3, w0⟩
    rw [w2]
    simp only [upd]
    rw [if_neg h1, if_neg h2]
  rcases stages (slot_irq (by omega)) hst hr (Nat.zero_le _) h0 with ⟨j, hj, hP⟩ | ⟨w, hw, hr'⟩
  · obtain ⟨v, hv, -⟩ := hst j t hj hP
    obtain ⟨w, hw, hr'⟩ := stages_end (lo := lo) hst (5 - j) (by omega) hP
    refine .inl ⟨⟨v, hv⟩, ?_, w, hr', fin hw⟩
    match j, hP with
    | 0, h => rw [h.2.2]
    | 1, h => rw [h.2.2]; rfl
    | 2, h => rw [h.2.2]; rfl
    | 3, h => rw [h.2.2]; rfl
    | 4, h => rw [h.2.2.1]; rfl
  · exact .inr ⟨w, fin hw, hr'⟩

/-- C99, static trampolines composed with the entry points. -/
theorem C99_static_inner {alt : Bool → Nat} {abi used closure parm cif fn ud : Nat} {m m' : Mem} {s w : MState}
    (hp : prepStatic alt abi used closure parm cif fn ud m = some m') (hdj : parm + 8 ≤ closure ∨ closure + 24 ≤ parm)
    (hv : ∀ i, i < 24 → 12 ≤ i → s.mem (closure + i) = m' (closure + i)) (hw : ArmPushed lo closure (alt (armVfp abi used)) s w)
    (hd : closure + 24 ≤ lo ∨ s.r 13 ≤ closure) (hroom : lo + 120 ≤ s.r 13) (hsp : s.r 13 < 2 ^ 32) (hlr : s.r 14 < 2 ^ 32)
    {sv : Nat → List Byte} (hs : ∀ i, i < 16 → (sv i).length = 4) {le : Bool} (hc : cif < 2 ^ 32) (hn : fn < 2 ^ 32) (hu : ud < 2 ^ 32)
    {f : St} (hr : Reach c lo (armAt (.alt (armVfp abi used)) w sv le) f) {a : Nat} (ha : f.pc = .out a) :
    a = c.ext (if armVfp abi used then 1 else 0) ∧ f.r 0 = cif ∧ f.r 1 = fn ∧ f.r 2 = ud ∧ f.r 3 = s.r 13 - 112 ∧ Saved f.r s.r ∧
    ∀ y, s.r 13 ≤ y → f.mem y = s.mem y := by
  obtain ⟨-, -, -, hF⟩ := arm_static_mem hp hdj
  obtain ⟨w1, w2, w3, w4, w5⟩ := hw
  have mv : ∀ {k : Nat} {bs : List Byte}, 12 ≤ k → k + bs.length ≤ 24 → Code m' (closure + k) bs → Code w.mem (closure + k) bs := by
    intro k bs h12 hk hc
    refine hc.congr fun i hi => ?_
    rw [w5 _ (by omega), Nat.add_assoc, hv _ (by omega) (by omega)]
  have top : ArmEntry.alt.top (armAt (.alt (armVfp abi used)) w sv le) = s.r 13 := by show w.r 13 + 8 = _; omega
  have obj : ArmEntry.alt.obj (armAt (.alt (armVfp abi used)) w sv le) = closure := by
    show leNat (w.mem.rd (w.r 13 + 4) 4) = _
    rw [w2, show s.r 13 - 8 + 4 = s.r 13 - 4 by omega, w4]
  have r14 : w.r 14 = s.r 14 := w3 14 (by omega) (by omega)
  have pre : ArmClosPre .alt (armVfp abi used) lo (armAt (.alt (armVfp abi used)) w sv le) :=
    ⟨rfl, by omega, by omega, by show w.r 14 < _; omega, by omega, hs⟩
  have fl : Fields (armAt (.alt (armVfp abi used)) w sv le).mem (ArmEntry.alt.obj (armAt (.alt (armVfp abi used)) w sv le)) cif fn ud := by
    rw [obj]
    exact ⟨mv (by omega) (by simp) hF.cif, mv (by omega) (by simp) hF.fn, mv (by omega) (by simp) hF.ud⟩
  obtain ⟨f0, f1, f2⟩ := arm_inner_fields (by decide) pre hr ha fl hc hn hu
  obtain ⟨-, -, hC⟩ := C97_closure_enter pre hr
  obtain ⟨ea, -, -, -, e3, -, -, -, esv, hmem⟩ := hC a ha
  refine ⟨ea, f0, f1, f2, ?_, fun i h1 h2 => ?_, fun y hy => ?_⟩
  · rw [e3]
    show ArmEntry.alt.top (armAt (.alt (armVfp abi used)) w sv le) - 16 - 96 = _
    rw [top]; omega
  · rw [esv i h1 h2]
    exact w3 i (by omega) (by omega)
  · have hag := (arm_entered pre hr ha).2
    rw [hag.mem y (.inr (.inl (by rw [top]; omega)))]
    have hl : (armInner .alt (armVfp abi used) c (armAt (.alt (armVfp abi used)) w sv le)).mem =
        frameMem (armVfp abi used) (ArmEntry.alt.top (armAt (.alt (armVfp abi used)) w sv le) - 120) (w.r 14) sv
          (w.mem.wr (ArmEntry.alt.top (armAt (.alt (armVfp abi used)) w sv le) - 120 + 104)
            (words (upd (upd w.r 12 (ArmEntry.alt.obj (armAt (.alt (armVfp abi used)) w sv le))) 13
              (ArmEntry.alt.top (armAt (.alt (armVfp abi used)) w sv le))) [0, 1, 2, 3])) := by
      unfold armInner closState
      dsimp only
      rw [show upd (upd (armAt (.alt (armVfp abi used)) w sv le).r 12 (ArmEntry.alt.obj (armAt (.alt (armVfp abi used)) w sv le))) 13
              (ArmEntry.alt.top (armAt (.alt (armVfp abi used)) w sv le)) 14 = w.r 14 from rfl]
      rfl
    rw [hl, top, frameMem_out hs (.inr (by omega)), Mem.wr_out _ _ _ _ (by simp; omega), w5 y (.inr hy)]

/-! ## Cases -/

/-- The addresses of the entry points, with sysv.S at 1048576. -/
def armEntries (v : Bool) : Nat := 1048576 + off (.clos v)
def armAlts (v : Bool) : Nat := 1048576 + off (.alt v)

theorem armEntries_lt (v : Bool) : armEntries v < 2 ^ 32 ∧ armAlts v < 2 ^ 32 := by cases v <;> decide +kernel

/-- A closure at 65536 for a signature that uses VFP registers. -/
def armDynMem : Mem := (prepClosure armEntries 2 4 65536 11 22 33 (fun _ => 0)).getD fun _ => 0

theorem armDyn_prep : prepClosure armEntries 2 4 65536 11 22 33 (fun _ => 0) = some armDynMem := rfl

/-- The closure is called. -/
def armDynState : MState := ⟨65536, fun i => if i = 13 then 4096 else i, armDynMem⟩

example (hr : TReach 100 armDynState t) := C99_dynamic armDyn_prep (fun _ _ => rfl) (by decide) (by decide) (armEntries_lt _).1 (.inr (by decide)) rfl hr
example (hw : ArmJumped 100 65536 (armEntries (armVfp 2 4)) armDynState w) (hr : Reach c 100 (armAt (.clos (armVfp 2 4)) w (fun _ => [1, 2, 3, 4]) false) f)
    (ha : f.pc = .out a) :=
  C99_dynamic_inner armDyn_prep (fun _ _ => rfl) hw (.inr (by decide)) (by decide) (by decide) (by decide) (fun _ _ => rfl) (by decide) (by decide) (by decide) hr ha

/-- A Go closure at 65536, called with the stack pointer at 4096. -/
def armGoMem : Mem := (prepGo armEntries 2 0 65536 11 22 (fun _ => 0)).getD fun _ => 0

theorem armGo_prep : prepGo armEntries 2 0 65536 11 22 (fun _ => 0) = some armGoMem := rfl

def armGoState : St := { armAsmEntry .go false with mem := armGoMem }

theorem armGo_pre : ArmClosPre .go (armVfp 2 0) 100 armGoState :=
  ⟨rfl, by decide +kernel, by decide +kernel, by decide, .inr (by decide +kernel), fun _ _ => rfl⟩

example (hr : Reach c 100 armGoState f) (ha : f.pc = .out a) :=
  C99_go armGo_prep (armEntries_lt _).1 (by decide) (by decide) armGo_pre rfl (fun _ _ => rfl) hr ha

/-- Slot 3 of a table at 8192, with its parameters, and a closure at 65536. -/
def armStaMem : Mem := (prepStatic armAlts 1 4 65536 (8192 + 4096 + 20 * 3) 11 22 33 (Mem.wr (fun _ => 0) 8192 codeTable)).getD fun _ => 0

theorem armSta_prep : prepStatic armAlts 1 4 65536 (8192 + 4096 + 20 * 3) 11 22 33 (Mem.wr (fun _ => 0) 8192 codeTable) = some armStaMem := rfl

theorem armSta_table : Code armStaMem 8192 codeTable := by
  have h : Code (Mem.wr (fun _ => 0) 8192 codeTable) 8192 codeTable := Code.same
  have e : armStaMem = fields 65536 11 22 33 (((Mem.wr (fun _ => 0) 8192 codeTable).wr (8192 + 4096 + 20 * 3 + 4) (leBytes 4 (armAlts false))).wr
    (8192 + 4096 + 20 * 3) (leBytes 4 65536)) := rfl
  rw [e]
  refine h.congr fun i hi => ?_
  rw [arm_table_length] at hi
  rw [fields_out (.inl (by omega)), Mem.wr_out _ _ _ _ (.inl (by omega)), Mem.wr_out _ _ _ _ (.inl (by omega))]

def armStaState : MState := ⟨8192 + 20 * 3, fun i => if i = 13 then 4096 else i, armStaMem⟩

example (hr : TReach 100 armStaState t) :=
  C99_static (T := 8192) (k := 3) (s := armStaState) (by decide) armSta_prep (.inl (by decide)) armSta_table (fun _ _ => by rw [armStaState]) (by decide +kernel) (by decide +kernel) (by decide +kernel) (armEntries_lt _).2 (.inr (by decide +kernel))
    (by decide +kernel) (by decide +kernel) rfl hr
example (hw : ArmPushed 100 65536 (armAlts (armVfp 1 4)) armStaState w) (hr : Reach c 100 (armAt (.alt (armVfp 1 4)) w (fun _ => [1, 2, 3, 4]) false) f)
    (ha : f.pc = .out a) :=
  C99_static_inner armSta_prep (.inl (by decide +kernel)) (fun _ _ _ => rfl) hw (.inr (by decide +kernel)) (by decide +kernel) (by decide +kernel) (by decide +kernel) (fun _ _ => rfl)
    (by decide +kernel) (by decide +kernel) (by decide +kernel) hr ha

end Verif.Props
