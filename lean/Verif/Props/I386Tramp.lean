import Verif.I386.TrampLemmas

/-! Trampolines of 32-bit x86 (C56). -/
namespace Verif.Props
open Verif Verif.I386 Verif.I386.Tr

/-- The entry point at `dest` is reached as `ffi_closure_i386`, `ffi_closure_STDCALL` and
`ffi_closure_REGISTER` expect: the closure in %eax, or on top of the stack with %eax as
the caller left it; `sp` is the caller's stack pointer (at the return address). -/
def X86Entered (e : Dest) (dest clo eax sp : Nat) (s : MState) : Prop :=
  s.eip = dest ∧
    if e = .register then s.eax = eax ∧ s.esp = sp - 4 ∧ leNat (s.mem.rd (sp - 4) 4) = clo
    else s.eax = clo ∧ s.esp = sp

/-- The function, its data and the interface description are in the closure. -/
def X86Fields (m : Mem) (clo cif fn ud : Nat) : Prop :=
  leNat (m.rd (clo + 16) 4) = cif ∧ leNat (m.rd (clo + 20) 4) = fn ∧ leNat (m.rd (clo + 24) 4) = ud

theorem x86_word {m : Mem} {a v : Nat} (h : Code m a (leBytes 4 v)) (hv : v < 2 ^ 32) : leNat (m.rd a 4) = v := by
  unfold Code at h
  rw [leBytes_length] at h
  rw [h, leNat4 v hv]

/-- C56: the code that `ffi_prep_closure_loc` writes, executed at any address where the
object is mapped, enters the closure of the convention with that address, and the
fields are found there.  Nothing but the word below the stack pointer changes. -/
theorem C56_dynamic {abi : Abi} {dest closure codeloc cif fn ud : Nat} {m0 m : Mem}
    (view : ∀ i, i < 28 → m (codeloc + i) = prepClosure abi dest closure codeloc cif fn ud m0 (closure + i))
    (hc : codeloc + 28 ≤ 2 ^ 32) (hd : dest < 2 ^ 32) (hf : cif < 2 ^ 32 ∧ fn < 2 ^ 32 ∧ ud < 2 ^ 32) {eax sp : Nat}
    (hs : 4 ≤ sp) (hs' : sp < 2 ^ 32) (stk : sp ≤ codeloc ∨ codeloc + 28 ≤ sp - 4) :
    ∃ s, steps 3 ⟨codeloc, eax, sp, m⟩ = some s ∧ X86Entered (destOf abi) dest codeloc eax sp s ∧
      X86Fields s.mem codeloc cif fn ud ∧ ∀ x, x < sp - 4 ∨ sp ≤ x → s.mem x = m x := by
  have im := prep_image.view view
  by_cases ha : abi = .register
  · rw [ha] at im ⊢
    refine ⟨_, dyn_run_push im hc hd hs hs' stk, ⟨rfl, ?_⟩, ⟨?_, ?_, ?_⟩, ?_⟩
    · rw [if_pos (show destOf Spec.X86.Conv.register = Dest.register from rfl)]
      exact ⟨rfl, rfl, x86_word Code.same (by omega)⟩
    · exact x86_word (im.cif.wr (by simp; omega)) hf.1
    · exact x86_word (im.fn.wr (by simp; omega)) hf.2.1
    · exact x86_word (im.ud.wr (by simp; omega)) hf.2.2
    · intro x hx
      dsimp only
      rw [Mem.wr_out _ _ _ _ (by simp; omega)]
  · have ho : op abi = 0xb8 := by cases abi <;> first | rfl | exact absurd rfl ha
    have he : destOf abi ≠ .register := by cases abi <;> first | (intro h; cases h; done) | exact absurd rfl ha
    rw [ho] at im
    refine ⟨_, dyn_run im hc hd, ⟨rfl, ?_⟩, ⟨x86_word im.cif hf.1, x86_word im.fn hf.2.1, x86_word im.ud hf.2.2⟩, ?_⟩
    · rw [if_neg he]
      exact ⟨rfl, rfl⟩
    · exact fun _ _ => rfl

example := fun m0 : Mem => C56_dynamic (abi := .register) (dest := 0x8049000) (closure := 0x20000) (codeloc := 0x20000)
  (cif := 5) (fn := 6) (ud := 7) (m0 := m0) (fun _ _ => rfl) (by decide) (by decide) (by decide) (eax := 9) (sp := 0xbffff000)
  (by decide) (by decide) (.inr (by decide))

/-- C56: the entry point chosen is the one of the convention: it goes on with the exit
code that removes the arguments exactly when the closure model (C54) says so, and it
keeps %eax exactly when %eax carries an argument. -/
theorem C56_entry (c : Cfg) :
    (destOf c.abi ≠ .i386 ↔ pops c .closure = true) ∧ (destOf c.abi = .register ↔ .eax ∈ Spec.X86.Conv.regs c.abi) := by
  unfold pops
  cases c.abi <;> simp [destOf, Spec.X86.Conv.regs]

example : destOf .pascal = .stdcall ∧ destOf .register = .register := ⟨rfl, rfl⟩

/-- A mapped trampoline table at `P`: every slot holds the code. -/
def X86Table (endbr : Bool) (P : Nat) (m : Mem) : Prop :=
  ∀ i, i < mapSize / slotSize endbr → Code m (P + i * slotSize endbr) (slotCode endbr)

/-- An `_alt` entry point at `T` that jumps to `dest`. -/
def X86Alt (endbr : Bool) (e : Dest) (T dest : Nat) (m : Mem) : Prop :=
  Code m T (altCode endbr e (w32 (dest + 2 ^ 32 - w32 (T + (altCode endbr e 0).length))))

theorem x86_slot_fit {endbr : Bool} {i : Nat} (hi : i < mapSize / slotSize endbr) :
    i * slotSize endbr + slotSize endbr ≤ 4096 ∧ 40 ≤ slotSize endbr := by
  have h : (i + 1) * slotSize endbr ≤ mapSize := (Nat.mul_le_mul_right _ hi).trans (Nat.div_mul_le_self _ _)
  rw [Nat.add_mul, Nat.one_mul] at h
  exact ⟨h, by cases endbr <;> simp [slotSize]⟩

theorem x86_slotMem_out {m : Mem} {B eax sp data x : Nat} (hs : 12 ≤ sp) (hx : x < sp - 12 ∨ sp ≤ x) :
    slotMem m B eax sp data x = m x := by
  unfold slotMem
  rw [Mem.wr_out _ _ _ _ (by simp; omega), Mem.wr_out _ _ _ _ (by simp; omega), Mem.wr_out _ _ _ _ (by simp; omega),
    Mem.wr_out _ _ _ _ (by simp; omega)]

theorem x86_slotMem_code {m : Mem} {B eax sp data a : Nat} {bs : List Byte} (h : Code m a bs) (hs : 12 ≤ sp)
    (hx : a + bs.length ≤ sp - 12 ∨ sp ≤ a) : Code (slotMem m B eax sp data) a bs :=
  h.congr fun i hi => x86_slotMem_out hs (by omega)

theorem x86_slotMem_words {m : Mem} {B eax sp data : Nat} (hs : 12 ≤ sp) :
    Code (slotMem m B eax sp data) (sp - 8) (leBytes 4 eax) ∧ Code (slotMem m B eax sp data) (sp - 4) (leBytes 4 data) := by
  unfold slotMem
  constructor
  · refine Code.wr (Code.wr (Code.wr Code.same ?_) ?_) ?_ <;> (simp; omega)
  · refine Code.wr Code.same ?_
    simp; omega

theorem x86_steps_add {a b : Nat} {s t : MState} (h : steps a s = some t) : steps (a + b) s = steps b t := by
  induction a generalizing s with
  | zero => rw [Nat.zero_add]; cases h; rfl
  | succ a ih =>
    rw [Nat.succ_add]
    simp only [steps] at h ⊢
    cases hs : step s with
    | none => rw [hs] at h; cases h
    | some u => rw [hs] at h; exact ih h

/-- The address of the code table, of the entry point and of the closure do not meet each
other or the stack that the trampoline uses. -/
structure X86Apart (P T closure sp : Nat) : Prop where
  table : P + 8192 ≤ 2 ^ 32
  alt : T + 20 ≤ 2 ^ 32
  stack : 12 ≤ sp ∧ sp < 2 ^ 32
  stackTable : sp ≤ P ∨ P + 8192 ≤ sp - 12
  stackAlt : sp ≤ T ∨ T + 20 ≤ sp - 12
  stackClosure : sp ≤ closure ∨ closure + 28 ≤ sp - 12
  closureTable : closure + 28 ≤ P ∨ P + 8192 ≤ closure
  closureAlt : closure + 28 ≤ T ∨ T + 20 ≤ closure
  altTable : T + 20 ≤ P ∨ P + 8192 ≤ T

theorem x86_alt_length (endbr : Bool) (e : Dest) (d : Nat) : (altCode endbr e d).length ≤ 20 := by
  cases endbr <;> cases e <;> simp [altCode, altBody]

theorem x86_prepStatic_code {closure parm alt cif fn ud a : Nat} {m : Mem} {bs : List Byte} (h : Code m a bs)
    (h1 : a + bs.length ≤ parm ∨ parm + 8 ≤ a) (h2 : a + bs.length ≤ closure ∨ closure + 28 ≤ a) :
    Code (prepClosureStatic closure parm alt cif fn ud m) a bs := by
  unfold prepClosureStatic
  refine Code.wr (Code.wr (Code.wr (Code.wr (Code.wr h ?_) ?_) ?_) ?_) ?_ <;> simp <;> omega

theorem x86_prepStatic {closure parm alt cif fn ud : Nat} {m : Mem} (h : closure + 28 ≤ parm ∨ parm + 8 ≤ closure) :
    Code (prepClosureStatic closure parm alt cif fn ud m) parm (leBytes 4 closure ++ leBytes 4 alt) ∧
    Code (prepClosureStatic closure parm alt cif fn ud m) (closure + 16) (leBytes 4 cif) ∧
    Code (prepClosureStatic closure parm alt cif fn ud m) (closure + 20) (leBytes 4 fn) ∧
    Code (prepClosureStatic closure parm alt cif fn ud m) (closure + 24) (leBytes 4 ud) := by
  unfold prepClosureStatic
  refine ⟨?_, ?_, ?_, Code.same⟩
  · refine Code.wr (Code.wr (Code.wr ?_ ?_) ?_) ?_ <;> try (simp; omega)
    exact Code.join (Code.wr Code.same (by simp)) (by rw [leBytes_length]; exact Code.same)
  · refine Code.wr (Code.wr Code.same ?_) ?_ <;> simp
  · exact Code.wr Code.same (by simp)

/-- C56: after `ffi_prep_closure_loc` has filled the parameter block of slot `i`, a call of
the slot runs through the `_alt` entry point into the closure of the convention with the
address of the object, at any address of the table and with or without `endbr`.  Nothing
but the 12 bytes below the stack pointer changes. -/
theorem C56_static {endbr : Bool} {abi : Abi} {P T dest closure cif fn ud : Nat} {m0 : Mem} (ht : X86Table endbr P m0)
    (hT : X86Alt endbr (destOf abi) T dest m0) {i : Nat} (hi : i < mapSize / slotSize endbr) {eax sp : Nat}
    (ap : X86Apart P T closure sp) (hd : dest < 2 ^ 32) (hx : eax < 2 ^ 32) (hcl : closure < 2 ^ 32)
    (hf : cif < 2 ^ 32 ∧ fn < 2 ^ 32 ∧ ud < 2 ^ 32) :
    let m := prepClosureStatic closure (P + mapSize + i * slotSize endbr) T cif fn ud m0
    ∃ n s, steps n ⟨P + i * slotSize endbr, eax, sp, m⟩ = some s ∧ X86Entered (destOf abi) dest closure eax sp s ∧
      X86Fields s.mem closure cif fn ud ∧ ∀ x, x < sp - 12 ∨ sp ≤ x → s.mem x = m x := by
  intro m
  obtain ⟨hfit, h40⟩ := x86_slot_fit hi
  obtain ⟨a1, a2, ⟨a3, a3'⟩, a4, a5, a6, a7, a8, a9⟩ := ap
  have hlen : (slotCode endbr).length ≤ 42 ∧ (slotCode endbr).length ≤ slotSize endbr := by cases endbr <;> decide
  have hal := x86_alt_length endbr (destOf abi) (w32 (dest + 2 ^ 32 - w32 (T + (altCode endbr (destOf abi) 0).length)))
  have hms : mapSize = 4096 := rfl
  have hcode : Code m (P + i * slotSize endbr) (slotCode endbr) :=
    x86_prepStatic_code (ht i hi) (by omega) (by omega)
  obtain ⟨hp, f1, f2, f3⟩ := x86_prepStatic (closure := closure) (parm := P + mapSize + i * slotSize endbr) (alt := T) (cif := cif)
    (fn := fn) (ud := ud) (m := m0) (by omega)
  have hT' : X86Alt endbr (destOf abi) T dest m := x86_prepStatic_code hT (by omega) (by omega)
  rw [show P + mapSize + i * slotSize endbr = P + i * slotSize endbr + 4096 by omega] at hp
  have hm : prepClosureStatic closure (P + i * slotSize endbr + 4096) T cif fn ud m0 = m := by
    show _ = prepClosureStatic closure (P + mapSize + i * slotSize endbr) T cif fn ud m0
    rw [show P + mapSize + i * slotSize endbr = P + i * slotSize endbr + 4096 by omega]
  rw [hm] at hp
  change Code m _ _ at f1 f2 f3
  clear_value m
  have run := slot_run (eax := eax) (sp := sp) hcode hp (by omega) hcl (by omega) a3 a3' (by omega) (by omega)
  obtain ⟨w1, w2⟩ := x86_slotMem_words (m := m) (B := P + i * slotSize endbr + off endbr) (eax := eax) (sp := sp)
    (data := closure) a3
  have hT2 : X86Alt endbr (destOf abi) T dest (slotMem m (P + i * slotSize endbr + off endbr) eax sp closure) :=
    x86_slotMem_code hT' a3 (by omega)
  have g1 := x86_word (x86_slotMem_code (B := P + i * slotSize endbr + off endbr) (eax := eax) (data := closure) f1 a3
    (by simp; omega)) hf.1
  have g2 := x86_word (x86_slotMem_code (B := P + i * slotSize endbr + off endbr) (eax := eax) (data := closure) f2 a3
    (by simp; omega)) hf.2.1
  have g3 := x86_word (x86_slotMem_code (B := P + i * slotSize endbr + off endbr) (eax := eax) (data := closure) f3 a3
    (by simp; omega)) hf.2.2
  unfold X86Alt at hT2
  by_cases he : destOf abi = .register
  · rw [he, show T + (altCode endbr .register 0).length = T + off endbr + 11 by
      cases endbr <;> simp [altCode, altBody, off] <;> omega] at hT2
    refine ⟨_, _, (x86_steps_add run).trans (alt_run_reg (eax := T) hT2 a2 hd w1 hx (by omega) a3'), ⟨rfl, ?_⟩, ⟨g1, g2, g3⟩, ?_⟩
    · rw [if_pos he]
      exact ⟨rfl, rfl, x86_word w2 hcl⟩
    · exact fun x h => x86_slotMem_out a3 h
  · have hlen2 : T + (altCode endbr (destOf abi) 0).length = T + off endbr + 12 := by
      generalize hq : destOf abi = q at *
      cases endbr <;> cases q <;> first | exact absurd rfl he | (simp [altCode, altBody, off] <;> omega)
    rw [hlen2] at hT2
    have wj := Code.join (xs := leBytes 4 eax) w1 (by rw [leBytes_length, show sp - 8 + 4 = sp - 4 by omega]; exact w2)
    refine ⟨_, _, (x86_steps_add run).trans (alt_run he (eax := T) hT2 a2 hd wj hcl (by omega) a3'), ⟨rfl, ?_⟩, ⟨g1, g2, g3⟩, ?_⟩
    · rw [if_neg he]
      exact ⟨rfl, rfl⟩
    · exact fun x h => x86_slotMem_out a3 h

/-- C56: a slot's code fits in the slot, parameter blocks lie in the page after the code,
and those of different slots do not overlap: preparing one closure changes no other. -/
theorem C56_blocks_disjoint (endbr : Bool) :
    (slotCode endbr).length ≤ slotSize endbr ∧
    ∀ i j, i < mapSize / slotSize endbr → j < mapSize / slotSize endbr → i ≠ j →
      i * slotSize endbr + 8 ≤ mapSize ∧
      (i * slotSize endbr + 8 ≤ j * slotSize endbr ∨ j * slotSize endbr + 8 ≤ i * slotSize endbr) := by
  refine ⟨by cases endbr <;> decide, ?_⟩
  intro i j hi hj hne
  obtain ⟨h1, h2⟩ := x86_slot_fit hi
  have hms : mapSize = 4096 := rfl
  refine ⟨by omega, ?_⟩
  rcases Nat.lt_or_gt_of_ne hne with h | h
  · have : (i + 1) * slotSize endbr ≤ j * slotSize endbr := Nat.mul_le_mul_right _ h
    rw [Nat.add_mul, Nat.one_mul] at this
    omega
  · have : (j + 1) * slotSize endbr ≤ i * slotSize endbr := Nat.mul_le_mul_right _ h
    rw [Nat.add_mul, Nat.one_mul] at this
    omega

/-- A table at `P` and an entry point at `T`. -/
def x86TableMem (endbr : Bool) (e : Dest) (P T dest : Nat) : Mem := fun x =>
  if x < P then (altCode endbr e (w32 (dest + 2 ^ 32 - w32 (T + (altCode endbr e 0).length)))).getD (x - T) 0
  else (slotCode endbr).getD ((x - P) % slotSize endbr) 0

theorem x86TableMem_table (endbr : Bool) (e : Dest) (P T dest : Nat) : X86Table endbr P (x86TableMem endbr e P T dest) := by
  intro i _
  apply Code.of_get
  intro k hk
  have hl : (slotCode endbr).length ≤ slotSize endbr := by cases endbr <;> decide
  unfold x86TableMem
  rw [if_neg (by omega), show P + i * slotSize endbr + k - P = k + i * slotSize endbr by omega, Nat.add_mul_mod_self_right,
    Nat.mod_eq_of_lt (by omega)]

theorem x86TableMem_alt {endbr : Bool} {e : Dest} {P T dest : Nat} (h : T + 20 ≤ P) :
    X86Alt endbr e T dest (x86TableMem endbr e P T dest) := by
  apply Code.of_get
  intro k hk
  have := x86_alt_length endbr e (w32 (dest + 2 ^ 32 - w32 (T + (altCode endbr e 0).length)))
  unfold x86TableMem
  rw [if_pos (by omega), Nat.add_sub_cancel_left]

example (endbr : Bool) := C56_static (endbr := endbr) (abi := .register) (P := 0x40000000) (T := 0x8049000) (dest := 0x8048000)
  (closure := 0x9000000) (cif := 5) (fn := 6) (ud := 7) (x86TableMem_table endbr _ _ _ _) (x86TableMem_alt (by decide))
  (i := 90) (by cases endbr <;> decide) (eax := 1) (sp := 0xbffff000)
  ⟨by decide, by decide, ⟨by decide, by decide⟩, .inr (by decide), .inr (by decide), .inr (by decide), .inl (by decide),
    .inr (by decide), .inl (by decide)⟩
  (by decide) (by decide) (by decide) (by decide)

/-- C56: the trampoline of a raw closure, executed at any address where the object is
mapped, enters the raw closure with that address in %eax. -/
theorem C56_raw {dest closure codeloc cif fn ud : Nat} {m0 m : Mem}
    (view : ∀ i, i < 28 → m (codeloc + i) = prepRaw dest closure codeloc cif fn ud m0 (closure + i))
    (hc : codeloc + 28 ≤ 2 ^ 32) (hd : dest < 2 ^ 32) (hf : cif < 2 ^ 32 ∧ fn < 2 ^ 32 ∧ ud < 2 ^ 32) (eax sp : Nat) :
    steps 2 ⟨codeloc, eax, sp, m⟩ = some ⟨dest, codeloc, sp, m⟩ ∧ X86Fields m codeloc cif fn ud := by
  have im := prepRaw_image.view view
  exact ⟨raw_run im hc hd, x86_word im.cif hf.1, x86_word im.fn hf.2.1, x86_word im.ud hf.2.2⟩

example := fun m0 : Mem => C56_raw (dest := 0x8049000) (closure := 0x20000) (codeloc := 0x20000)
  (cif := 5) (fn := 6) (ud := 7) (m0 := m0) (fun _ _ => rfl) (by decide) (by decide) (by decide) 9 0xbffff000

/-- C56 violated with static trampolines, for every raw closure:
`ffi_prep_raw_closure_loc` does not fill the parameter block, so the address that
`ffi_closure_alloc` gave out for calls leads to the target and data that were there
before (of an earlier closure, or zero), wherever `dest`, function and data are; and the
pointer to the trampoline's record in the first word of the object, which
`ffi_closure_free` needs, has been replaced by code. -/
theorem C56_raw_static {endbr : Bool} {P dest closure cif fn ud data target : Nat} {m0 : Mem} (ht : X86Table endbr P m0)
    {i : Nat} (hi : i < mapSize / slotSize endbr)
    (old : Code m0 (P + mapSize + i * slotSize endbr) (leBytes 4 data ++ leBytes 4 target)) (hdat : data < 2 ^ 32)
    (htar : target < 2 ^ 32) {eax sp : Nat} (hP : P + 8192 ≤ 2 ^ 32) (hs : 12 ≤ sp ∧ sp < 2 ^ 32)
    (x1 : sp ≤ P ∨ P + 8192 ≤ sp - 12) (x2 : closure + 28 ≤ P ∨ P + 8192 ≤ closure) :
    let m := prepRaw dest closure (P + i * slotSize endbr) cif fn ud m0
    (∃ n s, steps n ⟨P + i * slotSize endbr, eax, sp, m⟩ = some s ∧ s.eip = target ∧ s.esp = sp - 8 ∧
      leNat (s.mem.rd (sp - 4) 4) = data) ∧
    ∀ ftramp, 16 ∣ ftramp → leNat (m.rd closure 4) ≠ ftramp := by
  intro m
  obtain ⟨hfit, h40⟩ := x86_slot_fit hi
  have hms : mapSize = 4096 := rfl
  have out : ∀ {a : Nat} {bs : List Byte}, Code m0 a bs → a + bs.length ≤ closure ∨ closure + 28 ≤ a → Code m a bs := by
    intro a bs h hx
    show Code (prepRaw _ _ _ _ _ _ _) _ _
    unfold prepRaw
    refine Code.wr (Code.wr (Code.wr (Code.wr (Code.wr (Code.wr (Code.wr h ?_) ?_) ?_) ?_) ?_) ?_) ?_ <;> simp <;> omega
  have hlen : (slotCode endbr).length ≤ 42 ∧ (slotCode endbr).length ≤ slotSize endbr := by cases endbr <;> decide
  have hcode := out (ht i hi) (by omega)
  have hp := out old (by simp; omega)
  rw [show P + mapSize + i * slotSize endbr = P + i * slotSize endbr + 4096 by omega] at hp
  refine ⟨⟨_, _, slot_run (eax := eax) (sp := sp) hcode hp (by omega) hdat htar hs.1 hs.2 (by omega) (by omega), rfl, rfl,
    x86_word (x86_slotMem_words hs.1).2 hdat⟩, ?_⟩
  intro ftramp hft he
  have im : RawImage m closure dest (P + i * slotSize endbr) cif fn ud := prepRaw_image
  have h4 := im.self.part (o := 0) (n := 4) (by simp)
  rw [Nat.add_zero] at h4
  rw [h4] at he
  have hb : leNat ((([0xb8] ++ leBytes 4 (P + i * slotSize endbr)).drop 0).take 4) % 16 = 8 := by
    simp only [List.drop_zero, List.cons_append, List.nil_append, List.take_succ_cons, leNat]
    have : BitVec.toNat (184 : Byte) = 184 := rfl
    omega
  omega

example (endbr : Bool) := C56_raw_static (endbr := endbr) (P := 0x40000000) (dest := 0x8048000) (closure := 0x9000000)
  (cif := 5) (fn := 6) (ud := 7) (data := 0) (target := 0)
  (m0 := (x86TableMem endbr .i386 0x40000000 0x8049000 0).wr (0x40000000 + mapSize + 3 * slotSize endbr) (leBytes 4 0 ++ leBytes 4 0))
  (fun i hi => (x86TableMem_table endbr _ _ _ _ i hi).wr (.inl (by
    have := x86_slot_fit hi
    have hl : (slotCode endbr).length ≤ slotSize endbr := by cases endbr <;> decide
    have : mapSize = 4096 := rfl
    omega)))
  (i := 3) (by cases endbr <;> decide) Code.same (by decide) (by decide) (eax := 1) (sp := 0xbffff000) (by decide)
  ⟨by decide, by decide⟩ (.inr (by decide)) (.inl (by decide))

end Verif.Props
