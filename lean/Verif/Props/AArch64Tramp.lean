import Verif.AArch64.TrampLemmas

/-! Trampolines of AArch64 (C58). -/
namespace Verif.Props
open Verif Verif.A64.Tr

/-- The entry point at `dest` is reached as `ffi_closure_SYSV` and `ffi_closure_SYSV_V`
expect: the closure in x17, the stack pointer and every register but the two that a
procedure linkage may use (x16, x17) as the caller left them; the return address (x30)
among them. -/
def A64Entered (dest clo : Nat) (x : Nat → Nat) (sp : Nat) (s : MState) : Prop :=
  s.pc = dest ∧ s.x 17 = clo ∧ s.sp = sp ∧ ∀ r, r ≠ 16 → r ≠ 17 → s.x r = x r

/-- The interface description, the function and its data, at the offset of the build. -/
def A64Fields (off : Nat) (m : Mem) (clo cif fn ud : Nat) : Prop :=
  leNat (m.rd (clo + off) 8) = cif ∧ leNat (m.rd (clo + off + 8) 8) = fn ∧ leNat (m.rd (clo + off + 16) 8) = ud

theorem a64_word {m : Mem} {a v : Nat} (h : Code m a (leBytes 8 v)) (hv : v < 2 ^ 64) : leNat (m.rd a 8) = v := by
  unfold Code at h
  rw [leBytes_length] at h
  rw [h, leNat8 hv]

theorem a64_upd {x : Nat → Nat} {n v r : Nat} (h : r ≠ n) : upd x n v r = x r := if_neg h

/-- C58: the code that `ffi_prep_closure_loc` writes, executed at any address where the
object is mapped, enters the closure with that address, and the fields are found there.
No memory changes. -/
theorem C58_dynamic {start closure codeloc cif fn ud : Nat} {m0 m : Mem}
    (view : ∀ i, i < 48 → m (codeloc + i) = prepClosure start closure cif fn ud m0 (closure + i))
    (h4 : 4 ∣ codeloc) (hc : codeloc + 48 ≤ 2 ^ 64) (hs : start < 2 ^ 64) (hf : cif < 2 ^ 64 ∧ fn < 2 ^ 64 ∧ ud < 2 ^ 64)
    (x : Nat → Nat) (sp : Nat) :
    ∃ s, steps 3 ⟨codeloc, x, sp, m⟩ = some s ∧ A64Entered start codeloc x sp s ∧ s.mem = m ∧
      A64Fields 24 m codeloc cif fn ud := by
  have im := prep_image.view view
  refine ⟨_, dyn_run im h4 hc hs, ⟨rfl, rfl, rfl, ?_⟩, rfl, a64_word im.cif hf.1, a64_word im.fn hf.2.1, a64_word im.ud hf.2.2⟩
  intro r h16 h17
  exact (a64_upd h17).trans (a64_upd h16)

example := fun m0 : Mem => C58_dynamic (start := 0xffff80001000) (closure := 0x20000) (codeloc := 0x20000)
  (cif := 5) (fn := 6) (ud := 7) (m0 := m0) (fun _ _ => rfl) (by decide) (by decide) (by decide) (by decide)
  (fun r => r) 0xfffffff0

/-- C58: neither does preparing the closure change anything but its 48 bytes. -/
theorem C58_dynamic_footprint {start closure cif fn ud : Nat} {m : Mem} {x : Nat} (hx : x < closure ∨ closure + 48 ≤ x) :
    prepClosure start closure cif fn ud m x = m x := by
  unfold prepClosure
  have hl : trampoline.length = 16 := rfl
  rw [Mem.wr_out _ _ _ _ (by simp; omega), Mem.wr_out _ _ _ _ (by simp; omega), Mem.wr_out _ _ _ _ (by simp; omega),
    Mem.wr_out _ _ _ _ (by simp; omega), Mem.wr_out _ _ _ _ (by rw [hl]; omega)]

example (m : Mem) := C58_dynamic_footprint (start := 1) (closure := 48) (cif := 2) (fn := 3) (ud := 4) (m := m) (x := 96)
  (.inr (by decide))

/-- A mapped trampoline table at `P`: every slot holds the code. -/
def A64Table (P : Nat) (m : Mem) : Prop :=
  ∀ i, i < mapSize / slotSize → Code m (P + i * slotSize) (bytesOf slotWords)

/-- An `_alt` entry point at `T` that branches to `dest`. -/
def A64Alt (bti : Bool) (T dest : Nat) (m : Mem) : Prop :=
  Code m T (bytesOf (altWords bti (w64 (dest + 2 ^ 64 - (T + off bti + 8)))))

/-- Where things are: all aligned, the entry points within reach of a branch, and the
table, the entry point, the closure and the stack apart. -/
structure A64Apart (P T dest closure sp : Nat) : Prop where
  aligned : 4 ∣ P ∧ 4 ∣ T ∧ 4 ∣ dest
  table : P + 32768 ≤ 2 ^ 64
  alt : T + 16 ≤ 2 ^ 64
  near : dest < T + 2 ^ 27 ∧ T + 12 ≤ dest + 2 ^ 27
  stack : 16 ≤ sp ∧ sp < 2 ^ 64
  stackTable : sp ≤ P ∨ P + 32768 ≤ sp - 16
  stackAlt : sp ≤ T ∨ T + 16 ≤ sp - 16
  stackClosure : sp ≤ closure ∨ closure + 48 ≤ sp - 16
  closureTable : closure + 48 ≤ P ∨ P + 32768 ≤ closure
  closureAlt : closure + 48 ≤ T ∨ T + 16 ≤ closure
  altTable : T + 16 ≤ P ∨ P + 32768 ≤ T

theorem a64_slot_fit {i : Nat} (hi : i < mapSize / slotSize) : i * slotSize + 32 ≤ 16384 ∧ 4 ∣ i * slotSize := by
  have h : i < 512 := hi
  have : i * slotSize = i * 32 := rfl
  omega

theorem a64_alt_length (bti : Bool) (o : Nat) : (bytesOf (altWords bti o)).length ≤ 16 := by
  rw [bytesOf_length]
  cases bti <;> simp [altWords]

theorem a64_slotMem_out {m : Mem} {y sp data a : Nat} (hs : 16 ≤ sp) (hx : a < sp - 16 ∨ sp ≤ a) :
    slotMem m y sp data a = m a := by
  unfold slotMem
  rw [Mem.wr_out _ _ _ _ (by simp; omega), Mem.wr_out _ _ _ _ (by simp; omega)]

theorem a64_slotMem_code {m : Mem} {y sp data a : Nat} {bs : List Byte} (h : Code m a bs) (hs : 16 ≤ sp)
    (hx : a + bs.length ≤ sp - 16 ∨ sp ≤ a) : Code (slotMem m y sp data) a bs :=
  h.congr fun i hi => a64_slotMem_out hs (by omega)

theorem a64_slotMem_words {m : Mem} {y sp data : Nat} (hs : 16 ≤ sp) :
    Code (slotMem m y sp data) (sp - 16) (leBytes 8 y ++ leBytes 8 data) := by
  unfold slotMem
  refine Code.join (Code.wr Code.same (by simp; omega)) ?_
  rw [leBytes_length, show sp - 16 + 8 = sp - 8 by omega]
  exact Code.same

theorem a64_prepStatic_code {closure parm alt cif fn ud a : Nat} {m : Mem} {bs : List Byte} (h : Code m a bs)
    (h1 : a + bs.length ≤ parm ∨ parm + 16 ≤ a) (h2 : a + bs.length ≤ closure ∨ closure + 48 ≤ a) :
    Code (prepClosureStatic closure parm alt cif fn ud m) a bs := by
  unfold prepClosureStatic
  refine Code.wr (Code.wr (Code.wr (Code.wr (Code.wr h ?_) ?_) ?_) ?_) ?_ <;> simp <;> omega

theorem a64_prepStatic {closure parm alt cif fn ud : Nat} {m : Mem} (h : closure + 48 ≤ parm ∨ parm + 16 ≤ closure) :
    Code (prepClosureStatic closure parm alt cif fn ud m) parm (leBytes 8 closure ++ leBytes 8 alt) ∧
    Code (prepClosureStatic closure parm alt cif fn ud m) (closure + 24) (leBytes 8 cif) ∧
    Code (prepClosureStatic closure parm alt cif fn ud m) (closure + 24 + 8) (leBytes 8 fn) ∧
    Code (prepClosureStatic closure parm alt cif fn ud m) (closure + 24 + 16) (leBytes 8 ud) := by
  unfold prepClosureStatic
  refine ⟨?_, ?_, ?_, Code.same⟩
  · refine Code.wr (Code.wr (Code.wr ?_ ?_) ?_) ?_ <;> try (simp; omega)
    exact Code.join (Code.wr Code.same (by simp)) (by rw [leBytes_length]; exact Code.same)
  · refine Code.wr (Code.wr Code.same ?_) ?_ <;> simp
  · exact Code.wr Code.same (by simp)

/-- C58: after `ffi_prep_closure_loc` has filled the parameter block of slot `i`, a call of
the slot runs through the `_alt` entry point into the closure with the address of the
object, at any address of the table and with or without `bti`.  Nothing but the 16 bytes
below the stack pointer changes. -/
theorem C58_static {bti : Bool} {P T dest closure cif fn ud : Nat} {m0 : Mem} (ht : A64Table P m0)
    (hT : A64Alt bti T dest m0) {i : Nat} (hi : i < mapSize / slotSize) {x : Nat → Nat} {sp : Nat}
    (ap : A64Apart P T dest closure sp) (hd : dest < 2 ^ 64) (hcl : closure < 2 ^ 64)
    (hf : cif < 2 ^ 64 ∧ fn < 2 ^ 64 ∧ ud < 2 ^ 64) :
    let m := prepClosureStatic closure (P + mapSize + i * slotSize) T cif fn ud m0
    ∃ n s, steps n ⟨P + i * slotSize, x, sp, m⟩ = some s ∧ A64Entered dest closure x sp s ∧
      A64Fields 24 s.mem closure cif fn ud ∧ ∀ a, a < sp - 16 ∨ sp ≤ a → s.mem a = m a := by
  intro m
  obtain ⟨hfit, h4⟩ := a64_slot_fit hi
  obtain ⟨⟨b1, b2, b3⟩, a1, a2, nr, ⟨a3, a3'⟩, a4, a5, a6, a7, a8, a9⟩ := ap
  have hlen : (bytesOf slotWords).length = 32 := rfl
  have hal := a64_alt_length bti (w64 (dest + 2 ^ 64 - (T + off bti + 8)))
  have hms : mapSize = 16384 := rfl
  have hcode : Code m (P + i * slotSize) (bytesOf slotWords) := a64_prepStatic_code (ht i hi) (by omega) (by omega)
  obtain ⟨hp, f1, f2, f3⟩ := a64_prepStatic (closure := closure) (parm := P + mapSize + i * slotSize) (alt := T) (cif := cif)
    (fn := fn) (ud := ud) (m := m0) (by omega)
  have hT' : A64Alt bti T dest m := a64_prepStatic_code hT (by omega) (by omega)
  change Code m _ _ at hp f1 f2 f3
  rw [show P + mapSize + i * slotSize = P + i * slotSize + 16384 by omega] at hp
  clear_value m
  have run := slot_run (x := x) (sp := sp) hcode (by omega) hp (by omega) hcl (by omega) a3 a3' (by omega) (by omega)
  have w := a64_slotMem_words (m := m) (y := x 17) (data := closure) a3
  have hT2 : A64Alt bti T dest (slotMem m (x 17) sp closure) := a64_slotMem_code hT' a3 (by omega)
  have g1 := a64_word (a64_slotMem_code (y := x 17) (data := closure) f1 a3 (by simp; omega)) hf.1
  have g2 := a64_word (a64_slotMem_code (y := x 17) (data := closure) f2 a3 (by simp; omega)) hf.2.1
  have g3 := a64_word (a64_slotMem_code (y := x 17) (data := closure) f3 a3 (by simp; omega)) hf.2.2
  refine ⟨_, _, (steps_add run).trans (alt_run hT2 b2 a2 b3 hd nr w hcl a3 a3'), ⟨rfl, rfl, rfl, ?_⟩, ⟨g1, g2, g3⟩, ?_⟩
  · intro r h16 h17
    show upd (upd (upd (upd (upd x 17 _) 17 _) 17 _) 17 _) 17 _ r = x r
    rw [a64_upd h17, a64_upd h17, a64_upd h17, a64_upd h17, a64_upd h17]
  · exact fun a h => a64_slotMem_out a3 h

/-- C58: a slot's code fits in the slot, parameter blocks lie in the page after the code,
and those of different slots do not overlap: preparing one closure changes no other. -/
theorem C58_blocks_disjoint :
    (bytesOf slotWords).length ≤ slotSize ∧
    ∀ i j, i < mapSize / slotSize → j < mapSize / slotSize → i ≠ j →
      i * slotSize + 16 ≤ mapSize ∧ (i * slotSize + 16 ≤ j * slotSize ∨ j * slotSize + 16 ≤ i * slotSize) := by
  refine ⟨by decide, ?_⟩
  intro i j hi hj hne
  have h1 : i < 512 := hi
  have h2 : j < 512 := hj
  have e1 : i * slotSize = i * 32 := rfl
  have e2 : j * slotSize = j * 32 := rfl
  have hms : mapSize = 16384 := rfl
  omega

/-- A table at `P` and an entry point at `T`. -/
def a64TableMem (bti : Bool) (P T dest : Nat) : Mem := fun x =>
  if x < P then (bytesOf (altWords bti (w64 (dest + 2 ^ 64 - (T + off bti + 8))))).getD (x - T) 0
  else (bytesOf slotWords).getD ((x - P) % slotSize) 0

theorem a64TableMem_table (bti : Bool) (P T dest : Nat) : A64Table P (a64TableMem bti P T dest) := by
  intro i _
  apply Code.of_get
  intro k hk
  have hl : (bytesOf slotWords).length = slotSize := rfl
  unfold a64TableMem
  rw [if_neg (by omega), show P + i * slotSize + k - P = k + i * slotSize by omega, Nat.add_mul_mod_self_right,
    Nat.mod_eq_of_lt (by omega)]

theorem a64TableMem_alt {bti : Bool} {P T dest : Nat} (h : T + 16 ≤ P) : A64Alt bti T dest (a64TableMem bti P T dest) := by
  apply Code.of_get
  intro k hk
  have := a64_alt_length bti (w64 (dest + 2 ^ 64 - (T + off bti + 8)))
  unfold a64TableMem
  rw [if_pos (by omega), Nat.add_sub_cancel_left]

example (bti : Bool) := C58_static (bti := bti) (P := 0x7f0000000000) (T := 0x401000) (dest := 0x400000)
  (closure := 0x9000000) (cif := 5) (fn := 6) (ud := 7) (a64TableMem_table bti _ _ _) (a64TableMem_alt (by decide))
  (i := 511) (by decide) (x := fun r => r) (sp := 0x7ffffffff000)
  ⟨by decide, by decide, by decide, by decide, by decide, .inr (by decide), .inr (by decide), .inr (by decide), .inl (by decide),
    .inr (by decide), .inl (by decide)⟩
  (by decide) (by decide) (by decide)

/-- C58: an entry of the Mach table page leads into the closure whose address and entry
point `ffi_prep_closure_loc` has left in the page before, and changes no memory. -/
theorem C58_mach {start closure codeloc cif fn ud : Nat} {m0 : Mem} (hcode : Code m0 codeloc (bytesOf machWords))
    (h4 : 4 ∣ codeloc) (lo : 16384 ≤ codeloc) (hi : codeloc + 16 ≤ 2 ^ 64) (hs : start < 2 ^ 64) (hcl : closure < 2 ^ 64)
    (hf : cif < 2 ^ 64 ∧ fn < 2 ^ 64 ∧ ud < 2 ^ 64) (x1 : closure + 40 ≤ codeloc ∨ codeloc + 16 ≤ closure)
    (x2 : closure + 40 ≤ codeloc - 16384 ∨ codeloc - 16384 + 16 ≤ closure) (x : Nat → Nat) (sp : Nat) :
    let m := prepClosureMach start closure codeloc cif fn ud m0
    ∃ s, steps 3 ⟨codeloc, x, sp, m⟩ = some s ∧ A64Entered start closure x sp s ∧ s.mem = m ∧
      A64Fields 16 m closure cif fn ud := by
  intro m
  obtain ⟨B, hB⟩ : ∃ B, codeloc - 16384 = B := ⟨_, rfl⟩
  rw [hB] at x2
  have hm : m = prepClosureMach start closure codeloc cif fn ud m0 := rfl
  unfold prepClosureMach at hm
  rw [hB] at hm
  dsimp only at hm
  have hl : (bytesOf machWords).length = 16 := rfl
  have c0 : Code m codeloc (bytesOf machWords) := by
    rw [hm]
    refine Code.wr (Code.wr (Code.wr (Code.wr (Code.wr hcode ?_) ?_) ?_) ?_) ?_ <;> rw [hl, leBytes_length] <;> omega
  have p : Code m B (leBytes 8 closure ++ leBytes 8 start) := by
    rw [hm]
    refine Code.wr (Code.wr (Code.wr (Code.join (Code.wr Code.same (by simp)) (by rw [leBytes_length]; exact Code.same)) ?_) ?_) ?_
      <;> simp <;> omega
  have f1 : Code m (closure + 16) (leBytes 8 cif) := by
    rw [hm]; refine Code.wr (Code.wr Code.same ?_) ?_ <;> simp
  have f2 : Code m (closure + 16 + 8) (leBytes 8 fn) := by
    rw [hm]; exact Code.wr Code.same (by simp)
  have f3 : Code m (closure + 16 + 16) (leBytes 8 ud) := by rw [hm]; exact Code.same
  rw [← hB] at p
  refine ⟨_, mach_run c0 h4 lo p hi hcl hs, ⟨rfl, ?_, rfl, ?_⟩, rfl, a64_word f1 hf.1, a64_word f2 hf.2.1, a64_word f3 hf.2.2⟩
  · show upd (upd (upd x 16 (codeloc - 16384)) 17 closure) 16 start 17 = closure
    rw [a64_upd (by decide)]
    exact if_pos rfl
  · intro r h16 h17
    exact (a64_upd h16).trans ((a64_upd h17).trans (a64_upd h16))

example := C58_mach (start := 0x100001000) (closure := 0x20000) (codeloc := 0x104000) (cif := 5) (fn := 6) (ud := 7)
  (m0 := Mem.wr (fun _ => 0) 0x104000 (bytesOf machWords)) Code.same (by decide) (by decide) (by decide) (by decide) (by decide)
  (by decide) (.inl (by decide)) (.inl (by decide)) (fun r => r) 0xfffffff0

end Verif.Props
