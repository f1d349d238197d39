import Verif.M68k.AsmClosure

/- Closures: arguments, results and the trampoline. -/
namespace Verif.M68k
open Verif Verif.Spec.M68k
open Verif.Or1k (wr_rd be4 beNat_rd_lt)

theorem passed_congr {m m' : Mem} {a : Nat} {t : FType} {v : List Byte} (h : ∀ x, a ≤ x → m' x = m x) (hp : Passed m a t v) : Passed m' a t v := by
  have e (b n : Nat) (hb : a ≤ b) : m'.rd b n = m.rd b n := Mem.rd_congr fun i _ => h _ (by omega)
  unfold Passed at hp ⊢
  rw [e a 4 (by omega), e a _ (by omega), e _ _ (by omega)]
  exact hp

theorem allPassed_congr {m m' : Mem} : ∀ {a : Nat} {ts : List FType} {vs : List (List Byte)}, (∀ x, a ≤ x → m' x = m x) → AllPassed m a ts vs → AllPassed m' a ts vs
  | _, [], [], _, _ => trivial
  | _, [], _ :: _, _, h => h
  | _, _ :: _, [], _, h => h
  | a, t :: ts, v :: vs, h, hp => ⟨passed_congr h hp.1, allPassed_congr (fun x hx => h x (by omega)) hp.2⟩

theorem be_r4 {m : Mem} {a : Nat} : beBytes 4 (r4 m a) = m.rd a 4 := beBytes_beNat' (Mem.rd_length _ _ _)

/-- What is loaded is the result. -/
theorem loaded_returned {E : Env} {rt : FType} {v : List Byte} {r : Res} {n a : Nat} {m : Mem} (ht : Ty rt) (hv : v.length = rt.size) (hm : inMem rt = false) (hn : flags rt = 2 ^ n)
    (hg : Got rt v m a) (hl : Loaded E n m a r) : Returned E.F E.fpu rt v r := by
  have hc := Ty.cls ht
  obtain ⟨s, al, tc, es⟩ := rt
  refine ⟨hv, ?_⟩
  have hv : v.length = s := hv
  have e8 : beBytes 4 (r4 m a) ++ beBytes 4 (r4 m (a + 4)) = m.rd a 8 := by rw [be_r4, be_r4, ← Mem.rd_append]
  have e12 : beBytes 4 (r4 m a) ++ beBytes 4 (r4 m (a + 4)) ++ beBytes 4 (r4 m (a + 8)) = m.rd a 12 := by rw [e8, be_r4, ← Mem.rd_append]
  cases hc with
  | small k h hs =>
    have hs : s = k := hs
    subst hs
    rcases h with ⟨rfl, h | h⟩ | ⟨rfl, h | h⟩ <;> cases h
    · obtain rfl : 0 = n := pow2_inj hn
      have hl : r.d0 = r4 m a := hl
      show beBytes 1 r.d0 = v
      rw [hl]
      exact small_bytes (.inl rfl) hv hg
    · obtain rfl : 8 = n := pow2_inj hn
      have hl : r.d0 = ext8to32 (r4 m a) := hl
      show beBytes 1 r.d0 = v
      rw [hl, ← small_bytes (.inl rfl) hv hg, ← beBytes_mod, ← beBytes_mod 1 (beNat _)]
      congr 1
      unfold ext8to32 r4
      split <;> omega
    · obtain rfl : 0 = n := pow2_inj hn
      have hl : r.d0 = r4 m a := hl
      show beBytes 2 r.d0 = v
      rw [hl]
      exact small_bytes (.inr rfl) hv hg
    · obtain rfl : 9 = n := pow2_inj hn
      have hl : r.d0 = ext16to32 (r4 m a) := hl
      show beBytes 2 r.d0 = v
      rw [hl, ← small_bytes (.inr rfl) hv hg, ← beBytes_mod, ← beBytes_mod 2 (beNat _)]
      congr 1
      unfold ext16to32 r4
      split <;> omega
  | recd h _ =>
    cases h
    have hg := hg.resolve_left (by rw [hm]; exact Bool.false_ne_true)
    refine .inr ?_
    rcases flags_regs hm with ⟨rfl, h⟩ | ⟨rfl, h⟩ | ⟨rfl, h⟩ | ⟨rfl, h⟩ <;> rw [h] at hn <;> obtain rfl := pow2_inj hn
    · have hl : r.d0 = beNat (m.rd a 1) := hl
      show beBytes 1 r.d0 = v
      rw [hl, ← hg]
      exact beBytes_beNat' (Mem.rd_length _ _ _)
    · have hl : r.d0 = beNat (m.rd a 2) := hl
      show beBytes 2 r.d0 = v
      rw [hl, ← hg]
      exact beBytes_beNat' (Mem.rd_length _ _ _)
    · have hl : r.d0 = r4 m a := hl
      show beBytes 4 r.d0 = v
      rw [hl, be_r4]
      exact hg
    · have hl : r.d0 = r4 m a ∧ r.d1 = r4 m (a + 4) := hl
      show beBytes 4 r.d0 ++ beBytes 4 r.d1 = v
      rw [hl.1, hl.2, e8]
      exact hg
  | plain h =>
    rcases h with ⟨h, h'⟩ | ⟨h, h'⟩ | ⟨h, h'⟩ | ⟨h, h'⟩ | ⟨h, h'⟩ | ⟨h, h'⟩ | ⟨h, h'⟩ | ⟨h, h'⟩ <;> cases h <;> cases h'
    · obtain rfl : 0 = n := pow2_inj hn
      have hl : r.d0 = r4 m a := hl
      show beBytes 4 r.d0 = v
      rw [hl, be_r4]
      exact hg
    · obtain rfl : 0 = n := pow2_inj hn
      have hl : r.d0 = r4 m a := hl
      show beBytes 4 r.d0 = v
      rw [hl, be_r4]
      exact hg
    · obtain rfl : 2 = n := pow2_inj hn
      have hg : m.rd a 4 = v := hg
      have hl : if E.fpu then r.fp0 = E.F.lds (m.rd a 4) else r.d0 = r4 m a := hl
      show if E.fpu then r.fp0 = E.F.lds v else beBytes 4 r.d0 = v
      rw [← hg]
      split at hl
      · rw [if_pos (by assumption)]; exact hl
      · rw [if_neg (by assumption), hl, be_r4]
    · obtain rfl : 5 = n := pow2_inj hn
      have hl : r.a0 = r4 m a ∧ r.d0 = r4 m a := hl
      show beBytes 4 r.a0 = v
      rw [hl.1, be_r4]
      exact hg
    · obtain rfl : 1 = n := pow2_inj hn
      have hl : r.d0 = r4 m a ∧ r.d1 = r4 m (a + 4) := hl
      show beBytes 4 r.d0 ++ beBytes 4 r.d1 = v
      rw [hl.1, hl.2, e8]
      exact hg
    · obtain rfl : 1 = n := pow2_inj hn
      have hl : r.d0 = r4 m a ∧ r.d1 = r4 m (a + 4) := hl
      show beBytes 4 r.d0 ++ beBytes 4 r.d1 = v
      rw [hl.1, hl.2, e8]
      exact hg
    · obtain rfl : 3 = n := pow2_inj hn
      have hg : m.rd a 8 = v := hg
      have hl : if E.fpu then r.fp0 = E.F.ldd (m.rd a 8) else r.d0 = r4 m a ∧ r.d1 = r4 m (a + 4) := hl
      show if E.fpu then r.fp0 = E.F.ldd v else beBytes 4 r.d0 ++ beBytes 4 r.d1 = v
      rw [← hg]
      split at hl
      · rw [if_pos (by assumption)]; exact hl
      · rw [if_neg (by assumption), hl.1, hl.2, e8]
    · obtain rfl : 4 = n := pow2_inj hn
      have hg : m.rd a 12 = v := hg
      have hl : if E.fpu then r.fp0 = E.F.ldx (m.rd a 12) else r.d0 = r4 m a ∧ r.d1 = r4 m (a + 4) ∧ r.d2 = r4 m (a + 8) := hl
      show if E.fpu then r.fp0 = E.F.ldx v else beBytes 4 r.d0 ++ beBytes 4 r.d1 ++ beBytes 4 r.d2 = v
      rw [← hg]
      split at hl
      · rw [if_pos (by assumption)]; exact hl
      · rw [if_neg (by assumption), hl.1, hl.2.1, hl.2.2, e12]

/-- Small integers are extended in d0, and pointers are in d0 too. -/
theorem loaded_full {E : Env} {rt : FType} {v : List Byte} {r : Res} {n a : Nat} {m : Mem} (ht : Ty rt) (hv : v.length = rt.size) (hn : flags rt = 2 ^ n)
    (hg : Got rt v m a) (hl : Loaded E n m a r) :
    (rt.tc = .uint8 ∨ rt.tc = .sint8 ∨ rt.tc = .uint16 ∨ rt.tc = .sint16 → (r.d0 : Int) = intVal rt.tc v % 2 ^ 32) ∧ (rt.tc = .pointer → r.d0 = r.a0) := by
  have hc := Ty.cls ht
  obtain ⟨s, al, tc, es⟩ := rt
  have hv : v.length = s := hv
  refine ⟨fun h => ?_, fun h => ?_⟩
  · cases hc with
    | small k h hs =>
      have hs : s = k := hs
      subst hs
      rcases h with ⟨rfl, h | h⟩ | ⟨rfl, h | h⟩ <;> cases h
      · obtain rfl : 0 = n := pow2_inj hn
        have hl : r.d0 = r4 m a := hl
        rw [hl]
        exact hg
      · obtain rfl : 8 = n := pow2_inj hn
        have hl : r.d0 = ext8to32 (r4 m a) := hl
        rw [hl]
        exact (ext8_int hv (small_bytes (.inl rfl) hv hg)).1
      · obtain rfl : 0 = n := pow2_inj hn
        have hl : r.d0 = r4 m a := hl
        rw [hl]
        exact hg
      · obtain rfl : 9 = n := pow2_inj hn
        have hl : r.d0 = ext16to32 (r4 m a) := hl
        rw [hl]
        exact (ext16_int hv (small_bytes (.inr rfl) hv hg)).1
    | recd h' _ => cases h'; simp [FType.tc] at h
    | plain h' =>
      rcases h' with ⟨h', _⟩ | ⟨h', _⟩ | ⟨h', _⟩ | ⟨h', _⟩ | ⟨h', _⟩ | ⟨h', _⟩ | ⟨h', _⟩ | ⟨h', _⟩ <;> cases h' <;> simp [FType.tc] at h
  · have h : tc = .pointer := h
    subst h
    obtain rfl : 5 = n := pow2_inj hn
    have hl : r.a0 = r4 m a ∧ r.d0 = r4 m a := hl
    rw [hl.1, hl.2]

/-- The function that the trampoline jumps to, src/m68k/ffi.c:342-346. -/
def closureTarget (E : Env) (rt : FType) : Nat := if rt.tc = .struct ∧ flags rt = 0 then E.lbl .cstruct else E.lbl .closure

/-- The trampoline, src/m68k/ffi.c:334-346: `tramp` is the address of the closure for writing. -/
def prepTramp (E : Env) (rt : FType) (codeloc tramp : Nat) (m : Mem) : Mem :=
  w4 ((w4 (m.wr tramp (beBytes 2 0x207c)) (tramp + 2) codeloc).wr (tramp + 6) (beBytes 2 0x4ef9)) (tramp + 8) (closureTarget E rt)

/-- Machine code: `movea.l #imm,%a0` and `jmp abs.l`. -/
def tstep (s : M) : Option M :=
  if beNat (s.mem.rd s.pc 2) = 0x207c then some { s with a := upd s.a 0 (r4 s.mem (s.pc + 2)), pc := s.pc + 6 }
  else if beNat (s.mem.rd s.pc 2) = 0x4ef9 then some { s with pc := r4 s.mem (s.pc + 2) }
  else none

theorem lbl_lt (E : Env) : E.lbl .cstruct < 2 ^ 32 ∧ E.lbl .closure < 2 ^ 32 := by
  have h : ∀ x y : Bool, target x y .cstruct < 200 ∧ target x y .closure < 200 := by decide +kernel
  exact ⟨E.L.lt' (h E.fpu E.old).1, E.L.lt' (h E.fpu E.old).2⟩

theorem tramp_ok {E : Env} {rt : FType} {codeloc tramp : Nat} {m : Mem} {s : M} (hc : codeloc < 2 ^ 32)
    (hm : ∀ i < 12, s.mem (codeloc + i) = prepTramp E rt codeloc tramp m (tramp + i)) (hp : s.pc = codeloc) :
    ∃ t u, tstep s = some t ∧ tstep t = some u ∧ u.pc = closureTarget E rt ∧ u.a 0 = codeloc ∧ (∀ r, r ≠ 0 → u.a r = s.a r) ∧ u.d = s.d ∧ u.mem = s.mem ∧ u.fp0 = s.fp0 := by
  have rdt (k n : Nat) (h : k + n ≤ 12) : s.mem.rd (codeloc + k) n = (prepTramp E rt codeloc tramp m).rd (tramp + k) n := by
    apply List.ext_getElem (by simp)
    intro i h1 h2
    have h1 : i < n := by simpa using h1
    have := hm (k + i) (by omega)
    simp only [Mem.rd, List.getElem_map, List.getElem_range]
    rw [Nat.add_assoc, this, Nat.add_assoc]
  have wo (m : Mem) (a b v k : Nat) (h : b + k ≤ a ∨ a + 2 ≤ b) : (m.wr a (beBytes 2 v)).rd b k = m.rd b k :=
    Mem.rd_congr fun i hi => Mem.wr_out _ _ _ _ (by rw [beBytes_length]; omega)
  have t0 : s.mem.rd codeloc 2 = beBytes 2 0x207c := by
    have := rdt 0 2 (by omega)
    rw [Nat.add_zero, Nat.add_zero] at this
    rw [this, prepTramp, rd_w4 (by omega), wo _ _ _ _ _ (by omega), rd_w4 (by omega), wr_rd _ _ (beBytes_length _ _)]
  have t2 : r4 s.mem (codeloc + 2) = codeloc := by
    refine r4_of ?_ hc
    rw [rdt 2 4 (by omega), prepTramp, rd_w4 (by omega), wo _ _ _ _ _ (by omega), rd_w4_same]
  have t6 : s.mem.rd (codeloc + 6) 2 = beBytes 2 0x4ef9 := by
    rw [rdt 6 2 (by omega), prepTramp, rd_w4 (by omega), wr_rd _ _ (beBytes_length _ _)]
  have t8 : r4 s.mem (codeloc + 8) = closureTarget E rt := by
    refine r4_of ?_ ?_
    · rw [rdt 8 4 (by omega), prepTramp, rd_w4_same]
    · unfold closureTarget; have := lbl_lt E; split <;> omega
  have b0 : beNat (beBytes 2 0x207c) = 0x207c := by rw [beNat_beBytes]; rfl
  have b6 : beNat (beBytes 2 0x4ef9) = 0x4ef9 := by rw [beNat_beBytes]; rfl
  refine ⟨{ s with a := upd s.a 0 codeloc, pc := codeloc + 6 }, { s with a := upd s.a 0 codeloc, pc := closureTarget E rt }, ?_, ?_, rfl, rfl, fun r hr => if_neg hr, rfl, rfl, rfl⟩
  · unfold tstep
    rw [hp, t0, b0, if_pos rfl, t2]
  · unfold tstep
    dsimp only
    rw [t6, b6, if_neg (by decide), if_pos rfl, Nat.add_assoc, t8]

end Verif.M68k
