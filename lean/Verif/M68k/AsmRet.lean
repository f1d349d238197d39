import Verif.M68k.Asm

/- The second half of `ffi_call_SYSV`: the result is stored. -/
namespace Verif.M68k
open Verif Verif.Spec.M68k
open Verif.Or1k (wr_rd be4 beNat_rd_lt)

/-- What is done if bit `n` of the flags is set, src/m68k/sysv.S:119-207. -/
def body (fpu old : Bool) : Nat → List Ins
  | 0 => [.st 0 0]
  | 1 => [.st 0 0, .st 1 4]
  | 2 => if fpu then [.fsts] else [.st 0 0]
  | 3 => if fpu then [.fstd] else [.sti 0, .st 1 0]
  | 4 => if fpu then [.fstx] else [.sti 0, .sti 1, .st 2 0]
  | 5 => [.sta]
  | 6 => [.stb]
  | 7 => [.stw]
  | 8 => (if old then [.extw, .extl] else [.extbl]) ++ [.st 0 0]
  | _ => [.extl, .st 0 0]

/-- The bytes that are stored. -/
def stored (E : Env) (n d0 d1 d2 a0 fp0 : Nat) : List Byte :=
  match n with
  | 0 => beBytes 4 d0
  | 1 => beBytes 4 d0 ++ beBytes 4 d1
  | 2 => if E.fpu then E.F.sts fp0 else beBytes 4 d0
  | 3 => if E.fpu then E.F.std fp0 else beBytes 4 d0 ++ beBytes 4 d1
  | 4 => if E.fpu then E.F.stx fp0 else beBytes 4 d0 ++ beBytes 4 d1 ++ beBytes 4 d2
  | 5 => beBytes 4 a0
  | 6 => beBytes 1 d0
  | 7 => beBytes 2 d0
  | 8 => beBytes 4 (ext8to32 d0)
  | _ => beBytes 4 (ext16to32 d0)

theorem stored_len (E : Env) {n d0 d1 d2 a0 fp0 : Nat} : (stored E n d0 d1 d2 a0 fp0).length ≤ 12 := by
  unfold stored
  split <;> (try split) <;> simp [E.F.slen, E.F.dlen, E.F.xlen]

theorem ext_twice (v : Nat) : ext16to32 (ext8to16 v) = ext8to32 v := by
  unfold ext16to32 ext8to16 ext8to32
  split <;> split <;> (try split) <;> omega

theorem wr_append (m : Mem) (a : Nat) (xs ys : List Byte) : (m.wr a xs).wr (a + xs.length) ys = m.wr a (xs ++ ys) := by
  funext y
  unfold Mem.wr
  rw [List.length_append]
  by_cases h : a + xs.length ≤ y ∧ y < a + xs.length + ys.length
  · rw [if_pos h, if_pos (by omega), List.getD_eq_getElem?_getD, List.getD_eq_getElem?_getD, List.getElem?_append_right (by omega),
      Nat.sub_sub]
  · rw [if_neg h]
    by_cases h' : a ≤ y ∧ y < a + xs.length
    · rw [if_pos h', if_pos (by omega), List.getD_eq_getElem?_getD, List.getD_eq_getElem?_getD, List.getElem?_append_left (by omega)]
    · rw [if_neg h', if_neg (by omega)]

/-- What stays when the result is stored. -/
structure Kept (s t : M) : Prop where
  a : ∀ r, r ≠ 1 → t.a r = s.a r
  d : ∀ r, r ≠ 0 → t.d r = s.d r

theorem body_ok (E : Env) (n : Nat) (s : M) : Kept s ((body E.fpu E.old n).foldl (exec E.F) s) ∧
    ((body E.fpu E.old n).foldl (exec E.F) s).mem = s.mem.wr (s.a 1) (stored E n (s.d 0) (s.d 1) (s.d 2) (s.a 0) s.fp0) := by
  have e8 (m : Mem) (a x y : Nat) : w4 (w4 m a x) (a + 4) y = m.wr a (beBytes 4 x ++ beBytes 4 y) := by
    rw [← wr_append, beBytes_length]; rfl
  have e12 (m : Mem) (a x y z : Nat) : w4 (m.wr a (beBytes 4 x ++ beBytes 4 y)) (a + 4 + 4) z = m.wr a (beBytes 4 x ++ (beBytes 4 y ++ beBytes 4 z)) := by
    rw [← List.append_assoc, ← wr_append _ _ (beBytes 4 x ++ beBytes 4 y), List.length_append, beBytes_length, beBytes_length, Nat.add_assoc]; rfl
  have e4 (m : Mem) (a x : Nat) : m.wr a (beBytes 4 x) = w4 m a x := rfl
  unfold body stored
  split <;> (try cases E.fpu) <;> (try cases E.old) <;> refine ⟨⟨?_, ?_⟩, ?_⟩ <;>
    first
    | (intro r hr; simp (config := { decide := true }) [exec, upd, hr]; done)
    | simp (config := { decide := true }) [exec, upd, e4, e8, e12, ext_twice]

/-- Bit `n` of the flags is tested if no lower one is set. -/
theorem run_chain {E : Env} {s : M} (hp : s.pc = E.lbl (.ret 0)) : ∀ n, n ≤ 10 → (∀ i < n, s.d 2 / 2 ^ i % 2 = 0) → ∃ z, Runs E s { s with z := z, pc := E.lbl (.ret n) }
  | 0, _, _ => ⟨s.z, by rw [← hp]; exact .refl s⟩
  | n + 1, hn, h => by
    obtain ⟨z, r⟩ := run_chain hp n (by omega) fun i hi => h i (by omega)
    have hc : ∀ (x y : Bool) (n : Nat), n < 10 → block x y (target x y (.ret n)) [.btst n] = true ∧ (code x y)[target x y (.ret n) + 1]? = some (.beq (.ret (n + 1))) := by decide +kernel
    have hc := hc E.fpu E.old n (by omega)
    have r1 := runs_block (E := E) (s := { s with z := z, pc := E.lbl (.ret n) }) hc.1 rfl
    have r2 := step_at (E := E) (s := { [Ins.btst n].foldl (exec E.F) { s with z := z, pc := E.lbl (.ret n) } with pc := E.L.at_ (target E.fpu E.old (.ret n) + 1) }) rfl hc.2
    refine ⟨true, r.trans (r1.trans ?_)⟩
    have hb := h n (by omega)
    simpa [stepIns, exec, hb] using r2

/-- The result is stored. -/
theorem run_store {E : Env} {s : M} (hp : s.pc = E.lbl (.ret 0)) {n : Nat} (hn : n < 10) (hd : s.d 2 = 2 ^ n) :
    ∃ t, Runs E s t ∧ t.pc = E.lbl (.ret 10) ∧ Kept s t ∧ t.mem = s.mem.wr (s.a 1) (stored E n (s.d 0) (s.d 1) (2 ^ n) (s.a 0) s.fp0) := by
  have hb : (∀ i < n, s.d 2 / 2 ^ i % 2 = 0) ∧ s.d 2 / 2 ^ n % 2 = 1 := by
    rw [hd]
    have : ∀ n < 10, (∀ i < n, 2 ^ n / 2 ^ i % 2 = 0) ∧ 2 ^ n / 2 ^ n % 2 = 1 := by decide
    exact this n hn
  obtain ⟨z, r⟩ := run_chain hp n (by omega) hb.1
  have hc : ∀ (x y : Bool) (n : Nat), n < 10 → block x y (target x y (.ret n)) [.btst n] = true ∧ (code x y)[target x y (.ret n) + 1]? = some (.beq (.ret (n + 1))) ∧
      block x y (target x y (.ret n) + 2) (body x y n) = true ∧
        (if n = 9 then target x y (.ret 10) = target x y (.ret n) + 2 + (body x y n).length else (code x y)[target x y (.ret n) + 2 + (body x y n).length]? = some (.bra (.ret 10))) := by
    decide +kernel
  obtain ⟨c1, c2, c3, c4⟩ := hc E.fpu E.old n hn
  have r1 := runs_block (E := E) (s := { s with z := z, pc := E.lbl (.ret n) }) c1 rfl
  have r2 := step_at (E := E) (s := { [Ins.btst n].foldl (exec E.F) { s with z := z, pc := E.lbl (.ret n) } with pc := E.L.at_ (target E.fpu E.old (.ret n) + 1) }) rfl c2
  have r3 : Runs E s { s with z := false, pc := E.L.at_ (target E.fpu E.old (.ret n) + 2) } := by
    refine r.trans (r1.trans ?_)
    have hb := hb.2
    simpa [stepIns, exec, hb] using r2
  have r4 := runs_block (E := E) (s := { s with z := false, pc := E.L.at_ (target E.fpu E.old (.ret n) + 2) }) c3 rfl
  obtain ⟨k1, k2⟩ := body_ok E n { s with z := false, pc := E.L.at_ (target E.fpu E.old (.ret n) + 2) }
  have k2' := k2
  rw [show ({ s with z := false, pc := E.L.at_ (target E.fpu E.old (.ret n) + 2) } : M).d 2 = 2 ^ n from hd] at k2'
  by_cases h9 : n = 9
  · rw [if_pos h9] at c4
    exact ⟨_, r3.trans r4, by show E.L.at_ _ = E.L.at_ _; rw [c4], ⟨k1.a, k1.d⟩, k2'⟩
  · rw [if_neg h9] at c4
    exact ⟨_, r3.trans (r4.trans (step_at rfl c4)), rfl, ⟨k1.a, k1.d⟩, k2'⟩

/-- The function has returned to `ffi_call_SYSV`. -/
structure AtBack (E : Env) (u : M) (S A oldfp oldd2 ret : Nat) : Prop where
  pc : u.pc = E.L.at_ 10
  sp : u.a 7 = A
  fp : u.a 6 = S - 4
  sfp : u.mem.rd (S - 4) 4 = beBytes 4 oldfp
  sd2 : u.mem.rd (S - 8) 4 = beBytes 4 oldd2
  ra : u.mem.rd S 4 = beBytes 4 ret
  bytes : A + r4 u.mem (S + 8) + 8 = S
  ofp : oldfp < 2 ^ 32
  od2 : oldd2 < 2 ^ 32
  ora : ret < 2 ^ 32

/-- `ffi_call_SYSV` has returned. -/
structure Done (u z : M) (S oldfp oldd2 ret : Nat) (m : Mem) : Prop where
  pc : z.pc = ret
  sp : z.a 7 = S + 4
  fp : z.a 6 = oldfp
  d2 : z.d 2 = oldd2
  a : ∀ r, r ≠ 1 → r ≠ 6 → r ≠ 7 → z.a r = u.a r
  d : ∀ r, r ≠ 0 → r ≠ 2 → z.d r = u.d r
  mem : z.mem = m

theorem run_epilogue {E : Env} {u t : M} {S oldfp oldd2 ret : Nat} {m : Mem} (hS : 8 ≤ S) (hp : t.pc = E.lbl (.ret 10)) (h7 : t.a 7 = S - 8) (h6 : t.a 6 = S - 4) (hm : t.mem = m)
    (ha : ∀ r, r ≠ 1 → r ≠ 6 → r ≠ 7 → t.a r = u.a r) (hd : ∀ r, r ≠ 0 → r ≠ 2 → t.d r = u.d r)
    (hf : m.rd (S - 4) 4 = beBytes 4 oldfp) (h2 : m.rd (S - 8) 4 = beBytes 4 oldd2) (hr : m.rd S 4 = beBytes 4 ret)
    (ofp : oldfp < 2 ^ 32) (od2 : oldd2 < 2 ^ 32) (ora : ret < 2 ^ 32) : ∃ z, Runs E t z ∧ Done u z S oldfp oldd2 ret m := by
  have hc : ∀ x y : Bool, block x y (target x y (.ret 10)) [.popd 2, .unlk] = true ∧ (code x y)[target x y (.ret 10) + 2]? = some .rts := by decide +kernel
  obtain ⟨c1, c2⟩ := hc E.fpu E.old
  have r1 := runs_block c1 hp
  have r2 := step_at (E := E) (s := { [Ins.popd 2, .unlk].foldl (exec E.F) t with pc := E.L.at_ (target E.fpu E.old (.ret 10) + 2) }) rfl c2
  have e1 : S - 4 + 4 = S := by omega
  refine ⟨_, r1.trans r2, ?_, ?_, ?_, ?_, fun r h1 h6' h7' => ?_, fun r h0 h2' => ?_, hm⟩
  · simp [stepIns, exec, upd, h6, hm, e1, r4_of hr ora]
  · simp [stepIns, exec, upd, h6, e1]
  · simp [stepIns, exec, upd, h6, hm, r4_of hf ofp]
  · simp [stepIns, exec, upd, h7, hm, r4_of h2 od2]
  · simp [stepIns, exec, upd, h6', h7', ha r h1 h6' h7']
  · simp [stepIns, exec, upd, h2', hd r h0 h2']

/-- From the return of the function to the return of `ffi_call_SYSV`. -/
theorem run_back {E : Env} {u : M} {S A oldfp oldd2 ret rv f : Nat} (h : AtBack E u S A oldfp oldd2 ret) (hS : 8 ≤ S) (hrv : r4 u.mem (S + 16) = rv) (hf : r4 u.mem (S + 12) = f)
    (hap : rv = 0 ∨ rv + 12 ≤ S - 8 ∨ S + 4 ≤ rv) :
    (rv = 0 ∨ f = 0 → ∃ z, Runs E u z ∧ Done u z S oldfp oldd2 ret u.mem) ∧
      ∀ n, n < 10 → f = 2 ^ n → rv ≠ 0 → ∃ z, Runs E u z ∧ Done u z S oldfp oldd2 ret (u.mem.wr rv (stored E n (u.d 0) (u.d 1) (2 ^ n) (u.a 0) u.fp0)) := by
  have hc : ∀ x y : Bool, block x y 10 [.addsp 12, .ldfa 20 1, .ldfd 16 2, .tst1] = true ∧ (code x y)[14]? = some (.beq (.ret 10)) ∧ target x y (.ret 0) = 15 := by decide +kernel
  obtain ⟨c1, c2, c3⟩ := hc E.fpu E.old
  have e1 : S - 4 + 12 = S + 8 := by omega
  have e2 : S - 4 + 20 = S + 16 := by omega
  have e3 : S - 4 + 16 = S + 12 := by omega
  have hb := h.bytes
  have r1 := runs_block c1 h.pc
  have r2 := step_at (E := E) (s := { [Ins.addsp 12, .ldfa 20 1, .ldfd 16 2, .tst1].foldl (exec E.F) u with pc := E.L.at_ 14 }) rfl c2
  have r := r1.trans r2
  generalize e : stepIns E 14 _ _ = t at r
  have ht : t.a 7 = S - 8 ∧ t.a 6 = S - 4 ∧ t.a 1 = rv ∧ t.d 2 = f ∧ t.mem = u.mem ∧ t.fp0 = u.fp0 ∧ (∀ r, r ≠ 1 → r ≠ 7 → t.a r = u.a r) ∧ (∀ r, r ≠ 2 → t.d r = u.d r) ∧
      t.pc = if rv = 0 then E.lbl (.ret 10) else E.lbl (.ret 0) := by
    subst e
    refine ⟨?_, ?_, ?_, ?_, rfl, rfl, fun r h1 h7 => ?_, fun r h2 => ?_, ?_⟩
    · simp [stepIns, exec, upd, h.sp, h.fp, e1]; omega
    · simp [stepIns, exec, upd, h.fp]
    · simp [stepIns, exec, upd, h.fp, e2, hrv]
    · simp [stepIns, exec, upd, h.fp, e3, hf]
    · simp [stepIns, exec, upd, h1, h7]
    · simp [stepIns, exec, upd, h2]
    · simp [stepIns, exec, upd, h.fp, e2, hrv, Env.lbl, c3]
  clear e
  obtain ⟨t1, t2, t3, t4, t5, t6, t7, t8, t9⟩ := ht
  refine ⟨fun h0 => ?_, fun n hn hfn h0 => ?_⟩
  · obtain ⟨z', hz⟩ : ∃ z', Runs E t { t with z := z', pc := E.lbl (.ret 10) } := by
      by_cases hr0 : rv = 0
      · rw [if_pos hr0] at t9
        exact ⟨t.z, by rw [← t9]; exact .refl t⟩
      · rw [if_neg hr0] at t9
        exact run_chain t9 10 (by omega) fun i _ => by rw [t4, h0.resolve_left hr0]; simp
    obtain ⟨z, rz, dz⟩ := run_epilogue (E := E) (u := u) (t := { t with z := z', pc := E.lbl (.ret 10) }) hS rfl t1 t2 t5 (fun r h1 _ h7 => t7 r h1 h7) (fun r _ h2 => t8 r h2) h.sfp h.sd2 h.ra h.ofp h.od2 h.ora
    exact ⟨z, r.trans (hz.trans rz), dz⟩
  · rw [if_neg h0] at t9
    obtain ⟨v, rv', pv, kv, mv⟩ := run_store t9 hn (t4.trans hfn)
    rw [t3, t5, t6, t7 0 (by omega) (by omega), t8 0 (by omega), t8 1 (by omega)] at mv
    have hl := stored_len E (n := n) (d0 := u.d 0) (d1 := u.d 1) (d2 := 2 ^ n) (a0 := u.a 0) (fp0 := u.fp0)
    have hout (b : Nat) (hb : b + 4 ≤ rv ∨ rv + 12 ≤ b) : (u.mem.wr rv (stored E n (u.d 0) (u.d 1) (2 ^ n) (u.a 0) u.fp0)).rd b 4 = u.mem.rd b 4 :=
      Mem.rd_congr fun i hi => Mem.wr_out _ _ _ _ (by omega)
    obtain ⟨z, rz, dz⟩ := run_epilogue (E := E) (u := u) hS pv ((kv.a 7 (by omega)).trans t1) ((kv.a 6 (by omega)).trans t2) mv (fun r h1 _ h7 => (kv.a r h1).trans (t7 r h1 h7))
      (fun r h0 h2 => (kv.d r h0).trans (t8 r h2)) (by rw [hout _ (by omega)]; exact h.sfp) (by rw [hout _ (by omega)]; exact h.sd2) (by rw [hout _ (by omega)]; exact h.ra) h.ofp h.od2 h.ora
    exact ⟨z, r.trans (rv'.trans rz), dz⟩

end Verif.M68k
