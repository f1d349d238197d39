import Verif.Ppc.Closure
import Verif.Ppc.AsmClosure

/-! Closures as a whole. -/
namespace Verif.Ppc
open Verif Verif.Spec Verif.Spec.Ppc Verif.Ppc.Asm

/-! ## The code of the result -/

theorem flags_and {ld : LD} {rt : FType} (h : Ty ld rt ∨ rt.tc = .void) (n : Cnt) {y : Nat} (hy : y < 64) : prepFlags ld rt n &&& y = retFlags ld rt &&& y := by
  apply Nat.eq_of_testBit_eq
  intro i
  rw [Nat.testBit_and, Nat.testBit_and]
  by_cases hi : i < 6
  · rw [prepFlags_low h n i hi]
  · have : y.testBit i = false := Nat.testBit_lt_two_pow (Nat.lt_of_lt_of_le hy (by rw [show 64 = 2 ^ 6 from rfl]; exact Nat.pow_le_pow_right (by decide) (by omega)))
    rw [this, Bool.and_false, Bool.and_false]

/-- What the helper returns, in terms of the calling convention. -/
def codeOf (ld : LD) (rt : FType) : Nat :=
  match retPlace ld rt with
  | .void => 0
  | .mem => 13
  | .small => 18 + rt.size
  | .int => tcCode rt.tc
  | .parts c _ => if rt.tc = .struct then (match c with | .f32 => 17 | .v128 => 16 | _ => 18) else (match c with | .v128 => 15 | _ => tcCode rt.tc)

theorem closureCode_eq {ld : LD} {rt : FType} (h : Ty ld rt ∨ rt.tc = .void) (n : Cnt) (B k : Nat) : closureCode ⟨prepFlags ld rt n, B, k⟩ rt = codeOf ld rt := by
  unfold closureCode
  dsimp only
  rw [flags_and h n (show flagSmst < 64 by decide), flags_and h n (show flagFp ||| flagVec < 64 by decide), flags_and h n (show flagVec < 64 by decide),
    flags_and h n (show flag64 < 64 by decide)]
  have hc := retFlags_cases h
  unfold codeOf
  cases hp : retPlace ld rt with
  | void =>
    rw [hp] at hc
    dsimp only at hc ⊢
    rw [hc]
    have : rt.tc = .void := by
      rcases h with h | h
      · unfold retPlace at hp
        split at hp
        · assumption
        · split at hp
          · cases hp
          · split at hp
            · split at hp <;> cases hp
            · cases hp
      · exact h
    rw [this, if_neg (by decide), if_neg (by decide)]
    rfl
  | mem =>
    rw [hp] at hc
    dsimp only at hc ⊢
    rw [hc.1, hc.2, if_neg (by decide), if_neg (by decide)]
    rfl
  | small =>
    rw [hp] at hc
    dsimp only at hc ⊢
    rw [hc.1, if_pos (by decide), if_pos (by decide)]
    show 19 + rt.size - 1 = _
    omega
  | int =>
    rw [hp] at hc
    dsimp only at hc ⊢
    rcases hc.1 with q | q <;> rw [q, if_neg (by decide), if_neg (by decide)]
  | parts c k =>
    rw [hp] at hc
    dsimp only at hc ⊢
    by_cases hs : rt.tc = .struct
    · rw [if_pos hs] at hc ⊢
      rw [hc]
      cases c
      · rw [if_pos (by decide), if_neg (by decide), if_neg (by decide), if_neg (by decide)]; rfl
      · rw [if_pos (by decide), if_neg (by decide), if_neg (by decide), if_pos (by decide)]; rfl
      · rw [if_pos (by decide), if_neg (by decide), if_neg (by decide), if_pos (by decide)]; rfl
      · rw [if_pos (by decide), if_neg (by decide), if_pos (by decide)]; rfl
    · rw [if_neg hs] at hc ⊢
      rw [hc]
      cases c
      · rw [if_neg (by decide), if_neg (by decide)]
      · rw [if_neg (by decide), if_neg (by decide)]
      · rw [if_neg (by decide), if_neg (by decide)]
      · rw [if_neg (by decide), if_pos (by decide)]; rfl

/-- The handler has stored the result. -/
def Res (ld : LD) (rt : FType) (val : List Byte) (m : Mem) (a : Nat) : Prop :=
  match retPlace ld rt with
  | .void | .mem => True
  | _ => m.rd a rt.size = val

theorem rd_part {m : Mem} {a : Nat} {val : List Byte} {c : Cls} {n : Nat} (h : m.rd a (c.bytes * n) = val) {j : Nat} (hj : j < n) : m.rd (a + c.bytes * j) c.bytes = part c val j := by
  have hle : c.bytes * (j + 1) ≤ c.bytes * n := Nat.mul_le_mul_left _ hj
  rw [Nat.mul_succ] at hle
  rw [← h]
  unfold part
  apply bytes_ext
  · simp only [List.length_take, List.length_drop, Mem.rd_length]; omega
  · intro i hi
    rw [Mem.rd_length] at hi
    rw [Mem.rd_getD _ _ _ _ hi, List.getD_eq_getElem?_getD, List.getElem?_take_of_lt (by omega), List.getElem?_drop,
      ← List.getD_eq_getElem?_getD, Mem.rd_getD _ _ _ _ (by omega)]
    congr 1
    omega

theorem gives_returned {ld : LD} {rt : FType} (hrt : Ty ld rt ∨ rt.tc = .void) {m : Mem} {a : Nat} {v : M} (hg : Gives (codeOf ld rt) m a v) {val : List Byte} (hl : val.length = rt.size)
    (hv : Res ld rt val m a) : Returned ld rt val (mregs v) := by
  refine ⟨hl, ?_⟩
  have hc := retFlags_cases hrt
  unfold Res at hv
  unfold codeOf at hg
  cases hp : retPlace ld rt with
  | void => trivial
  | mem => trivial
  | small =>
    rw [hp] at hv hg hc
    dsimp only at hv hg hc ⊢
    have hz := (retPlace_ty hrt (by rw [hp]; simp)).1.size_pos (tab_ok ld)
    obtain ⟨c, hcz⟩ : ∃ c, 18 + rt.size = c + 19 := ⟨rt.size - 1, by omega⟩
    rw [hcz] at hg
    obtain ⟨g1, g2⟩ := hg
    show (leBytes 8 (v.r 3) ++ leBytes 8 (v.r 4)).take rt.size = val
    rw [g1, g2, leBytes_leNat' (Mem.rd_length _ _ _), leBytes_leNat' (Mem.rd_length _ _ _), ← Mem.rd_append, Mem.rd_take _ _ hc.2.2]
    exact hv
  | int =>
    rw [hp] at hv hg hc
    dsimp only at hv hg hc ⊢
    have hty := retPlace_ty hrt (by rw [hp]; simp)
    obtain ⟨htab, hcl⟩ := (ty_scalar_or hty).resolve_left hc.2
    have hvl := leNat_lt val
    rw [hl] at hvl
    show (v.r 3 : Int) = _
    have hno : cls ld rt.tc = none := by
      cases hcc : cls ld rt.tc with
      | none => rfl
      | some c =>
        unfold retPlace at hp
        rw [hcl, hcc] at hp
        dsimp only [Option.map_some] at hp
        split at hp <;> cases hp
    rw [← hv] at hvl ⊢
    clear hc hl hp hcl hrt hty
    obtain ⟨z, al, tc, es⟩ := rt
    simp only [FType.tc_mk, FType.size_mk, FType.align_mk] at *
    cases tc <;> cases ld <;> simp [tab, cls] at htab hno <;> obtain ⟨rfl, rfl⟩ := htab <;> simp only [tcCode, Gives] at hg <;> rw [hg] <;>
      simp only [intVal, signed, Mem.rd_length, sx] <;> simp at hvl ⊢ <;> (try split) <;> (try push_cast) <;> omega
  | parts c n =>
    rw [hp] at hv hg hc
    dsimp only at hv hg hc ⊢
    have hty := retPlace_ty hrt (by rw [hp]; simp)
    have hh := retPlace_parts hp
    obtain ⟨a1, a2, a3, a4, a5⟩ := homog_size hty hh
    rw [a2] at hv
    intro j hj
    have hpj := rd_part hv hj
    by_cases hs : rt.tc = .struct
    · rw [if_pos hs] at hg
      cases c
      · have := hg j (by omega)
        show v.f (1 + j) = _
        rw [this, show 4 * j = Cls.f32.bytes * j from rfl, show (4 : Nat) = Cls.f32.bytes from rfl, hpj]
      · have := hg j (by omega)
        show v.f (1 + j) = _
        rw [this, show 8 * j = Cls.f64.bytes * j from rfl, show (8 : Nat) = Cls.f64.bytes from rfl, hpj]
      · have := hg j (by omega)
        show v.f (1 + j) = _
        rw [this, show 8 * j = Cls.ibm.bytes * j from rfl, show (8 : Nat) = Cls.ibm.bytes from rfl, hpj]
      · have := hg j (by omega)
        show v.v (2 + j) = _
        rw [this, show 16 * j = Cls.v128.bytes * j from rfl, show (16 : Nat) = Cls.v128.bytes from rfl, hpj]
    · rw [if_neg hs] at hg
      obtain ⟨htab, hcl⟩ := (ty_scalar_or hty).resolve_left hs
      rw [hh] at hcl
      have hcc : cls ld rt.tc = some c ∧ n = c.regs := by
        cases hq : cls ld rt.tc with
        | none => rw [hq] at hcl; cases hcl
        | some d =>
          rw [hq] at hcl
          obtain ⟨rfl, rfl⟩ : c = d ∧ n = d.regs := by simpa using hcl
          exact ⟨rfl, rfl⟩
      obtain ⟨hcc, rfl⟩ := hcc
      cases c
      · obtain rfl : j = 0 := by have : Cls.f32.regs = 1 := rfl; omega
        have htc : rt.tc = .float := by
          generalize rt.tc = tc at hcc
          cases tc <;> cases ld <;> simp [cls] at hcc <;> rfl
        rw [htc] at hg
        rw [Nat.mul_zero, Nat.add_zero] at hpj
        show v.f 1 = dblOf (leNat (part .f32 val 0))
        rw [← hpj]
        exact hg
      · obtain rfl : j = 0 := by have : Cls.f64.regs = 1 := rfl; omega
        rw [Nat.mul_zero, Nat.add_zero] at hpj
        show v.f 1 = leNat (part .f64 val 0)
        rw [← hpj]
        have htc : rt.tc = .double ∨ rt.tc = .longdouble := by
          generalize rt.tc = tc at hcc
          cases tc <;> cases ld <;> simp [cls] at hcc <;> simp
        rcases htc with htc | htc <;> rw [htc] at hg
        · exact hg
        · exact hg.1
      · have htc : rt.tc = .longdouble := by
          generalize rt.tc = tc at hcc
          cases tc <;> cases ld <;> simp [cls] at hcc <;> simp
        rw [htc] at hg
        have h2 : Cls.ibm.regs = 2 := rfl
        show v.f (1 + j) = leNat (part .ibm val j)
        rw [← hpj]
        rcases (by omega : j = 0 ∨ j = 1) with rfl | rfl
        · exact hg.1
        · exact hg.2
      · obtain rfl : j = 0 := by have : Cls.v128.regs = 1 := rfl; omega
        rw [Nat.mul_zero, Nat.add_zero] at hpj
        show v.v 2 = leNat (part .v128 val 0)
        rw [← hpj]
        exact hg

/-! ## What the helper finds -/

structure Clos (P : Nat) (s : M) (m : Mem) : Prop where
  out : ∀ x, x < P ∨ P + 64 ≤ x → x < s.r 1 - 528 ∨ s.r 1 - 520 ≤ x → x < s.r 1 - 304 ∨ s.r 1 - 112 ≤ x → x < s.r 1 - 104 ∨ s.r 1 ≤ x → x < s.r 1 + 16 ∨ s.r 1 + 24 ≤ x → m x = s.mem x
  gpr : ∀ k, k < 8 → m.rd (P + 8 * k) 8 = leBytes 8 (s.r (3 + k))
  lr : m.rd (s.r 1 + 16) 8 = leBytes 8 s.lr
  fpr : ∀ k, k < 13 → m.rd (s.r 1 - 104 + 8 * k) 8 = leBytes 8 (s.f (1 + k))
  vec : ∀ k, k < 12 → m.rd (s.r 1 - 304 + 16 * k) 16 = leBytes 16 (s.v (2 + k))

theorem clos_ok {P : Nat} {s : M} (hr : 528 ≤ s.r 1) (hP : P = s.r 1 + 32 ∨ P = s.r 1 - 496) : Clos P s (closMem P s) := by
  have g8 : ∀ (f : Nat → Nat) k, ((fun k => leBytes 8 (f k)) k).length = 8 := fun f k => leBytes_length _ _
  have g16 : ∀ (f : Nat → Nat) k, ((fun k => leBytes 16 (f k)) k).length = 16 := fun f k => leBytes_length _ _
  have l8 : ∀ x, (leBytes 8 x).length = 8 := fun x => leBytes_length _ _
  -- below what is stored last
  have o1 : ∀ x, x < s.r 1 - 528 ∨ s.r 1 - 520 ≤ x → closMem P s x = vdown (stores ((stores s.mem P 8 (fun k => leBytes 8 (s.r (3 + k))) 8).wr (s.r 1 + 16) (leBytes 8 s.lr)) (s.r 1 - 104) 8 (fun k => leBytes 8 (s.f (1 + k))) 13)
    (s.r 1 - 128) (fun k => leBytes 16 (s.v (13 - k))) 12 x := by
    intro x hx
    unfold closMem
    rw [Mem.wr_out _ _ _ _ (by rw [l8]; omega)]
  have o2 : ∀ x, x < s.r 1 - 528 ∨ s.r 1 - 520 ≤ x → x < s.r 1 - 304 ∨ s.r 1 - 112 ≤ x → closMem P s x = stores ((stores s.mem P 8 (fun k => leBytes 8 (s.r (3 + k))) 8).wr (s.r 1 + 16) (leBytes 8 s.lr)) (s.r 1 - 104) 8 (fun k => leBytes 8 (s.f (1 + k))) 13 x := by
    intro x hx hy
    rw [o1 x hx, vdown_out' (g16 _) (by omega) (by omega)]
  have o3 : ∀ x, x < s.r 1 - 528 ∨ s.r 1 - 520 ≤ x → x < s.r 1 - 304 ∨ s.r 1 - 112 ≤ x → x < s.r 1 - 104 ∨ s.r 1 ≤ x → closMem P s x = (stores s.mem P 8 (fun k => leBytes 8 (s.r (3 + k))) 8).wr (s.r 1 + 16) (leBytes 8 s.lr) x := by
    intro x hx hy hz
    rw [o2 x hx hy, stores_out (g8 _) (by omega)]
  have o4 : ∀ x, x < s.r 1 - 528 ∨ s.r 1 - 520 ≤ x → x < s.r 1 - 304 ∨ s.r 1 - 112 ≤ x → x < s.r 1 - 104 ∨ s.r 1 ≤ x → x < s.r 1 + 16 ∨ s.r 1 + 24 ≤ x →
      closMem P s x = stores s.mem P 8 (fun k => leBytes 8 (s.r (3 + k))) 8 x := by
    intro x hx hy hz hw
    rw [o3 x hx hy hz, Mem.wr_out _ _ _ _ (by rw [l8]; omega)]
  constructor
  · intro x h0 h1 h2 h3 h4
    rw [o4 x h1 h2 h3 h4, stores_out (g8 _) (by omega)]
  · intro k hk
    rw [Mem.rd_congr (fun i hi => o4 _ (by omega) (by omega) (by omega) (by omega))]
    exact stores_rd (g8 (fun k => s.r (3 + k))) hk
  · rw [Mem.rd_congr (fun i hi => o3 _ (by omega) (by omega) (by omega))]
    exact Mem.rd_wr_same _ _ (leBytes 8 s.lr)
  · intro k hk
    rw [Mem.rd_congr (fun i hi => o2 _ (by omega) (by omega))]
    exact stores_rd (g8 (fun k => s.f (1 + k))) hk
  · intro k hk
    rw [Mem.rd_congr (fun i hi => o1 _ (by omega)), show s.r 1 - 304 + 16 * k = s.r 1 - 128 - 16 * (11 - k) by omega]
    rw [vdown_rd (g16 (fun k => s.v (13 - k))) (by omega) (by omega)]
    rw [show 13 - (11 - k) = 2 + k by omega]

/-- Where things are. -/
def sitOf (s : M) (fl N : Nat) : Sit := ⟨parea s fl, s.r 1 - 104, s.r 1 - 304, N, fl.testBit 24⟩

theorem sit_ok {s : M} (hal : s.r 1 % 16 = 0) (hr : 528 ≤ s.r 1) (fl N : Nat) : (sitOf s fl N).Ok := by
  constructor
  · show parea s fl % 16 = 0
    unfold parea; split <;> omega
  · show s.r 1 - 304 + 192 ≤ s.r 1 - 104
    omega
  · intro h
    show s.r 1 - 104 + 104 ≤ parea s fl
    unfold parea; rw [if_pos (show fl.testBit 24 = true from h)]; omega
  · intro h
    show parea s fl + 64 ≤ s.r 1 - 304
    unfold parea; rw [show fl.testBit 24 = false from h, if_neg (by decide)]; omega

theorem view_ok {s : M} (hr : 528 ≤ s.r 1) {fl N : Nat} (hf : ∀ k, s.f k < 2 ^ 64) (hv : ∀ k, s.v k < 2 ^ 128) {m : Mem}
    (hm : ∀ x, s.r 1 - 504 ≤ x → m x = closMem (parea s fl) s x) : View (sitOf s fl N) (mregs s) true 0 0 0 m := by
  have hP : parea s fl = s.r 1 + 32 ∨ parea s fl = s.r 1 - 496 := by unfold parea; split <;> simp
  have hc := clos_ok hr hP
  constructor
  · intro _ k _ hk
    show leNat (m.rd (s.r 1 - 104 + 8 * k) 8) = s.f (1 + k)
    rw [Mem.rd_congr (fun i hi => hm _ (by omega)), hc.fpr k hk, leNat_leBytes, Nat.mod_eq_of_lt (by simpa using hf _)]
  · intro _ k _ hk
    show leNat (m.rd (s.r 1 - 304 + 16 * k) 16) = s.v (2 + k)
    rw [Mem.rd_congr (fun i hi => hm _ (by omega)), hc.vec k hk, leNat_leBytes, Nat.mod_eq_of_lt (by simpa using hv _)]
  · intro x _ hx
    show m (parea s fl + x) = _
    rw [hm _ (by omega)]
    unfold Regs.img
    by_cases h64 : x < 64
    · rw [if_pos h64]
      have h1 := hc.gpr (x / 8) (by omega)
      have h2 := Mem.rd_getD (closMem (parea s fl) s) (parea s fl + 8 * (x / 8)) 8 (x % 8) (by omega)
      rw [h1] at h2
      rw [show parea s fl + 8 * (x / 8) + x % 8 = parea s fl + x by omega] at h2
      exact h2.symm
    · rw [if_neg h64]
      rcases hx with hx | ⟨hx, _⟩
      · omega
      · have hP1 : parea s fl = s.r 1 + 32 := by unfold parea; exact if_pos hx
        rw [hc.out _ (by omega) (by omega) (by omega) (by omega) (by omega), hP1]
        rfl

/-- Floating and vector registers have 64 and 128 bits. -/
def Wide (s : M) : Prop := (∀ k, s.f k < 2 ^ 64) ∧ ∀ k, s.v k < 2 ^ 128

theorem rd_lt (m : Mem) (a n : Nat) : leNat (m.rd a n) < 256 ^ n := by
  have := leNat_lt (m.rd a n)
  rwa [Mem.rd_length] at this

theorem exec_wide {c : File} {E : Env} {s : M} (h : Wide s) (i : Ins) : Wide (exec c E s i) := by
  have hu : ∀ {g : Nat → Nat} {B : Nat} (a x : Nat), (∀ k, g k < B) → x < B → ∀ k, upd g a x k < B := by
    intro g B a x hg hx k
    unfold upd; split
    · exact hx
    · exact hg k
  cases i <;> first | exact h | skip
  · exact ⟨hu _ _ h.1 (by have := rd_lt s.mem; simpa using this _ 8), h.2⟩
  · exact ⟨hu _ _ h.1 (dblOf_lt (by have := rd_lt s.mem; simpa using this _ 4)), h.2⟩
  · exact ⟨h.1, hu _ _ h.2 (by have := rd_lt s.mem; simpa using this _ 16)⟩

theorem runs_wide {c : File} {E : Env} {s t : M} (hr : Runs c E s t) (h : Wide s) : Wide t := by
  induction hr with
  | refl => exact h
  | cons hs _ ih =>
    apply ih
    unfold step at hs
    split at hs
    · cases hs
    · split at hs <;> first | cases hs | skip
      all_goals first | exact h | exact exec_wide h _

theorem seen_vals {m : Mem} : ∀ {ts : List FType} {vs : List (List Byte)} {as : List Nat}, Seen m ts vs as → as.length = ts.length ∧ vals m ts as = vs
  | [], [], [], _ => ⟨rfl, rfl⟩
  | t :: ts, v :: vs, a :: as, h => by
    obtain ⟨h1, h2⟩ := seen_vals h.2
    exact ⟨by simp [h1], by rw [vals, h.1, h2]⟩
  | [], [], _ :: _, h => h.elim
  | [], _ :: _, _, h => h.elim
  | _ :: _, [], _, h => h.elim
  | _ :: _, _ :: _, [], h => h.elim

end Verif.Ppc
