import Verif.Ppc.Whole

/-! What the handler of a closure sees. -/
namespace Verif.Ppc
open Verif Verif.Spec Verif.Spec.Ppc

/-! ## Homogeneous structs -/

/-- `pack` for registers of `w` bytes and parts of `b` bytes; `p` is `pfr` or `pvec`. -/
def packG (b w : Nat) (conv : List Byte → List Byte) (lim : Nat) (named : Bool) : Nat → Nat → Nat → Nat → Mem → Nat × Mem
  | 0, _, _, p, m => (p, m)
  | n + 1, dst, fr, p, m =>
    if p < lim ∧ named then packG b w conv lim named n (dst + b) (fr + b) (p + w) (m.wr dst (conv (m.rd p w)))
    else packG b w conv lim named n (dst + b) (fr + b) p (m.wr dst (m.rd fr b))

/-- A `double` as `float`. -/
def toSgl (l : List Byte) : List Byte := leBytes 4 (sglOf (leNat l))

theorem pack_f32 (E : Ends) (named : Bool) : ∀ (n dst fr : Nat) (s : Nx) (m : Mem),
    pack E named .f32 n dst fr s m = ({ s with pfr := (packG 4 8 toSgl E.f named n dst fr s.pfr m).1 }, (packG 4 8 toSgl E.f named n dst fr s.pfr m).2)
  | 0, _, _, _, _ => rfl
  | n + 1, dst, fr, s, m => by
    rw [pack, packG]
    split
    · rw [pack_f32 E named n]; rfl
    · rw [pack_f32 E named n]

theorem pack_f64 (E : Ends) (named : Bool) : ∀ (n dst fr : Nat) (s : Nx) (m : Mem),
    pack E named .f64 n dst fr s m = ({ s with pfr := (packG 8 8 id E.f named n dst fr s.pfr m).1 }, (packG 8 8 id E.f named n dst fr s.pfr m).2)
  | 0, _, _, _, _ => rfl
  | n + 1, dst, fr, s, m => by
    rw [pack, packG]
    split
    · rw [pack_f64 E named n]; rfl
    · rw [pack_f64 E named n]

theorem pack_f128 (E : Ends) (named : Bool) : ∀ (n dst fr : Nat) (s : Nx) (m : Mem),
    pack E named .f128 n dst fr s m = ({ s with pvec := (packG 16 16 id E.v named n dst fr s.pvec m).1 }, (packG 16 16 id E.v named n dst fr s.pvec m).2)
  | 0, _, _, _, _ => rfl
  | n + 1, dst, fr, s, m => by
    rw [pack, packG]
    split
    · rw [pack_f128 E named n]; rfl
    · rw [pack_f128 E named n]

/-- What `packG` does, if it does not overwrite what it reads later. -/
theorem packG_ok {b w : Nat} {conv : List Byte → List Byte} (hbw : b = 4 ∧ w = 8 ∨ b = 8 ∧ w = 8 ∨ b = 16 ∧ w = 16) (hc : ∀ l : List Byte, l.length = w → (conv l).length = b)
    {named : Bool} {base c : Nat} : ∀ {n dst fr f : Nat} {m : Mem}, f ≤ c →
    (∀ j, j < n → named = true → f + j < c → dst + b * j ≤ base + w * (f + j) ∨ base + w * (f + j) + w ≤ dst) →
    (∀ j, j < n → ¬ (named = true ∧ f + j < c) → dst + b * j ≤ fr + b * j ∨ fr + b * j + b ≤ dst) →
    (packG b w conv (base + w * c) named n dst fr (base + w * f) m).1 = base + w * (if named then min (f + n) c else f) ∧
    (∀ x, x < dst ∨ dst + b * n ≤ x → (packG b w conv (base + w * c) named n dst fr (base + w * f) m).2 x = m x) ∧
    ∀ j, j < n → (packG b w conv (base + w * c) named n dst fr (base + w * f) m).2.rd (dst + b * j) b =
      if named = true ∧ f + j < c then conv (m.rd (base + w * (f + j)) w) else m.rd (fr + b * j) b
  | 0, dst, fr, f, m, hf, _, _ => by
    refine ⟨?_, fun _ _ => rfl, fun j hj => absurd hj (by omega)⟩
    rw [packG]
    split
    · rw [Nat.add_zero, Nat.min_eq_left hf]
    · rfl
  | n + 1, dst, fr, f, m, hf, h1, h2 => by
    rw [packG]
    by_cases hin : named = true ∧ f < c
    · have hlt : base + w * f < base + w * c := by rcases hbw with ⟨_, rfl⟩ | ⟨_, rfl⟩ | ⟨_, rfl⟩ <;> omega
      rw [if_pos ⟨hlt, hin.1⟩, show base + w * f + w = base + w * (f + 1) by rw [Nat.mul_succ]; omega]
      have hl : (conv (m.rd (base + w * f) w)).length = b := hc _ (Mem.rd_length _ _ _)
      obtain ⟨r1, r2, r3⟩ := packG_ok (m := m.wr dst (conv (m.rd (base + w * f) w))) (n := n) (dst := dst + b) (fr := fr + b) (f := f + 1) hbw hc (named := named) (base := base)
        (c := c) hin.2
        (fun j hj hn hk => by
          have := h1 (j + 1) (by omega) hn (by omega)
          rcases hbw with ⟨rfl, rfl⟩ | ⟨rfl, rfl⟩ | ⟨rfl, rfl⟩ <;> omega)
        (fun j hj hk => by
          have := h2 (j + 1) (by omega) (by rw [show f + (j + 1) = f + 1 + j by omega]; exact hk)
          rcases hbw with ⟨rfl, rfl⟩ | ⟨rfl, rfl⟩ | ⟨rfl, rfl⟩ <;> omega)
      refine ⟨?_, ?_, ?_⟩
      · rw [r1, show f + 1 + n = f + (n + 1) by omega, hin.1]
        rfl
      · intro x hx
        rw [r2 x (by rw [Nat.mul_succ] at hx; omega), Mem.wr_out _ _ _ _ (by rw [hl, Nat.mul_succ] at *; omega)]
      · intro j hj
        cases j with
        | zero =>
          rw [if_pos (by exact hin), Nat.mul_zero, Nat.add_zero, Nat.add_zero]
          rw [Mem.rd_congr (m := m.wr dst (conv (m.rd (base + w * f) w))) (fun i hi => r2 _ (.inl (by omega)))]
          have := Mem.rd_wr_same m dst (conv (m.rd (base + w * f) w))
          rw [hl] at this
          exact this
        | succ j =>
          have e := r3 j (by omega)
          rw [show dst + b * (j + 1) = dst + b + b * j by rw [Nat.mul_succ]; omega, e, show f + 1 + j = f + (j + 1) by omega]
          split
          · rename_i hk
            have := h1 (j + 1) hj hk.1 hk.2
            rw [Mem.rd_wr_disj _ _ _ _ _ (by rw [hl]; rw [Nat.mul_succ b] at this; omega)]
          · rename_i hk
            have := h2 (j + 1) hj hk
            rw [show fr + b + b * j = fr + b * (j + 1) by rw [Nat.mul_succ]; omega]
            rw [Mem.rd_wr_disj _ _ _ _ _ (by rw [hl]; rw [Nat.mul_succ b] at *; omega)]
    · have hno : ¬ (base + w * f < base + w * c ∧ named = true) := by
        rintro ⟨h3, h4⟩
        apply hin
        refine ⟨h4, ?_⟩
        rcases hbw with ⟨_, rfl⟩ | ⟨_, rfl⟩ | ⟨_, rfl⟩ <;> omega
      rw [if_neg hno]
      have hl : (m.rd fr b).length = b := Mem.rd_length _ _ _
      have hfc : named = true → f = c := fun hn => by
        by_contra hne
        exact hin ⟨hn, by omega⟩
      obtain ⟨r1, r2, r3⟩ := packG_ok (m := m.wr dst (m.rd fr b)) (n := n) (dst := dst + b) (fr := fr + b) (f := f) hbw hc (named := named) (base := base)
        (c := c) hf
        (fun j hj hn hk => by have := hfc hn; omega)
        (fun j hj hk => by
          have := h2 (j + 1) (by omega) (by rintro ⟨h3, h4⟩; have := hfc h3; omega)
          rcases hbw with ⟨rfl, rfl⟩ | ⟨rfl, rfl⟩ | ⟨rfl, rfl⟩ <;> omega)
      refine ⟨?_, ?_, ?_⟩
      · rw [r1]
        cases hn : named with
        | false => rfl
        | true => have := hfc hn; simp only [if_true]; rw [Nat.min_eq_right (by omega), Nat.min_eq_right (by omega)]
      · intro x hx
        rw [r2 x (by rw [Nat.mul_succ] at hx; omega), Mem.wr_out _ _ _ _ (by rw [hl, Nat.mul_succ] at *; omega)]
      · intro j hj
        cases j with
        | zero =>
          rw [if_neg (by exact hin), Nat.mul_zero, Nat.add_zero, Nat.add_zero]
          rw [Mem.rd_congr (m := m.wr dst (m.rd fr b)) (fun i hi => r2 _ (.inl (by omega)))]
          have := Mem.rd_wr_same m dst (m.rd fr b)
          rw [hl] at this
          exact this
        | succ j =>
          have e := r3 j (by omega)
          have hk : ¬ (named = true ∧ f + (j + 1) < c) := by rintro ⟨h3, h4⟩; have := hfc h3; omega
          rw [show dst + b * (j + 1) = dst + b + b * j by rw [Nat.mul_succ]; omega, e, if_neg hk, if_neg (by rintro ⟨h3, h4⟩; have := hfc h3; omega)]
          have := h2 (j + 1) hj hk
          rw [show fr + b + b * j = fr + b * (j + 1) by rw [Nat.mul_succ]; omega]
          rw [Mem.rd_wr_disj _ _ _ _ _ (by rw [hl]; rw [Nat.mul_succ b] at *; omega)]

/-! ## One argument -/

/-- Where the closure has put things: `pst`, `pfr`, `pvec`, the doublewords of the parameter list, and whether
they are in the caller's frame. -/
structure Sit where
  pst : Nat
  pf : Nat
  pv : Nat
  N : Nat
  ps : Bool

structure Sit.Ok (g : Sit) : Prop where
  al : g.pst % 16 = 0
  fv : g.pv + 192 ≤ g.pf
  on : g.ps = true → g.pf + 104 ≤ g.pst
  off : g.ps = false → g.pst + 64 ≤ g.pv

def Sit.ends (g : Sit) : Ends := ⟨g.pf + 8 * 13, g.pv + 16 * 12⟩

/-- Registers and parameter list from `f`, `v` and `o` on are what they were when the closure was entered. -/
structure View (g : Sit) (R : Regs) (named : Bool) (f v o : Nat) (m : Mem) : Prop where
  fpr : named = true → ∀ k, f ≤ k → k < 13 → leNat (m.rd (g.pf + 8 * k) 8) = R.fpr k
  vec : named = true → ∀ k, v ≤ k → k < 12 → leNat (m.rd (g.pv + 16 * k) 16) = R.vec k
  img : ∀ x, o ≤ x → x < 64 ∨ g.ps = true ∧ x < 8 * g.N → m (g.pst + x) = R.img x

/-- What arguments from there on may overwrite. -/
def Wr (g : Sit) (f v o x : Nat) : Prop :=
  (g.pf + 8 * f ≤ x ∧ x < g.pf + 104) ∨ (g.pv + 16 * v ≤ x ∧ x < g.pv + 192) ∨ (g.ps = true ∧ g.pst + o ≤ x ∧ x < g.pst + 8 * g.N)

/-- The pointers of the helper. -/
structure Cur (g : Sit) (named : Bool) (s : Nx) (p : Pos) (f v : Nat) : Prop where
  pst : s.pst = g.pst + 8 * p.slot
  pfr : s.pfr = g.pf + 8 * f
  pvec : s.pvec = g.pv + 16 * v
  fle : f ≤ 13
  vle : v ≤ 12
  nf : named = true → f = min p.nf 13
  nv : named = true → v = min p.nv 12

theorem View.rd {g : Sit} {R : Regs} {named : Bool} {f v o : Nat} {m : Mem} (h : View g R named f v o m) {a n : Nat} (ho : o ≤ a)
    (ha : a + n ≤ 64 ∨ g.ps = true ∧ a + n ≤ 8 * g.N) : m.rd (g.pst + a) n = R.img.rd a n := by
  apply bytes_ext (by simp)
  intro i hi
  rw [Mem.rd_length] at hi
  rw [Mem.rd_getD _ _ _ _ hi, Mem.rd_getD _ _ _ _ hi, Nat.add_assoc, h.img _ (by omega) (ha.imp (by omega) (fun h => ⟨h.1, by omega⟩))]

theorem View.mono {g : Sit} {R : Regs} {named : Bool} {f v o f' v' o' : Nat} {m : Mem} (h : View g R named f v o m) (hf : f ≤ f') (hv : v ≤ v') (ho : o ≤ o') :
    View g R named f' v' o' m :=
  ⟨fun hn k h1 h2 => h.fpr hn k (by omega) h2, fun hn k h1 h2 => h.vec hn k (by omega) h2, fun x h1 h2 => h.img x (by omega) h2⟩

/-- Registers as they are stored: bytes, and the part of a number. -/
def wOf : Cls → Nat
  | .v128 => 16
  | _ => 8
def convOf : Cls → List Byte → List Byte
  | .f32 => toSgl
  | _ => id
def Sit.base (g : Sit) : Cls → Nat
  | .v128 => g.pv
  | _ => g.pf

theorem cls_bw (c : Cls) : c.bytes = 4 ∧ wOf c = 8 ∨ c.bytes = 8 ∧ wOf c = 8 ∨ c.bytes = 16 ∧ wOf c = 16 := by cases c <;> decide

theorem conv_length (c : Cls) (l : List Byte) (h : l.length = wOf c) : (convOf c l).length = c.bytes := by
  cases c
  · exact leBytes_length _ _
  all_goals exact h

theorem View.reg {g : Sit} {R : Regs} {f v o : Nat} {m : Mem} (h : View g R true f v o m) {c : Cls} {k : Nat} (hk : rOf c f v ≤ k) (hc : k < c.count) {b : List Byte}
    (hb : b.length = c.bytes) (hi : InReg R c k b) : convOf c (m.rd (g.base c + wOf c * k) (wOf c)) = b := by
  cases c
  · have h1 := h.fpr rfl k hk hc
    show leBytes 4 (sglOf (leNat (m.rd (g.pf + 8 * k) 8))) = b
    rw [h1, show R.fpr k = _ from hi, sglOf_dblOf (by have := leNat_lt b; rw [hb] at this; exact this)]
    exact leBytes_leNat' hb
  · have h1 := h.fpr rfl k hk hc
    show m.rd (g.pf + 8 * k) 8 = b
    rw [show R.fpr k = _ from hi] at h1
    rw [← leBytes_leNat' (Mem.rd_length m (g.pf + 8 * k) 8), h1]
    exact leBytes_leNat' hb
  · have h1 := h.fpr rfl k hk hc
    show m.rd (g.pf + 8 * k) 8 = b
    rw [show R.fpr k = _ from hi] at h1
    rw [← leBytes_leNat' (Mem.rd_length m (g.pf + 8 * k) 8), h1]
    exact leBytes_leNat' hb
  · have h1 := h.vec rfl k hk hc
    show m.rd (g.pv + 16 * k) 16 = b
    rw [show R.vec k = _ from hi] at h1
    rw [← leBytes_leNat' (Mem.rd_length m (g.pv + 16 * k) 16), h1]
    exact leBytes_leNat' hb

/-- The first bytes of a doubleword with the value of an integer. -/
theorem int_low {tc : TC} {bs v : List Byte} (hb : bs.length = 8) (hn : v.length ≤ 8) (h : (leNat bs : Int) = intVal tc v % 2 ^ 64) : bs.take v.length = v := by
  have hd : ((256 ^ v.length : Nat) : Int) ∣ (2 ^ 64 : Int) := by
    have : (256 ^ v.length : Nat) ∣ 256 ^ 8 := Nat.pow_dvd_pow 256 hn
    exact_mod_cast this
  have e2 : (2 : Int) ^ (8 * v.length) = ((256 ^ v.length : Nat) : Int) := by
    rw [pow_mul]; norm_num
  have h1 : (leNat bs : Int) % ((256 ^ v.length : Nat) : Int) = (leNat v : Int) % ((256 ^ v.length : Nat) : Int) := by
    rw [h, Int.emod_emod_of_dvd _ hd]
    unfold intVal
    split
    · rw [e2, Int.sub_emod_right]
    · rfl
  have h2 : leNat bs % 256 ^ v.length = leNat v := by
    have h3 : (((leNat bs % 256 ^ v.length : Nat)) : Int) = ((leNat v % 256 ^ v.length : Nat) : Int) := by push_cast at h1 ⊢; exact h1
    rw [Nat.mod_eq_of_lt (leNat_lt v)] at h3
    exact_mod_cast h3
  rw [← leBytes_leNat' hb, leBytes_take _ hn, ← leBytes_mod, h2, leBytes_leNat]

/-- A homogeneous struct. -/
theorem align_first {g : Sit} {ld : LD} {t : FType} (ht : Ty ld t) (hs : t.tc = .struct) {named : Bool} {p : Pos} {f v : Nat} {s : Nx} (h : Cur g named s p f v) (hal : g.pst % 16 = 0) :
    (if (if t.align > 16 then 16 else t.align) > 1 then ({ s with pst := roundUp s.pst (if t.align > 16 then 16 else t.align) } : Nx) else s) =
      ⟨g.pst + 8 * first ld t p.slot, g.pf + 8 * f, g.pv + 16 * v⟩ := by
  obtain ⟨a, b, d⟩ := s
  obtain ⟨h1, h2, h3⟩ := h
  dsimp only at h1 h2 h3 ⊢
  subst h1 h2 h3
  unfold first
  rcases ty_align ht with e | e | e | e | e <;> rw [e] <;> simp [hs, roundUp, even] <;> omega

theorem closureStruct_homog {g : Sit} {ld : LD} {t : FType} (ht : Ty ld t) (hs : t.tc = .struct) {c : Cls} {n : Nat} (hh : homog ld t = some (c, n)) {named next : Bool}
    {p : Pos} {f v : Nat} {s : Nx} (h : Cur g named s p f v) (hal : g.pst % 16 = 0) (m : Mem) :
    ∃ dst q, dst = (if g.base c + wOf c * rOf c f v + wOf c * n ≤ g.base c + wOf c * c.count then g.base c + wOf c * rOf c f v else g.pst + 8 * first ld t p.slot) ∧
      q = packG c.bytes (wOf c) (convOf c) (g.base c + wOf c * c.count) named n dst (g.pst + 8 * first ld t p.slot) (g.base c + wOf c * rOf c f v) m ∧
      closureArg g.ends ld named next t s m = (dst, ⟨g.pst + 8 * (first ld t p.slot + (t.size + 7) / 8), match c with | .v128 => g.pf + 8 * f | _ => q.1,
        match c with | .v128 => q.1 | _ => g.pv + 16 * v⟩, q.2) := by
  refine ⟨_, _, rfl, rfl, ?_⟩
  have hfirst := align_first ht hs h hal
  have hoc := homog_occurs hh
  unfold closureArg
  rw [hs]
  dsimp only
  unfold closureStruct
  dsimp only
  have hd : discover ld t = some (elt c, n) := by rw [discover_eq ht, hh]; rfl
  rw [hfirst, hd]
  dsimp only
  have hk : (if elt c = .longdouble ∧ ld = .ieee then K.f128 else if elt c = .float then K.f32 else K.f64) = match c with | .f32 => K.f32 | .v128 => K.f128 | _ => K.f64 := by
    obtain ⟨o1, o2⟩ := hoc
    cases c <;> simp_all [elt]
  rw [hk, Nat.mul_add, ← Nat.add_assoc]
  cases c
  · simp only [pack_f32, reduceCtorEq, if_false]; rfl
  · simp only [pack_f64, reduceCtorEq, if_false]; rfl
  · simp only [pack_f64, reduceCtorEq, if_false]; rfl
  · simp only [pack_f128, if_true]; rfl

/-- A homogeneous struct. -/
def HS (ld : LD) (t : FType) : Prop := t.tc = .struct ∧ (homog ld t).isSome = true

/-- What one round of the loop achieves. -/
structure Step (g : Sit) (R : Regs) (ld : LD) (named : Bool) (t : FType) (val : List Byte) (o f v : Nat) (q : Pos) (m : Mem) (r : Nat × Nx × Mem) (f' v' : Nat) : Prop where
  cur : Cur g named r.2.1 q f' v'
  fle : f ≤ f'
  vle : v ≤ v'
  view : View g R named f' v' (8 * q.slot) r.2.2
  frame : ∀ x, ¬ Wr g f v o x → r.2.2 x = m x
  value : r.2.2.rd r.1 t.size = val
  keep : named = true ∨ ¬ HS ld t → ∀ i, i < t.size → ¬ Wr g f' v' (8 * q.slot) (r.1 + i)
  same : named = false → ¬ HS ld t → r.2.2 = m

def fOf (c : Cls) (f x : Nat) : Nat := match c with | .v128 => f | _ => x
def vOf (c : Cls) (v x : Nat) : Nat := match c with | .v128 => x | _ => v

set_option maxHeartbeats 1000000 in
theorem homog_step {g : Sit} (hg : g.Ok) {R : Regs} {ld : LD} {t : FType} (ht : Ty ld t) {c : Cls} {n : Nat} (hh : homog ld t = some (c, n)) {named : Bool} {p : Pos} {f v : Nat}
    {s : Nx} {m : Mem} (h : Cur g named s p f v) (hv : View g R named f v (8 * p.slot) m) (hN : (placeArg ld named t p).2.slot ≤ g.N)
    {val : List Byte} (hl : val.length = t.size) (hpa : PassedAt R t val (placeArg ld named t p).1) {r : Nat × Nx × Mem} {x : Nat}
    (hx : x = if named then min (rOf c f v + n) c.count else rOf c f v)
    (hs : r.2.1 = ⟨g.pst + 8 * (first ld t p.slot + (t.size + 7) / 8), g.pf + 8 * fOf c f x, g.pv + 16 * vOf c v x⟩)
    (hvar : named = false → g.ps = true)
    (hd : (r.1 = g.base c + wOf c * rOf c f v ∧ rOf c f v + n ≤ c.count) ∨ (r.1 = g.pst + 8 * first ld t p.slot ∧ g.ps = true))
    (hfr : ∀ y, y < r.1 ∨ r.1 + c.bytes * n ≤ y → r.2.2 y = m y)
    (hp : ∀ j, j < n → r.2.2.rd (r.1 + c.bytes * j) c.bytes = if named = true ∧ rOf c f v + j < c.count then convOf c (m.rd (g.base c + wOf c * (rOf c f v + j)) (wOf c))
      else m.rd (g.pst + 8 * first ld t p.slot + c.bytes * j) c.bytes)
    (hns : named = false → t.tc ≠ .struct → r.2.2 = m ∧ r.1 = g.pst + 8 * first ld t p.slot) :
    Step g R ld named t val (8 * p.slot) f v (placeArg ld named t p).2 m r (fOf c f x) (vOf c v x) := by
  obtain ⟨a1, a2, a3, a4, a5⟩ := homog_size ht hh
  have hfg := first_ge ld t p.slot
  rw [placeArg_homog hh] at hN hpa ⊢
  dsimp only at hN hpa ⊢
  obtain ⟨g1, g2, g3, g4⟩ := hg
  obtain ⟨h1, h2, h3, h4, h5, h6, h7⟩ := h
  have hsz : t.size = c.bytes * n := a2
  have hr0 : rOf c f v ≤ c.count := by cases c <;> simp only [rOf, Cls.count] <;> omega
  have hmin : named = true → rOf c f v = min (rOf c p.nf p.nv) c.count := by
    intro hn
    have := h6 hn; have := h7 hn
    cases c <;> simp only [rOf, Cls.count] <;> assumption
  have hval : r.2.2.rd r.1 t.size = val := by
    have := rd_parts (m := r.2.2) (a := r.1) (b := c.bytes) (v := val) (n := n) (fun j hj => by
      rw [hp j hj]
      have hq := hpa j hj
      have hpl : (part c val j).length = c.bytes := part_length hj (by rw [hl, hsz])
      by_cases hc : named = true ∧ rOf c f v + j < c.count
      · have hm := hmin hc.1
        have e : rOf c p.nf p.nv + j = rOf c f v + j := by omega
        rw [if_pos ⟨hc.1, by omega⟩, e] at hq
        rw [if_pos hc]
        obtain ⟨hc1, hc2⟩ := hc
        subst hc1
        exact hv.reg (by omega) hc2 hpl hq
      · rw [if_neg hc]
        rw [if_neg (by rintro ⟨q1, q2⟩; have := hmin q1; exact hc ⟨q1, by omega⟩)] at hq
        have hps : g.ps = true := by
          rcases hd with ⟨_, d2⟩ | ⟨_, d2⟩
          · refine hvar ?_
            cases hn : named with
            | false => rfl
            | true => exact absurd ⟨hn, by omega⟩ hc
          · exact d2
        have hle : c.bytes * (j + 1) ≤ c.bytes * n := Nat.mul_le_mul_left _ hj
        rw [Nat.mul_succ] at hle
        rw [Nat.add_assoc, hv.rd (by omega) (.inr ⟨hps, by omega⟩)]
        exact hq) (by rw [hl, hsz])
    rw [hsz, this, ← hsz, ← hl, List.take_length]
  have hbn : c.bytes * n ≤ wOf c * n := Nat.mul_le_mul_right _ (by cases c <;> decide)
  have hxle : rOf c f v ≤ x ∧ x ≤ c.count ∧ (named = true → rOf c f v + n ≤ c.count → x = rOf c f v + n) ∧ (named = false → x = rOf c f v) := by
    rw [hx]
    cases named <;> simp <;> omega
  obtain ⟨x1, x2, x3, x4⟩ := hxle
  have hcase : ∀ {P : Prop}, (c = .v128 → P) → (g.base c = g.pf ∧ wOf c = 8 ∧ c.count = 13 ∧ rOf c f v = f ∧ fOf c f x = x ∧ vOf c v x = v ∧ rOf c p.nf p.nv = p.nf ∧
      nfOf c p.nf n = p.nf + n ∧ nvOf c p.nv n = p.nv → P) → P := by
    intro P q1 q2
    cases c
    · exact q2 ⟨rfl, rfl, rfl, rfl, rfl, rfl, rfl, rfl, rfl⟩
    · exact q2 ⟨rfl, rfl, rfl, rfl, rfl, rfl, rfl, rfl, rfl⟩
    · exact q2 ⟨rfl, rfl, rfl, rfl, rfl, rfl, rfl, rfl, rfl⟩
    · exact q1 rfl
  have hon : g.ps = true → g.pf + 104 ≤ g.pst := g3
  have hstep : Cur g named r.2.1 ⟨first ld t p.slot + (t.size + 7) / 8, nfOf c p.nf n, nvOf c p.nv n⟩ (fOf c f x) (vOf c v x) := by
    rw [hs]
    refine ⟨rfl, rfl, rfl, ?_, ?_, ?_, ?_⟩
    · refine hcase (fun e => ?_) (fun ⟨e1, e2, e3, e4, e5, e6, e7, e8, e9⟩ => ?_)
      · subst e; exact h4
      · omega
    · refine hcase (fun e => ?_) (fun ⟨e1, e2, e3, e4, e5, e6, e7, e8, e9⟩ => ?_)
      · subst e; exact x2
      · omega
    · intro hn
      have := hmin hn
      rw [hn, if_pos rfl] at hx
      refine hcase (fun e => ?_) (fun ⟨e1, e2, e3, e4, e5, e6, e7, e8, e9⟩ => ?_)
      · subst e; exact h6 hn
      · dsimp only; omega
    · intro hn
      have := hmin hn
      rw [hn, if_pos rfl] at hx
      refine hcase (fun e => ?_) (fun ⟨e1, e2, e3, e4, e5, e6, e7, e8, e9⟩ => ?_)
      · subst e
        show x = min (p.nv + n) 12
        have : rOf .v128 p.nf p.nv = p.nv := rfl
        have : Cls.v128.count = 12 := rfl
        omega
      · dsimp only; have := h7 hn; omega
  have hfx : f ≤ fOf c f x ∧ v ≤ vOf c v x := by
    refine hcase (fun e => ?_) (fun ⟨e1, e2, e3, e4, e5, e6, e7, e8, e9⟩ => ?_)
    · subst e; exact ⟨Nat.le_refl _, x1⟩
    · omega
  have hI : (r.1 = g.pf + 8 * f ∧ t.size ≤ 8 * n ∧ f + n ≤ 13 ∧ (named = true → fOf c f x = f + n) ∧ vOf c v x = v) ∨
      (r.1 = g.pv + 16 * v ∧ t.size ≤ 16 * n ∧ v + n ≤ 12 ∧ fOf c f x = f ∧ (named = true → vOf c v x = v + n)) ∨
      (r.1 = g.pst + 8 * first ld t p.slot ∧ g.ps = true) := by
    rcases hd with ⟨d1, d2⟩ | hd
    · refine hcase (fun e => ?_) (fun ⟨e1, e2, e3, e4, e5, e6, e7, e8, e9⟩ => ?_)
      · subst e
        exact .inr (.inl ⟨d1, by rw [hsz]; exact Nat.le_refl _, d2, rfl, fun hn => x3 hn d2⟩)
      · rw [e1, e2, e4] at d1
        rw [e4, e3] at d2
        rw [e4, e3] at x3
        rw [e2] at hbn
        exact .inl ⟨d1, by omega, d2, fun hn => by rw [e5]; exact x3 hn d2, e6⟩
    · exact .inr (.inr hd)
  rw [← hsz] at hfr
  have hsl : first ld t p.slot + (t.size + 7) / 8 = (⟨first ld t p.slot + (t.size + 7) / 8, nfOf c p.nf n, nvOf c p.nv n⟩ : Pos).slot := rfl
  have hst8 : t.size ≤ 8 * ((t.size + 7) / 8) := by omega
  generalize (t.size + 7) / 8 = W at *
  obtain ⟨hf1, hf2⟩ := hfx
  have hps : g.ps = true ∨ g.pst + 64 ≤ g.pv := by
    cases hq : g.ps with
    | true => exact .inl rfl
    | false => exact .inr (g4 hq)
  refine ⟨hstep, hf1, hf2, ⟨?_, ?_, ?_⟩, ?_, hval, ?_, ?_⟩
  · intro hn k k1 k2
    rw [← hv.fpr hn k (by omega) k2]
    refine congrArg leNat (Mem.rd_congr fun i hi => hfr _ ?_)
    rcases hI with ⟨i1, i2, i3, i4, i5⟩ | ⟨i1, i2, i3, i4, i5⟩ | ⟨i1, i2⟩
    · have := i4 hn; omega
    · omega
    · have := g3 i2; omega
  · intro hn k k1 k2
    rw [← hv.vec hn k (by omega) k2]
    refine congrArg leNat (Mem.rd_congr fun i hi => hfr _ ?_)
    rcases hI with ⟨i1, i2, i3, i4, i5⟩ | ⟨i1, i2, i3, i4, i5⟩ | ⟨i1, i2⟩
    · omega
    · have := i5 hn; omega
    · have := g3 i2; omega
  · intro y y1 y2
    dsimp only at y1
    rw [← hv.img y (by omega) y2]
    refine hfr _ ?_
    rcases hI with ⟨i1, i2, i3, i4, i5⟩ | ⟨i1, i2, i3, i4, i5⟩ | ⟨i1, i2⟩
    · rcases y2 with y2 | ⟨y2, y3⟩
      · rcases hps with q | q
        · have := g3 q; omega
        · omega
      · have := g3 y2; omega
    · rcases y2 with y2 | ⟨y2, y3⟩
      · rcases hps with q | q
        · have := g3 q; omega
        · omega
      · have := g3 y2; omega
    · omega
  · intro y hy
    refine hfr _ ?_
    rcases Nat.lt_or_ge y r.1 with q1 | q1
    · exact .inl q1
    rcases Nat.lt_or_ge y (r.1 + t.size) with q2 | q2
    · refine absurd ?_ hy
      unfold Wr
      rcases hI with ⟨i1, i2, i3, i4, i5⟩ | ⟨i1, i2, i3, i4, i5⟩ | ⟨i1, i2⟩
      · exact .inl (by omega)
      · exact .inr (.inl (by omega))
      · exact .inr (.inr ⟨i2, by omega, by omega⟩)
    · exact .inr q2
  · intro hk i hi
    have hB : (r.1 = g.pst + 8 * first ld t p.slot ∧ g.ps = true) ∨ named = true := by
      rcases hk with hk | hk
      · exact .inr hk
      · cases hn : named with
        | true => exact .inr rfl
        | false => exact .inl ⟨(hns hn (fun hst => hk ⟨hst, by rw [hh]; rfl⟩)).2, hvar hn⟩
    unfold Wr
    dsimp only
    rintro (w | w | ⟨w0, w⟩)
    · rcases hI with ⟨i1, i2, i3, i4, i5⟩ | ⟨i1, i2, i3, i4, i5⟩ | ⟨i1, i2⟩
      · rcases hB with ⟨b1, b2⟩ | hn
        · have := g3 b2; omega
        · have := i4 hn; omega
      · omega
      · have := g3 i2; omega
    · rcases hI with ⟨i1, i2, i3, i4, i5⟩ | ⟨i1, i2, i3, i4, i5⟩ | ⟨i1, i2⟩
      · omega
      · rcases hB with ⟨b1, b2⟩ | hn
        · have := g3 b2; omega
        · have := i5 hn; omega
      · have := g3 i2; omega
    · have := g3 w0
      rcases hI with ⟨i1, i2, i3, i4, i5⟩ | ⟨i1, i2, i3, i4, i5⟩ | ⟨i1, i2⟩ <;> omega
  · intro hn hs'
    refine (hns hn (fun hst => hs' ⟨hst, by rw [hh]; rfl⟩)).1

/-- Nothing is moved: the argument is in the parameter list. -/
theorem img_step {g : Sit} (hg : g.Ok) {R : Regs} {ld : LD} {t : FType} (hh : homog ld t = none) {named : Bool} {p : Pos} {f v : Nat}
    {s : Nx} {m : Mem} (h : Cur g named s p f v) (hv : View g R named f v (8 * p.slot) m) (hN : (placeArg ld named t p).2.slot ≤ g.N)
    (hreg : g.ps = true ∨ (placeArg ld named t p).2.slot ≤ 8) {val : List Byte} (hval : R.img.rd (8 * first ld t p.slot) t.size = val) {r : Nat × Nx × Mem}
    (hr : r = (g.pst + 8 * first ld t p.slot, ⟨g.pst + 8 * (first ld t p.slot + (t.size + 7) / 8), g.pf + 8 * f, g.pv + 16 * v⟩, m)) :
    Step g R ld named t val (8 * p.slot) f v (placeArg ld named t p).2 m r f v := by
  subst hr
  have hfg := first_ge ld t p.slot
  rw [placeArg_none hh] at hN hreg ⊢
  dsimp only at hN hreg ⊢
  obtain ⟨g1, g2, g3, g4⟩ := hg
  obtain ⟨h1, h2, h3, h4, h5, h6, h7⟩ := h
  have hin : ∀ i, i < t.size → 8 * first ld t p.slot + i < 8 * (first ld t p.slot + (t.size + 7) / 8) := by intro i hi; omega
  refine ⟨⟨rfl, rfl, rfl, h4, h5, h6, h7⟩, Nat.le_refl _, Nat.le_refl _, hv.mono (Nat.le_refl _) (Nat.le_refl _) (by dsimp only; omega), fun _ _ => rfl, ?_, ?_, fun _ _ => rfl⟩
  · dsimp only
    rw [← hval]
    refine hv.rd (by omega) ?_
    rcases hreg with q | q
    · exact .inr ⟨q, by omega⟩
    · exact .inl (by omega)
  · intro _ i hi
    have := hin i hi
    unfold Wr
    dsimp only
    rcases hreg with q | q
    · have := g3 q
      omega
    · cases hq : g.ps with
      | true => have := g3 hq; omega
      | false =>
        have := g4 hq
        rintro (w | w | ⟨w, _⟩)
        · omega
        · omega
        · cases w

/-- An argument of one register. -/
theorem one_step {g : Sit} (hg : g.Ok) {R : Regs} {ld : LD} {t : FType} (ht : Ty ld t) (hns : t.tc ≠ .struct) {c : Cls} (hh : homog ld t = some (c, 1)) {named : Bool} {p : Pos} {f v : Nat}
    {s : Nx} {m : Mem} (h : Cur g named s p f v) (hv : View g R named f v (8 * p.slot) m) (hN : (placeArg ld named t p).2.slot ≤ g.N)
    (hreg : g.ps = false → named = true ∧ AllRegs t (placeArg ld named t p).1)
    {val : List Byte} (hl : val.length = t.size) (hpa : PassedAt R t val (placeArg ld named t p).1) {r : Nat × Nx × Mem}
    (hr : r = if rOf c f v < c.count ∧ named = true then (g.base c + wOf c * rOf c f v, ⟨g.pst + 8 * (first ld t p.slot + (t.size + 7) / 8), g.pf + 8 * fOf c f (rOf c f v + 1),
        g.pv + 16 * vOf c v (rOf c f v + 1)⟩, m.wr (g.base c + wOf c * rOf c f v) (convOf c (m.rd (g.base c + wOf c * rOf c f v) (wOf c))))
      else (g.pst + 8 * first ld t p.slot, ⟨g.pst + 8 * (first ld t p.slot + (t.size + 7) / 8), g.pf + 8 * f, g.pv + 16 * v⟩, m)) :
    ∃ f' v', Step g R ld named t val (8 * p.slot) f v (placeArg ld named t p).2 m r f' v' := by
  have hcl : (convOf c (m.rd (g.base c + wOf c * rOf c f v) (wOf c))).length = c.bytes := conv_length c _ (Mem.rd_length _ _ _)
  have hcur := h
  obtain ⟨h1, h2, h3, h4, h5, h6, h7⟩ := h
  have hr0 : rOf c f v ≤ c.count := by cases c <;> simp only [rOf, Cls.count] <;> omega
  by_cases hin : rOf c f v < c.count ∧ named = true
  · rw [if_pos hin] at hr
    obtain ⟨i1, i2⟩ := hin
    refine ⟨_, _, homog_step hg ht hh hcur hv hN hl hpa (x := rOf c f v + 1) ?_ (by rw [hr]) (fun hn => absurd i2 (by rw [hn]; decide)) (.inl ⟨by rw [hr], by omega⟩) ?_ ?_
      (fun hn => absurd i2 (by rw [hn]; decide))⟩
    · rw [if_pos i2]; omega
    · intro y hy
      rw [hr] at hy ⊢
      dsimp only at hy ⊢
      exact Mem.wr_out _ _ _ _ (by rw [hcl]; omega)
    · intro j hj
      obtain rfl : j = 0 := by omega
      rw [if_pos ⟨i2, i1⟩, hr]
      dsimp only
      rw [Nat.mul_zero, Nat.add_zero, Nat.add_zero]
      have := Mem.rd_wr_same m (g.base c + wOf c * rOf c f v) (convOf c (m.rd (g.base c + wOf c * rOf c f v) (wOf c)))
      rw [hcl] at this
      exact this
  · rw [if_neg hin] at hr
    have hx : rOf c f v = if named = true then min (rOf c f v + 1) c.count else rOf c f v := by
      split
      · rename_i q
        have : ¬ rOf c f v < c.count := fun w => hin ⟨w, q⟩
        omega
      · rfl
    have hfv : fOf c f (rOf c f v) = f ∧ vOf c v (rOf c f v) = v := by cases c <;> exact ⟨rfl, rfl⟩
    have hps : g.ps = true := by
      cases hq : g.ps with
      | true => rfl
      | false =>
        obtain ⟨q1, q2⟩ := hreg hq
        rw [placeArg_homog hh] at q2
        have q3 : rOf c p.nf p.nv + 1 ≤ c.count := q2
        refine absurd ⟨?_, q1⟩ hin
        have := h6 q1; have := h7 q1
        cases c <;> simp only [rOf, Cls.count] at q3 ⊢ <;> omega
    refine ⟨_, _, homog_step hg ht hh hcur hv hN hl hpa (x := rOf c f v) hx (by rw [hr, hfv.1, hfv.2]) (fun _ => hps) (.inr ⟨by rw [hr], hps⟩) (fun y _ => by rw [hr]) ?_
      (fun _ _ => by rw [hr]; exact ⟨rfl, rfl⟩)⟩
    intro j hj
    obtain rfl : j = 0 := by omega
    rw [if_neg (fun w => hin ⟨w.2, w.1⟩), hr]

/-- A pair of doubles. -/
theorem ibm_step {g : Sit} (hg : g.Ok) {R : Regs} {t : FType} (ht : Ty .ibm t) (hlt : t.tc = .longdouble) (hsz : t.size = 16) (hh : homog .ibm t = some (.ibm, 2))
    {named next : Bool} {p : Pos} {f v : Nat} {s : Nx} {m : Mem} (h : Cur g named s p f v) (hv : View g R named f v (8 * p.slot) m) (hN : (placeArg .ibm named t p).2.slot ≤ g.N)
    (hreg : g.ps = false → named = true ∧ AllRegs t (placeArg .ibm named t p).1) (hnn : next = true → named = true) (hnext : named = true → next = true ∨ 12 ≤ p.nf)
    {val : List Byte} (hl : val.length = t.size) (hpa : PassedAt R t val (placeArg .ibm named t p).1) :
    ∃ f' v', Step g R .ibm named t val (8 * p.slot) f v (placeArg .ibm named t p).2 m (closureArg g.ends .ibm named next t s m) f' v' := by
  have hfs : first .ibm t p.slot = p.slot := by
    unfold first
    rw [if_neg]
    rintro ⟨_, h1 | h1⟩
    · rw [hlt] at h1; cases h1
    · cases h1
  have hcur := h
  obtain ⟨a, b, d⟩ := s
  obtain ⟨h1, h2, h3, h4, h5, h6, h7⟩ := h
  dsimp only at h1 h2 h3
  subst h1 h2 h3
  have he : closureArg g.ends .ibm named next t ⟨g.pst + 8 * p.slot, g.pf + 8 * f, g.pv + 16 * v⟩ m =
      (if g.pf + 8 * f + 8 < g.pf + 8 * 13 ∧ next = true then (g.pf + 8 * f, ⟨g.pst + 8 * p.slot + 16, g.pf + 8 * f + 16, g.pv + 16 * v⟩, m)
      else if g.pf + 8 * f < g.pf + 8 * 13 ∧ named = true then
        (g.pst + 8 * p.slot, ⟨g.pst + 8 * p.slot + 16, g.pf + 8 * f + 8, g.pv + 16 * v⟩, m.wr (g.pst + 8 * p.slot) (m.rd (g.pf + 8 * f) 8))
      else (g.pst + 8 * p.slot, ⟨g.pst + 8 * p.slot + 16, g.pf + 8 * f, g.pv + 16 * v⟩, m)) := by
    unfold closureArg
    rw [hlt]
    rfl
  have hw : g.pst + 8 * p.slot + 16 = g.pst + 8 * (first .ibm t p.slot + (t.size + 7) / 8) := by rw [hfs, hsz]; omega
  rw [hw] at he
  have hpsd : ¬ (f + 1 < 13 ∧ next = true) → g.ps = true := by
    intro hno
    cases hq : g.ps with
    | true => rfl
    | false =>
      obtain ⟨q1, q2⟩ := hreg hq
      rw [placeArg_homog hh] at q2
      have q3 : p.nf + 2 ≤ 13 := q2
      have := h6 q1
      rcases hnext q1 with w | w
      · exact absurd ⟨by omega, w⟩ hno
      · omega
  by_cases c1 : f + 1 < 13 ∧ next = true
  · rw [if_pos ⟨by omega, c1.2⟩] at he
    have hn := hnn c1.2
    refine ⟨_, _, homog_step hg ht hh hcur hv hN hl hpa (x := f + 2) ?_ ?_ (fun q => absurd hn (by rw [q]; decide)) (.inl ⟨by rw [he]; rfl, ?_⟩) (fun y _ => by rw [he]) ?_
      (fun q => absurd hn (by rw [q]; decide))⟩
    · rw [if_pos hn]; show f + 2 = min (f + 2) 13; omega
    · rw [he]; rfl
    · show f + 2 ≤ 13; omega
    · intro j hj
      rw [if_pos ⟨hn, by show f + j < 13; omega⟩, he]
      show m.rd (g.pf + 8 * f + 8 * j) 8 = m.rd (g.pf + 8 * (f + j)) 8
      congr 1
      omega
  · rw [if_neg (by rintro ⟨q1, q2⟩; exact c1 ⟨by omega, q2⟩)] at he
    have hps := hpsd c1
    by_cases c2 : f < 13 ∧ named = true
    · rw [if_pos ⟨by omega, c2.2⟩] at he
      have hf12 : f = 12 := by
        have := h6 c2.2
        rcases hnext c2.2 with w | w
        · have : ¬ f + 1 < 13 := fun q => c1 ⟨q, w⟩
          omega
        · omega
      refine ⟨_, _, homog_step hg ht hh hcur hv hN hl hpa (x := 13) ?_ ?_ (fun _ => hps) (.inr ⟨by rw [he, hfs], hps⟩) ?_ ?_
        (fun q => absurd c2.2 (by rw [q]; decide))⟩
      · rw [if_pos c2.2]; show 13 = min (f + 2) 13; omega
      · rw [he, hf12]; rfl
      · intro y hy
        rw [he] at hy ⊢
        dsimp only at hy ⊢
        exact Mem.wr_out _ _ _ _ (by rw [Mem.rd_length]; have : Cls.ibm.bytes = 8 := rfl; omega)
      · intro j hj
        rw [he, hfs]
        show (m.wr (g.pst + 8 * p.slot) (m.rd (g.pf + 8 * f) 8)).rd (g.pst + 8 * p.slot + 8 * j) 8 =
          if named = true ∧ f + j < 13 then m.rd (g.pf + 8 * (f + j)) 8 else m.rd (g.pst + 8 * p.slot + 8 * j) 8
        rcases (by omega : j = 0 ∨ j = 1) with rfl | rfl
        · rw [if_pos ⟨c2.2, by omega⟩]
          have := Mem.rd_wr_same m (g.pst + 8 * p.slot) (m.rd (g.pf + 8 * f) 8)
          rw [Mem.rd_length] at this
          exact this
        · rw [if_neg (by omega)]
          exact Mem.rd_wr_disj _ _ _ _ _ (by rw [Mem.rd_length]; omega)
    · rw [if_neg (by rintro ⟨q1, q2⟩; exact c2 ⟨by omega, q2⟩)] at he
      refine ⟨_, _, homog_step hg ht hh hcur hv hN hl hpa (x := f) ?_ ?_ (fun _ => hps) (.inr ⟨by rw [he, hfs], hps⟩) (fun y _ => by rw [he]) ?_
        (fun _ _ => by rw [he, hfs]; exact ⟨rfl, rfl⟩)⟩
      · split
        · rename_i q
          have : ¬ f < 13 := fun w => c2 ⟨w, q⟩
          show f = min (f + 2) 13
          omega
        · rfl
      · rw [he]; rfl
      · intro j hj
        rw [if_neg (by rintro ⟨q1, q2⟩; have : f + j < 13 := q2; exact c2 ⟨by omega, q1⟩), he, hfs]

set_option maxHeartbeats 1000000 in
theorem closureArg_ok {g : Sit} (hg : g.Ok) {R : Regs} {ld : LD} {t : FType} (ht : Ty ld t) {named next : Bool} {p : Pos} {f v : Nat} {s : Nx} {m : Mem}
    (h : Cur g named s p f v) (hv : View g R named f v (8 * p.slot) m) (hN : (placeArg ld named t p).2.slot ≤ g.N)
    (hreg : g.ps = false → named = true ∧ AllRegs t (placeArg ld named t p).1) (hnn : next = true → named = true)
    (hnext : ld = .ibm → t.tc = .longdouble → named = true → next = true ∨ 12 ≤ p.nf)
    {val : List Byte} (hl : val.length = t.size) (hpa : PassedAt R t val (placeArg ld named t p).1) :
    ∃ f' v', Step g R ld named t val (8 * p.slot) f v (placeArg ld named t p).2 m (closureArg g.ends ld named next t s m) f' v' := by
  have hcur := h
  have hs0 : s = ⟨g.pst + 8 * p.slot, g.pf + 8 * f, g.pv + 16 * v⟩ := by
    obtain ⟨a, b, d⟩ := s
    obtain ⟨h1, h2, h3, _, _, _, _⟩ := h
    dsimp only at h1 h2 h3
    subst h1 h2 h3
    rfl
  have hz := ht.1.size_pos (tab_ok ld)
  cases hh : homog ld t with
  | none =>
    have hpl := placeArg_none hh named p
    by_cases hs : t.tc = .struct
    · rw [if_pos hs] at hpl
      have hval : R.img.rd (8 * first ld t p.slot) t.size = val := by rw [hpl] at hpa; exact hpa
      refine ⟨f, v, img_step hg hh hcur hv hN ?_ hval ?_⟩
      · cases hq : g.ps with
        | true => exact .inl rfl
        | false =>
          have := (hreg hq).2
          rw [hpl] at this ⊢
          exact .inr this
      · unfold closureArg
        rw [hs]
        show closureStruct g.ends ld named t s m = _
        unfold closureStruct
        have hd : discover ld t = none := by rw [discover_eq ht, hh]; rfl
        dsimp only
        rw [align_first ht hs hcur hg.al, hd, Nat.mul_add, ← Nat.add_assoc]
    · rw [if_neg hs] at hpl
      obtain ⟨htab, hcl⟩ := (ty_scalar_or ht).resolve_left hs
      have hcn : cls ld t.tc = none := by
        cases hc : cls ld t.tc with
        | none => rfl
        | some c => rw [hh, hc] at hcl; cases hcl
      obtain ⟨⟨sgn, n⟩, hi⟩ := intType_some htab hcn
      obtain ⟨i1, i2, i3⟩ := intVal_getInt (m := m) (a := 0) htab hcn hi
      have hfe : first ld t p.slot = p.slot := by
        unfold first
        rw [if_neg]
        rintro ⟨h16, _⟩
        have := (ht.1.align_dvd_size (tab_ok ld))
        rw [h16] at this
        have := Nat.le_of_dvd hz this
        omega
      have hw : (t.size + 7) / 8 = 1 := by omega
      have hval : R.img.rd (8 * first ld t p.slot) t.size = val := by
        rw [hpl] at hpa
        have := int_low (Mem.rd_length _ _ _) (by rw [hl]; exact i3) hpa
        rw [hl, Mem.rd_take _ _ i3] at this
        exact this
      refine ⟨f, v, img_step hg hh hcur hv hN ?_ hval ?_⟩
      · cases hq : g.ps with
        | true => exact .inl rfl
        | false =>
          have := (hreg hq).2
          rw [hpl] at this ⊢
          rw [hw]
          exact .inr this
      · rw [hfe, hw, hs0]
        clear hpa hpl hreg hval hv hcur h hs0 hnext
        obtain ⟨z, al, tc, es⟩ := t
        simp only [FType.tc_mk, FType.size_mk, FType.align_mk] at *
        cases tc <;> cases ld <;> simp [tab, cls] at htab hcn <;> rfl
  | some q =>
    obtain ⟨c, n⟩ := q
    obtain ⟨a1, a2, a3, a4, a5⟩ := homog_size ht hh
    by_cases hs : t.tc = .struct
    · obtain ⟨dst, q, hdst, hq, he⟩ := closureStruct_homog (next := next) ht hs hh hcur hg.al m
      have hr0 : rOf c f v ≤ c.count := by have := hcur.fle; have := hcur.vle; cases c <;> simp only [rOf, Cls.count] <;> omega
      have hvar : named = false → g.ps = true := by
        intro hn
        cases hps : g.ps with
        | true => rfl
        | false => exact absurd (hreg hps).1 (by rw [hn]; decide)
      have hareas : g.ps = true → g.base c + wOf c * c.count ≤ g.pst := by
        intro hps
        have := hg.on hps; have := hg.fv
        cases c <;> simp only [Sit.base, wOf, Cls.count] <;> omega
      have hd : (dst = g.base c + wOf c * rOf c f v ∧ rOf c f v + n ≤ c.count) ∨ (dst = g.pst + 8 * first ld t p.slot ∧ g.ps = true) := by
        rw [Nat.add_assoc, ← Nat.mul_add] at hdst
        by_cases hfit : rOf c f v + n ≤ c.count
        · rw [if_pos (Nat.add_le_add_left (Nat.mul_le_mul_left _ hfit) _)] at hdst
          exact .inl ⟨hdst, hfit⟩
        · have hlt : wOf c * (c.count + 1) ≤ wOf c * (rOf c f v + n) := Nat.mul_le_mul_left _ (by omega)
          have hw0 : 0 < wOf c := by cases c <;> decide
          rw [Nat.mul_succ] at hlt
          rw [if_neg (by omega)] at hdst
          refine .inr ⟨hdst, ?_⟩
          cases hps : g.ps with
          | true => rfl
          | false =>
            obtain ⟨q1, q2⟩ := hreg hps
            rw [placeArg_homog hh] at q2
            have q3 : rOf c p.nf p.nv + n ≤ c.count := q2
            have := hcur.nf q1; have := hcur.nv q1
            refine absurd ?_ hfit
            cases c <;> simp only [rOf, Cls.count] at q3 ⊢ <;> omega
      have hbw : c.bytes ≤ wOf c := by cases c <;> decide
      obtain ⟨k1, k2, k3⟩ := packG_ok (m := m) (cls_bw c) (conv_length c) (named := named) (base := g.base c) (c := c.count) (n := n) (dst := dst)
        (fr := g.pst + 8 * first ld t p.slot) (f := rOf c f v) hr0
        (by
          intro j hj hn hjc
          rcases hd with ⟨d1, d2⟩ | ⟨d1, d2⟩
          · left
            have := Nat.mul_le_mul_right j hbw
            rw [d1, Nat.mul_add]
            omega
          · right
            have h2 : wOf c * (rOf c f v + j + 1) ≤ wOf c * c.count := Nat.mul_le_mul_left _ hjc
            rw [Nat.mul_succ] at h2
            have := hareas d2
            omega)
        (by
          intro j hj hno
          left
          rcases hd with ⟨d1, d2⟩ | ⟨d1, d2⟩
          · have hps := hvar (by
              cases hn : named with
              | false => rfl
              | true => exact absurd ⟨hn, by omega⟩ hno)
            have := hareas hps
            have h2 : wOf c * rOf c f v ≤ wOf c * c.count := Nat.mul_le_mul_left _ hr0
            omega
          · omega)
      rw [← hq] at k1 k2 k3
      refine ⟨_, _, homog_step hg ht hh hcur hv hN hl hpa rfl ?_ hvar (r := closureArg g.ends ld named next t s m) (by rw [he]; exact hd) (by rw [he]; exact k2) (by rw [he]; exact k3)
        (fun _ w => absurd hs w)⟩
      rw [he, k1]
      cases c <;> rfl
    · obtain ⟨htab, hcl⟩ := (ty_scalar_or ht).resolve_left hs
      rw [hh] at hcl
      by_cases hib : ld = .ibm ∧ t.tc = .longdouble
      · obtain ⟨rfl, hlt⟩ := hib
        rw [hlt] at htab hcl
        obtain ⟨rfl, rfl⟩ : c = .ibm ∧ n = 2 := by simpa [cls, Cls.regs] using hcl
        have hsz : t.size = 16 := by simp [tab] at htab; omega
        exact ibm_step hg ht hlt hsz hh hcur hv hN hreg hnn (hnext rfl hlt) hl hpa
      · have hn1 : n = 1 := by
          cases hc : cls ld t.tc with
          | none => rw [hc] at hcl; cases hcl
          | some d =>
            rw [hc] at hcl
            obtain ⟨rfl, rfl⟩ : c = d ∧ n = d.regs := by simpa using hcl
            cases c
            · rfl
            · rfl
            · exfalso
              generalize t.tc = tc at hc hib
              cases tc <;> cases ld <;> simp [cls] at hc hib
            · rfl
        subst hn1
        refine one_step hg ht hs hh hcur hv hN hreg hl hpa ?_
        have hcc : cls ld t.tc = some c := by
          cases hc : cls ld t.tc with
          | none => rw [hc] at hcl; cases hcl
          | some d =>
            rw [hc] at hcl
            obtain ⟨rfl, _⟩ : c = d ∧ 1 = d.regs := by simpa using hcl
            rfl
        have hws : ∀ a, m.wr a (m.rd a 8) = m := fun a => wr_self m a 8
        have hws' : ∀ a, m.wr a (m.rd a 16) = m := fun a => wr_self m a 16
        have hal := hg.al
        rw [hs0]
        clear hpa hreg hv hcur h hs0 hnext hh hcl hN hl
        obtain ⟨z, al, tc, es⟩ := t
        simp only [FType.tc_mk, FType.size_mk, FType.align_mk] at *
        have cf : (g.pf + 8 * f < g.pf + 8 * 13) = (f < 13) := propext ⟨fun _ => by omega, fun _ => by omega⟩
        have cv : (g.pv + 16 * v < g.pv + 16 * 12) = (v < 12) := propext ⟨fun _ => by omega, fun _ => by omega⟩
        have ce : (if (g.pst + 8 * p.slot) % 16 ≠ 0 then g.pst + 8 * p.slot + 8 else g.pst + 8 * p.slot) = g.pst + 8 * even p.slot := by
          have := even_cases p.slot
          split <;> omega
        cases tc <;> cases ld <;> simp [tab, cls] at htab hcc hib <;> obtain ⟨rfl, rfl⟩ := htab <;> subst hcc <;>
          simp only [closureArg, FType.tc_mk, Sit.ends, numFpr, numVec, rOf, Cls.count, Sit.base, wOf, fOf, vOf, convOf, id, hws, hws', cf, cv, ce, first, FType.align_mk, FType.size_mk, toSgl] <;>
          simp only [Nat.mul_add, ← Nat.add_assoc] <;> simp

/-! ## The loop -/

def isHS (ld : LD) (t : FType) : Bool := t.tc == .struct && (homog ld t).isSome

theorem isHS_iff (ld : LD) (t : FType) : isHS ld t = true ↔ HS ld t := by simp [isHS, HS]

/-- The values are where the pointers point. -/
def Seen (m : Mem) : List FType → List (List Byte) → List Nat → Prop
  | t :: ts, v :: vs, a :: as => m.rd a t.size = v ∧ Seen m ts vs as
  | [], [], [] => True
  | _, _, _ => False

theorem Wr.mono {g : Sit} {f v o f' v' o' x : Nat} (h : Wr g f' v' o' x) (hf : f ≤ f') (hv : v ≤ v') (ho : o ≤ o') : Wr g f v o x :=
  h.imp (fun h => by omega) (fun h => h.imp (fun h => by omega) (fun h => ⟨h.1, by omega⟩))

theorem Cur.weaken {g : Sit} {named named' : Bool} {s : Nx} {p : Pos} {f v : Nat} (h : Cur g named s p f v) (hn : named' = true → named = true) : Cur g named' s p f v :=
  ⟨h.pst, h.pfr, h.pvec, h.fle, h.vle, fun q => h.nf (hn q), fun q => h.nv (hn q)⟩

theorem View.weaken {g : Sit} {R : Regs} {named named' : Bool} {f v o : Nat} {m : Mem} (h : View g R named f v o m) (hn : named' = true → named = true) : View g R named' f v o m :=
  ⟨fun q => h.fpr (hn q), fun q => h.vec (hn q), h.img⟩

theorem closureLoop_ok {g : Sit} (hg : g.Ok) {R : Regs} {ld : LD} : ∀ (ts : List FType) (vs : List (List Byte)) (k : Nat) (s : Nx) (p : Pos) (f v : Nat) (m : Mem) (n : Cnt),
    (∀ t ∈ ts, Ty ld t) → vs.map List.length = ts.map FType.size → Cur g (decide (0 < k)) s p f v → View g R (decide (0 < k)) f v (8 * p.slot) m →
    (endFrom ld ts p).slot ≤ g.N → (g.ps = false → ts.length ≤ k ∧ (prepLoop ld ts n).ps = false) → posOf n = p →
    (ld = .ibm → ∀ i t, i + 1 = k → ts[i]? = some t → t.tc = .longdouble → ∀ s c n r nm, (placeFrom ld k ts p)[i]? = some (.parts s c n r nm) → 12 ≤ r) →
    ((ts.drop k).filter (isHS ld)).length ≤ 1 →
    AllPassed R ts vs (placeFrom ld k ts p) →
    Seen (closureLoop g.ends ld k ts s m).2 ts vs (closureLoop g.ends ld k ts s m).1 ∧
    (∀ x, ¬ Wr g f v (8 * p.slot) x → (closureLoop g.ends ld k ts s m).2 x = m x) ∧
    (k = 0 → (ts.filter (isHS ld)).length = 0 → (closureLoop g.ends ld k ts s m).2 = m)
  | [], [], k, s, p, f, v, m, n, _, _, _, _, _, _, _, _, _, _ => ⟨trivial, fun _ _ => rfl, fun _ _ => rfl⟩
  | [], _ :: _, _, _, _, _, _, _, _, _, h, _, _, _, _, _, _, _, _ => by cases h
  | _ :: _, [], _, _, _, _, _, _, _, _, h, _, _, _, _, _, _, _, _ => by cases h
  | t :: ts, w :: vs, k, s, p, f, v, m, n, hty, hlen, hc, hv, hN, hps, hn, hlast, hone, hpass => by
    have hm1 := placeArg_mono ld (decide (0 < k)) t p
    have hq : (placeArg ld (decide (0 < k)) t p).2 = (placeArg ld true t p).2 := placeArg_pos _ _ _ _ _
    have hm2 := endFrom_mono ld ts (placeArg ld true t p).2
    rw [endFrom] at hN
    rw [← hq] at hN hm2
    have ht := hty t (by simp)
    simp only [List.map_cons, List.cons.injEq] at hlen
    have hreg : g.ps = false → decide (0 < k) = true ∧ AllRegs t (placeArg ld (decide (0 < k)) t p).1 := by
      intro h
      obtain ⟨h1, h2⟩ := hps h
      rw [List.length_cons] at h1
      rw [prepLoop] at h2
      refine ⟨by simpa using (by omega : 0 < k), ?_⟩
      rw [← hn]
      exact prepArg_regs ht _ n (prepLoop_ps ts _ h2)
    rw [placeFrom] at hpass hlast
    obtain ⟨f', v', st⟩ := closureArg_ok (next := decide (1 < k)) hg ht hc hv (by omega) hreg (by simp; omega)
      (by
        intro hl htc hk
        by_cases h1 : 1 < k
        · exact .inl (by simpa using h1)
        · have hk : 0 < k := by simpa using hk
          right
          obtain ⟨d, hh⟩ : ∃ d, homog ld t = some (.ibm, d) := by
            rcases ty_scalar_or ht with q | ⟨_, q⟩
            · rw [htc] at q; cases q
            · rw [q, htc, hl]; exact ⟨_, rfl⟩
          refine hlast hl 0 t (by omega) rfl htc (first ld t p.slot) .ibm d p.nf (decide (0 < k)) ?_
          rw [placeArg_homog hh]
          rfl)
      hlen.1 hpass.1
    have hnm : decide (0 < k - 1) = true → decide (0 < k) = true := by simp; omega
    obtain ⟨i1, i2, i3⟩ := closureLoop_ok hg ts vs (k - 1) _ _ f' v' _ (prepArg ld t n) (fun x hx => hty x (by simp [hx])) hlen.2 (st.cur.weaken hnm) (st.view.weaken hnm) hN
      (fun h => by
        obtain ⟨h1, h2⟩ := hps h
        rw [List.length_cons] at h1
        exact ⟨by omega, h2⟩)
      (by rw [prepArg_pos ht (decide (0 < k)), hn])
      (by
        intro hl i t' hi ht' htc s c n r nm hpl
        exact hlast hl (i + 1) t' (by omega) (by simpa using ht') htc s c n r nm (by simpa using hpl))
      (by
        rcases Nat.eq_zero_or_pos k with rfl | hk
        · rw [List.drop_zero, List.filter_cons] at hone
          rw [List.drop_zero]
          split at hone
          · rw [List.length_cons] at hone; omega
          · exact hone
        · obtain ⟨k, rfl⟩ : ∃ j, k = j + 1 := ⟨k - 1, by omega⟩
          exact hone)
      hpass.2
    rw [closureLoop]
    dsimp only
    refine ⟨⟨?_, i1⟩, ?_, ?_⟩
    · by_cases hhs : decide (0 < k) = true ∨ ¬ HS ld t
      · rw [← st.value]
        exact Mem.rd_congr fun i hi => i2 _ (st.keep hhs i hi)
      · have hk0 : k = 0 := by
          rcases Nat.eq_zero_or_pos k with h | h
          · exact h
          · exact absurd (.inl (by simpa using h)) hhs
        have hHS : HS ld t := Classical.byContradiction fun h => hhs (.inr h)
        subst hk0
        rw [List.drop_zero, List.filter_cons, if_pos ((isHS_iff ld t).2 hHS), List.length_cons] at hone
        rw [i3 rfl (by omega)]
        exact st.value
    · intro x hx
      rw [i2 x (fun hw => hx (hw.mono st.fle st.vle (by omega))), st.frame x hx]
    · intro hk h0
      subst hk
      rw [List.filter_cons] at h0
      split at h0
      · rw [List.length_cons] at h0; omega
      · rename_i hno
        rw [i3 rfl h0]
        exact st.same rfl (fun h => hno ((isHS_iff ld t).2 h))

theorem img_zero (R : Regs) : R.img.rd 0 8 = leBytes 8 (R.gpr 0) := by
  apply bytes_ext (by simp)
  intro i hi
  rw [Mem.rd_length] at hi
  rw [Mem.rd_getD _ _ _ _ hi]
  unfold Regs.img
  rw [if_pos (by omega), show (0 + i) / 8 = 0 by omega, show (0 + i) % 8 = i by omega]

/-- `ffi_closure_helper_LINUX64` before it calls the handler. -/
theorem closureView_ok {ld : LD} {var : Bool} {nfixed : Nat} {rt : FType} {ats : List FType} (hrt : Ty ld rt ∨ rt.tc = .void) (hty : ∀ t ∈ ats, Ty ld t)
    {g : Sit} (hg : g.Ok) (hgn : (prepCnt ld var rt ats).int ≤ g.N) (hgp : g.ps = (prepCnt ld var rt ats).ps)
    {R : Regs} (hR : retPlace ld rt = .mem → R.gpr 0 < 2 ^ 64) {m : Mem} (hv : View g R true 0 0 0 m) {vs : List (List Byte)} (hlen : vs.map List.length = ats.map FType.size)
    (hpass : AllPassed R ats vs (places ld rt (namedOf var nfixed ats) ats))
    (hlast : ld = .ibm → ∀ i t, i + 1 = namedOf var nfixed ats → ats[i]? = some t → t.tc = .longdouble → ∀ s c n r nm,
      (places ld rt (namedOf var nfixed ats) ats)[i]? = some (.parts s c n r nm) → 12 ≤ r)
    (hone : ((ats.drop (namedOf var nfixed ats)).filter (isHS ld)).length ≤ 1) (rvalue : Nat) :
    (closureView ld (prepCif ld var nfixed rt ats) rt ats rvalue g.pst g.pf g.pv m).1 = (if retPlace ld rt = .mem then R.gpr 0 else rvalue) ∧
    Seen (closureView ld (prepCif ld var nfixed rt ats) rt ats rvalue g.pst g.pf g.pv m).2.2 ats vs
      (closureView ld (prepCif ld var nfixed rt ats) rt ats rvalue g.pst g.pf g.pv m).2.1 ∧
    ∀ x, ¬ Wr g 0 0 0 x → (closureView ld (prepCif ld var nfixed rt ats) rt ats rvalue g.pst g.pf g.pv m).2.2 x = m x := by
  generalize hn : prepCnt ld var rt ats = n at *
  have hpos := prepCnt_pos hrt hty var
  rw [hn] at hpos
  have e1 : (endFrom ld ats (start ld rt)).slot = n.int := by rw [← hpos]; rfl
  have hps : g.ps = false → ats.length ≤ namedOf var nfixed ats ∧ (prepLoop ld ats (prepStart ld var rt)).ps = false := by
    intro h
    have h0 : (prepLoop ld ats (prepStart ld var rt)).ps = false := by rw [show prepLoop ld ats (prepStart ld var rt) = n from hn, ← hgp]; exact h
    refine ⟨?_, h0⟩
    have : var = false := prepLoop_ps ats _ h0
    rw [this]
    exact Nat.le_refl _
  have hcur : Cur g true ⟨g.pst + 8 * (start ld rt).slot, g.pf, g.pv⟩ (start ld rt) 0 0 := ⟨rfl, rfl, rfl, by omega, by omega, fun _ => by unfold start; simp, fun _ => by unfold start; simp⟩
  obtain ⟨l1, l2, _⟩ := closureLoop_ok hg ats vs (namedOf var nfixed ats) _ _ 0 0 m (prepStart ld var rt) hty hlen (hcur.weaken fun _ => rfl)
    ((hv.mono (Nat.le_refl _) (Nat.le_refl _) (Nat.zero_le _)).weaken fun _ => rfl) (by rw [e1]; exact hgn) hps (prepStart_pos hrt var) hlast hone hpass
  have hcif : prepCif ld var nfixed rt ats = ⟨prepFlags ld rt n, prepBytes n % 2 ^ 32, namedOf var nfixed ats⟩ := by
    rw [← hn]; rfl
  have hl2 : ∀ x, ¬ Wr g 0 0 0 x → (closureLoop g.ends ld (namedOf var nfixed ats) ats ⟨g.pst + 8 * (start ld rt).slot, g.pf, g.pv⟩ m).2 x = m x :=
    fun x hx => l2 x (fun hw => hx (hw.mono (Nat.le_refl _) (Nat.le_refl _) (Nat.zero_le _)))
  rw [hcif]
  unfold closureView
  dsimp only
  by_cases hm : retPlace ld rt = .mem
  · have hs1 : start ld rt = ⟨1, 0, 0⟩ := by unfold start; rw [if_pos hm]
    rw [hs1] at l1 hl2
    have hcond : rt.tc = .struct ∧ prepFlags ld rt n &&& flagSmst = 0 := by
      have hc := retFlags_cases hrt
      rw [hm] at hc
      exact ⟨hc.2, Classical.byContradiction fun q => ((flags_smst hrt n).1 q).2 hm⟩
    rw [if_pos hcond, if_pos hm]
    refine ⟨?_, l1, hl2⟩
    dsimp only
    have := hv.rd (a := 0) (n := 8) (Nat.le_refl _) (.inl (by omega))
    rw [Nat.add_zero] at this
    rw [this, img_zero, leNat_leBytes, Nat.mod_eq_of_lt (by simpa using hR hm)]
  · have hs0 : start ld rt = ⟨0, 0, 0⟩ := by unfold start; rw [if_neg hm]
    rw [hs0] at l1 hl2
    have hcond : ¬ (rt.tc = .struct ∧ prepFlags ld rt n &&& flagSmst = 0) := fun q => (flags_smst hrt n).2 ⟨q.1, hm⟩ q.2
    rw [if_neg hcond, if_neg hm]
    exact ⟨rfl, l1, hl2⟩

end Verif.Ppc
