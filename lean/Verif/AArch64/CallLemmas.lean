import Verif.AArch64.AllocLemmas

/-
The argument loop of `ffi_call_int` puts every argument where the specification says,
as long as there is room.
-/
namespace Verif.A64
open Verif Spec Spec.A64

/-- Addresses of the block not used yet at a position. -/
def Free (ctx : Nat) (p : Pos) (next x : Nat) : Prop :=
  (ctx + 16 * p.nsrn ≤ x ∧ x < ctx + 128) ∨ (ctx + 128 + 8 * p.ngrn ≤ x ∧ x < ctx + 192) ∨
  (ctx + 192 + p.nsaa ≤ x ∧ x < ctx + 192 + next)

/-- The registers and stack as loaded from the block. -/
def blockRegs (m : Mem) (ctx : Nat) : Regs :=
  ⟨m, ctx + 192, fun k => m.rd (xAddr ctx k) 8, fun k => m.rd (vAddr ctx k) 16⟩

theorem agree_rd {m'' m : Mem} {b : Nat} {bs : List Byte} {k : Nat} (hk : k ≤ bs.length)
    (h : ∀ x, b ≤ x → x < b + k → m'' x = m.wr b bs x) : m''.rd b k = bs.take k := by
  rw [← Mem.rd_wr_prefix m b bs hk]
  exact Mem.rd_congr fun i hi => h _ (by omega) (by omega)

theorem xs_block (m : Mem) (ctx k n : Nat) :
    xs (fun k => m.rd (xAddr ctx k) 8) k n = m.rd (xAddr ctx k) (8 * n) := by
  induction n with
  | zero => rfl
  | succ n ih =>
    rw [xs, ih, show 8 * (n + 1) = 8 * n + 8 by ring, Mem.rd_append]
    congr 2
    unfold xAddr; ring

theorem leBytes_widen {sg : Bool} {bs : List Byte} (h : bs.length ≤ 8) :
    (leBytes 8 (widen sg bs)).take bs.length = bs := by
  rw [leBytes_take _ h]
  have hl := leNat_lt bs
  have key : widen sg bs % 256 ^ bs.length = leNat bs := by
    unfold widen
    split
    · have h2 : (2 : Nat) ^ 64 = 256 ^ bs.length * 256 ^ (8 - bs.length) := by
        rw [← Nat.pow_add, Nat.add_sub_cancel' h]; norm_num
      have h3 : 1 ≤ 256 ^ (8 - bs.length) := Nat.one_le_two_pow.trans (Nat.pow_le_pow_left (by decide) _)
      obtain ⟨q, hq⟩ := Nat.exists_eq_add_of_le h3
      rw [h2, hq, Nat.mul_add, Nat.mul_one, ← Nat.add_assoc, Nat.add_right_comm, Nat.add_sub_cancel,
        Nat.add_mul_mod_self_left]
      exact Nat.mod_eq_of_lt hl
    · exact Nat.mod_eq_of_lt hl
  rw [← leBytes_mod, key, leBytes_leNat]

theorem extendHfa_length (m : Mem) (src e n : Nat) (he : e ≤ 16) : (extendHfa m src e n).length = 16 * n := by
  induction n with
  | zero => rfl
  | succ n ih => simp [extendHfa, ih]; omega

/-- Element `j` of the extended aggregate. -/
theorem extendHfa_slice (m : Mem) (src e n j : Nat) (he : e ≤ 16) (hj : j < n) :
    ((extendHfa m src e n).drop (16 * j)).take e = m.rd (src + e * j) e := by
  induction n with
  | zero => omega
  | succ n ih =>
    rw [extendHfa]
    have hl := extendHfa_length m src e n he
    rcases Nat.lt_or_ge j n with h | h
    · rw [List.drop_append_of_le_length (by omega), List.take_append_of_le_length (by simp; omega)]
      exact ih h
    · have hjn : j = n := by omega
      subst hjn
      rw [List.drop_append_of_le_length (by omega), List.drop_of_length_le (by omega), List.nil_append,
        List.take_append_of_le_length (by simp), List.take_of_length_le (by simp)]

theorem rd_slice (m : Mem) (a n i k : Nat) (h : i + k ≤ n) : ((m.rd a n).drop i).take k = m.rd (a + i) k := by
  have h1 : m.rd a n = m.rd a i ++ (m.rd (a + i) k ++ m.rd (a + i + k) (n - i - k)) := by
    rw [← Mem.rd_append, ← Mem.rd_append]; congr 1; omega
  rw [h1, List.drop_left' (by simp), List.take_left' (by simp)]

theorem wr_slice (m : Mem) (a : Nat) (bs : List Byte) (i k : Nat) (h : i + k ≤ bs.length) :
    (m.wr a bs).rd (a + i) k = (bs.drop i).take k := by
  rw [← rd_slice (m.wr a bs) a bs.length i k h, Mem.rd_wr_same]

/-- Object passed by reference: it does not overlap `[lo, hi)`. -/
def RefOut (R : Regs) (lo hi : Nat) (t : FType) : Place → Prop
  | .refX k => leNat (R.x k) + t.size ≤ lo ∨ hi ≤ leNat (R.x k)
  | .refStack o => leNat (R.mem.rd (R.sp + o) 8) + t.size ≤ lo ∨ hi ≤ leNat (R.mem.rd (R.sp + o) 8)
  | _ => True

/-- Effect of placing one argument: `p'`, `next'` are the position and struct area
afterwards. -/
structure Step (c : Cfg) (ctx bytes : Nat) (t : FType) (val : List Byte) (p : Pos) (next next' : Nat)
    (pl : Place) (p' : Pos) (m : Mem) (st' : St) (m' : Mem) : Prop where
  sim : Sim c st' p'
  next_eq : st'.next = next'
  frame : ∀ x, ¬ Free ctx p next x → m' x = m x
  passed : ∀ m'' : Mem, (∀ x, ctx ≤ x → x < ctx + 192 + bytes → ¬ Free ctx p' next' x → m'' x = m' x) →
    PassedAt (blockRegs m'' ctx) t val pl ∧ RefOut (blockRegs m'' ctx) 0 (ctx + 192) t pl

section
variable {c : Cfg} {ctx bytes : Nat} {t : FType} {a : Nat} {st : St} {p : Pos} {m : Mem}

/-- An argument written whole to a stack slot. -/
theorem step_stack {al size g s : Nat} {val bs : List Byte} (hsim : Sim c st p) (ha : Al al)
    (hb : st.next ≤ bytes) (hroom : stackAfter (rules c) p al size ≤ st.next)
    (hfit : bs.length ≤ stackAfter (rules c) p al size - stackAt (rules c) p al)
    (hval : bs.take t.size = val) (hlen : t.size ≤ bs.length) :
    Step c ctx bytes t val p st.next st.next (.stack (stackAt (rules c) p al))
      { p with ngrn := g, nsrn := s, nsaa := stackAfter (rules c) p al size } m
      { st with ngrn := g, nsrn := s, nsaa := stackAt (rules c) p al + size }
      (m.wr (ctx + 192 + stackAt (rules c) p al) bs) where
  sim := hsim.after
  next_eq := rfl
  frame := by
    intro x hx
    have h1 := stackAt_ge (rules c) p ha
    apply Mem.wr_out
    unfold Free at hx
    have := stackAfter_ge (rules c) p al size
    omega
  passed := by
    intro m'' h
    have h1 := stackAt_ge (rules c) p ha
    have h2 := stackAfter_ge (rules c) p al size
    refine ⟨?_, trivial⟩
    change m''.rd (ctx + 192 + _) t.size = val
    rw [← hval]
    apply agree_rd hlen
    intro x hx1 hx2
    apply h x (by omega) (by omega)
    unfold Free
    dsimp only
    omega

/-- Integer scalars. -/
theorem step_int {ext : Nat} (hsim : Sim c st p) (ha : Al t.align) (hg : p.ngrn ≤ 8)
    (hb : st.next ≤ bytes) (hlt : bytes < 2 ^ 32) (hs0 : 0 < t.size) (hs8 : t.size ≤ 8)
    (hh : hfa t = none) (hal : t.align ≠ 16)
    (hroom : (placeArg (rules c) t p).2.nsaa ≤ st.next)
    (hext : (leBytes 8 ext).take t.size = m.rd a t.size) :
    Step c ctx bytes t (m.rd a t.size) p st.next st.next (placeArg (rules c) t p).1
      (placeArg (rules c) t p).2 m (putInt c ctx t.align t.size ext (m.rd a t.size) st m).1
      (putInt c ctx t.align t.size ext (m.rd a t.size) st m).2 := by
  have hn : (t.size + 7) / 8 = 1 := by omega
  have hpl : placeArg (rules c) t p =
      if p.ngrn + 1 ≤ 8 then (.x p.ngrn 1, { p with ngrn := p.ngrn + 1 })
      else (.stack (stackAt (rules c) p t.align),
        { p with ngrn := 8, nsaa := stackAfter (rules c) p t.align t.size }) := by
    unfold placeArg
    simp only [hh, hn, hal, if_false]
    rw [if_neg (by omega)]
  obtain ⟨g0, s0, na, nx, v0⟩ := st
  obtain rfl : g0 = p.ngrn := hsim.g
  obtain rfl : s0 = p.nsrn := hsim.s
  dsimp only at hb hroom ⊢
  unfold putInt
  dsimp only
  by_cases hreg : p.ngrn < 8
  · have hreg' : p.ngrn + 1 ≤ 8 := by omega
    rw [if_pos hreg]
    rw [if_pos hreg'] at hpl
    rw [hpl] at hroom ⊢
    refine ⟨hsim.regs (p.ngrn + 1) p.nsrn, rfl, ?_, ?_⟩
    · intro x hx
      apply Mem.wr_out
      unfold Free at hx
      simp only [leBytes_length, xAddr]
      omega
    · intro m'' h
      refine ⟨?_, trivial⟩
      change (xs (fun k => m''.rd (xAddr ctx k) 8) p.ngrn 1).take t.size = _
      rw [xs_block, Mem.rd_take _ _ (by omega), ← hext]
      apply agree_rd (by simp; omega)
      intro x hx1 hx2
      unfold xAddr at hx1 hx2
      apply h x (by omega) (by omega)
      unfold Free
      dsimp only
      omega
  · have hreg' : ¬ p.ngrn + 1 ≤ 8 := by omega
    rw [if_neg hreg]
    rw [if_neg hreg'] at hpl
    rw [hpl] at hroom ⊢
    dsimp only at hroom ⊢
    have h1 := stackAt_ge (rules c) p ha
    have h2 := stackAfter_ge (rules c) p t.align t.size
    rw [allocStack_spec hsim ha (by omega) (by omega)]
    dsimp only
    have hlen : (if c.apple then m.rd a t.size else leBytes 8 ext).length ≤
        stackAfter (rules c) p t.align t.size - stackAt (rules c) p t.align := by
      by_cases hap : c.apple = true
      · rw [if_pos hap, Mem.rd_length]; omega
      · rw [if_neg hap, leBytes_length]
        have := stackAfter_ge8 (rules c) p (size := t.size) ha (by simp [slot, rules, hap]) hs0
        omega
    exact step_stack (ctx := ctx) (bytes := bytes) (t := t) (g := 8) (s := p.nsrn) (m := m) hsim ha hb hroom hlen
      (val := m.rd a t.size) (by split; (· rw [List.take_of_length_le (by simp)]); (· exact hext))
      (by split <;> simp [hs8])

theorem hElems_code {k n : Nat} (h1 : 1 ≤ n) (h4 : n ≤ 4) : hElems (k * 4 + (4 - n)) = n := by
  unfold hElems; omega

theorem hSize_code {k : TC} {z n : Nat} (hk : fpSize k = some z) (h1 : 1 ≤ n) (h4 : n ≤ 4) :
    hSize (fpCode k * 4 + (4 - n)) = z := by
  unfold hSize
  have hc : (fpCode k = 2 ∧ z = 4) ∨ (fpCode k = 3 ∧ z = 8) ∨ (fpCode k = 4 ∧ z = 16) := by
    cases k <;> simp [fpSize] at hk <;> subst hk <;> simp [fpCode]
  rcases hc with ⟨h, rfl⟩ | ⟨h, rfl⟩ | ⟨h, rfl⟩ <;> rw [h]
  · rw [if_pos (by omega)]
  · rw [if_neg (by omega), if_pos (by omega)]
  · rw [if_neg (by omega), if_neg (by omega)]

/-- Homogeneous aggregates. -/
theorem step_hfa {n h z : Nat} (hsim : Sim c st p) (ha : Al t.align) (hs : p.nsrn ≤ 8)
    (hb : st.next ≤ bytes) (hlt : bytes < 2 ^ 32) (hh : hfa t = some n) (hwv : (c.win64 && c.vararg) = false)
    (hn : hElems h = n) (hz : hSize h = z) (hsz : t.size = n * z) (hn0 : 0 < n) (hz16 : z ≤ 16)
    (hroom : (placeArg (rules c) t p).2.nsaa ≤ st.next) :
    Step c ctx bytes t (m.rd a t.size) p st.next st.next (placeArg (rules c) t p).1
      (placeArg (rules c) t p).2 m (putHfa c ctx t h a st m).1 (putHfa c ctx t h a st m).2 := by
  have hpl : placeArg (rules c) t p =
      if p.nsrn + n ≤ 8 then (.v p.nsrn n, { p with nsrn := p.nsrn + n })
      else (.stack (stackAt (rules c) p t.align),
        { p with nsrn := 8, nsaa := stackAfter (rules c) p t.align t.size }) := by
    unfold placeArg
    simp only [hh]
  obtain ⟨g0, s0, na, nx, v0⟩ := st
  obtain rfl : g0 = p.ngrn := hsim.g
  obtain rfl : s0 = p.nsrn := hsim.s
  dsimp only at hb hroom ⊢
  unfold putHfa
  dsimp only
  rw [if_neg (by simp [hwv]), hn, hz]
  by_cases hreg : p.nsrn + n ≤ 8
  · rw [if_pos hreg]
    rw [if_pos hreg] at hpl
    rw [hpl] at hroom ⊢
    refine ⟨hsim.regs p.ngrn (p.nsrn + n), rfl, ?_, ?_⟩
    · intro x hx
      apply Mem.wr_out
      unfold Free at hx
      rw [extendHfa_length _ _ _ _ hz16]
      unfold vAddr
      omega
    · intro m'' h
      refine ⟨?_, trivial⟩
      change ∀ j < n, (m''.rd (vAddr ctx (p.nsrn + j)) 16).take (t.size / n) = _
      have hdiv : t.size / n = z := by rw [hsz, Nat.mul_div_cancel_left _ hn0]
      rw [hdiv]
      intro j hj
      have hjz : z * j + z ≤ t.size := by
        rw [hsz]; calc z * j + z = (j + 1) * z := by ring
          _ ≤ n * z := Nat.mul_le_mul_right _ hj
      rw [Mem.rd_take _ _ hz16, rd_slice _ _ _ _ _ hjz, ← extendHfa_slice m a z n j hz16 hj,
        ← wr_slice m (vAddr ctx p.nsrn) _ (16 * j) z (by rw [extendHfa_length _ _ _ _ hz16]; omega)]
      have e : vAddr ctx (p.nsrn + j) = vAddr ctx p.nsrn + 16 * j := by unfold vAddr; ring
      rw [e]
      apply Mem.rd_congr
      intro i hi
      unfold vAddr
      apply h _ (by omega) (by omega)
      unfold Free
      dsimp only
      omega
  · rw [if_neg hreg]
    rw [if_neg hreg] at hpl
    rw [hpl] at hroom ⊢
    dsimp only at hroom ⊢
    have h1 := stackAt_ge (rules c) p ha
    have h2 := stackAfter_ge (rules c) p t.align t.size
    have hsim' := hsim.regs p.ngrn 8
    rw [allocStack_spec (p := { p with nsrn := 8 }) hsim' ha (by dsimp only; omega) (by omega)]
    exact step_stack (ctx := ctx) (bytes := bytes) (t := t) (g := p.ngrn) (s := 8) (m := m) hsim ha hb hroom
      (by rw [Mem.rd_length]; omega) (val := m.rd a t.size) (by rw [List.take_of_length_le (by simp)]) (by simp)

/-- Composites of at most 16 bytes. -/
theorem step_small (hsim : Sim c st p) (ha : Al t.align) (hg : p.ngrn ≤ 8)
    (hb : st.next ≤ bytes) (hlt : bytes < 2 ^ 32) (hs : t.size ≤ 16)
    (hh : hfa t = none) (hal : t.align ≠ 16)
    (hroom : (placeArg (rules c) t p).2.nsaa ≤ st.next) :
    Step c ctx bytes t (m.rd a t.size) p st.next st.next (placeArg (rules c) t p).1
      (placeArg (rules c) t p).2 m (putSmall c ctx t a st m).1 (putSmall c ctx t a st m).2 := by
  have hpl : placeArg (rules c) t p =
      if p.ngrn + (t.size + 7) / 8 ≤ 8 then
        (.x p.ngrn ((t.size + 7) / 8), { p with ngrn := p.ngrn + (t.size + 7) / 8 })
      else (.stack (stackAt (rules c) p t.align),
        { p with ngrn := 8, nsaa := stackAfter (rules c) p t.align t.size }) := by
    unfold placeArg
    simp only [hh, hal, if_false]
    rw [if_neg (by omega)]
  obtain ⟨g0, s0, na, nx, v0⟩ := st
  obtain rfl : g0 = p.ngrn := hsim.g
  obtain rfl : s0 = p.nsrn := hsim.s
  dsimp only at hb hroom ⊢
  unfold putSmall
  dsimp only
  by_cases hreg : p.ngrn + (t.size + 7) / 8 ≤ 8
  · rw [if_pos hreg]
    rw [if_pos hreg] at hpl
    rw [hpl] at hroom ⊢
    refine ⟨hsim.regs (p.ngrn + (t.size + 7) / 8) p.nsrn, rfl, ?_, ?_⟩
    · intro x hx
      apply Mem.wr_out
      unfold Free at hx
      rw [Mem.rd_length]
      unfold xAddr
      omega
    · intro m'' h
      refine ⟨?_, trivial⟩
      change (xs (fun k => m''.rd (xAddr ctx k) 8) p.ngrn _).take t.size = _
      rw [xs_block, Mem.rd_take _ _ (by omega)]
      have : m.rd a t.size = (m.rd a t.size).take t.size := by rw [List.take_of_length_le (by simp)]
      rw [this]
      apply agree_rd (by simp)
      intro x hx1 hx2
      unfold xAddr at hx1 hx2
      apply h x (by omega) (by omega)
      unfold Free
      dsimp only
      omega
  · rw [if_neg hreg]
    rw [if_neg hreg] at hpl
    rw [hpl] at hroom ⊢
    dsimp only at hroom ⊢
    have h1 := stackAt_ge (rules c) p ha
    have h2 := stackAfter_ge (rules c) p t.align t.size
    have hsim' := hsim.regs 8 p.nsrn
    rw [allocStack_spec (p := { p with ngrn := 8 }) hsim' ha (by dsimp only; omega) (by omega)]
    exact step_stack (ctx := ctx) (bytes := bytes) (t := t) (g := 8) (s := p.nsrn) (m := m) hsim ha hb hroom
      (by rw [Mem.rd_length]; omega) (val := m.rd a t.size) (by rw [List.take_of_length_le (by simp)]) (by simp)

/-- The slot a pointer gets is the one for a pointer. -/
def RefSlot (c : Cfg) (t : FType) (pl : Place) : Prop :=
  ∀ off, pl = .refStack off → if c.apple then t.align = 8 else t.align ≤ 8

theorem RefSlot.stackAt {c : Cfg} {t : FType} {p : Pos} (h : if c.apple then t.align = 8 else t.align ≤ 8) :
    stackAt (rules c) p t.align = stackAt (rules c) p 8 := by
  unfold Spec.A64.stackAt
  congr 1
  by_cases hap : c.apple = true
  · rw [if_pos hap] at h; rw [h]
  · rw [if_neg hap] at h
    have : slot (rules c) p = 8 := by simp [slot, rules, hap]
    rw [this]; omega

/-- Composites passed by reference. -/
theorem step_ref (hsim : Sim c st p) (ha : Al t.align) (hg : p.ngrn ≤ 8)
    (hb : st.next ≤ bytes) (hlt : bytes < 2 ^ 32) (hctx : ctx + 192 + bytes < 2 ^ 64) (h16 : 16 ∣ ctx)
    (hr : ByRef t) (hsz : t.size ≤ st.next) (hrs : RefSlot c t (placeArg (rules c) t p).1)
    (hroom : (placeArg (rules c) t p).2.nsaa ≤ (st.next - t.size) / t.align * t.align) :
    Step c ctx bytes t (m.rd a t.size) p st.next ((st.next - t.size) / t.align * t.align)
      (placeArg (rules c) t p).1 (placeArg (rules c) t p).2 m (putRef c ctx t a st m).1
      (putRef c ctx t a st m).2 := by
  obtain ⟨hh, hbig⟩ := hr
  have hpl : placeArg (rules c) t p =
      if p.ngrn < 8 then (.refX p.ngrn, { p with ngrn := p.ngrn + 1 })
      else (.refStack (stackAt (rules c) p 8),
        { p with ngrn := 8, nsaa := stackAfter (rules c) p 8 8 }) := by
    unfold placeArg
    simp only [hh]
    rw [if_pos hbig]
  obtain ⟨g0, s0, na, nx, v0⟩ := st
  obtain rfl : g0 = p.ngrn := hsim.g
  obtain rfl : s0 = p.nsrn := hsim.s
  dsimp only at hb hroom hsz ⊢
  have hlow := Nat.div_mul_le_self (nx - t.size) t.align
  have hal : allocStruct ⟨p.ngrn, p.nsrn, na, nx, v0⟩ t.align t.size =
      ((nx - t.size) / t.align * t.align, ⟨p.ngrn, p.nsrn, na, (nx - t.size) / t.align * t.align, v0⟩) := by
    unfold allocStruct
    dsimp only
    have e : (nx + 2 ^ 64 - t.size % 2 ^ 64) % 2 ^ 64 = nx - t.size := by
      rw [Nat.mod_eq_of_lt (a := t.size) (by omega)]
      rw [show nx + 2 ^ 64 - t.size = nx - t.size + 2 ^ 64 by omega, Nat.add_mod_right]
      exact Nat.mod_eq_of_lt (by omega)
    rw [e, ffiAlignDown_al ha (by omega)]
  unfold putRef
  rw [hal]
  dsimp only
  generalize hD : (nx - t.size) / t.align * t.align = D at *
  have hDal : t.align ∣ D := by rw [← hD]; exact Nat.dvd_mul_left _ _
  have hdest : (ctx + 192 + D) % 2 ^ 64 = ctx + 192 + D := Nat.mod_eq_of_lt (by omega)
  rw [hdest]
  have hdal : t.align ∣ ctx + 192 + D :=
    Nat.dvd_add (Nat.dvd_add (ha.dvd16.trans h16) (ha.dvd16.trans (by decide))) hDal
  have hptr : leNat (leBytes 8 (ctx + 192 + D)) = ctx + 192 + D := by
    rw [leNat_leBytes]; exact Nat.mod_eq_of_lt (by omega)
  have hsimD : Sim c ⟨p.ngrn, p.nsrn, na, D, v0⟩ p := ⟨rfl, rfl, hsim.u, hsim.lo, hsim.hi⟩
  generalize hm1 : m.wr (ctx + 192 + D) (m.rd a t.size) = m1
  have hm1o : ∀ x, x < ctx + 192 + D ∨ ctx + 192 + D + t.size ≤ x → m1 x = m x := by
    intro x hx; rw [← hm1]; exact Mem.wr_out _ _ _ _ (by simpa using hx)
  unfold putInt
  dsimp only
  by_cases hreg : p.ngrn < 8
  · rw [if_pos hreg]
    rw [if_pos hreg] at hpl
    rw [hpl] at hroom ⊢
    dsimp only at hroom
    refine ⟨hsimD.regs (p.ngrn + 1) p.nsrn, rfl, ?_, ?_⟩
    · intro x hx
      unfold Free at hx
      dsimp only
      rw [Mem.wr_out _ _ _ _ (by simp only [leBytes_length, xAddr]; omega)]
      exact hm1o x (by omega)
    · intro m'' h
      have hx : m''.rd (xAddr ctx p.ngrn) 8 = leBytes 8 (ctx + 192 + D) := by
        have := agree_rd (m := m1) (m'' := m'') (b := xAddr ctx p.ngrn) (bs := leBytes 8 (ctx + 192 + D)) (k := 8) (by simp)
          (by
            intro x hx1 hx2
            unfold xAddr at hx1 hx2
            apply h x (by omega) (by omega)
            unfold Free; dsimp only; omega)
        rwa [List.take_of_length_le (by simp)] at this
      change (t.align ∣ leNat (m''.rd (xAddr ctx p.ngrn) 8) ∧ m''.rd (leNat (m''.rd (xAddr ctx p.ngrn) 8)) t.size = _) ∧
        (leNat (m''.rd (xAddr ctx p.ngrn) 8) + t.size ≤ 0 ∨ ctx + 192 ≤ leNat (m''.rd (xAddr ctx p.ngrn) 8))
      rw [hx, hptr]
      refine ⟨⟨hdal, ?_⟩, by omega⟩
      have : m.rd a t.size = m1.rd (ctx + 192 + D) t.size := by
        rw [← hm1]
        have := Mem.rd_wr_same m (ctx + 192 + D) (m.rd a t.size)
        rw [Mem.rd_length] at this
        exact this.symm
      rw [this]
      apply Mem.rd_congr
      intro i hi
      rw [h _ (by omega) (by omega) (by unfold Free; dsimp only; omega)]
      exact Mem.wr_out _ _ _ _ (by simp only [leBytes_length, xAddr]; omega)
  · rw [if_neg hreg]
    rw [if_neg hreg] at hpl
    rw [hpl] at hroom hrs ⊢
    dsimp only at hroom hrs ⊢
    have hsl := RefSlot.stackAt (p := p) (hrs _ rfl)
    have h1 := stackAt_ge (rules c) p (al := 8) (by simp [Al])
    have h2 := stackAfter_ge (rules c) p 8 8
    rw [allocStack_spec hsimD ha (by omega) (by omega), hsl]
    dsimp only
    rw [ite_self]
    generalize hO : stackAt (rules c) p 8 = O at *
    refine ⟨?_, rfl, ?_, ?_⟩
    · have := hsimD.after (al := 8) (size := 8) (g := 8) (s := p.nsrn)
      rw [hO] at this
      exact this
    · intro x hx
      unfold Free at hx
      rw [Mem.wr_out _ _ _ _ (by simp only [leBytes_length]; omega)]
      exact hm1o x (by omega)
    · intro m'' h
      have hx : m''.rd (ctx + 192 + O) 8 = leBytes 8 (ctx + 192 + D) := by
        have := agree_rd (m := m1) (m'' := m'') (b := ctx + 192 + O) (bs := leBytes 8 (ctx + 192 + D)) (k := 8) (by simp)
          (by
            intro x hx1 hx2
            apply h x (by omega) (by omega)
            unfold Free; dsimp only; omega)
        rwa [List.take_of_length_le (by simp)] at this
      change (t.align ∣ leNat (m''.rd (ctx + 192 + O) 8) ∧ m''.rd (leNat (m''.rd (ctx + 192 + O) 8)) t.size = _) ∧
        (leNat (m''.rd (ctx + 192 + O) 8) + t.size ≤ 0 ∨ ctx + 192 ≤ leNat (m''.rd (ctx + 192 + O) 8))
      rw [hx, hptr]
      refine ⟨⟨hdal, ?_⟩, by omega⟩
      have : m.rd a t.size = m1.rd (ctx + 192 + D) t.size := by
        rw [← hm1]
        have := Mem.rd_wr_same m (ctx + 192 + D) (m.rd a t.size)
        rw [Mem.rd_length] at this
        exact this.symm
      rw [this]
      apply Mem.rd_congr
      intro i hi
      rw [h _ (by omega) (by omega) (by unfold Free; dsimp only; omega)]
      exact Mem.wr_out _ _ _ _ (by simp only [leBytes_length]; omega)

end
end Verif.A64
