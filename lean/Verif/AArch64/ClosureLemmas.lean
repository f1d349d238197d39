import Verif.AArch64.CallLoop

/-
Arguments as seen by a closure: whatever the caller, if the arguments are where the
standard puts them, the handler gets pointers to their values.
-/
namespace Verif.A64
open Verif Spec Spec.A64

theorem xs_congr {x y : Nat → List Byte} {k n : Nat} (h : ∀ j < n, x (k + j) = y (k + j)) :
    xs x k n = xs y k n := by
  induction n with
  | zero => rfl
  | succ n ih => rw [xs, xs, ih fun j hj => h j (by omega), h n (by omega)]

/-- Memory of the closure while arguments from position `p` on are still to be read. -/
structure Saved (m : Mem) (ctx : Nat) (av : Bool) (R : Regs) (s : Nat) : Prop where
  xs : ∀ k < 8, m.rd (xAddr ctx k) 8 = R.x k
  vs : av = true → ∀ k, s ≤ k → k < 8 → m.rd (vAddr ctx k) 16 = R.v k
  mem : ∀ x, x < ctx - 16 ∨ ctx + 256 ≤ x → m x = R.mem x

/-- Effect of one round: only vector slots between the old and the new position
change, and the argument is found. -/
structure Got (c : Cfg) (ctx : Nat) (t : FType) (val : List Byte) (p p' : Pos) (m : Mem) (a : Nat)
    (st' : St) (m' : Mem) : Prop where
  sim : Sim c st' p'
  frame : ∀ x, x < vAddr ctx p.nsrn ∨ vAddr ctx p'.nsrn ≤ x → m' x = m x
  align : t.align ∣ a
  val : ∀ m'' : Mem, (∀ x, x < vAddr ctx p'.nsrn ∨ ctx + 128 ≤ x → m'' x = m' x) → m''.rd a t.size = val

section
variable {c : Cfg} {ctx : Nat} {t : FType} {val : List Byte} {st : St} {p : Pos} {m : Mem} {R : Regs} {av : Bool}

/-- A stack argument. -/
theorem got_stack {al size g s : Nat} (hsim : Sim c st p) (hal : Al al) (ha : t.align ∣ al)
    (h16 : 16 ∣ ctx) (hs : p.nsrn ≤ s) (hs8 : s ≤ 8)
    (hsv : Saved m ctx av R p.nsrn) (hsp : R.sp = ctx + 256)
    (hp : PassedAt R t val (.stack (stackAt (rules c) p al))) :
    Got c ctx t val p { p with ngrn := g, nsrn := s, nsaa := stackAfter (rules c) p al size } m
      (ctx + 256 + stackAt (rules c) p al)
      { st with ngrn := g, nsrn := s, nsaa := stackAt (rules c) p al + size } m where
  sim := hsim.after
  frame := fun _ _ => rfl
  align := by
    refine Nat.dvd_add (Nat.dvd_add ?_ ?_) ?_
    · exact ha.trans (hal.dvd16.trans h16)
    · exact ha.trans (hal.dvd16.trans (by decide))
    · exact ha.trans ((hal.dvd_of_le ((slot_al (rules c) p).max hal) (Nat.le_max_right _ _)).trans (dvd_roundUp _ _))
  val := by
    intro m'' h
    change R.mem.rd (R.sp + _) t.size = val at hp
    rw [← hp, hsp]
    apply Mem.rd_congr
    intro i _
    rw [h _ (by omega)]
    exact hsv.mem _ (by omega)

/-- Integer scalars. -/
theorem got_int (hsim : Sim c st p) (ha : Al t.align) (hg : p.ngrn ≤ 8)
    (hs : p.nsrn ≤ 8) (hs0 : 0 < t.size) (hs8 : t.size ≤ 8) (hsa : t.size = t.align)
    (hh : hfa t = none) (hal : t.align ≠ 16) (h16 : 16 ∣ ctx) (hlt : p.nsaa < 2 ^ 60)
    (hsv : Saved m ctx av R p.nsrn) (hsp : R.sp = ctx + 256)
    (hp : PassedAt R t val (placeArg (rules c) t p).1) :
    Got c ctx t val p (placeArg (rules c) t p).2 m (allocInt c ctx (ctx + 256) st t.size).1
      (allocInt c ctx (ctx + 256) st t.size).2 m := by
  have hn : (t.size + 7) / 8 = 1 := by omega
  have hpl : placeArg (rules c) t p =
      if p.ngrn + 1 ≤ 8 then (.x p.ngrn 1, { p with ngrn := p.ngrn + 1 })
      else (.stack (stackAt (rules c) p t.align),
        { p with ngrn := 8, nsaa := stackAfter (rules c) p t.align t.size }) := by
    unfold placeArg
    simp only [hh, hn, hal, if_false]
    rw [if_neg (by omega)]
  obtain ⟨g0, s0, na, nx, v0⟩ := st
  obtain rfl : g0 = p.ngrn := hsim.g
  obtain rfl : s0 = p.nsrn := hsim.s
  unfold allocInt
  dsimp only
  by_cases hreg : p.ngrn < 8
  · have hreg' : p.ngrn + 1 ≤ 8 := by omega
    rw [if_pos hreg]
    rw [if_pos hreg'] at hpl
    rw [hpl] at hp ⊢
    refine ⟨hsim.regs (p.ngrn + 1) p.nsrn, fun _ _ => rfl, ?_, ?_⟩
    · have h8 : Al 8 := by simp [Al]
      have hd8 : t.align ∣ 8 := ha.dvd_of_le h8 (by omega)
      refine Nat.dvd_add (Nat.dvd_add (ha.dvd16.trans h16) (hd8.trans (by decide))) (hd8.trans (Nat.dvd_mul_right _ _))
    · intro m'' h
      change (Spec.A64.xs R.x p.ngrn 1).take t.size = val at hp
      dsimp only at h
      unfold vAddr at h
      rw [xs_congr (y := fun k => m.rd (xAddr ctx k) 8) (fun j hj => (hsv.xs _ (by omega)).symm),
        xs_block, Mem.rd_take _ _ (by omega)] at hp
      rw [← hp]
      apply Mem.rd_congr
      intro i _
      unfold xAddr
      exact h _ (by omega)
  · have hreg' : ¬ p.ngrn + 1 ≤ 8 := by omega
    rw [if_neg hreg]
    rw [if_neg hreg'] at hpl
    rw [hpl] at hp ⊢
    dsimp only at hp ⊢
    have hsim' := hsim.regs 8 p.nsrn
    rw [allocStack_spec (p := { p with ngrn := 8 }) hsim' (hsa ▸ ha) (by dsimp only; omega) (by omega)]
    have := got_stack (size := t.size) (g := 8) (s := p.nsrn) hsim ha (Nat.dvd_refl _) h16 (Nat.le_refl _) hs hsv hsp hp
    rw [hsa] at this ⊢
    exact this

/-- Lane 0 of consecutive registers put together. -/
theorem gather_eq {m : Mem} {reg z n : Nat}
    (h : ∀ j < n, m.rd (reg + 16 * j) z = (val.drop (z * j)).take z) :
    gatherHfa m reg z n = val.take (z * n) := by
  induction n with
  | zero => simp [gatherHfa]
  | succ n ih =>
    rw [gatherHfa, ih fun j hj => h j (by omega), h n (by omega), Nat.mul_succ, List.take_add]

/-- Homogeneous aggregates. -/
theorem got_hfa {n h z : Nat} (hsim : Sim c st p) (ha : Al t.align) (hs : p.nsrn ≤ 8)
    (hh : hfa t = some n) (hwv : (c.win64 && c.vararg) = false)
    (hn : hElems h = n) (hz : hSize h = z) (hsz : t.size = n * z) (hn0 : 0 < n) (hz16 : z ≤ 16)
    (hq : 16 ≤ h → z = 16)
    (h16 : 16 ∣ ctx) (hlt : p.nsaa < 2 ^ 60) (hsv : Saved m ctx true R p.nsrn) (hsp : R.sp = ctx + 256)
    (hl : val.length = t.size) (hszlt : t.size < 2 ^ 60)
    (hp : PassedAt R t val (placeArg (rules c) t p).1) :
    Got c ctx t val p (placeArg (rules c) t p).2 m (getHfa c ctx (ctx + 256) t h st m).1
      (getHfa c ctx (ctx + 256) t h st m).2.1 (getHfa c ctx (ctx + 256) t h st m).2.2 := by
  have hpl : placeArg (rules c) t p =
      if p.nsrn + n ≤ 8 then (.v p.nsrn n, { p with nsrn := p.nsrn + n })
      else (.stack (stackAt (rules c) p t.align),
        { p with nsrn := 8, nsaa := stackAfter (rules c) p t.align t.size }) := by
    unfold placeArg
    simp only [hh]
  obtain ⟨g0, s0, na, nx, v0⟩ := st
  obtain rfl : g0 = p.ngrn := hsim.g
  obtain rfl : s0 = p.nsrn := hsim.s
  unfold getHfa
  dsimp only
  rw [if_neg (by simp [hwv]), hn]
  by_cases hreg : p.nsrn + n ≤ 8
  · rw [if_pos hreg]
    rw [if_pos hreg] at hpl
    rw [hpl] at hp ⊢
    dsimp only at hp ⊢
    change ∀ j < n, (R.v (p.nsrn + j)).take (t.size / n) = _ at hp
    have hdiv : t.size / n = z := by rw [hsz, Nat.mul_div_cancel_left _ hn0]
    rw [hdiv] at hp
    have hlane : ∀ j < n, m.rd (vAddr ctx p.nsrn + 16 * j) z = (val.drop (z * j)).take z := by
      intro j hj
      rw [← hp j hj, ← hsv.vs rfl (p.nsrn + j) (by omega) (by omega), Mem.rd_take _ _ hz16]
      congr 1
      unfold vAddr; ring
    have hgather := gather_eq hlane
    have hnz : z * n = t.size := by rw [hsz, Nat.mul_comm]
    rw [hnz, List.take_of_length_le (by omega)] at hgather
    have hle : t.size ≤ 16 * n := by rw [hsz, Nat.mul_comm]; exact Nat.mul_le_mul_right _ hz16
    refine ⟨hsim.regs p.ngrn (p.nsrn + n), ?_, ?_, ?_⟩
    · intro x hx
      unfold compressHfa
      split
      · rfl
      · rw [hn, hz, hgather]
        apply Mem.wr_out
        unfold vAddr at hx ⊢
        dsimp only at hx
        omega
    · exact ha.dvd16.trans (Nat.dvd_add h16 (Nat.dvd_mul_right _ _))
    · intro m'' hm
      dsimp only at hm
      have e : m''.rd (vAddr ctx p.nsrn) t.size = (compressHfa m (vAddr ctx p.nsrn) h).rd (vAddr ctx p.nsrn) t.size := by
        apply Mem.rd_congr
        intro i hi
        apply hm
        left
        unfold vAddr
        omega
      rw [e]
      unfold compressHfa
      rw [hn, hz]
      by_cases hc : n = 1 ∨ 16 ≤ h
      · rw [if_pos hc, ← hgather]
        rcases hc with rfl | hc
        · simp [gatherHfa, ← hnz]
        · obtain rfl := hq hc
          rw [← hnz]
          clear hgather hlane e hm hp hdiv hreg hpl hn hsz hle hnz
          clear hn0 hh
          induction n with
          | zero => rfl
          | succ n ih => rw [gatherHfa, ← ih, Nat.mul_succ, Mem.rd_append]
      · rw [if_neg hc, hgather]
        have := Mem.rd_wr_same m (vAddr ctx p.nsrn) val
        rwa [hl] at this
  · rw [if_neg hreg]
    rw [if_neg hreg] at hpl
    rw [hpl] at hp ⊢
    dsimp only at hp ⊢
    have hsim' := hsim.regs p.ngrn 8
    rw [allocStack_spec (p := { p with nsrn := 8 }) hsim' ha (by dsimp only; omega) (by omega)]
    exact got_stack (size := t.size) (st := ⟨p.ngrn, p.nsrn, na, nx, v0⟩) (g := p.ngrn) (s := 8) hsim ha (Nat.dvd_refl _) h16 hs (Nat.le_refl _) hsv hsp hp

/-- Composites of at most 16 bytes. -/
theorem got_small (hsim : Sim c st p) (ha : Al t.align) (hg : p.ngrn ≤ 8)
    (hs8 : p.nsrn ≤ 8) (hs : t.size ≤ 16) (hh : hfa t = none) (hal : t.align ≠ 16) (h16 : 16 ∣ ctx) (hlt : p.nsaa < 2 ^ 60)
    (hsv : Saved m ctx av R p.nsrn) (hsp : R.sp = ctx + 256)
    (hp : PassedAt R t val (placeArg (rules c) t p).1) :
    Got c ctx t val p (placeArg (rules c) t p).2 m (getSmall c ctx (ctx + 256) t st m).1
      (getSmall c ctx (ctx + 256) t st m).2.1 (getSmall c ctx (ctx + 256) t st m).2.2 := by
  have hpl : placeArg (rules c) t p =
      if p.ngrn + (t.size + 7) / 8 ≤ 8 then
        (.x p.ngrn ((t.size + 7) / 8), { p with ngrn := p.ngrn + (t.size + 7) / 8 })
      else (.stack (stackAt (rules c) p t.align),
        { p with ngrn := 8, nsaa := stackAfter (rules c) p t.align t.size }) := by
    unfold placeArg
    simp only [hh, hal, if_false]
    rw [if_neg (by omega)]
  obtain ⟨g0, s0, na, nx, v0⟩ := st
  obtain rfl : g0 = p.ngrn := hsim.g
  obtain rfl : s0 = p.nsrn := hsim.s
  unfold getSmall
  dsimp only
  by_cases hreg : p.ngrn + (t.size + 7) / 8 ≤ 8
  · rw [if_pos hreg]
    rw [if_pos hreg] at hpl
    rw [hpl] at hp ⊢
    refine ⟨hsim.regs (p.ngrn + (t.size + 7) / 8) p.nsrn, fun _ _ => rfl, ?_, ?_⟩
    · have h8 : Al 8 := by simp [Al]
      have hd8 : t.align ∣ 8 := by
        rcases ha with h | h | h | h | h <;> rw [h] <;> first | decide | exact absurd h hal
      exact Nat.dvd_add (Nat.dvd_add (ha.dvd16.trans h16) (hd8.trans (by decide))) (hd8.trans (Nat.dvd_mul_right _ _))
    · intro m'' h
      change (Spec.A64.xs R.x p.ngrn _).take t.size = val at hp
      dsimp only at h
      unfold vAddr at h
      rw [xs_congr (y := fun k => m.rd (xAddr ctx k) 8) (fun j hj => (hsv.xs _ (by omega)).symm),
        xs_block, Mem.rd_take _ _ (by omega)] at hp
      rw [← hp]
      apply Mem.rd_congr
      intro i _
      unfold xAddr
      exact h _ (by omega)
  · rw [if_neg hreg]
    rw [if_neg hreg] at hpl
    rw [hpl] at hp ⊢
    dsimp only at hp ⊢
    have hsim' := hsim.regs 8 p.nsrn
    rw [allocStack_spec (p := { p with ngrn := 8 }) hsim' ha (by dsimp only; omega) (by omega)]
    exact got_stack (size := t.size) (st := ⟨p.ngrn, p.nsrn, na, nx, v0⟩) (g := 8) (s := p.nsrn) hsim ha (Nat.dvd_refl _) h16 (Nat.le_refl _) hs8 hsv hsp hp

/-- Composites passed by reference. -/
theorem got_ref (hsim : Sim c st p) (hs8 : p.nsrn ≤ 8)
    (hr : ByRef t) (hlt : p.nsaa < 2 ^ 60) (h16 : 16 ≤ ctx)
    (hsv : Saved m ctx av R p.nsrn) (hsp : R.sp = ctx + 256)
    (hout : RefOut R (ctx - 16) (ctx + 256) t (placeArg (rules c) t p).1)
    (hp : PassedAt R t val (placeArg (rules c) t p).1) :
    Got c ctx t val p (placeArg (rules c) t p).2 m (getRef c ctx (ctx + 256) st m).1
      (getRef c ctx (ctx + 256) st m).2.1 (getRef c ctx (ctx + 256) st m).2.2 := by
  obtain ⟨hh, hbig⟩ := hr
  have hpl : placeArg (rules c) t p =
      if p.ngrn < 8 then (.refX p.ngrn, { p with ngrn := p.ngrn + 1 })
      else (.refStack (stackAt (rules c) p 8),
        { p with ngrn := 8, nsaa := stackAfter (rules c) p 8 8 }) := by
    unfold placeArg
    simp only [hh]
    rw [if_pos hbig]
  obtain ⟨g0, s0, na, nx, v0⟩ := st
  obtain rfl : g0 = p.ngrn := hsim.g
  obtain rfl : s0 = p.nsrn := hsim.s
  have hobj : ∀ q : Nat, (q + t.size ≤ ctx - 16 ∨ ctx + 256 ≤ q) → ∀ m'' : Mem,
      (∀ x, x < vAddr ctx p.nsrn ∨ ctx + 128 ≤ x → m'' x = m x) → m''.rd q t.size = R.mem.rd q t.size := by
    intro q hq m'' h
    apply Mem.rd_congr
    intro i hi
    unfold vAddr at h
    rw [h _ (by omega)]
    exact hsv.mem _ (by omega)
  unfold getRef allocInt
  dsimp only
  by_cases hreg : p.ngrn < 8
  · rw [if_pos hreg]
    rw [if_pos hreg] at hpl
    rw [hpl] at hp hout ⊢
    dsimp only
    rw [hsv.xs _ hreg]
    refine ⟨hsim.regs (p.ngrn + 1) p.nsrn, fun _ _ => rfl, hp.1, ?_⟩
    intro m'' h
    rw [hobj _ hout m'' h]
    exact hp.2
  · rw [if_neg hreg]
    rw [if_neg hreg] at hpl
    rw [hpl] at hp hout ⊢
    have hsim' := hsim.regs 8 p.nsrn
    rw [allocStack_spec (p := { p with ngrn := 8 }) hsim' (by simp [Al]) (by dsimp only; omega) (by omega)]
    dsimp only
    change RefOut R _ _ t (.refStack (stackAt (rules c) p 8)) at hout
    have hrd : m.rd (ctx + 256 + stackAt (rules c) p 8) 8 = R.mem.rd (R.sp + stackAt (rules c) p 8) 8 := by
      rw [hsp]
      apply Mem.rd_congr
      intro i _
      exact hsv.mem _ (by omega)
    change Got c ctx t val p _ m (leNat (m.rd (ctx + 256 + stackAt (rules c) p 8) 8)) _ m
    rw [hrd]
    refine ⟨hsim.after (al := 8) (size := 8) (g := 8) (s := p.nsrn), fun _ _ => rfl, hp.1, ?_⟩
    intro m'' h
    rw [hobj _ hout m'' h]
    exact hp.2

end

theorem closureArg_vfp {c : Cfg} {ctx stack : Nat} {t : FType} {st : St} {m : Mem} {h : Nat}
    (hi : intLoad t.tc = none)
    (hk : t.tc = .float ∨ t.tc = .double ∨ t.tc = .longdouble ∨ t.tc = .struct ∨ t.tc = .complex)
    (hv : isVfp t = .ok h) :
    closureArg c ctx stack t st m =
      if h ≠ 0 then .ok (getHfa c ctx stack t h st m)
      else if 16 < t.size then .ok (getRef c ctx stack st m)
      else .ok (getSmall c ctx stack t st m) := by
  unfold closureArg
  rw [hi, hv]
  rcases hk with hk | hk | hk | hk | hk <;> rw [hk] <;> rfl

theorem hSize_q {h : Nat} (hq : 16 ≤ h) : hSize h = 16 := by
  unfold hSize; rw [if_neg (by omega), if_neg (by omega)]

theorem int_size_align {t : FType} (h : WF lp64 t) {p : Nat × Bool} (hi : intLoad t.tc = some p) : t.size = t.align := by
  cases h with
  | @scalar tc s a h =>
    cases tc <;> simp [lp64] at h <;> simp [intLoad] at hi <;> obtain ⟨rfl, rfl⟩ := h <;> rfl
  | complex _ _ => simp [intLoad] at hi
  | struct _ _ => simp [intLoad] at hi

/-- One argument. -/
theorem closureArg_got {c : Cfg} {ctx : Nat} {t : FType} {val : List Byte} {st : St} {p : Pos} {m : Mem} {R : Regs}
    {av : Bool} (hw : WF lp64 t) (hsim : Sim c st p) (hg : p.ngrn ≤ 8) (hs : p.nsrn ≤ 8)
    (hwv : (c.win64 && c.vararg) = true → hfa t = none) (hav : av = false → hfa t = none)
    (h16 : 16 ∣ ctx) (hctx : 16 ≤ ctx) (hlt : p.nsaa < 2 ^ 60) (hsv : Saved m ctx av R p.nsrn) (hsp : R.sp = ctx + 256)
    (hl : val.length = t.size)
    (hout : RefOut R (ctx - 16) (ctx + 256) t (placeArg (rules c) t p).1)
    (hp : PassedAt R t val (placeArg (rules c) t p).1) :
    ∃ a st' m', closureArg c ctx (ctx + 256) t st m = .ok (a, st', m') ∧
      Got c ctx t val p (placeArg (rules c) t p).2 m a st' m' := by
  have ha := wf_al hw
  rcases wf_kind hw with ⟨sg, hi, h8, hh⟩ | ⟨hi, hk⟩
  · have hcall : closureArg c ctx (ctx + 256) t st m = .ok ((allocInt c ctx (ctx + 256) st t.size).1,
        (allocInt c ctx (ctx + 256) st t.size).2, m) := by
      unfold closureArg
      rw [hi]
    exact ⟨_, _, _, hcall, got_int hsim ha hg hs (hw.size_pos lp64_ok) h8 (int_size_align hw hi) hh
      (small_align hw (by omega) hh) h16 hlt hsv hsp hp⟩
  · rcases isVfp_cases hw with ⟨hv, hh⟩ | ⟨n, h, z, hv, hne, hh, hn, hz, hsize, hal, h1, h4, hz16, _⟩
    · rw [closureArg_vfp hi hk hv, if_neg (by simp)]
      by_cases hbig : 16 < t.size
      · rw [if_pos hbig]
        exact ⟨_, _, _, rfl, got_ref hsim hs ⟨hh, hbig⟩ hlt hctx hsv hsp hout hp⟩
      · rw [if_neg hbig]
        exact ⟨_, _, _, rfl, got_small hsim ha hg hs (by omega) hh (small_align hw (by omega) hh) h16 hlt hsv hsp hp⟩
    · rw [closureArg_vfp hi hk hv, if_pos hne]
      have hwv' : (c.win64 && c.vararg) = false := by
        cases hx : (c.win64 && c.vararg) with
        | false => rfl
        | true => rw [hwv hx] at hh; cases hh
      obtain rfl : av = true := by
        cases av with
        | true => rfl
        | false => rw [hav rfl] at hh; cases hh
      have hszlt : t.size < 2 ^ 60 := by
        have := Nat.mul_le_mul h4 hz16
        omega
      exact ⟨_, _, _, rfl, got_hfa hsim ha hs hh hwv' hn hz hsize (by omega) hz16
        (fun hq => by rw [← hz]; exact hSize_q hq) h16 hlt hsv hsp hl hszlt hp⟩

/-- Pointers the handler gets. -/
def AllFound (m : Mem) : List FType → List (List Byte) → List Nat → Prop
  | t :: ts, v :: vs, a :: as => t.align ∣ a ∧ m.rd a t.size = v ∧ AllFound m ts vs as
  | [], [], [] => True
  | _, _, _ => False

theorem closureLoop_spec {c : Cfg} {ctx : Nat} {R : Regs} {av : Bool} (h16 : 16 ∣ ctx) (hctx : 16 ≤ ctx)
    (hsp : R.sp = ctx + 256)
    {ts : List FType} {vals : List (List Byte)} {i : Nat} {st : St} {p : Pos} {m : Mem}
    (hw : ∀ t ∈ ts, WF lp64 t) (hsim : Sim c st p) (hg : p.ngrn ≤ 8) (hs : p.nsrn ≤ 8)
    (hwv : (c.win64 && c.vararg) = true → ∀ t ∈ ts, hfa t = none) (hav : av = false → ∀ t ∈ ts, hfa t = none)
    (hlt : (endFrom (rules c) ts i p).nsaa < 2 ^ 60) (hsv : Saved m ctx av R p.nsrn)
    (hl : ∀ q ∈ ts.zip vals, q.2.length = q.1.size)
    (hout : AllRefOut R (ctx - 16) (ctx + 256) ts (placeFrom (rules c) ts i p))
    (hp : AllPassed R ts vals (placeFrom (rules c) ts i p)) :
    ∃ as m', closureLoop c ctx (ctx + 256) ts i st m = .ok (as, m') ∧
      (∀ x, x < vAddr ctx p.nsrn ∨ ctx + 128 ≤ x → m' x = m x) ∧ AllFound m' ts vals as := by
  induction ts generalizing vals i st p m with
  | nil =>
    cases vals with
    | cons => exact hp.elim
    | nil => exact ⟨[], m, rfl, fun _ _ => rfl, trivial⟩
  | cons t ts ih =>
    cases vals with
    | nil => exact hp.elim
    | cons v vals =>
      have hwt := hw t (by simp)
      rw [endFrom] at hlt
      have hmono := endFrom_mono (rules c) ts (fun x hx => wf_al (hw x (by simp [hx]))) (i + 1)
        (nextPos (rules c) i (placeArg (rules c) t p).2)
      rw [nextPos_nsaa] at hmono
      have hmp := placeArg_mono (rules c) t (wf_al hwt) p
      rw [placeFrom] at hp hout
      obtain ⟨a, st1, m1, hcall, hgot⟩ := closureArg_got (m := m) hwt hsim hg hs (fun h => hwv h t (by simp))
        (fun h => hav h t (by simp)) h16 hctx (by omega) hsv hsp (hl (t, v) (by simp)) hout.1 hp.1
      have hr1 := placeArg_regs (rules c) t p (fun h1 h2 => small_align hwt h2 h1) hg hs
      have hr2 := nextPos_regs (rules c) i (placeArg (rules c) t p).2 hr1.1.2 hr1.2.2
      have hsv1 : Saved m1 ctx av R (nextPos (rules c) i (placeArg (rules c) t p).2).nsrn := by
        have hf := hgot.frame
        unfold vAddr at hf
        refine ⟨?_, ?_, ?_⟩
        · intro k hk
          rw [← hsv.xs k hk]
          apply Mem.rd_congr
          intro j _
          unfold xAddr
          exact hf _ (by omega)
        · intro ha k hk hk8
          rw [← hsv.vs ha k (by omega) hk8]
          apply Mem.rd_congr
          intro j _
          unfold vAddr
          exact hf _ (by omega)
        · intro x hx
          rw [← hsv.mem x hx]
          exact hf _ (by omega)
      obtain ⟨as, m2, hloop, hframe, hfound⟩ := ih (vals := vals) (i := i + 1) (st := afterArg c i st1)
        (p := nextPos (rules c) i (placeArg (rules c) t p).2) (m := m1)
        (fun x hx => hw x (by simp [hx])) (hgot.sim.afterArg i) hr2.1.2 hr2.2.2
        (fun h x hx => hwv h x (by simp [hx])) (fun h x hx => hav h x (by simp [hx])) hlt hsv1
        (fun q hq => hl q (by simp [hq])) hout.2 hp.2
      have hcomb : ∀ x, x < vAddr ctx (placeArg (rules c) t p).2.nsrn ∨ ctx + 128 ≤ x → m2 x = m1 x := by
        intro x hx
        apply hframe
        unfold vAddr at hx ⊢
        omega
      refine ⟨a :: as, m2, ?_, ?_, hgot.align, ?_, hfound⟩
      · rw [closureLoop, hcall]
        change (closureLoop c ctx (ctx + 256) ts (i + 1) (afterArg c i st1) m1 >>= _) = _
        rw [hloop]
        rfl
      · intro x hx
        rw [hcomb x (by unfold vAddr at hx ⊢; omega)]
        apply hgot.frame
        unfold vAddr at hx ⊢
        omega
      · exact hgot.val m2 hcomb

theorem saveRegs_out {a z n : Nat} {r : Nat → List Byte} {m : Mem} (hr : ∀ k < n, (r k).length = z) {x : Nat}
    (hx : x < a ∨ a + z * n ≤ x) : saveRegs a z r n m x = m x := by
  induction n with
  | zero => rfl
  | succ n ih =>
    rw [saveRegs, Nat.mul_succ] at *
    rw [Mem.wr_out _ _ _ _ (by rw [hr n (by omega)]; omega)]
    exact ih (fun k hk => hr k (by omega)) (by omega)

theorem saveRegs_rd {a z n : Nat} {r : Nat → List Byte} {m : Mem} (hr : ∀ k < n, (r k).length = z) {k : Nat}
    (hk : k < n) : (saveRegs a z r n m).rd (a + z * k) z = r k := by
  induction n with
  | zero => omega
  | succ n ih =>
    rw [saveRegs]
    rcases Nat.lt_or_ge k n with h | h
    · rw [← ih (fun k hk => hr k (by omega)) h]
      apply Mem.rd_congr
      intro i hi
      apply Mem.wr_out
      have : z * (k + 1) ≤ z * n := Nat.mul_le_mul_left _ h
      rw [Nat.mul_succ] at this
      omega
    · obtain rfl : k = n := by omega
      have := Mem.rd_wr_same (saveRegs a z r k m) (a + z * k) (r k)
      rwa [hr k (by omega)] at this

/-- Arguments passed according to the standard are found by the handler. -/
theorem closureEntry_spec {c : Cfg} {f : Flags} {ats : List FType} {bytes x29 x30 : Nat} {E : Entry}
    {vals : List (List Byte)} (hw : ∀ t ∈ ats, WF lp64 t)
    (hv : f.argV = false → ∀ t ∈ ats, hfa t = none)
    (hwv : (c.win64 && c.vararg) = true → ∀ t ∈ ats, hfa t = none)
    (hlt : (endFrom (rules c) ats 0 start).nsaa < 2 ^ 60)
    (h16 : 16 ∣ E.sp) (hsp : 272 ≤ E.sp) (hx : ∀ k < 8, (E.x k).length = 8) (hvl : ∀ k < 8, (E.v k).length = 16)
    (hl : ∀ q ∈ ats.zip vals, q.2.length = q.1.size)
    (hout : AllRefOut E.regs (E.sp - 272) E.sp ats (places (rules c) ats))
    (hp : AllPassed E.regs ats vals (places (rules c) ats)) :
    ∃ V, closureEntry c f ats bytes x29 x30 E = .ok V ∧ AllFound V.mem ats vals V.avalue ∧
      (∀ x, x < E.sp - 272 ∨ E.sp - 64 ≤ x → V.mem x = E.mem x) ∧
      V.rvalue = if f.inMem then E.x8 else E.sp - 64 := by
  obtain ⟨ctx, hc⟩ : ∃ ctx, ctx = E.sp - 272 + 16 := ⟨_, rfl⟩
  have hctx : E.sp = ctx + 256 := by omega
  generalize hm1 : E.mem.wr (E.sp - 272) (leBytes 8 x29 ++ leBytes 8 x30) = m1
  have ho1 : ∀ x, x < ctx - 16 ∨ ctx ≤ x → m1 x = E.mem x := by
    intro x hx
    rw [← hm1]
    exact Mem.wr_out _ _ _ _ (by simp only [List.length_append, leBytes_length]; omega)
  generalize hm2 : (if f.argV then saveRegs (vAddr ctx 0) 16 E.v 8 m1 else m1) = m2
  have ho2 : ∀ x, x < ctx ∨ ctx + 128 ≤ x → m2 x = m1 x := by
    intro x hx
    rw [← hm2]
    split
    · exact saveRegs_out hvl (by unfold vAddr; omega)
    · rfl
  generalize hm3 : saveRegs (xAddr ctx 0) 8 E.x 8 m2 = m3
  have ho3 : ∀ x, x < ctx + 128 ∨ ctx + 192 ≤ x → m3 x = m2 x := by
    intro x hx'
    rw [← hm3]
    exact saveRegs_out hx (by unfold xAddr; omega)
  have hsv : Saved m3 ctx f.argV E.regs start.nsrn := by
    refine ⟨?_, ?_, ?_⟩
    · intro k hk
      have := saveRegs_rd (a := xAddr ctx 0) (m := m2) hx hk
      rw [hm3] at this
      rw [← show E.x k = E.regs.x k from rfl, ← this]
      congr 1
    · intro ha k _ hk
      have := saveRegs_rd (a := vAddr ctx 0) (m := m1) hvl hk
      rw [if_pos ha] at hm2
      rw [hm2] at this
      rw [← show E.v k = E.regs.v k from rfl, ← this]
      have e : vAddr ctx k = vAddr ctx 0 + 16 * k := by unfold vAddr; ring
      rw [e]
      apply Mem.rd_congr
      intro i _
      apply ho3
      unfold vAddr
      omega
    · intro x hx'
      rw [ho3 x (by omega), ho2 x (by omega), ho1 x (by omega)]
      rfl
  obtain ⟨as, m', hloop, hframe, hfound⟩ := closureLoop_spec (c := c) (ctx := ctx) (R := E.regs) (av := f.argV)
    (vals := vals) (i := 0) (st := argInit bytes) (p := start) (m := m3)
    (by omega) (by omega) hctx hw ⟨rfl, rfl, rfl, Nat.le_refl _, Nat.zero_le _⟩ (by decide) (by decide) hwv hv hlt hsv
    hl (by rw [show ctx - 16 = E.sp - 272 by omega, ← hctx]; exact hout) hp
  refine ⟨⟨m', if f.inMem then E.x8 else E.sp - 272 + 208, as⟩, ?_, hfound, ?_, ?_⟩
  · unfold closureEntry
    dsimp only
    rw [← hc, hm1, hm2, hm3, hctx, hloop]
    rfl
  · intro x hx'
    dsimp only
    rw [hframe x (by unfold vAddr; omega), ho3 x (by omega), ho2 x (by omega), ho1 x (by omega)]
  · dsimp only
    split <;> omega

end Verif.A64
