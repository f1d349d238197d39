import Verif.Alpha.AsmIrq
import Verif.Props.Alpha

/-! C103, C104: osf.S of Alpha under interruptions; unwinding. -/
namespace Verif.Props
open Verif Verif.Alpha Verif.Alpha.Asm Verif.Spec Verif.Spec.Alpha

/-! ## C103: interruptions

An interruption may change all memory between `lo` and the stack pointer (`Reach.irq`). -/

/-- The two facts that follow from `Safe` for the end of an execution. -/
theorem alpha_safe {E : Env} {lo out b ra fp : Nat} {cfa : Nat → Nat} {r : Nat → Nat} {fin : M → Prop} {s t : M} (safe : Safe E lo out (Good E out cfa ra fp r fin) b s)
    (ht : Reach E lo out s t) : (∃ v, Reach E lo out t v ∧ v.pc = out) ∧ (t.pc = out → fin t) ∧ (t.pc ≠ out → UnwAt E t (cfa (t.pc - E.L)) ra fp r) := by
  obtain ⟨⟨g1, g2⟩, b', s', h1, h2⟩ := safe.reach ht (.self _ _ _)
  exact ⟨h2.finish h1, g2, g1⟩

/-- `ffi_call_osf` until the function: it gets there, finds what C100 says, and unwinds on the way. -/
theorem alpha_enter {E : Env} {rt : FType} {ats : List FType} {I : CallIn} (h : AlphaCall rt ats I) (hb : prepBytes rt ats < 2 ^ 32) (lo : Nat) :
    ∃ O, callEntry (Alpha.prepCif rt ats) rt ats I = some O ∧ ∀ s, AlphaAtCall E I O s → s.r 30 ≤ O.argp → (I.fn < E.L ∨ E.L + 88 ≤ I.fn) →
      ∀ t, Reach E lo I.fn s t → (∃ v, Reach E lo I.fn t v ∧ v.pc = I.fn) ∧ (t.pc = I.fn → ∃ u, AlphaEntry E rt ats I O u ∧ Agree lo (u.r 30) u t) ∧
        (t.pc ≠ I.fn → UnwAt E t (callCfa O.frame O.argp (t.pc - E.L)) (s.r 26) (s.r 15) s.r) := by
  obtain ⟨O, hO, hr, c⟩ := alpha_call_core (E := E) h hb
  refine ⟨O, hO, fun s hs h30 hf t ht => ?_⟩
  have safe := safe_call_head (lo := lo) (out := I.fn) (fin := fun t => ∃ u, AlphaEntry E rt ats I O u ∧ Agree lo (u.r 30) u t) hs.pc (by rw [hs.argp, hs.frame]; exact hr)
    (by rw [hs.argp]; exact h30) hs.regs.1 hs.regs.2 hf hs.fn.symm (fun u hu t ht => ⟨u, (c s hs u hu).1, ht⟩)
  rw [hs.frame, hs.argp] at safe
  exact alpha_safe safe ht

/-- C103: however `ffi_call_osf` is interrupted, it comes to the function, which finds what C100 says.  Partial: as C100. -/
theorem C103_call_enter_partial {E : Env} {rt : FType} {ats : List FType} {I : CallIn} (h : AlphaCall rt ats I) (hb : prepBytes rt ats < 2 ^ 32) (lo : Nat) :
    ∃ O, callEntry (Alpha.prepCif rt ats) rt ats I = some O ∧ ∀ s, AlphaAtCall E I O s → s.r 30 ≤ O.argp → (I.fn < E.L ∨ E.L + 88 ≤ I.fn) →
      ∀ t, Reach E lo I.fn s t → (∃ v, Reach E lo I.fn t v ∧ v.pc = I.fn) ∧
        (t.pc = I.fn → ∃ u, AlphaEntry E rt ats I O u ∧ Agree lo (u.r 30) u t) := by
  obtain ⟨O, hO, k⟩ := alpha_enter (E := E) h hb lo
  exact ⟨O, hO, fun s hs h30 hf t ht => ⟨(k s hs h30 hf t ht).1, (k s hs h30 hf t ht).2.1⟩⟩

/-- `ffi_call_osf` from the function's return on. -/
theorem alpha_leave {E : Env} (hE : E.Ok) {rt : FType} {ats : List FType} {I : CallIn} (h : AlphaCall rt ats I) (hb : prepBytes rt ats < 2 ^ 32) (lo : Nat) :
    ∃ O, callEntry (Alpha.prepCif rt ats) rt ats I = some O ∧ ∀ s, AlphaAtCall E I O s → s.r 30 ≤ O.argp → (I.fn < E.L ∨ E.L + 88 ≤ I.fn) →
      (s.r 26 < E.L + 88 ∨ E.L + 240 ≤ s.r 26) → ∀ t, Reach E lo I.fn s t → t.pc = I.fn →
      ∀ u, Conforms t u → (∀ x, O.frame ≤ x → x < O.frame + 32 → u.mem x = t.mem x) →
      Unw row15 u (O.frame + 32) (s.r 26) (s.r 15) s.r ∧
      ∀ w, Reach E lo (s.r 26) u w → (∃ v, Reach E lo (s.r 26) w v ∧ v.pc = s.r 26) ∧ (w.pc = s.r 26 → ∃ v, AlphaBack E rt I s u v ∧ v.r 30 = O.argp + 48 ∧ Agree lo (v.r 30) v w) ∧
        (w.pc ≠ s.r 26 → UnwAt E w (callCfa O.frame (O.argp + 48) (w.pc - E.L)) (s.r 26) (s.r 15) s.r) := by
  obtain ⟨O, hO, hr, c⟩ := alpha_call_core (E := E) h hb
  refine ⟨O, hO, fun s hs h30 hf h26 t ht hp u hu hk => ?_⟩
  have safe := safe_call_head (lo := lo) (out := I.fn) (fin := fun t => ∃ x, Called E s x ∧ Agree lo (x.r 30) x t) hs.pc (by rw [hs.argp, hs.frame]; exact hr)
    (by rw [hs.argp]; exact h30) hs.regs.1 hs.regs.2 hf hs.fn.symm (fun u hu t ht => ⟨u, hu, ht⟩)
  obtain ⟨x, hx, hag⟩ := (alpha_safe safe ht).2.1 hp
  have hsp : x.r 30 = O.argp + 48 := by rw [hx.sp, hs.argp]
  obtain ⟨a, b⟩ := (c s hs x hx).2 u ⟨by rw [hu.pc, hag.r], by rw [hu.ra, hag.r], by rw [hu.sp, hag.r], fun k k1 k2 => by rw [hu.r k k1 k2, hag.r], fun k k1 k2 => by rw [hu.f k k1 k2, hag.f]⟩
    (fun y y1 y2 => by rw [hk y y1 y2, hag.mem y (.inr (by omega))])
  have u30 : u.r 30 = O.argp + 48 := by rw [hu.sp, hag.r, hsp]
  have ur : ∀ k, 9 ≤ k → k ≤ 14 → u.r k = s.r k := fun k k1 k2 => by rw [hu.r k k1 (by omega), hag.r, hx.rest k k1 k2]
  refine ⟨unw2 (lo := 0) (b := 0) a.frame (Nat.zero_le _) a.s26 a.s15 hs.regs.1 hs.regs.2 ur u (.self _ _ _), fun w hw => ?_⟩
  have safe := safe_call_tail hE (lo := lo) (out := s.r 26) (ra := s.r 26) (fp := s.r 15) (A := O.argp + 48) (r := s.r) (u := u)
    (fin := fun t => ∃ v, AlphaBack E rt I s u v ∧ v.r 30 = O.argp + 48 ∧ Agree lo (v.r 30) v t) a.flags a.pc a.ra ⟨a.frame, u30, a.s26, a.s15, ur⟩ hr hs.regs.1 hs.regs.2 a.st a.rv h26 rfl
    (fun v hv t ht => ⟨v, b v hv, by rw [hv.rest 30 (by omega) (by omega), u30], by rw [hv.rest 30 (by omega) (by omega), u30]; exact ht⟩)
  exact alpha_safe safe hw

/-- C103: and however it is interrupted after the function returns, `ffi_call_int` finds what C100 says. -/
theorem C103_call_return_partial {E : Env} (hE : E.Ok) {rt : FType} {ats : List FType} {I : CallIn} (h : AlphaCall rt ats I) (hb : prepBytes rt ats < 2 ^ 32) (lo : Nat) :
    ∃ O, callEntry (Alpha.prepCif rt ats) rt ats I = some O ∧ ∀ s, AlphaAtCall E I O s → s.r 30 ≤ O.argp → (I.fn < E.L ∨ E.L + 88 ≤ I.fn) →
      (s.r 26 < E.L + 88 ∨ E.L + 240 ≤ s.r 26) → ∀ t, Reach E lo I.fn s t → t.pc = I.fn →
      ∀ u, Conforms t u → (∀ x, O.frame ≤ x → x < O.frame + 32 → u.mem x = t.mem x) →
      ∀ w, Reach E lo (s.r 26) u w → (∃ v, Reach E lo (s.r 26) w v ∧ v.pc = s.r 26) ∧ (w.pc = s.r 26 → ∃ v, AlphaBack E rt I s u v ∧ v.r 30 = O.argp + 48 ∧ Agree lo (v.r 30) v w) := by
  obtain ⟨O, hO, k⟩ := alpha_leave hE h hb lo
  refine ⟨O, hO, fun s hs h30 hf h26 t ht hp u hu hk w hw => ?_⟩
  have := (k s hs h30 hf h26 t ht hp u hu hk).2 w hw
  exact ⟨this.1, this.2.1⟩

/-- Where the closure entry points go, and how they unwind. `P` is `AtInner` with the closure's members. -/
def AlphaTo (E : Env) (lo : Nat) (rt : FType) (ats : List FType) (vs : List (List Byte)) (s t : M) (cif fn user : Nat) : Prop :=
  (∃ v, Reach E lo E.inner t v ∧ v.pc = E.inner) ∧
    (t.pc = E.inner → ∃ s' u, Agree lo (s.r 30) s s' ∧ AlphaHandler E rt ats vs s' u cif fn user ∧ Agree lo (u.r 30) u t)

/-- A call of a closure, with interruptions: everything that it reads is below `lo` or above the stack pointer. -/
structure AlphaCalled (E : Env) (lo : Nat) (rt : FType) (ats : List FType) (vs : List (List Byte)) (s : M) : Prop where
  arrive : ∀ s', Agree lo (s.r 30) s s' → AlphaArrive E rt ats vs s'
  slot : E.slot + 8 ≤ lo ∨ s.r 30 ≤ E.slot
  room : lo + 128 ≤ s.r 30
  inner : E.inner < E.L + 240 ∨ E.L + 412 ≤ E.inner

theorem alpha_clo_enter {E : Env} (hE : E.Ok) {lo : Nat} {rt : FType} {ats : List FType} {vs : List (List Byte)} {s : M} (h : AlphaCalled E lo rt ats vs s) (hpc : s.pc = E.L + 288)
    (hpv : s.r 27 = E.L + 288) (hcl : s.r 1 + 48 ≤ lo ∨ s.r 30 ≤ s.r 1) (t : M) (ht : Reach E lo E.inner s t) :
    (∃ v, Reach E lo E.inner t v ∧ v.pc = E.inner) ∧
    (t.pc = E.inner → ∃ s' u, Agree lo (s.r 30) s s' ∧ AtInner E s' u (leNat (s.mem.rd (s.r 1 + 24) 8)) (leNat (s.mem.rd (s.r 1 + 32) 8)) (leNat (s.mem.rd (s.r 1 + 40) 8)) ∧
      Agree lo (u.r 30) u t) ∧
    (t.pc ≠ E.inner → UnwAt E t (s.r 30) (s.r 26) (s.r 15) s.r) := by
  have a := h.arrive s (.self _ _ _)
  exact alpha_safe (safe_closure (fin := fun t => ∃ s' u, Agree lo (s.r 30) s s' ∧ AtInner E s' u (leNat (s.mem.rd (s.r 1 + 24) 8)) (leNat (s.mem.rd (s.r 1 + 32) 8)) (leNat (s.mem.rd (s.r 1 + 40) 8)) ∧
      Agree lo (u.r 30) u t) hE hpc hpv hcl h.slot h.room a.got a.ra h.inner rfl fun s' u h1 h2 t ht => ⟨s', u, h1, h2, ht⟩) ht

theorem alpha_go_enter {E : Env} (hE : E.Ok) {lo : Nat} {rt : FType} {ats : List FType} {vs : List (List Byte)} {s : M} (h : AlphaCalled E lo rt ats vs s) (hpc : s.pc = E.L + 240)
    (hpv : s.r 27 = E.L + 240) (hcl : s.r 1 + 24 ≤ lo ∨ s.r 30 ≤ s.r 1) (t : M) (ht : Reach E lo E.inner s t) :
    (∃ v, Reach E lo E.inner t v ∧ v.pc = E.inner) ∧
    (t.pc = E.inner → ∃ s' u, Agree lo (s.r 30) s s' ∧ AtInner E s' u (leNat (s.mem.rd (s.r 1 + 8) 8)) (leNat (s.mem.rd (s.r 1 + 16) 8)) (s.r 1) ∧
      Agree lo (u.r 30) u t) ∧
    (t.pc ≠ E.inner → UnwAt E t (s.r 30) (s.r 26) (s.r 15) s.r) := by
  have a := h.arrive s (.self _ _ _)
  exact alpha_safe (safe_go (fin := fun t => ∃ s' u, Agree lo (s.r 30) s s' ∧ AtInner E s' u (leNat (s.mem.rd (s.r 1 + 8) 8)) (leNat (s.mem.rd (s.r 1 + 16) 8)) (s.r 1) ∧
      Agree lo (u.r 30) u t) hE hpc hpv hcl h.slot h.room a.got a.ra h.inner rfl fun s' u h1 h2 t ht => ⟨s', u, h1, h2, ht⟩) ht

/-- C103: however `ffi_closure_osf` is interrupted, the handler gets what C101 says. -/
theorem C103_closure_enter {E : Env} (hE : E.Ok) {lo : Nat} {rt : FType} {ats : List FType} {vs : List (List Byte)} {s : M} (h : AlphaCalled E lo rt ats vs s) (hpc : s.pc = E.L + 288)
    (hpv : s.r 27 = E.L + 288) (hcl : s.r 1 + 48 ≤ lo ∨ s.r 30 ≤ s.r 1) (t : M) (ht : Reach E lo E.inner s t) :
    AlphaTo E lo rt ats vs s t (leNat (s.mem.rd (s.r 1 + 24) 8)) (leNat (s.mem.rd (s.r 1 + 32) 8)) (leNat (s.mem.rd (s.r 1 + 40) 8)) := by
  obtain ⟨h1, h2, -⟩ := alpha_clo_enter hE h hpc hpv hcl t ht
  refine ⟨h1, fun hp => ?_⟩
  obtain ⟨s', u, k1, k2, k3⟩ := h2 hp
  exact ⟨s', u, k1, (alpha_closure_mid (h.arrive s' k1) k2).1, k3⟩

/-- C103: the same for Go closures. -/
theorem C103_go_enter {E : Env} (hE : E.Ok) {lo : Nat} {rt : FType} {ats : List FType} {vs : List (List Byte)} {s : M} (h : AlphaCalled E lo rt ats vs s) (hpc : s.pc = E.L + 240)
    (hpv : s.r 27 = E.L + 240) (hcl : s.r 1 + 24 ≤ lo ∨ s.r 30 ≤ s.r 1) (t : M) (ht : Reach E lo E.inner s t) :
    AlphaTo E lo rt ats vs s t (leNat (s.mem.rd (s.r 1 + 8) 8)) (leNat (s.mem.rd (s.r 1 + 16) 8)) (s.r 1) := by
  obtain ⟨h1, h2, -⟩ := alpha_go_enter hE h hpc hpv hcl t ht
  refine ⟨h1, fun hp => ?_⟩
  obtain ⟨s', u, k1, k2, k3⟩ := h2 hp
  exact ⟨s', u, k1, (alpha_closure_mid (h.arrive s' k1) k2).1, k3⟩

/-- The way back of closures: `t` is the state in which `ffi_closure_osf_inner` was entered, `u` that in which it returns. -/
theorem alpha_clo_leave {E : Env} (hE : E.Ok) {lo : Nat} {rt : FType} {ats : List FType} {vs : List (List Byte)} {s s' x t : M} {cif fn user : Nat} (h : AlphaCalled E lo rt ats vs s)
    (h1 : Agree lo (s.r 30) s s') (h2 : AtInner E s' x cif fn user) (h3 : Agree lo (x.r 30) x t) (h26 : s.r 26 < E.L + 380 ∨ E.L + 600 ≤ s.r 26) {u : M} (hu : AlphaDone rt ats t u) :
    Unw rowB1 u (s.r 30) (s.r 26) (s.r 15) s.r ∧
    ∀ w, Reach E lo (s.r 26) u w → (∃ v, Reach E lo (s.r 26) w v ∧ v.pc = s.r 26) ∧ (w.pc = s.r 26 → ∃ v, AlphaCBack E rt s u v (t.r 19) ∧ Agree lo (v.r 30) v w) ∧
      (w.pc ≠ s.r 26 → UnwAt E w (s.r 30) (s.r 26) (s.r 15) s.r) := by
  have hs := h.arrive s' h1
  have r' : s'.r = s.r := h1.r
  obtain ⟨-, k⟩ := alpha_closure_mid hs h2
  have hx30 : x.r 30 = t.r 30 := by rw [h3.r]
  obtain ⟨c, b⟩ := k u ⟨⟨by rw [hu.abi.pc, h3.r], by rw [hu.abi.ra, h3.r], by rw [hu.abi.sp, h3.r], fun k k1 k2 => by rw [hu.abi.r k k1 k2, h3.r],
    fun k k1 k2 => by rw [hu.abi.f k k1 k2, h3.f]⟩, hu.code, fun y y1 y2 => by rw [hu.saved y (by omega) (by omega), h3.mem y (.inr y1)]⟩
  have csp := c.sp
  rw [r'] at csp
  have j : InClo (u.r 30) (s.r 26) (s.r 15) s.r u := ⟨rfl, by rw [c.saved, r'], by rw [c.rest 15 (by omega) (by omega), r'], fun k k1 k2 => by rw [c.rest k k1 (by omega), r']⟩
  have hra : s.r 26 < 2 ^ 64 := by have := hs.ra; rwa [r'] at this
  refine ⟨by have := j.unw (lo := 0) hra u (.self _ _ _); rwa [csp] at this, fun w hw => ?_⟩
  have safe := safe_closure_tail hE (lo := lo) (out := s.r 26) (fin := fun w => ∃ v, AlphaCBack E rt s u v (t.r 19) ∧ Agree lo (v.r 30) v w) c.code c.pc c.ra c.r0 j hra h26 rfl (fun v hv t' ht' => by
    obtain ⟨b1, b2, b3, b4, b5⟩ := b v hv
    refine ⟨v, ⟨⟨by rw [b1.pc, r'], by rw [b1.ra, r'], by rw [b1.sp, r'], fun k k1 k2 => by rw [b1.r k k1 k2, r'], fun k k1 k2 => by rw [b1.f k k1 k2, h1.f]⟩, b2, b3, b4, ?_⟩, ht'⟩
    rw [h3.r]; exact b5)
  rw [csp] at safe
  exact alpha_safe safe hw

/-- A closure, or a Go closure, is called: the `ffi_closure`, or the `ffi_go_closure`, in $1 is out of the reach of interruptions. -/
def AlphaAtClo (E : Env) (lo : Nat) (s : M) : Prop :=
  (s.pc = E.L + 288 ∧ s.r 27 = E.L + 288 ∧ (s.r 1 + 48 ≤ lo ∨ s.r 30 ≤ s.r 1)) ∨ (s.pc = E.L + 240 ∧ s.r 27 = E.L + 240 ∧ (s.r 1 + 24 ≤ lo ∨ s.r 30 ≤ s.r 1))

theorem alpha_at_inner {E : Env} (hE : E.Ok) {lo : Nat} {rt : FType} {ats : List FType} {vs : List (List Byte)} {s : M} (h : AlphaCalled E lo rt ats vs s) (hs : AlphaAtClo E lo s)
    (t : M) (ht : Reach E lo E.inner s t) :
    (t.pc = E.inner → ∃ s' u cif fn user, Agree lo (s.r 30) s s' ∧ AtInner E s' u cif fn user ∧ Agree lo (u.r 30) u t) ∧ (t.pc ≠ E.inner → UnwAt E t (s.r 30) (s.r 26) (s.r 15) s.r) := by
  rcases hs with ⟨h1, h2, h3⟩ | ⟨h1, h2, h3⟩
  · obtain ⟨-, k, w⟩ := alpha_clo_enter hE h h1 h2 h3 t ht
    exact ⟨fun hp => by obtain ⟨s', u, k⟩ := k hp; exact ⟨s', u, _, _, _, k⟩, w⟩
  · obtain ⟨-, k, w⟩ := alpha_go_enter hE h h1 h2 h3 t ht
    exact ⟨fun hp => by obtain ⟨s', u, k⟩ := k hp; exact ⟨s', u, _, _, _, k⟩, w⟩

/-- C103: however the closure is interrupted after `ffi_closure_osf_inner` returns, the caller gets the result. -/
theorem C103_closure_return {E : Env} (hE : E.Ok) {lo : Nat} {rt : FType} {ats : List FType} {vs : List (List Byte)} {s : M} (h : AlphaCalled E lo rt ats vs s) (hs : AlphaAtClo E lo s)
    (h26 : s.r 26 < E.L + 380 ∨ E.L + 600 ≤ s.r 26) (t : M) (ht : Reach E lo E.inner s t) (hp : t.pc = E.inner) (u : M) (hu : AlphaDone rt ats t u) (w : M) (hw : Reach E lo (s.r 26) u w) :
    (∃ v, Reach E lo (s.r 26) w v ∧ v.pc = s.r 26) ∧ (w.pc = s.r 26 → ∃ v, AlphaCBack E rt s u v (t.r 19) ∧ Agree lo (v.r 30) v w) := by
  obtain ⟨s', x, cif, fn, user, k1, k2, k3⟩ := (alpha_at_inner hE h hs t ht).1 hp
  obtain ⟨a, b, -⟩ := (alpha_clo_leave hE h k1 k2 k3 h26 hu).2 w hw
  exact ⟨a, b⟩

/-! ## C104: unwinding -/

/-- C104: at every instruction of `ffi_call_osf` before the function, interrupted or not, the rules give the return address, $15 and $9 to $14 of its caller; the address of the frame is
`frame + 32`.  Partial: as C100. -/
theorem C104_call_enter_partial {E : Env} {rt : FType} {ats : List FType} {I : CallIn} (h : AlphaCall rt ats I) (hb : prepBytes rt ats < 2 ^ 32) (lo : Nat) :
    ∃ O, callEntry (Alpha.prepCif rt ats) rt ats I = some O ∧ ∀ s, AlphaAtCall E I O s → s.r 30 ≤ O.argp → (I.fn < E.L ∨ E.L + 88 ≤ I.fn) →
      ∀ t, Reach E lo I.fn s t → t.pc ≠ I.fn → UnwAt E t (callCfa O.frame O.argp (t.pc - E.L)) (s.r 26) (s.r 15) s.r := by
  obtain ⟨O, hO, k⟩ := alpha_enter (E := E) h hb lo
  exact ⟨O, hO, fun s hs h30 hf t ht => (k s hs h30 hf t ht).2.2⟩

/-- C104: while the function runs; `u` has what a function keeps, and is at the return address. -/
theorem C104_call_inside_partial {E : Env} (hE : E.Ok) {rt : FType} {ats : List FType} {I : CallIn} (h : AlphaCall rt ats I) (hb : prepBytes rt ats < 2 ^ 32) (lo : Nat) :
    ∃ O, callEntry (Alpha.prepCif rt ats) rt ats I = some O ∧ ∀ s, AlphaAtCall E I O s → s.r 30 ≤ O.argp → (I.fn < E.L ∨ E.L + 88 ≤ I.fn) →
      (s.r 26 < E.L + 88 ∨ E.L + 240 ≤ s.r 26) → ∀ t, Reach E lo I.fn s t → t.pc = I.fn →
      ∀ u, Conforms t u → (∀ x, O.frame ≤ x → x < O.frame + 32 → u.mem x = t.mem x) → UnwAt E u (O.frame + 32) (s.r 26) (s.r 15) s.r := by
  obtain ⟨O, hO, hr, c⟩ := alpha_call_core (E := E) h hb
  obtain ⟨O', hO', k⟩ := alpha_leave hE h hb lo
  obtain rfl := Option.some.inj (hO.symm.trans hO')
  refine ⟨O, hO, fun s hs h30 hf h26 t ht hp u hu hk => ⟨row15, ?_, (k s hs h30 hf h26 t ht hp u hu hk).1⟩⟩
  have safe := safe_call_head (lo := lo) (out := I.fn) (fin := fun t => ∃ x, Called E s x ∧ Agree lo (x.r 30) x t) hs.pc (by rw [hs.argp, hs.frame]; exact hr)
    (by rw [hs.argp]; exact h30) hs.regs.1 hs.regs.2 hf hs.fn.symm (fun u hu t ht => ⟨u, hu, ht⟩)
  obtain ⟨x, hx, hag⟩ := (alpha_safe safe ht).2.1 hp
  have : u.pc = E.L + 88 := by rw [hu.pc, hag.r]; exact (c s hs x hx).1.ra
  rw [this, show E.L + 88 - E.L = 16 + 4 * 18 by omega]
  exact (call_rows E.bwx).2.1 18 (by decide)

/-- C104: and from the function's return on.  The registers are right at every instruction; the address of the frame is `frame + 32` until $15 is restored, then the stack pointer. -/
theorem C104_call_return_partial {E : Env} (hE : E.Ok) {rt : FType} {ats : List FType} {I : CallIn} (h : AlphaCall rt ats I) (hb : prepBytes rt ats < 2 ^ 32) (lo : Nat) :
    ∃ O, callEntry (Alpha.prepCif rt ats) rt ats I = some O ∧ ∀ s, AlphaAtCall E I O s → s.r 30 ≤ O.argp → (I.fn < E.L ∨ E.L + 88 ≤ I.fn) →
      (s.r 26 < E.L + 88 ∨ E.L + 240 ≤ s.r 26) → ∀ t, Reach E lo I.fn s t → t.pc = I.fn →
      ∀ u, Conforms t u → (∀ x, O.frame ≤ x → x < O.frame + 32 → u.mem x = t.mem x) →
      ∀ w, Reach E lo (s.r 26) u w → w.pc ≠ s.r 26 → UnwAt E w (callCfa O.frame (O.argp + 48) (w.pc - E.L)) (s.r 26) (s.r 15) s.r := by
  obtain ⟨O, hO, k⟩ := alpha_leave hE h hb lo
  exact ⟨O, hO, fun s hs h30 hf h26 t ht hp u hu hk w hw => ((k s hs h30 hf h26 t ht hp u hu hk).2 w hw).2.2⟩

/-- C104: before the handler of a closure, a Go closure. -/
theorem C104_closure_enter {E : Env} (hE : E.Ok) {lo : Nat} {rt : FType} {ats : List FType} {vs : List (List Byte)} {s : M} (h : AlphaCalled E lo rt ats vs s) (hs : AlphaAtClo E lo s)
    (t : M) (ht : Reach E lo E.inner s t) (hp : t.pc ≠ E.inner) : UnwAt E t (s.r 30) (s.r 26) (s.r 15) s.r :=
  (alpha_at_inner hE h hs t ht).2 hp

/-- C104: while `ffi_closure_osf_inner` and the handler run. -/
theorem C104_closure_inside {E : Env} (hE : E.Ok) {lo : Nat} {rt : FType} {ats : List FType} {vs : List (List Byte)} {s : M} (h : AlphaCalled E lo rt ats vs s) (hs : AlphaAtClo E lo s)
    (h26 : s.r 26 < E.L + 380 ∨ E.L + 600 ≤ s.r 26) (t : M) (ht : Reach E lo E.inner s t) (hp : t.pc = E.inner) (u : M) (hu : AlphaDone rt ats t u) :
    UnwAt E u (s.r 30) (s.r 26) (s.r 15) s.r := by
  obtain ⟨s', x, cif, fn, user, k1, k2, k3⟩ := (alpha_at_inner hE h hs t ht).1 hp
  refine ⟨rowB1, ?_, (alpha_clo_leave hE h k1 k2 k3 h26 hu).1⟩
  have : u.pc = E.L + 380 := by rw [hu.abi.pc, k3.r]; exact k2.ra
  rw [this, show E.L + 380 - E.L = 304 + 4 * 19 by omega]
  exact (closure_rows E.bwx).2.2.2.2.2.1 19 (by decide)

/-- C104: and on the way back. -/
theorem C104_closure_return {E : Env} (hE : E.Ok) {lo : Nat} {rt : FType} {ats : List FType} {vs : List (List Byte)} {s : M} (h : AlphaCalled E lo rt ats vs s) (hs : AlphaAtClo E lo s)
    (h26 : s.r 26 < E.L + 380 ∨ E.L + 600 ≤ s.r 26) (t : M) (ht : Reach E lo E.inner s t) (hp : t.pc = E.inner) (u : M) (hu : AlphaDone rt ats t u) (w : M) (hw : Reach E lo (s.r 26) u w)
    (hq : w.pc ≠ s.r 26) : UnwAt E w (s.r 30) (s.r 26) (s.r 15) s.r := by
  obtain ⟨s', x, cif, fn, user, k1, k2, k3⟩ := (alpha_at_inner hE h hs t ht).1 hp
  exact ((alpha_clo_leave hE h k1 k2 k3 h26 hu).2 w hw).2.2 hq

theorem reach_block {E : Env} {lo out : Nat} {is : List Ins} : ∀ {o : Nat} {s : M}, block E.bwx o is = true → s.pc = E.L + o → (out < E.L + o ∨ E.L + o + 4 * is.length ≤ out) →
    Reach E lo out s { is.foldl (exec E) s with pc := E.L + o + 4 * is.length } := by
  induction is with
  | nil =>
    intro o s _ hp _
    have : ({ s with pc := E.L + o + 4 * ([] : List Ins).length } : M) = s := by cases s; simp_all
    rw [List.foldl_nil, this]
    exact .refl _
  | cons i is ih =>
    intro o s hb hp ho
    simp only [block, Bool.and_eq_true, beq_iff_eq] at hb
    obtain ⟨⟨f1, f2⟩, f3⟩ := hb
    simp only [List.length_cons] at ho
    have hs : step E s = some { exec E s i with pc := s.pc + 4 } := by
      unfold step
      rw [if_neg (by omega), show s.pc - E.L = o by omega, f1]
      cases i <;> first | rfl | cases f2
    refine .step (by omega) hs ?_
    have := ih (s := { exec E s i with pc := s.pc + 4 }) f3 (by show s.pc + 4 = _; omega) (by omega)
    rw [foldl_pc] at this
    rw [List.foldl_cons, show E.L + o + 4 * (i :: is).length = E.L + (o + 4) + 4 * is.length by simp only [List.length_cons]; omega]
    exact this

/-- C104 does not have that the address of the frame of `ffi_call_osf` is the same throughout: at the function's return it is `frame + 32`, and at the instruction after $15 is restored it is
`argp + 48`, which is below it. -/
theorem C104_cfa_moves {E : Env} (hE : E.Ok) {rt : FType} {ats : List FType} {I : CallIn} (h : AlphaCall rt ats I) (hb : prepBytes rt ats < 2 ^ 32) (lo : Nat) :
    ∃ O, callEntry (Alpha.prepCif rt ats) rt ats I = some O ∧ ∀ s, AlphaAtCall E I O s → s.r 30 ≤ O.argp → (I.fn < E.L ∨ E.L + 88 ≤ I.fn) →
      (s.r 26 < E.L + 88 ∨ E.L + 240 ≤ s.r 26) → ∀ t, Reach E lo I.fn s t → t.pc = I.fn →
      ∀ u, Conforms t u → (∀ x, O.frame ≤ x → x < O.frame + 32 → u.mem x = t.mem x) →
      ∃ w c, Reach E lo (s.r 26) u w ∧ UnwAt E u (O.frame + 32) (s.r 26) (s.r 15) s.r ∧ UnwAt E w c (s.r 26) (s.r 15) s.r ∧ c < O.frame + 32 := by
  obtain ⟨O, hO, hr, co⟩ := alpha_call_core (E := E) h hb
  obtain ⟨O', hO', k⟩ := alpha_leave hE h hb lo
  obtain rfl := Option.some.inj (hO.symm.trans hO')
  obtain ⟨O', hO', ki⟩ := C104_call_inside_partial hE h hb lo
  obtain rfl := Option.some.inj (hO.symm.trans hO')
  refine ⟨O, hO, fun s hs h30 hf h26 t ht hp u hu hk => ?_⟩
  have safe := safe_call_head (lo := lo) (out := I.fn) (fin := fun t => ∃ x, Called E s x ∧ Agree lo (x.r 30) x t) hs.pc (by rw [hs.argp, hs.frame]; exact hr)
    (by rw [hs.argp]; exact h30) hs.regs.1 hs.regs.2 hf hs.fn.symm (fun u hu t ht => ⟨u, hu, ht⟩)
  obtain ⟨x, hx, hag⟩ := (alpha_safe safe ht).2.1 hp
  have upc : u.pc = E.L + 88 := by rw [hu.pc, hag.r]; exact (co s hs x hx).1.ra
  have hbl : block E.bwx 88 (tail1 ++ [Ins.ldq 15 8 15]) = true := by generalize E.bwx = b; revert b; decide +kernel
  have hw := reach_block (lo := lo) (out := s.r 26) hbl upc (by simp only [tail1, List.length_append, List.length_cons, List.length_nil]; omega)
  rw [show E.L + 88 + 4 * (tail1 ++ [Ins.ldq 15 8 15]).length = E.L + 116 from rfl] at hw
  obtain ⟨w, hwe⟩ : ∃ w, w = ({ (tail1 ++ [Ins.ldq 15 8 15]).foldl (exec E) u with pc := E.L + 116 } : M) := ⟨_, rfl⟩
  rw [← hwe] at hw
  have wpc : w.pc = E.L + 116 := by rw [hwe]
  have hu2 := ((k s hs h30 hf h26 t ht hp u hu hk).2 w hw).2.2 (by omega)
  rw [wpc, show E.L + 116 - E.L = 116 by omega, callCfa, if_neg (by decide)] at hu2
  exact ⟨w, _, hw, ki s hs h30 hf h26 t ht hp u hu hk, hu2, by omega⟩

/-! ## Cases -/

/-- What C103 and C104 suppose of a call: interruptions change everything below the stack pointer. -/
theorem alpha_irq_case (b : Bool) {O : CallOut} (hO : callEntry (Alpha.prepCif (mkScalar lp64 .float) alphaAts) (mkScalar lp64 .float) alphaAts alphaIn = some O) :
    AlphaAtCall (alphaEnv b) alphaIn O (alphaState O) ∧ (alphaState O).r 30 ≤ O.argp ∧ (alphaIn.fn < (alphaEnv b).L ∨ (alphaEnv b).L + 88 ≤ alphaIn.fn) ∧
      ((alphaState O).r 26 < (alphaEnv b).L + 88 ∨ (alphaEnv b).L + 240 ≤ (alphaState O).r 26) := by
  have := alpha_argp hO
  exact ⟨alpha_state b O, by show 1000 + 30 ≤ O.argp; omega, .inr (by show 4096 + 88 ≤ 2 ^ 22; decide), .inl (by show 1000 + 26 < 4096 + 88; decide)⟩

/-- The function is entered, although all memory below the stack pointer changes first. -/
example (b : Bool) : ∃ O v, callEntry (Alpha.prepCif (mkScalar lp64 .float) alphaAts) (mkScalar lp64 .float) alphaAts alphaIn = some O ∧
    Reach (alphaEnv b) 0 alphaIn.fn { alphaState O with mem := fun a => if a < 1030 then 0 else O.mem a } v ∧ v.pc = alphaIn.fn := by
  obtain ⟨h, hb⟩ := alpha_case
  obtain ⟨O, hO, k⟩ := C103_call_enter_partial (E := alphaEnv b) h hb 0
  obtain ⟨a1, a2, a3, -⟩ := alpha_irq_case b hO
  obtain ⟨⟨v, v1, v2⟩, -⟩ := k _ a1 a2 a3 { alphaState O with mem := fun a => if a < 1030 then 0 else O.mem a }
    (.irq (fun a ha => by
      have : ¬ a < 1030 := by rcases ha with h | h; · omega
                              · have : 1000 + 30 ≤ a := h
                                omega
      show (if a < 1030 then (0 : Byte) else O.mem a) = O.mem a
      rw [if_neg this]) (.refl _))
  exact ⟨O, v, hO, v1, v2⟩

/-- The address of the frame moves in a call. -/
example (b : Bool) : ∃ (O : CallOut) (u w : M) (c : Nat), Reach (alphaEnv b) 0 ((alphaState O).r 26) u w ∧
    UnwAt (alphaEnv b) u (O.frame + 32) ((alphaState O).r 26) ((alphaState O).r 15) (alphaState O).r ∧
    UnwAt (alphaEnv b) w c ((alphaState O).r 26) ((alphaState O).r 15) (alphaState O).r ∧ c < O.frame + 32 := by
  obtain ⟨h, hb⟩ := alpha_case
  obtain ⟨O, hO, k⟩ := C104_cfa_moves (alpha_env b).1 h hb 0
  obtain ⟨O', hO', e⟩ := C103_call_enter_partial (E := alphaEnv b) h hb 0
  obtain rfl := Option.some.inj (hO.symm.trans hO')
  obtain ⟨a1, a2, a3, a4⟩ := alpha_irq_case b hO
  obtain ⟨⟨t, t1, t2⟩, -⟩ := e _ a1 a2 a3 _ (.refl _)
  obtain ⟨w, c, w1, w2, w3, w4⟩ := k _ a1 a2 a3 a4 t t1 t2 { t with pc := t.r 26 } ⟨rfl, rfl, rfl, fun _ _ _ => rfl, fun _ _ _ => rfl⟩ (fun _ _ _ => rfl)
  exact ⟨O, _, w, c, w1, w2, w3, w4⟩

/-- A closure's arguments: one by reference, one on the stack. -/
def alphaCAts : List FType := [mkScalar lp64 .sint8, mkScalar lp64 .longdouble, mkScalar lp64 .double, mkScalar lp64 .uint32, mkScalar lp64 .uint64, mkScalar lp64 .uint8, mkScalar lp64 .uint64]

def alphaCVals : List (List Byte) := [[0xfe], alphaIn.mem.rd (2 ^ 21) 16, leBytes 8 0x3ff0000000000000, leBytes 4 (2 ^ 32 - 5), leBytes 8 77, [9], alphaIn.mem.rd (2 ^ 20) 8]

/-- It is called with the stack pointer 2^20. -/
def alphaCState (pc c : Nat) : M :=
  ⟨fun k => if k = 16 then 2 ^ 64 - 2 else if k = 17 then 2 ^ 21 else if k = 19 then 2 ^ 64 - 5 else if k = 20 then 77 else if k = 21 then 9 else if k = 27 then pc else
    if k = 30 then 2 ^ 20 else if k = 1 then c else 1000 + k % 32, fun k => if k = 18 then 0x3ff0000000000000 else k % 32, alphaIn.mem, pc⟩

theorem alpha_stacked {l : List Byte} (m : Mem) (s : M) (h : m.rd (s.r 30) 8 = l) : PassedAt (mregs { s with mem := m }) 6 (mkScalar lp64 .uint64) l := by
  have := leNat_lt (m.rd (s.r 30) 8)
  rw [Mem.rd_length, h] at this
  show ((leNat (m.rd (s.r 30) 8) : Nat) : Int) = intVal .uint64 l % 2 ^ 64
  have e : intVal .uint64 l = (leNat l : Int) := if_neg (by simp [signed])
  rw [e, h]
  generalize leNat l = x at this
  omega

theorem alpha_called (b : Bool) (pc c : Nat) : AlphaCalled (alphaEnv b) 8192 (mkScalar lp64 .float) alphaCAts alphaCVals (alphaCState pc c) := by
  have hsl := (alpha_env b).2
  have hg : leNat (alphaIn.mem.rd (alphaEnv b).slot 8) = (alphaEnv b).inner := by
    rw [hsl]
    show leNat ((Mem.wr (Mem.wr _ _ _) _ _).rd (2 ^ 23) 8) = 99
    rw [Mem.rd_wr_disj _ _ _ _ _ (by simp), wr_rd _ _ (leBytes_length _ _)]
    decide
  have hsp : (alphaCState pc c).r 30 = 2 ^ 20 := rfl
  refine ⟨fun s' hs => ?_, .inr (by rw [hsl, hsp]; decide), by rw [hsp]; decide, .inl (by show 99 < 4096 + 240; decide)⟩
  have e : s' = { alphaCState pc c with mem := s'.mem } := by
    obtain ⟨r, f, m, p⟩ := s'
    obtain ⟨h1, h2, h3, -⟩ := hs
    cases h1; cases h2; cases h3; rfl
  have m1 : s'.mem.rd (2 ^ 21) 16 = alphaIn.mem.rd (2 ^ 21) 16 := hs.rd (.inr (by rw [hsp]; decide))
  have m2 : s'.mem.rd (2 ^ 20) 8 = alphaIn.mem.rd (2 ^ 20) 8 := hs.rd (.inr (by rw [hsp]))
  have m3 : s'.mem.rd (alphaEnv b).slot 8 = alphaIn.mem.rd (alphaEnv b).slot 8 := hs.rd (.inr (by rw [hsp, hsl]; decide))
  rw [e]
  generalize s'.mem = m at m1 m2 m3
  refine ⟨.inr (mkScalar_wf rfl), ?_, rfl, ?_, ⟨?_, ?_⟩, by show 1000 + 26 < 2 ^ 64; decide, by show 128 ≤ 2 ^ 20; decide, by rw [← hg]; exact congrArg leNat m3, .inr (by rw [hsl]; show 2 ^ 20 ≤ 2 ^ 23; decide)⟩
  · intro t ht
    simp only [alphaCAts, List.mem_cons, List.not_mem_nil, or_false] at ht
    rcases ht with rfl | rfl | rfl | rfl | rfl | rfl | rfl <;> exact mkScalar_wf rfl
  · refine ⟨?_, m1, rfl, ?_, ?_, ?_, ?_, trivial⟩
    · show ((2 ^ 64 - 2 : Nat) : Int) = intVal .sint8 [0xfe] % 2 ^ 64
      decide +kernel
    · show ((2 ^ 64 - 5 : Nat) : Int) = intVal .uint32 (leBytes 4 (2 ^ 32 - 5)) % 2 ^ 64
      decide +kernel
    · show ((77 : Nat) : Int) = intVal .uint64 (leBytes 8 77) % 2 ^ 64
      decide +kernel
    · show ((9 : Nat) : Int) = intVal .uint8 [9] % 2 ^ 64
      decide +kernel
    · exact alpha_stacked m (alphaCState pc c) m2
  · intro k hk
    rcases (show k = 0 ∨ k = 1 ∨ k = 2 ∨ k = 3 ∨ k = 4 ∨ k = 5 by omega) with rfl | rfl | rfl | rfl | rfl | rfl
    · show 2 ^ 64 - 2 < 2 ^ 64; decide
    · show 2 ^ 21 < 2 ^ 64; decide
    · show 1000 + 18 < 2 ^ 64; decide
    · show 2 ^ 64 - 5 < 2 ^ 64; decide
    · show 77 < 2 ^ 64; decide
    · show 9 < 2 ^ 64; decide
  · intro k hk
    rcases (show k = 0 ∨ k = 1 ∨ k = 2 ∨ k = 3 ∨ k = 4 ∨ k = 5 by omega) with rfl | rfl | rfl | rfl | rfl | rfl
    · show 16 < 2 ^ 64; decide
    · show 17 < 2 ^ 64; decide
    · show 0x3ff0000000000000 < 2 ^ 64; decide
    · show 19 < 2 ^ 64; decide
    · show 20 < 2 ^ 64; decide
    · show 21 < 2 ^ 64; decide

theorem alpha_at_clo (b : Bool) : AlphaAtClo (alphaEnv b) 8192 (alphaCState (4096 + 288) (2 ^ 22)) ∧ AlphaAtClo (alphaEnv b) 8192 (alphaCState (4096 + 240) (2 ^ 24)) :=
  ⟨.inl ⟨rfl, rfl, .inr (by show 2 ^ 20 ≤ 2 ^ 22; decide)⟩, .inr ⟨rfl, rfl, .inr (by show 2 ^ 20 ≤ 2 ^ 24; decide)⟩⟩

/-- Both entries come to the handler, and from there to the caller. -/
example (b : Bool) : ∃ t u v, Reach (alphaEnv b) 8192 99 (alphaCState (4096 + 288) (2 ^ 22)) t ∧ t.pc = 99 ∧ AlphaDone (mkScalar lp64 .float) alphaCAts t u ∧
    Reach (alphaEnv b) 8192 1026 u v ∧ v.pc = 1026 := by
  have hE := (alpha_env b).1
  have h := alpha_called b (4096 + 288) (2 ^ 22)
  obtain ⟨⟨t, t1, t2⟩, -⟩ := C103_closure_enter hE h rfl rfl (.inr (by show 2 ^ 20 ≤ 2 ^ 22; decide)) _ (.refl _)
  have hd : AlphaDone (mkScalar lp64 .float) alphaCAts t { t with pc := t.r 26, r := upd t.r 0 (ldCode (Alpha.prepCif (mkScalar lp64 .float) alphaCAts)) } :=
    ⟨⟨rfl, rfl, rfl, fun k k1 k2 => by show upd t.r 0 _ k = t.r k; unfold upd; rw [if_neg (by omega)], fun _ _ _ => rfl⟩, rfl, fun _ _ _ => rfl⟩
  obtain ⟨⟨v, v1, v2⟩, -⟩ := C103_closure_return hE h (alpha_at_clo b).1 (.inl (by show 1000 + 26 < 4096 + 380; decide)) t t1 t2 _ hd _ (.refl _)
  exact ⟨t, _, v, t1, t2, hd, v1, v2⟩

example (b : Bool) : ∃ t, Reach (alphaEnv b) 8192 99 (alphaCState (4096 + 240) (2 ^ 24)) t ∧ t.pc = 99 := by
  obtain ⟨⟨t, t1, t2⟩, -⟩ := C103_go_enter (alpha_env b).1 (alpha_called b (4096 + 240) (2 ^ 24)) rfl rfl (.inr (by show 2 ^ 20 ≤ 2 ^ 24; decide)) _ (.refl _)
  exact ⟨t, t1, t2⟩

/-- Unwinding from the first instruction of a closure. -/
example (b : Bool) : UnwAt (alphaEnv b) (alphaCState (4096 + 288) (2 ^ 22)) (2 ^ 20) 1026 1015 (alphaCState (4096 + 288) (2 ^ 22)).r :=
  C104_closure_enter (alpha_env b).1 (alpha_called b (4096 + 288) (2 ^ 22)) (alpha_at_clo b).1 _ (.refl _) (by show 4096 + 288 ≠ 99; decide)

end Verif.Props
