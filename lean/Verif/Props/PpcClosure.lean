import Verif.Props.Ppc
import Verif.Ppc.WholeClosure
import Verif.Ppc.Tramp

/-!
C87-C89: closures and trampolines on 64-bit Power, ELF V2, little endian (`src/powerpc/ffi_linux64.c`,
`src/powerpc/linux64_closure.S`).
-/
namespace Verif.Props
open Verif Verif.Spec Verif.Spec.Ppc Verif.Ppc Verif.Ppc.Asm

/-- A function of this type. -/
structure PpcSig where
  ld : LD
  var : Bool
  nfixed : Nat
  rt : FType
  ats : List FType

def PpcSig.cif (G : PpcSig) : Ppc.Cif := Ppc.prepCif G.ld G.var G.nfixed G.rt G.ats
def PpcSig.cnt (G : PpcSig) : Cnt := prepCnt G.ld G.var G.rt G.ats
def PpcSig.named (G : PpcSig) : Nat := namedOf G.var G.nfixed G.ats
def PpcSig.places (G : PpcSig) : List Place := Spec.Ppc.places G.ld G.rt G.named G.ats
/-- Doublewords of the parameter list. -/
def PpcSig.slots (G : PpcSig) : Nat := (endFrom G.ld G.ats (start G.ld G.rt)).slot
def PpcSig.area (G : PpcSig) : Prop := HasArea G.var G.ats G.places

/-- A function with these arguments is entered: `s` is the state. -/
structure PpcArrive (G : PpcSig) (vs : List (List Byte)) (s : M) : Prop where
  rtype : Ty G.ld G.rt ∨ G.rt.tc = .void
  types : ∀ t ∈ G.ats, Ty G.ld t
  sizes : vs.map List.length = G.ats.map FType.size
  passed : AllPassed (mregs s) G.ats vs G.places
  ret : retPlace G.ld G.rt = .mem → s.r 3 < 2 ^ 64
  wide : Wide s
  lr : s.lr < 2 ^ 64 ∧ 4 ∣ s.lr
  sp : 16 ∣ s.r 1
  room : 528 ≤ s.r 1

/-- What the code does not get right, see `ppc_closure_ibm_C87` and `ppc_closure_alias_C87`. -/
structure PpcCan (G : PpcSig) : Prop where
  /-- The last named argument is not an IBM long double in two floating registers. -/
  last : G.ld = .ibm → ∀ i t, i + 1 = G.named → G.ats[i]? = some t → t.tc = .longdouble → ∀ s c n r nm, G.places[i]? = some (.parts s c n r nm) → 12 ≤ r
  /-- At most one variable argument is a homogeneous struct. -/
  one : ((G.ats.drop G.named).filter (fun t => t.tc == .struct && (homog G.ld t).isSome)).length ≤ 1

/-- The helper is called with `cif`, `fun`, `user_data`; it finds the arguments `vs` and the place for the result.
`m1` is memory when the helper starts its work: it has written nothing but its own frame, and the
words for the condition register and the link register.  The caller has memory for the parameter list if `A`. -/
structure PpcHandler (E : Env) (G : PpcSig) (A : Prop) (vs : List (List Byte)) (s t : M) (cif fn user : Nat) : Prop where
  pc : t.pc = E.H
  toc : t.r 2 = E.T
  cif : t.r 3 = cif
  fn : t.r 4 = fn
  user : t.r 5 = user
  sp : t.r 1 + 528 = s.r 1
  buf : 16 ∣ t.r 6 ∧ t.r 1 + 96 ≤ t.r 6 ∧ t.r 6 + 128 ≤ s.r 1
  mem : ∀ x, x < t.r 1 ∨ s.r 1 ≤ x → x < s.r 1 + 16 ∨ s.r 1 + 24 ≤ x → (A → x < s.r 1 + 32 ∨ s.r 1 + 96 ≤ x) → t.mem x = s.mem x
  view : ∀ m1 : Mem, (∀ x, t.r 1 ≤ x → x < t.r 1 + 8 ∨ t.r 1 + 24 ≤ x → m1 x = t.mem x) →
    let V := closureView G.ld G.cif G.rt G.ats (t.r 6) (t.r 7) (t.r 8) (t.r 9) m1
    V.1 = (if retPlace G.ld G.rt = .mem then s.r 3 else t.r 6) ∧ V.2.1.length = G.ats.length ∧ vals V.2.2 G.ats V.2.1 = vs ∧
      ∀ x, x < t.r 1 ∨ s.r 1 ≤ x → (A → x < s.r 1 + 32 ∨ s.r 1 + 32 + 8 * G.slots ≤ x) → V.2.2 x = m1 x

/-- The helper returns; its frame and the frame of the closure are gone, but the closure's return address is still there. -/
structure PpcDone (G : PpcSig) (s t u : M) : Prop where
  abi : Conforms t u
  lr : u.lr = u.pc
  code : u.r 3 = closureCode G.cif G.rt
  saved : ∀ x, s.r 1 + 16 ≤ x → x < s.r 1 + 24 → u.mem x = t.mem x

set_option maxRecDepth 4000 in
theorem ppc_closure_core {E : Env} (hE : 4 ∣ E.L ∧ E.L + 1024 ≤ 2 ^ 64) {G : PpcSig} {vs : List (List Byte)} {s a : M} {cif fn user : Nat} {A : Prop} (h : PpcArrive G vs s) (hc : PpcCan G)
    (hps : G.cnt.ps = true → A) (hd : Doc E G.cif.flags s a cif fn user) :
    ∃ t, Runs .closure E a t ∧ PpcHandler E G A vs s t cif fn user ∧
      ∀ u, PpcDone G s t u → ∃ v, Runs .closure E u v ∧ Conforms s v ∧ v.mem = u.mem ∧
        ∀ val, val.length = G.rt.size → Res G.ld G.rt val u.mem (t.r 6) → Returned G.ld G.rt val (mregs v) := by
  have hal : s.r 1 % 16 = 0 := by have := h.sp; omega
  obtain ⟨t, rt, ht⟩ := doclosure hd hal h.room
  have hroom := h.room
  have hfl : G.cif.flags.testBit 24 = G.cnt.ps := prepFlags_ps h.rtype _
  have hP : parea s G.cif.flags = s.r 1 + 32 ∧ G.cnt.ps = true ∨ parea s G.cif.flags = s.r 1 - 496 ∧ G.cnt.ps = false := by
    unfold parea
    rw [hfl]
    cases G.cnt.ps <;> simp
  have hP' : parea s G.cif.flags = s.r 1 + 32 ∨ parea s G.cif.flags = s.r 1 - 496 := hP.imp And.left And.left
  have hcl := clos_ok (s := s) hroom hP'
  have hmem := ht.mem
  generalize hPd : parea s G.cif.flags = P at hP hP' hcl hmem
  refine ⟨t, rt, ⟨ht.pc, ht.r2, ht.r3, ht.r4, ht.r5, by rw [ht.sp]; omega, ?_, ?_, ?_⟩, ?_⟩
  · rw [ht.r6, ht.sp]; omega
  · intro x h1 h2 h3
    rw [ht.sp] at h1
    rw [hmem]
    clear hPd hP'
    have := fun q => h3 (hps q)
    refine hcl.out x ?_ (by omega) (by omega) (by omega) h2
    rcases hP with ⟨q, q'⟩ | ⟨q, q'⟩
    · have := this q'; omega
    · omega
  · intro m1 hm1
    have hv := view_ok (s := s) hroom (fl := G.cif.flags) (N := G.cnt.int) h.wide.1 h.wide.2 (m := m1) (by
      intro x hx
      rw [hPd]
      clear hPd hP hP'
      rw [hm1 x (by rw [ht.sp]; omega) (by rw [ht.sp]; omega), hmem])
    have key := closureView_ok (var := G.var) (nfixed := G.nfixed) h.rtype h.types (sit_ok hal hroom G.cif.flags G.cnt.int) (Nat.le_refl _) hfl (R := mregs s) h.ret hv h.sizes h.passed
      hc.last hc.one (t.r 6)
    obtain ⟨k1, k2, k3⟩ := key
    rw [show (sitOf s G.cif.flags G.cnt.int).pst = t.r 7 from ht.r7.symm, show (sitOf s G.cif.flags G.cnt.int).pf = t.r 8 from ht.r8.symm,
      show (sitOf s G.cif.flags G.cnt.int).pv = t.r 9 from ht.r9.symm] at k1 k2 k3
    obtain ⟨k4, k5⟩ := seen_vals k2
    refine ⟨k1, k4, k5, ?_⟩
    intro x h1 h2
    rw [ht.sp] at h1
    apply k3
    unfold Wr
    rw [show (sitOf s G.cif.flags G.cnt.int).pst = P from hPd, show (sitOf s G.cif.flags G.cnt.int).pf = s.r 1 - 104 from rfl,
      show (sitOf s G.cif.flags G.cnt.int).pv = s.r 1 - 304 from rfl, show (sitOf s G.cif.flags G.cnt.int).N = G.cnt.int from rfl,
      show (sitOf s G.cif.flags G.cnt.int).ps = G.cnt.ps from hfl]
    clear hPd hP'
    rintro (q | q | ⟨q, q'⟩)
    · omega
    · omega
    · have hsl : G.slots = G.cnt.int := by
        have hpos := prepCnt_pos h.rtype h.types G.var
        unfold PpcSig.slots; rw [← hpos]; rfl
      have := h2 (hps q)
      rw [hsl] at this
      clear hsl h2
      generalize G.cnt.int = N at *
      rcases hP with ⟨p, _⟩ | ⟨_, p⟩
      · omega
      · rw [p] at q; cases q
  · intro u hu
    clear hPd hP hP'
    have u1 : u.r 1 = s.r 1 - 528 := (hu.abi.r 1 (.inl rfl)).trans ht.sp
    have upc : u.pc = E.L + 4 * 63 := hu.abi.pc.trans ht.lr
    obtain ⟨v, rv, bk, gv⟩ := closure_back (E := E) (u := u) (code := closureCode G.cif G.rt) (by have := hE.1; omega) hE.2 upc hu.lr hu.code (by rw [u1]; omega)
    have hlr : leNat (u.mem.rd (u.r 1 + 544) 8) = s.lr := by
      rw [u1, show s.r 1 - 528 + 544 = s.r 1 + 16 by omega, Mem.rd_congr (fun i hi => hu.saved _ (by omega) (by omega)), hmem, hcl.lr, leNat_leBytes,
        Nat.mod_eq_of_lt (by simpa using h.lr.1)]
    refine ⟨v, rv, ⟨?_, ?_, ?_, ?_, ?_⟩, bk.mem, ?_⟩
    · rw [bk.pc, hlr]; have := h.lr.2; omega
    · rintro k (rfl | ⟨k1, k2⟩)
      · rw [bk.sp, u1]; omega
      · rw [bk.r k k1 k2, hu.abi.r k (.inr ⟨k1, k2⟩), ht.rest k k1 k2]
    · intro k k1 k2
      rw [bk.f k k1 k2, hu.abi.f k k1 k2, ht.f]
    · intro k k1 k2
      rw [bk.vr k (by omega) k2, hu.abi.v k k1 k2, ht.v]
    · intro k k1 k2
      rw [bk.cr k k1 k2, hu.abi.cr k k1 k2, ht.cr k k1 k2]
    · intro val hl hr
      refine gives_returned h.rtype (m := u.mem) (a := u.r 1 + 96) ?_ hl ?_
      · have := closureCode_eq h.rtype G.cnt (prepBytes G.cnt % 2 ^ 32) (namedOf G.var G.nfixed G.ats)
        rw [← this]
        exact gv
      · rw [show u.r 1 + 96 = t.r 6 by rw [u1, ht.r6]; omega]
        exact hr

theorem ppc_field {s : M} {P a : Nat} (hP : P = s.r 1 + 32 ∨ P = s.r 1 - 496) (hr : 528 ≤ s.r 1) (h : a + 8 ≤ s.r 1 - 528 ∨ s.r 1 + 96 ≤ a) :
    ((stores s.mem P 8 (fun k => leBytes 8 (s.r (3 + k))) 8).wr (s.r 1 + 16) (leBytes 8 s.lr)).rd a 8 = s.mem.rd a 8 := by
  rw [Mem.rd_wr_disj _ _ _ _ _ (by rw [leBytes_length]; omega)]
  exact Mem.rd_congr fun i hi => stores_out (fun k => leBytes_length _ _) (by omega)

theorem ppc_closure_gen {E : Env} (hE : 4 ∣ E.L ∧ E.L + 1024 ≤ 2 ^ 64 ∧ E.T < 2 ^ 64) {G : PpcSig} {vs : List (List Byte)} {s : M} (h : PpcArrive G vs s) (hc : PpcCan G)
    {A : Prop} (hps : G.cnt.ps = true → A) (hpc : s.pc = E.L + 4 * off .closure .closure) (h12 : s.r 12 = s.pc)
    (hcl : s.r 11 + 56 ≤ s.r 1 - 528 ∨ s.r 1 + 96 ≤ s.r 11) (hfl : leNat (s.mem.rd (leNat (s.mem.rd (s.r 11 + 32) 8) + 28) 4) = G.cif.flags) :
    ∃ t, Runs .closure E s t ∧
      PpcHandler E G A vs s t (leNat (s.mem.rd (s.r 11 + 32) 8)) (leNat (s.mem.rd (s.r 11 + 40) 8)) (leNat (s.mem.rd (s.r 11 + 48) 8)) ∧
      ∀ u, PpcDone G s t u → ∃ v, Runs .closure E u v ∧ Conforms s v ∧ v.mem = u.mem ∧
        ∀ val, val.length = G.rt.size → Res G.ld G.rt val u.mem (t.r 6) → Returned G.ld G.rt val (mregs v) := by
  obtain ⟨a, ra, da⟩ := closure_head hpc (h12.trans hpc) hE.2.2 hfl
  have hP : parea s G.cif.flags = s.r 1 + 32 ∨ parea s G.cif.flags = s.r 1 - 496 := by unfold parea; split <;> simp
  have hr := h.room
  rw [ppc_field hP hr (by omega), ppc_field hP hr (by omega), ppc_field hP hr (by omega)] at da
  obtain ⟨t, rt, c1, c2⟩ := ppc_closure_core ⟨hE.1, hE.2.1⟩ h hc hps da
  exact ⟨t, ra.trans rt, c1, c2⟩

/-- C87: closures; r11 is the address of the closure, r12 of the code.  Partial: see `PpcCan`, and the caller must provide a
parameter area if `ffi_prep_cif` believes it does (`ppc_closure_area_C87`). -/
theorem ppc_closure_partial {E : Env} (hE : 4 ∣ E.L ∧ E.L + 1024 ≤ 2 ^ 64 ∧ E.T < 2 ^ 64) {G : PpcSig} {vs : List (List Byte)} {s : M} (h : PpcArrive G vs s) (hc : PpcCan G)
    (hps : G.cnt.ps = true → G.area) (hpc : s.pc = E.L + 4 * off .closure .closure) (h12 : s.r 12 = s.pc)
    (hcl : s.r 11 + 56 ≤ s.r 1 - 528 ∨ s.r 1 + 96 ≤ s.r 11) (hfl : leNat (s.mem.rd (leNat (s.mem.rd (s.r 11 + 32) 8) + 28) 4) = G.cif.flags) :
    ∃ t, Runs .closure E s t ∧
      PpcHandler E G G.area vs s t (leNat (s.mem.rd (s.r 11 + 32) 8)) (leNat (s.mem.rd (s.r 11 + 40) 8)) (leNat (s.mem.rd (s.r 11 + 48) 8)) ∧
      ∀ u, PpcDone G s t u → ∃ v, Runs .closure E u v ∧ Conforms s v ∧ v.mem = u.mem ∧
        ∀ val, val.length = G.rt.size → Res G.ld G.rt val u.mem (t.r 6) → Returned G.ld G.rt val (mregs v) :=
  ppc_closure_gen hE h hc hps hpc h12 hcl hfl

/-- C87: Go closures, whose address is in r11 and is the handler's `user_data`. -/
theorem ppc_go_closure_partial {E : Env} (hE : 4 ∣ E.L ∧ E.L + 1024 ≤ 2 ^ 64 ∧ E.T < 2 ^ 64) {G : PpcSig} {vs : List (List Byte)} {s : M} (h : PpcArrive G vs s) (hc : PpcCan G)
    (hps : G.cnt.ps = true → G.area) (hpc : s.pc = E.L + 4 * off .closure .go) (h12 : s.r 12 = s.pc)
    (hcl : s.r 11 + 24 ≤ s.r 1 - 528 ∨ s.r 1 + 96 ≤ s.r 11) (hfl : leNat (s.mem.rd (leNat (s.mem.rd (s.r 11 + 8) 8) + 28) 4) = G.cif.flags) :
    ∃ t, Runs .closure E s t ∧ PpcHandler E G G.area vs s t (leNat (s.mem.rd (s.r 11 + 8) 8)) (leNat (s.mem.rd (s.r 11 + 16) 8)) (s.r 11) ∧
      ∀ u, PpcDone G s t u → ∃ v, Runs .closure E u v ∧ Conforms s v ∧ v.mem = u.mem ∧
        ∀ val, val.length = G.rt.size → Res G.ld G.rt val u.mem (t.r 6) → Returned G.ld G.rt val (mregs v) := by
  obtain ⟨a, ra, da⟩ := go_head hpc (h12.trans hpc) hE.2.2 hfl
  have hP : parea s G.cif.flags = s.r 1 + 32 ∨ parea s G.cif.flags = s.r 1 - 496 := by unfold parea; split <;> simp
  have hr := h.room
  rw [ppc_field hP hr (by omega), ppc_field hP hr (by omega)] at da
  obtain ⟨t, rt, c1, c2⟩ := ppc_closure_core ⟨hE.1, hE.2.1⟩ h hc hps da
  exact ⟨t, ra.trans rt, c1, c2⟩

/-! ## Trampolines -/

/-- C88: entering the code address of a closure that `ffi_prep_closure_loc_linux64` prepared leads to
`ffi_closure_LINUX64` with the address in r11 and its own address in r12; argument registers, the link register, the
stack and memory are as they were; the closure holds `cif`, `fun` and `user_data`.  The closure is
written at `c` and mapped at `x`. -/
theorem ppc_trampoline {s : M} {m : Mem} {c x e cif fn user : Nat} (hpc : s.pc = x) (h12 : s.r 12 = x) (hx : x + 32 ≤ 2 ^ 64) (he : e < 2 ^ 64)
    (hcif : cif < 2 ^ 64) (hfn : fn < 2 ^ 64) (huser : user < 2 ^ 64) (hm : ∀ i, i < 56 → s.mem (x + i) = prepClosure m c x e cif fn user (c + i)) :
    ∃ t, tsteps 4 s = some t ∧ Jumped s t x e ∧ leNat (t.mem.rd (x + 32) 8) = cif ∧ leNat (t.mem.rd (x + 40) 8) = fn ∧ leNat (t.mem.rd (x + 48) 8) = user := by
  obtain ⟨t, h1, h2⟩ := dyn_ok hpc h12 hx he hm
  obtain ⟨_, _, _, p4, p5, p6⟩ := prepClosure_rd m c x e cif fn user
  refine ⟨t, h1, h2, ?_, ?_, ?_⟩
  · rw [h2.mem, rd_alias hm (by omega), p4, leNat_leBytes, Nat.mod_eq_of_lt (by simpa using hcif)]
  · rw [h2.mem, rd_alias hm (by omega), p5, leNat_leBytes, Nat.mod_eq_of_lt (by simpa using hfn)]
  · rw [h2.mem, rd_alias hm (by omega), p6, leNat_leBytes, Nat.mod_eq_of_lt (by simpa using huser)]

/-- C88: static trampolines: every slot of the code table at `T` goes to the target 64 KiB behind it, with the data in r11. -/
theorem ppc_static_trampoline {s : M} {T k data target : Nat} (hk : k < 1638) (hpc : s.pc = T + 40 * k) (hT : s.mem.rd T 65520 = codeTable) (hs : T + 2 ^ 18 ≤ 2 ^ 64)
    (hd : leNat (s.mem.rd (T + 65536 + 40 * k) 8) = data) (ht : leNat (s.mem.rd (T + 65536 + 40 * k + 8) 8) = target) :
    ∃ t, tsteps 9 s = some t ∧ Jumped s t data target :=
  static_ok hk hpc hT hs hd ht

/-! ## A closure called through `ffi_call` -/

theorem ppc_jumped_regs {s t : M} {x e : Nat} (h : Jumped s t x e) (hk : ∀ k, k < 8 → t.r (3 + k) = s.r (3 + k)) : ∀ {ts : List FType} {vs : List (List Byte)} {ls : List Place},
    AllPassed (mregs s) ts vs ls → AllPassed (mregs t) ts vs ls := by
  have himg : (mregs t).img = (mregs s).img := by
    funext o
    unfold Regs.img
    split
    · rw [show (mregs t).gpr (o / 8) = (mregs s).gpr (o / 8) from hk _ (by omega)]
    · show t.mem (t.r 1 + 32 + o) = s.mem (s.r 1 + 32 + o)
      rw [h.mem, h.rest 1 (by decide) (by decide) (by decide)]
  intro ts
  induction ts with
  | nil => intro vs ls hp; cases vs <;> cases ls <;> exact hp
  | cons t' ts ih =>
    intro vs ls hp
    cases vs with
    | nil => exact hp.elim
    | cons v vs =>
      cases ls with
      | nil => exact hp.elim
      | cons l ls =>
        refine ⟨?_, ih hp.2⟩
        have h1 := hp.1
        cases l with
        | int s' => unfold PassedAt at h1 ⊢; rw [himg]; exact h1
        | agg s' => unfold PassedAt at h1 ⊢; rw [himg]; exact h1
        | parts s' c n r nm =>
          unfold PassedAt at h1 ⊢
          rw [himg]
          intro j hj
          have h2 := h1 j hj
          split
          · rename_i hc
            rw [if_pos hc] at h2
            have e1 : (mregs t).fpr = (mregs s).fpr := by unfold mregs; rw [h.f]
            have e2 : (mregs t).vec = (mregs s).vec := by unfold mregs; rw [h.vr]
            cases c
            all_goals
              unfold InReg at h2 ⊢
              first | rw [e1]; exact h2 | rw [e2]; exact h2
          · rename_i hc
            rw [if_neg hc] at h2
            exact h2

theorem ppc_vals_sizes {m : Mem} : ∀ {ts : List FType} {as : List Nat}, as.length = ts.length → (vals m ts as).map List.length = ts.map FType.size
  | [], _, _ => by simp [vals]
  | t :: ts, [], h => by simp at h
  | t :: ts, a :: as, h => by
    rw [vals, List.map_cons, List.map_cons, Mem.rd_length, ppc_vals_sizes (by simpa using h)]

def PpcIn.sig (I : PpcIn) : PpcSig := ⟨I.ld, I.var, I.nfixed, I.rt, I.ats⟩

set_option maxRecDepth 4000 in
/-- C89: `ffi_call` of a closure: the handler gets the values that `ffi_call` was given, and what it stores arrives at
`rvalue`.  The closure is mapped at `I.fn`.  Partial: as for calls and closures; but the parameter area is always there. -/
theorem ppc_round_trip_partial {Ec Ek : Env} (hEc : 4 ∣ Ec.L ∧ Ec.L + 1024 ≤ 2 ^ 64) (hEk : 4 ∣ Ek.L ∧ Ek.L + 1024 ≤ 2 ^ 64 ∧ Ek.T < 2 ^ 64) {I : PpcIn} {s : M}
    (hs : PpcAtCall Ec I s) (h : PpcCall I (s.r 1)) (hb : prepBytes I.cnt < 2 ^ 32)
    (hal : ∀ c n, retPlace I.ld I.rt = .parts c n → I.rt.tc ≠ .struct → c = .v128 → 16 ∣ I.rvalue) (hc : PpcCan I.sig)
    {m : Mem} {c cif fn user : Nat} (hcif : cif < 2 ^ 64) (hfn : fn < 2 ^ 64) (huser : user < 2 ^ 64) (hx : I.fn + 32 ≤ 2 ^ 64)
    (hm : ∀ i, i < 56 → I.mem (I.fn + i) = prepClosure m c I.fn (Ek.L + 4 * off .closure .closure) cif fn user (c + i))
    (hfl : leNat (I.mem.rd (cif + 28) 4) = I.cif.flags) (hroom : prepBytes I.cnt + 528 ≤ s.r 1)
    (hcl : I.fn + 56 + prepBytes I.cnt + 528 ≤ s.r 1 ∨ s.r 1 + 96 ≤ I.fn) (hcl2 : cif + 32 + prepBytes I.cnt ≤ s.r 1 ∨ s.r 1 ≤ cif) :
    ∃ t0, Runs .call Ec s t0 ∧ t0.pc = Ec.H ∧
      ∀ u0, Prepared I.ld I.cif I.ats I.rv I.avalue t0 u0 → Wide u0 → (∀ x, I.fn ≤ x ∧ x < I.fn + 56 ∨ cif + 28 ≤ x ∧ x < cif + 32 → u0.mem x = t0.mem x) →
        ∃ a b t, Runs .call Ec u0 a ∧ tsteps 4 a = some b ∧ Runs .closure Ek b t ∧
          PpcHandler Ek I.sig (I.cnt.ps = true) (vals I.mem I.ats I.avalue) b t cif fn user ∧
          (retPlace I.ld I.rt = .mem → b.r 3 = if I.rvalue = 0 then I.tmp else I.rvalue) ∧
          ∀ u, PpcDone I.sig b t u → (∀ x, b.r 1 + 24 ≤ x ∧ x < b.r 1 + 32 ∨ s.r 1 - 32 ≤ x ∧ x < s.r 1 + 24 → u.mem x = t.mem x) →
            (I.rt.tc ≠ .struct → I.rvalue ≠ 0 ∧ (I.rvalue + resSize I.ld I.rt ≤ s.r 1 - 32 ∨ s.r 1 + 24 ≤ I.rvalue) ∨ retPlace I.ld I.rt = .void) →
            ∃ w v, Runs .closure Ek u w ∧ Runs .call Ec w v ∧ v.pc = s.lr ∧ (∀ k, k = 1 ∨ k = 2 ∨ 14 ≤ k ∧ k ≤ 31 → v.r k = s.r k) ∧
              (∀ k, 14 ≤ k → k ≤ 31 → v.f k = s.f k) ∧ (∀ k, 20 ≤ k → k ≤ 31 → v.v k = s.v k) ∧ (∀ k, 8 ≤ k → k < 20 → v.cr k = s.cr k) ∧
              (∀ x, x < I.rvalue ∨ I.rvalue + resSize I.ld I.rt ≤ x → x < I.buf ∨ I.buf + 128 ≤ x → callEnd I.rt I.rvalue I.buf I.rv v.mem x = u.mem x) ∧
              (I.rvalue ≠ 0 → ∀ val, val.length = I.rt.size → Res I.ld I.rt val u.mem (t.r 6) → Result I.ld I.rt val (callEnd I.rt I.rvalue I.buf I.rv v.mem) I.rvalue) := by
  obtain ⟨t0, r0, p0, _, _, q1, q2, back⟩ := ppc_call_partial hs h hb hal
  refine ⟨t0, r0, p0, fun u0 hu0 hwide hkeep => ?_⟩
  obtain ⟨a, ra, hE, am, alr, hback⟩ := back u0 hu0
  have hoff : off .closure .closure = 0 := by decide +kernel
  have hB0 : 128 ≤ prepBytes I.cnt := (frOf_geo (S := 0) (nfx := 0) h.rtype rfl).2.1
  have a1 : a.r 1 = t0.r 1 := by have := hE.sp.1; omega
  have area := hE.area
  -- the trampoline
  have hmem : ∀ x, I.fn ≤ x ∧ x < I.fn + 56 ∨ cif + 28 ≤ x ∧ x < cif + 32 → a.mem x = I.mem x := by
    intro x hx
    rw [am, hkeep x hx]
    apply q2
    rw [q1]
    omega
  obtain ⟨b, j1, j2, j3, j4, j5⟩ := ppc_trampoline (s := a) (m := m) (c := c) (x := I.fn) (e := Ek.L + 4 * off .closure .closure) (cif := cif) (fn := fn) (user := user)
    hE.pc.1 hE.pc.2 hx (by rw [hoff]; omega) hcif hfn huser (fun i hi => by
      rw [hmem _ (by omega)]
      exact hm i hi)
  have b1 : b.r 1 = a.r 1 := j2.rest 1 (by decide) (by decide) (by decide)
  have b3 : ∀ k, k < 8 → b.r (3 + k) = a.r (3 + k) := fun k hk => j2.rest _ (by omega) (by omega) (by omega)
  have bret : retPlace I.ld I.rt = .mem → b.r 3 = if I.rvalue = 0 then I.tmp else I.rvalue := fun hm' => (b3 0 (by decide)).trans (hE.ret hm')
  have hA : PpcArrive I.sig (vals I.mem I.ats I.avalue) b :=
    { rtype := h.rtype, types := h.types, sizes := ppc_vals_sizes h.vals, passed := ppc_jumped_regs j2 b3 hE.args
      ret := fun hm' => by
        rw [bret hm']
        have := h.tmp.2
        have := h.rvalue
        split <;> assumption
      wide := by
        have := runs_wide ra hwide
        exact ⟨fun k => by rw [j2.f]; exact this.1 k, fun k => by rw [j2.vr]; exact this.2 k⟩
      lr := by rw [j2.lr, alr]; omega
      sp := by rw [b1]; exact hE.sp.2.2
      room := by rw [b1, a1, q1]; omega }
  have hpc : b.pc = Ek.L + 4 * off .closure .closure := by rw [j2.pc, hoff]; omega
  have hfl' : leNat (b.mem.rd (leNat (b.mem.rd (b.r 11 + 32) 8) + 28) 4) = I.sig.cif.flags := by
    rw [j2.r11, j3, j2.mem, Mem.rd_congr (fun i hi => hmem _ (by omega))]
    exact hfl
  obtain ⟨t, rt, c1, c2⟩ := ppc_closure_gen hEk hA hc (A := I.cnt.ps = true) id hpc (by rw [j2.r12, hpc]) (by rw [j2.r11, b1, a1, q1]; omega) hfl'
  rw [j2.r11, j3, j4, j5] at c1
  refine ⟨a, b, t, ra, j1, rt, c1, bret, ?_⟩
  intro u hu hku hrv
  obtain ⟨w, rw', cw, wm, wr⟩ := c2 u hu
  have hca : Conforms a w := by
    refine ⟨by rw [cw.pc, j2.lr], fun k hk => ?_, fun k k1 k2 => by rw [cw.f k k1 k2, j2.f], fun k k1 k2 => by rw [cw.v k k1 k2, j2.vr], fun k k1 k2 => by rw [cw.cr k k1 k2, j2.cr]⟩
    rw [cw.r k hk, j2.rest k (by omega) (by omega) (by omega)]
  obtain ⟨v, rv, v1, v2, v3, v4, v5, v6, v7⟩ := hback w hca (by
    intro x hx'
    rw [wm, hku x (by rw [b1]; exact hx'), c1.mem x (by omega) (by omega) ?_, j2.mem]
    intro hps
    have := area (.inr hps)
    have h8 : 8 ≤ max 8 (endFrom I.ld I.ats (start I.ld I.rt)).slot := Nat.le_max_left _ _
    omega) hrv
  exact ⟨w, v, rw', rv, v1, v2, v3, v4, v5, fun x x1 x2 => by rw [v6 x x1 x2, wm], fun h0 val hl hr => v7 h0 val (wr val hl hr)⟩

/-! ## What is wrong -/

/-- Up to the call of the helper. -/
theorem ppc_closure_reach {E : Env} (hT : E.T < 2 ^ 64) {G : PpcSig} {vs : List (List Byte)} {s : M} (h : PpcArrive G vs s)
    (hpc : s.pc = E.L + 4 * off .closure .closure) (h12 : s.r 12 = s.pc) (hfl : leNat (s.mem.rd (leNat (s.mem.rd (s.r 11 + 32) 8) + 28) 4) = G.cif.flags) :
    ∃ t cif fn user, Runs .closure E s t ∧ AtHelper E G.cif.flags s t cif fn user := by
  obtain ⟨a, ra, da⟩ := closure_head hpc (h12.trans hpc) hT hfl
  obtain ⟨t, rt, ht⟩ := doclosure da (by have := h.sp; omega) h.room
  exact ⟨t, _, _, _, ra.trans rt, ht⟩

/-- `void f (long double)`, IBM format. -/
def ppcIbm : PpcSig := ⟨.ibm, false, 0, FType.mk 1 1 .void [], [mkScalar (tab .ibm) .longdouble]⟩

/-- C87, negation: an IBM long double is the last named argument.  It comes in f1 and f2; because of `i + 1 < nfixedargs`
the helper takes its first half from f1, and for the second what r4 happened to contain. -/
theorem ppc_closure_ibm_C87 {E : Env} (hT : E.T < 2 ^ 64) {vs : List (List Byte)} {s : M} (h : PpcArrive ppcIbm vs s)
    (hpc : s.pc = E.L + 4 * off .closure .closure) (h12 : s.r 12 = s.pc) (hfl : leNat (s.mem.rd (leNat (s.mem.rd (s.r 11 + 32) 8) + 28) 4) = ppcIbm.cif.flags)
    (hr4 : s.r 4 < 2 ^ 64) (hne : s.r 4 ≠ s.f 2) :
    ∃ t, Runs .closure E s t ∧ t.pc = E.H ∧ ∀ m1 : Mem, (∀ x, t.r 1 ≤ x → x < t.r 1 + 8 ∨ t.r 1 + 24 ≤ x → m1 x = t.mem x) →
      let V := closureView .ibm ppcIbm.cif ppcIbm.rt ppcIbm.ats (t.r 6) (t.r 7) (t.r 8) (t.r 9) m1
      vals V.2.2 ppcIbm.ats V.2.1 ≠ vs := by
  obtain ⟨t, cif, fn, user, rt, ht⟩ := ppc_closure_reach hT h hpc h12 hfl
  refine ⟨t, rt, ht.pc, fun m1 hm1 => ?_⟩
  have hroom := h.room
  have hp0 : ppcIbm.cif.flags.testBit 24 = false := by decide +kernel
  have hP : parea s ppcIbm.cif.flags = s.r 1 - 496 := by unfold parea; rw [hp0]; rfl
  have hcl := clos_ok (s := s) (P := s.r 1 - 496) hroom (.inr rfl)
  have hmem := ht.mem
  rw [hP] at hmem
  have h7 := ht.r7.trans hP
  have hV : closureView .ibm ppcIbm.cif ppcIbm.rt ppcIbm.ats (t.r 6) (t.r 7) (t.r 8) (t.r 9) m1 = (t.r 6, [t.r 7], m1.wr (t.r 7) (m1.rd (t.r 8) 8)) := by
    unfold closureView
    rw [if_neg (by decide +kernel), show ppcIbm.cif.nfixed = 1 from rfl]
    simp [ppcIbm, closureLoop, closureArg, mkScalar, FType.tc, numFpr]
  rw [hV]
  dsimp only
  have hp := h.passed
  obtain ⟨v, rfl⟩ : ∃ v, vs = [v] := by
    have := h.sizes
    have hl : vs.length = 1 := by simpa [ppcIbm] using congrArg List.length this
    cases vs with
    | nil => cases hl
    | cons v vs => cases vs with
      | nil => exact ⟨v, rfl⟩
      | cons _ _ => simp at hl
  rw [show ppcIbm.places = [.parts 0 .ibm 2 0 true] by decide +kernel] at hp
  have hf2 : s.f 2 = leNat (part .ibm v 1) := by
    have := hp.1 1 (by decide)
    exact this
  intro heq
  have h16 : (m1.wr (t.r 7) (m1.rd (t.r 8) 8)).rd (t.r 7) 16 = v := by
    have : vals (m1.wr (t.r 7) (m1.rd (t.r 8) 8)) ppcIbm.ats [t.r 7] = [(m1.wr (t.r 7) (m1.rd (t.r 8) 8)).rd (t.r 7) 16] := rfl
    rw [this] at heq
    exact (List.cons.inj heq).1
  have hp1 : part .ibm v 1 = m1.rd (t.r 7 + 8) 8 := by
    rw [← h16, show (16 : Nat) = 8 + 8 from rfl, Mem.rd_append, wr_rd _ _ (Mem.rd_length _ _ _), Mem.rd_wr_disj _ _ _ _ _ (by rw [Mem.rd_length]; omega)]
    show List.take 8 (List.drop 8 _) = _
    rw [List.drop_append_of_le_length (by rw [Mem.rd_length]), List.drop_eq_nil_of_le (by rw [Mem.rd_length]), List.nil_append,
      List.take_of_length_le (by rw [Mem.rd_length])]
  apply hne
  rw [hf2, hp1, h7, Mem.rd_congr (fun i hi => hm1 _ (by rw [ht.sp]; omega) (by rw [ht.sp]; omega)), hmem]
  have := hcl.gpr 1 (by decide)
  rw [Nat.mul_one] at this
  rw [this, leNat_leBytes, Nat.mod_eq_of_lt (by simpa using hr4)]

/-- `void f (void *, ...)` with two more arguments of type `struct { float, float }`. -/
def ppcTwo : PpcSig :=
  ⟨.ieee, true, 1, FType.mk 1 1 .void [], [mkScalar (tab .ieee) .pointer, mkStruct [mkScalar (tab .ieee) .float, mkScalar (tab .ieee) .float],
    mkStruct [mkScalar (tab .ieee) .float, mkScalar (tab .ieee) .float]]⟩

theorem ppc_pack_var (E : Ends) (k : K) : ∀ (n dst fr : Nat) (s : Nx) (m : Mem), (pack E false k n dst fr s m).1 = s
  | 0, _, _, _, _ => rfl
  | n + 1, dst, fr, s, m => by
    cases k <;> simp only [pack, Bool.false_eq_true, and_false, if_false] <;> exact ppc_pack_var E _ n _ _ s _

theorem ppc_struct_var {E : Ends} {ld : LD} {t : FType} {n : Nat} (hd : discover ld t = some (.float, n)) {s : Nx} (hf : s.pfr + 8 * n ≤ E.f) (m : Mem) :
    (closureStruct E ld false t s m).1 = s.pfr ∧ (closureStruct E ld false t s m).2.1.pfr = s.pfr := by
  unfold closureStruct
  dsimp only
  rw [hd]
  dsimp only
  rw [ppc_pack_var]
  generalize (if t.align > 16 then 16 else t.align) = al
  by_cases ha : al > 1
  · rw [if_pos ha]
    simp [hf]
  · rw [if_neg ha]
    simp [hf]

/-- C87, negation: two variable arguments are homogeneous structs.  The helper puts both together in the place of f1,
because `pfr` only moves for named arguments; the handler gets the second one twice. -/
theorem ppc_closure_alias_C87 {E : Env} (hT : E.T < 2 ^ 64) {vs : List (List Byte)} {s : M} (h : PpcArrive ppcTwo vs s)
    (hpc : s.pc = E.L + 4 * off .closure .closure) (h12 : s.r 12 = s.pc) (hfl : leNat (s.mem.rd (leNat (s.mem.rd (s.r 11 + 32) 8) + 28) 4) = ppcTwo.cif.flags)
    (hne : vs[1]? ≠ vs[2]?) :
    ∃ t, Runs .closure E s t ∧ t.pc = E.H ∧ ∀ m1 : Mem, (∀ x, t.r 1 ≤ x → x < t.r 1 + 8 ∨ t.r 1 + 24 ≤ x → m1 x = t.mem x) →
      let V := closureView .ieee ppcTwo.cif ppcTwo.rt ppcTwo.ats (t.r 6) (t.r 7) (t.r 8) (t.r 9) m1
      vals V.2.2 ppcTwo.ats V.2.1 ≠ vs := by
  obtain ⟨t, cif, fn, user, rt, ht⟩ := ppc_closure_reach hT h hpc h12 hfl
  refine ⟨t, rt, ht.pc, fun m1 hm1 => ?_⟩
  have hd : discover .ieee (mkStruct [mkScalar (tab .ieee) .float, mkScalar (tab .ieee) .float]) = some (.float, 2) := by decide +kernel
  have hV : ∃ m, (closureView .ieee ppcTwo.cif ppcTwo.rt ppcTwo.ats (t.r 6) (t.r 7) (t.r 8) (t.r 9) m1).2 = ([t.r 7, t.r 8, t.r 8], m) := by
    unfold closureView
    rw [if_neg (by decide +kernel), show ppcTwo.cif.nfixed = 1 from rfl]
    refine ⟨_, Prod.ext ?_ rfl⟩
    obtain ⟨F, hF⟩ : ∃ F, F = mkStruct [mkScalar (tab .ieee) .float, mkScalar (tab .ieee) .float] := ⟨_, rfl⟩
    have hst : F.tc = .struct := by rw [hF]; rfl
    rw [← hF] at hd
    have hats : ppcTwo.ats = [mkScalar (tab .ieee) .pointer, F, F] := by rw [hF]; rfl
    have h1 : ∀ E s m, closureArg E .ieee (decide (0 < 1)) (decide (1 < 1)) (mkScalar (tab .ieee) .pointer) s m = (s.pst, { s with pst := s.pst + 8 }, m) := fun _ _ _ => rfl
    have h2 : ∀ E s m, closureArg E .ieee (decide (0 < 0)) (decide (1 < 0)) F s m = closureStruct E .ieee false F s m := by
      intro E s m
      unfold closureArg
      rw [hst]
      rfl
    rw [hats]
    simp only [closureLoop, h1]
    rw [show 1 - 1 - 1 = 0 from rfl]
    simp only [h2]
    have k1 := fun (s : Nx) (hs : s.pfr = t.r 8) (m : Mem) => ppc_struct_var (E := ⟨t.r 8 + 8 * numFpr, t.r 9 + 16 * numVec⟩) hd (s := s)
      (by rw [hs]; show t.r 8 + 16 ≤ t.r 8 + 104; omega) m
    have k2 := k1 ⟨t.r 7 + 8, t.r 8, t.r 9⟩ rfl m1
    have k3 := k1 _ k2.2 (closureStruct ⟨t.r 8 + 8 * numFpr, t.r 9 + 16 * numVec⟩ .ieee false F ⟨t.r 7 + 8, t.r 8, t.r 9⟩ m1).2.2
    rw [k3.1, k2.2, k2.1]
  obtain ⟨m, hV⟩ := hV
  dsimp only
  rw [hV]
  intro heq
  rw [← heq] at hne
  exact hne rfl

/-- `void f (struct { float[8] }, struct { float[6] })`. -/
def ppcFull (ld : LD) : PpcSig :=
  ⟨ld, false, 0, FType.mk 1 1 .void [], [mkStruct (List.replicate 8 (mkScalar (tab ld) .float)), mkStruct (List.replicate 6 (mkScalar (tab ld) .float))]⟩

/-- C87, negation: all arguments are in registers, f1 to f13 and half of r9, so that the caller need not have a parameter
area.  `ffi_prep_cif` thinks it has, and the closure stores r3 to r10 in the caller's frame. -/
theorem ppc_closure_area_C87 {E : Env} (hT : E.T < 2 ^ 64) {ld : LD} {vs : List (List Byte)} {s : M} (h : PpcArrive (ppcFull ld) vs s)
    (hpc : s.pc = E.L + 4 * off .closure .closure) (h12 : s.r 12 = s.pc) (hfl : leNat (s.mem.rd (leNat (s.mem.rd (s.r 11 + 32) 8) + 28) 4) = (ppcFull ld).cif.flags) :
    ¬ (ppcFull ld).area ∧ ∃ t, Runs .closure E s t ∧ t.pc = E.H ∧ ∀ k, k < 8 → t.mem.rd (s.r 1 + 32 + 8 * k) 8 = leBytes 8 (s.r (3 + k)) := by
  obtain ⟨t, cif, fn, user, rt, ht⟩ := ppc_closure_reach hT h hpc h12 hfl
  have hp0 : (ppcFull ld).cif.flags.testBit 24 = true := by cases ld <;> decide +kernel
  have hP : parea s (ppcFull ld).cif.flags = s.r 1 + 32 := by unfold parea; rw [hp0]; rfl
  have hcl := clos_ok (s := s) (P := s.r 1 + 32) h.room (.inl rfl)
  have hmem := ht.mem
  rw [hP] at hmem
  refine ⟨?_, t, rt, ht.pc, ?_⟩
  · have hpl : (ppcFull ld).places = [.parts 0 .f32 8 0 true, .parts 4 .f32 6 8 true] := by cases ld <;> decide +kernel
    rintro (hv | ⟨x, hx, hi⟩)
    · cases hv
    · rw [hpl] at hx
      simp only [ppcFull, List.zip_cons_cons, List.zip_nil_right, List.mem_cons, List.not_mem_nil, or_false] at hx
      rcases hx with rfl | rfl
      · obtain ⟨j, j1, j2, j3⟩ := hi
        have : Cls.f32.bytes = 4 := rfl
        rw [this] at j3; omega
      · obtain ⟨j, j1, j2, j3⟩ := hi
        have : Cls.f32.bytes = 4 := rfl
        rw [this] at j3; omega
  · intro k hk
    rw [hmem]
    exact hcl.gpr k hk

/-! ## Examples -/

instance ppcInRegDec (R : Regs) (c : Cls) (k : Nat) (v : List Byte) : Decidable (InReg R c k v) := by
  cases c <;> unfold InReg <;> infer_instance

instance ppcPassedAtDec (R : Regs) (t : FType) (v : List Byte) (l : Place) : Decidable (PassedAt R t v l) := by
  cases l <;> unfold PassedAt <;> infer_instance

instance ppcPassedDec (R : Regs) : ∀ (ts : List FType) (vs : List (List Byte)) (ls : List Place), Decidable (AllPassed R ts vs ls)
  | t :: ts, v :: vs, l :: ls => @instDecidableAnd _ _ _ (ppcPassedDec R ts vs ls)
  | [], [], [] => .isTrue trivial
  | [], [], _ :: _ | [], _ :: _, _ | _ :: _, [], _ | _ :: _, _ :: _, [] => .isFalse id

/-- `ffi_closure_LINUX64` is at 2^16, a closure at 2^22, its cif at 2^23; r3 to r10 hold 103 to 110, f1 is 1.0, the others what
single precision can be. -/
def ppcEnv : Env := ⟨2 ^ 16, 2 ^ 17, 2 ^ 18⟩

def ppcHere (G : PpcSig) : M :=
  { r := fun k => if k = 1 then 2 ^ 20 else if k = 11 then 2 ^ 22 else if k = 12 then 2 ^ 16 else 100 + k % 32
    f := fun k => if k = 1 then 4607182418800017408 else dblOf (1065353216 + k % 32)
    v := fun k => 5 + k % 32
    cr := fun _ => false
    lr := 4096
    ctr := 0
    mem := ((Mem.wr (fun _ => 0) (2 ^ 20 + 96) (leBytes 8 777)).wr (2 ^ 22 + 32) (leBytes 8 (2 ^ 23))).wr (2 ^ 23 + 28) (leBytes 4 G.cif.flags)
    pc := 2 ^ 16 }

theorem ppc_here {G : PpcSig} {vs : List (List Byte)} (h1 : Ty G.ld G.rt ∨ G.rt.tc = .void) (h2 : ∀ t ∈ G.ats, Ty G.ld t) (h3 : vs.map List.length = G.ats.map FType.size)
    (h4 : AllPassed (mregs (ppcHere G)) G.ats vs G.places) (h5 : G.cif.flags < 2 ^ 32) :
    PpcArrive G vs (ppcHere G) ∧ (ppcHere G).pc = ppcEnv.L + 4 * off .closure .closure ∧ (ppcHere G).r 12 = (ppcHere G).pc ∧
      leNat ((ppcHere G).mem.rd (leNat ((ppcHere G).mem.rd ((ppcHere G).r 11 + 32) 8) + 28) 4) = G.cif.flags := by
  refine ⟨⟨h1, h2, h3, h4, fun _ => by show 103 < 2 ^ 64; decide, ⟨fun k => ?_, fun k => ?_⟩, by show 4096 < 2 ^ 64 ∧ 4 ∣ 4096; decide, by show 16 ∣ 2 ^ 20; decide, by show 528 ≤ 2 ^ 20; decide⟩,
    (by decide +kernel : 2 ^ 16 = ppcEnv.L + 4 * off .closure .closure), rfl, ?_⟩
  · show (if k = 1 then 4607182418800017408 else dblOf (1065353216 + k % 32)) < 2 ^ 64
    split
    · decide
    · exact dblOf_lt (by omega)
  · show 5 + k % 32 < 2 ^ 128
    omega
  · have e : leNat ((ppcHere G).mem.rd (2 ^ 22 + 32) 8) = 2 ^ 23 := by
      show leNat ((Mem.wr _ (2 ^ 23 + 28) (leBytes 4 G.cif.flags)).rd (2 ^ 22 + 32) 8) = _
      rw [Mem.rd_wr_disj _ _ _ _ _ (by rw [leBytes_length]; omega), wr_rd _ _ (leBytes_length _ _), leNat_leBytes, Nat.mod_eq_of_lt (by decide : 2 ^ 23 < 256 ^ 8)]
    rw [show (ppcHere G).r 11 = 2 ^ 22 from rfl, e]
    show leNat ((Mem.wr _ (2 ^ 23 + 28) (leBytes 4 G.cif.flags)).rd (2 ^ 23 + 28) 4) = _
    rw [wr_rd _ _ (leBytes_length _ _), leNat_leBytes, Nat.mod_eq_of_lt (by simpa using h5)]

/-- `int f (int, double, struct { float, float }, struct { char[17] }, long double, ...)` and an `unsigned long`. -/
def ppcSix : PpcSig := ⟨.ieee, true, 5, mkScalar (tab .ieee) .sint32, ppcAts .ieee⟩

def ppcSixVals : List (List Byte) :=
  [leBytes 4 103, leBytes 8 4607182418800017408, leBytes 4 1065353218 ++ leBytes 4 1065353219, leBytes 8 106 ++ leBytes 8 107 ++ leBytes 1 108, leBytes 16 7, leBytes 8 777]

theorem ppc_six : PpcArrive ppcSix ppcSixVals (ppcHere ppcSix) ∧ (ppcHere ppcSix).pc = ppcEnv.L + 4 * off .closure .closure ∧ (ppcHere ppcSix).r 12 = (ppcHere ppcSix).pc ∧
    leNat ((ppcHere ppcSix).mem.rd (leNat ((ppcHere ppcSix).mem.rd ((ppcHere ppcSix).r 11 + 32) 8) + 28) 4) = ppcSix.cif.flags :=
  ppc_here (.inl ⟨mkScalar_wf rfl, rfl⟩) (ppc_ats .ieee) (by decide +kernel) (by decide +kernel) (by decide +kernel)

theorem ppc_six_can : PpcCan ppcSix := ⟨fun h => (by cases h), by decide +kernel⟩

example : ∃ t, Runs .closure ppcEnv (ppcHere ppcSix) t ∧ PpcHandler ppcEnv ppcSix ppcSix.area ppcSixVals (ppcHere ppcSix) t (2 ^ 23) 0 0 := by
  obtain ⟨h1, h2, h3, h4⟩ := ppc_six
  obtain ⟨t, r, h, _⟩ := ppc_closure_partial (by decide) h1 ppc_six_can (fun _ => .inl rfl) h2 h3 (.inr (by decide)) h4
  refine ⟨t, r, ?_⟩
  have e1 : leNat ((ppcHere ppcSix).mem.rd ((ppcHere ppcSix).r 11 + 32) 8) = 2 ^ 23 := by decide +kernel
  have e2 : leNat ((ppcHere ppcSix).mem.rd ((ppcHere ppcSix).r 11 + 40) 8) = 0 := by decide +kernel
  have e3 : leNat ((ppcHere ppcSix).mem.rd ((ppcHere ppcSix).r 11 + 48) 8) = 0 := by decide +kernel
  rw [e1, e2, e3] at h
  exact h

/-- A Go closure at 2^22 + 24 with its cif at 2^23. -/
def ppcGo : M := { ppcHere ppcSix with r := upd (upd (ppcHere ppcSix).r 11 (2 ^ 22 + 24)) 12 (2 ^ 16 + 4 * off .closure .go), pc := 2 ^ 16 + 4 * off .closure .go }

example : ∃ t, Runs .closure ppcEnv ppcGo t ∧ PpcHandler ppcEnv ppcSix ppcSix.area ppcSixVals ppcGo t (2 ^ 23) 0 (2 ^ 22 + 24) := by
  obtain ⟨h1, _, _, _⟩ := ppc_six
  have hA : PpcArrive ppcSix ppcSixVals ppcGo :=
    { rtype := h1.rtype, types := h1.types, sizes := h1.sizes, passed := by decide +kernel, ret := h1.ret, wide := h1.wide, lr := h1.lr, sp := h1.sp, room := h1.room }
  obtain ⟨t, r, h, _⟩ := ppc_go_closure_partial (E := ppcEnv) (by decide) hA ppc_six_can (fun _ => .inl rfl) (by decide +kernel) (by decide +kernel) (.inr (by decide +kernel)) (by decide +kernel)
  refine ⟨t, r, ?_⟩
  have e1 : leNat (ppcGo.mem.rd (ppcGo.r 11 + 8) 8) = 2 ^ 23 := by decide +kernel
  have e2 : leNat (ppcGo.mem.rd (ppcGo.r 11 + 16) 8) = 0 := by decide +kernel
  rw [e1, e2] at h
  exact h

/-- A closure prepared at 2^24 that runs at 2^22. -/
def ppcPrep (x : Nat) : Mem := prepClosure (fun _ => 0) (2 ^ 24) (2 ^ 22) (2 ^ 16) (2 ^ 23) 55 x

example : ∃ t, tsteps 4 { ppcHere ppcSix with r := upd (ppcHere ppcSix).r 12 (2 ^ 22), pc := 2 ^ 22, mem := fun a => if 2 ^ 22 ≤ a ∧ a < 2 ^ 22 + 56 then ppcPrep 99 (2 ^ 24 + (a - 2 ^ 22)) else 0 } = some t ∧
    t.pc = 2 ^ 16 ∧ t.r 11 = 2 ^ 22 := by
  obtain ⟨t, h1, h2, _⟩ := ppc_trampoline (s := { ppcHere ppcSix with r := upd (ppcHere ppcSix).r 12 (2 ^ 22), pc := 2 ^ 22, mem := fun a => if 2 ^ 22 ≤ a ∧ a < 2 ^ 22 + 56 then ppcPrep 99 (2 ^ 24 + (a - 2 ^ 22)) else 0 })
    (m := fun _ => 0) (c := 2 ^ 24) (x := 2 ^ 22) (e := 2 ^ 16) (cif := 2 ^ 23) (fn := 55) (user := 99) rfl rfl (by decide) (by decide) (by decide) (by decide) (by decide) (by
      intro i hi
      show (if 2 ^ 22 ≤ 2 ^ 22 + i ∧ 2 ^ 22 + i < 2 ^ 22 + 56 then ppcPrep 99 (2 ^ 24 + (2 ^ 22 + i - 2 ^ 22)) else 0) = _
      rw [if_pos (by omega), Nat.add_sub_cancel_left]
      rfl)
  exact ⟨t, h1, h2.pc.trans (by decide), h2.r11⟩

/-- The second slot of a table at 2^22. -/
example : ∃ t, tsteps 9 { ppcHere ppcSix with pc := 2 ^ 22 + 40, mem := (Mem.wr (fun _ => 0) (2 ^ 22 + 65536 + 40) (leBytes 8 12 ++ leBytes 8 (2 ^ 16))).wr (2 ^ 22) codeTable } = some t ∧
    t.pc = 2 ^ 16 ∧ t.r 11 = 12 := by
  have hl : codeTable.length = 65520 := by decide +kernel
  obtain ⟨t, h1, h2⟩ := ppc_static_trampoline (s := { ppcHere ppcSix with pc := 2 ^ 22 + 40, mem := (Mem.wr (fun _ => 0) (2 ^ 22 + 65536 + 40) (leBytes 8 12 ++ leBytes 8 (2 ^ 16))).wr (2 ^ 22) codeTable })
    (T := 2 ^ 22) (k := 1) (data := 12) (target := 2 ^ 16) (by decide) rfl (wr_rd _ _ hl) (by decide)
    (by dsimp only; rw [Mem.rd_wr_disj _ _ _ _ _ (by rw [hl]; omega)]; decide +kernel) (by dsimp only; rw [Mem.rd_wr_disj _ _ _ _ _ (by rw [hl]; omega)]; decide +kernel)
  exact ⟨t, h1, h2.pc.trans (by decide), h2.r11⟩

/-- The call of `ppc_case`, and the function is a closure. -/
def ppcBoth : PpcIn :=
  { ppcIn .ieee (2 ^ 21 + 128) with mem := (prepClosure (fun a => BitVec.ofNat 8 (7 * a)) (2 ^ 22) (2 ^ 22) (2 ^ 16) (2 ^ 23) 55 99).wr (2 ^ 23 + 28) (leBytes 4 (ppcIn .ieee 0).cif.flags) }

example (E : Env) (hE : 4 ∣ E.L ∧ E.L + 1024 ≤ 2 ^ 64) : ∃ t0, Runs .call E { ppcState E ppcBoth with mem := ppcBoth.mem } t0 ∧ t0.pc = E.H := by
  obtain ⟨h1, h2, h3⟩ := ppc_case E .ieee (2 ^ 21 + 128) (by decide)
  have hs : PpcAtCall E ppcBoth { ppcState E ppcBoth with mem := ppcBoth.mem } :=
    ⟨h1.pc, h1.r3, h1.r4, h1.r5, h1.r6, h1.r7, h1.r8, rfl, h1.regs, h1.lr, h1.sp, h1.room⟩
  have hc : PpcCall ppcBoth (2 ^ 20) := ⟨h2.rtype, h2.types, h2.vals, h2.apart, h2.fn, h2.rvalue, h2.buf, h2.tmp⟩
  have hb : prepBytes ppcBoth.cnt < 1024 := h3
  obtain ⟨t0, r, p, _⟩ := ppc_round_trip_partial (Ek := ppcEnv) hE (by decide) hs hc (by omega) (by
      intro c n hp
      have : retPlace .ieee (mkScalar (tab .ieee) .sint32) = .int := by decide +kernel
      cases this.symm.trans hp) ppc_six_can (m := fun a => BitVec.ofNat 8 (7 * a)) (c := 2 ^ 22) (cif := 2 ^ 23) (fn := 55) (user := 99) (by decide) (by decide) (by decide) (by decide)
      (by
        intro i hi
        show Mem.wr _ _ _ (2 ^ 22 + i) = prepClosure _ _ (2 ^ 22) _ _ _ _ _
        rw [Mem.wr_out _ _ _ _ (by rw [leBytes_length]; omega), show ppcEnv.L + 4 * off .closure .closure = 2 ^ 16 by decide +kernel])
      (by
        show leNat ((Mem.wr _ (2 ^ 23 + 28) (leBytes 4 _)).rd (2 ^ 23 + 28) 4) = _
        rw [wr_rd _ _ (leBytes_length _ _), leNat_leBytes]
        decide +kernel)
      (by show prepBytes ppcBoth.cnt + 528 ≤ 2 ^ 20; omega) (.inr (by show 2 ^ 20 + 96 ≤ 2 ^ 22; decide)) (.inr (by show 2 ^ 20 ≤ 2 ^ 23; decide))
  exact ⟨t0, r, p⟩

/-- States for the negations. -/
example : PpcArrive ppcIbm [leBytes 8 4607182418800017408 ++ leBytes 8 (dblOf 1065353218)] (ppcHere ppcIbm) ∧ (ppcHere ppcIbm).f 2 ≠ (ppcHere ppcIbm).r 4 :=
  ⟨(ppc_here (.inr rfl) (by
    intro t ht
    rw [show ppcIbm.ats = [mkScalar (tab .ibm) .longdouble] from rfl, List.mem_singleton] at ht
    rw [ht]
    exact ⟨mkScalar_wf rfl, rfl⟩) (by decide +kernel) (by decide +kernel) (by decide +kernel)).1, by decide +kernel⟩

example : PpcArrive ppcTwo [leBytes 8 103, leBytes 8 104, leBytes 8 105] (ppcHere ppcTwo) :=
  (ppc_here (.inr rfl) (by
    intro t ht
    simp only [ppcTwo, List.mem_cons, List.not_mem_nil, or_false, or_self] at ht
    rcases ht with rfl | rfl
    · exact ⟨mkScalar_wf rfl, rfl⟩
    · exact ⟨mkStruct_wf (tab_ok .ieee) (by simp) (by intro e he; simp at he; rw [he]; exact mkScalar_wf rfl), rfl⟩) (by decide +kernel) (by decide +kernel) (by decide +kernel)).1

example : ∃ vs, PpcArrive (ppcFull .ieee) vs { ppcHere (ppcFull .ieee) with f := fun k => dblOf (1065353216 + k % 32) } := by
  refine ⟨[(List.range 8).flatMap fun i => leBytes 4 (1065353217 + i), ((List.range 5).flatMap fun i => leBytes 4 (1065353225 + i)) ++ leBytes 4 0], (.inr rfl), ?_, by decide +kernel, by decide +kernel, fun _ => by decide, ?_, by decide, by decide, by decide⟩
  · intro t ht
    simp only [ppcFull, List.mem_cons, List.not_mem_nil, or_false] at ht
    rcases ht with rfl | rfl <;>
      exact ⟨mkStruct_wf (tab_ok .ieee) (by simp) (by intro e he; rw [List.eq_of_mem_replicate he]; exact mkScalar_wf rfl), rfl⟩
  · exact ⟨fun k => dblOf_lt (by omega), fun k => by show 5 + k % 32 < 2 ^ 128; omega⟩

end Verif.Props
