import Verif.I386.Raw
import Verif.Spec.Build

/-
Properties C45-C47, C54 and C55: 32-bit x86.
-/
namespace Verif.Props
open Verif Spec Spec.X86 I386

/-! ## Signatures and calls -/

/-- A signature that `ffi_prep_cif` accepts, of reasonable size. -/
structure I386Sig (c : Cfg) (D : Data) (rt : FType) (ats : List FType) : Prop where
  target : I386.Target c D
  rtOk : Result D rt
  atsOk : ∀ t ∈ ats, Passable D t
  space : 4 + (ats.map fun t => t.size + 18).sum < 2 ^ 28

/-- What `ffi_prep_cif_machdep` computes for it. -/
structure I386Prep (c : Cfg) (D : Data) (rt : FType) (ats : List FType) (fl : Flag) (bytes : Nat) : Prop where
  sig : I386Sig c D rt ats
  prep : prep c rt ats = some (fl, bytes)

theorem x86_reserve_le {c : Cfg} {D : Data} (hD : D.Ok) {ts : List FType} (h : ∀ t ∈ ts, WF D.tab t) (b : Nat) :
    reserve c b ts ≤ b + (ts.map fun t => t.size + 18).sum := by
  induction ts generalizing b with
  | nil => exact Nat.le_refl _
  | cons t ts ih =>
    rw [reserve_cons]
    have hp := pad_pos (c := c) hD (h t (by simp))
    have h1 := roundUp_lt (v := b) (a := if c.win32 ∧ c.abi = .stdcall then 4 else t.align) (by omega)
    have h2 := roundUp_lt (v := t.size) (a := 4) (by decide)
    have := ih (fun x hx => h x (by simp [hx]))
      (roundUp b (if c.win32 ∧ c.abi = .stdcall then 4 else t.align) + roundUp t.size 4)
    rw [List.map_cons, List.sum_cons]
    omega

theorem x86_le_sum {ts : List FType} {t : FType} (h : t ∈ ts) :
    t.size + 18 ≤ (ts.map fun t => t.size + 18).sum := by
  induction ts with
  | nil => cases h
  | cons s ts ih =>
    rw [List.map_cons, List.sum_cons]
    rcases List.mem_cons.1 h with rfl | h
    · omega
    · have := ih h; omega

/-- The facts about a prepared signature that the proofs use. -/
theorem x86_prep {c : Cfg} {D : Data} {rt : FType} {ats : List FType} {fl : Flag} {bytes : Nat}
    (h : I386Prep c D rt ats fl bytes) :
    (isMem fl = true → fl = structFlag c) ∧ isMem fl = inMemory (c.win32 || c.darwin) rt ∧
      (isMem fl = false → Direct rt fl) ∧ reserve c (retBytes fl) ats = bytes ∧ bytes < 2 ^ 28 ∧
      (∀ t ∈ ats, t.size < 2 ^ 28) := by
  have hD := h.sig.target.data
  obtain ⟨fl', h1, h2, h3, h4⟩ := retFlag_spec (c := c) hD h.sig.rtOk
  have hret : retBytes fl' ≤ 4 := by unfold retBytes; split <;> omega
  have hle := x86_reserve_le (c := c) hD (fun t ht => (h.sig.atsOk t ht).1) (retBytes fl')
  have hsp := h.sig.space
  have e := prepBytes_eq (c := c) hD (fun t ht => (h.sig.atsOk t ht).1) (b := retBytes fl') (by omega)
  have hp := h.prep
  unfold I386.prep at hp
  rw [h1, Option.map_some, e, Option.some.injEq, Prod.mk.injEq] at hp
  obtain ⟨rfl, rfl⟩ := hp
  refine ⟨h2, h3, h4, rfl, by omega, ?_⟩
  intro t ht
  have : t.size + 18 ≤ (ats.map fun t => t.size + 18).sum :=
    x86_le_sum ht
  omega

/-- Every such signature can be prepared. -/
theorem x86_prep_total {c : Cfg} {D : Data} {rt : FType} {ats : List FType} (h : I386Sig c D rt ats) :
    ∃ fl bytes, I386Prep c D rt ats fl bytes := by
  obtain ⟨fl, h1, _⟩ := retFlag_spec (c := c) h.target.data h.rtOk
  exact ⟨fl, _, h, by unfold prep; rw [h1]; rfl⟩

/-- A call of a prepared signature: as many values as types, and enough stack, in which
there are no argument objects yet. -/
structure I386Call (c : Cfg) (D : Data) (rt : FType) (ats : List FType) (fl : Flag) (bytes : Nat) (I : CallIn) :
    Prop where
  prep : I386Prep c D rt ats fl bytes
  len : I.avalue.length = ats.length
  words : I.fn.length = 4 ∧ I.closure.length = 4 ∧ I.ebp.length = 4 ∧ I.ebx.length = 4 ∧ I.retaddr.length = 4 ∧
    I.pc.length = 4
  top : I.sp < 2 ^ 32
  room : bytes + rsize fl rt I.rvalue + 256 ≤ I.sp
  out : ∀ q ∈ ats.zip I.avalue, q.2 + q.1.size + bytes + rsize fl rt I.rvalue + 256 ≤ I.sp ∨ I.sp ≤ q.2

theorem x86_stackAlign {c : Cfg} {b : Nat} (h : b < 2 ^ 28) : stackAlign c b ≤ b + 15 := by
  unfold stackAlign
  split
  · omega
  · rw [align_eq (by omega) (by omega)]
    have := roundUp_lt (v := b) (a := 16) (by decide)
    omega

theorem x86_pre {c : Cfg} {D : Data} {rt : FType} {ats : List FType} {fl : Flag} {bytes : Nat} {I : CallIn}
    (h : I386Call c D rt ats fl bytes I) (hdir : (params c.abi).up = true ∨ inMemory (c.win32 || c.darwin) rt = false) :
    CallPre c D fl bytes rt ats I := by
  obtain ⟨h1, h2, h3, h4, h5, h6⟩ := x86_prep h.prep
  obtain ⟨w1, w2, w3, w4, w5, w6⟩ := h.words
  have hB := x86_stackAlign (c := c) h5
  have hroom := h.room
  refine ⟨h.prep.sig.target, by rw [h2]; exact hdir, h.prep.sig.atsOk, fun t ht => by have := h6 t ht; omega, h.len,
    ⟨by omega, by omega⟩, ⟨w1, w2, w3, w5, w6⟩, h.top, by omega, ?_⟩
  intro q hq
  have := h.out q hq
  omega

/-! ## C54: placement -/

/-- **C54 (conventions that push from right to left).**  `ffi_call` with any number of
arguments of any types enters the function with a 16-byte aligned stack and with every
argument, widened if it is a small integer, in the register or at the stack offset that
the convention prescribes; the address of a result in memory is where the convention
wants it; if the caller wants no result it is that of free room above the frame. -/
theorem C54_placement_partial {c : Cfg} {D : Data} {rt : FType} {ats : List FType} {fl : Flag} {bytes : Nat}
    {I : CallIn} (h : I386Call c D rt ats fl bytes I) (hup : c.abi ≠ .pascal ∧ c.abi ≠ .register) :
    ∃ O, callEntry c fl bytes rt ats I = .ok O ∧ O.fn = I.fn ∧ 4 ∣ O.entry.sp ∧ (c.msvc = false → 16 ∣ O.entry.sp) ∧
      AllPassed O.entry.regs ats (argVals I.mem ats I.avalue)
        (placeFrom c.abi ats (start c.abi (inMemory (c.win32 || c.darwin) rt))) ∧
      (inMemory (c.win32 || c.darwin) rt = true →
        O.entry.regs.at 4 (hidden c.abi) = leBytes 4 O.rvalue) ∧
      (∀ a, I.rvalue = some a → O.rvalue = a) ∧
      (inMemory (c.win32 || c.darwin) rt = true → I.rvalue = none →
        O.entry.sp + bytes ≤ O.frame ∧ O.frame + 32 ≤ O.rvalue ∧ O.rvalue + rt.size ≤ I.sp) := by
  have hu : (params c.abi).up = true := by
    cases hc : c.abi <;> simp [hc] at hup <;> rfl
  obtain ⟨h1, h2, h3, h4, h5, h6⟩ := x86_prep h.prep
  have hpre := x86_pre h (.inl hu)
  obtain ⟨O, hO, hp⟩ := callEntry_spec hpre
  have hpl := callEntry_placed hpre h1 hp
  have hg : gap c bytes ats = 0 := if_pos hu
  have hpd : placed c.abi (isMem fl) ats = placeFrom c.abi ats (start c.abi (isMem fl)) := if_pos hu
  rw [hg, hpd, h2] at hpl
  refine ⟨O, hO, hp.fn, hp.align.1, hp.align.2, hpl, ?_, ?_, ?_⟩
  · intro hm
    have hm' : isMem fl = true := by rw [h2, hm]
    have hh := hp.hidden hm'
    have hfl := h1 hm'
    obtain ⟨r1, r2, r3⟩ := hp.regs
    have hl : ∀ m : Mem, ∀ a, (m.rd a 4).take 4 = m.rd a 4 := fun m a => List.take_of_length_le (by simp)
    cases hc : c.abi <;> simp only [hfl, hc, params, structFlag, Spec.X86.hidden, Conv.regs] at hh hup ⊢ <;>
      simp only [ne_eq, reduceCtorEq, not_false_eq_true, not_true_eq_false, and_true, and_false,
        if_true, if_false, List.getD_cons_zero, List.cons_ne_nil] at hh hup ⊢
    case thiscall => show (O.entry.ecx).take 4 = _; rw [r3, hl]; exact hh
    case fastcall => show (O.entry.ecx).take 4 = _; rw [r3, hl]; exact hh
    all_goals exact hh
  · intro a ha
    rw [hp.rvalue, ha]
    have : rsize fl rt (some a) = 0 := by cases fl <;> rfl
    rw [this]
    rfl
  · intro hm hn
    have hfl := h1 (by rw [h2, hm])
    have hrs : rsize fl rt I.rvalue = rt.size := by
      rw [hfl, hn]
      unfold structFlag
      split <;> rfl
    have hsz : rt.size ≠ 0 := by
      rcases h.prep.sig.rtOk with h' | h'
      · rw [inMemory, h'] at hm; exact absurd hm (by simp)
      · have := h'.size_pos (tab_ok h.prep.sig.target.data); omega
    have hrv : O.rvalue = O.frame + 32 := by rw [hp.rvalue, if_pos (by rw [hrs]; exact hsz)]
    have hb := hp.block
    rw [hrs] at hb
    have := stackAlign_ge (c := c) (b := bytes) (by omega)
    exact ⟨by rw [hp.frame]; omega, by omega, by omega⟩

/-- **C54 (reversed conventions).**  Without a result in memory, `FFI_PASCAL` and
`FFI_REGISTER` calls place all arguments as prescribed if the stack bytes pushed fill a
multiple of 16 (of 1 with MSVC), and otherwise that much too high. -/
theorem C54_reversed_partial {c : Cfg} {D : Data} {rt : FType} {ats : List FType} {fl : Flag} {bytes : Nat}
    {I : CallIn} (h : I386Call c D rt ats fl bytes I) (habi : c.abi = .pascal ∨ c.abi = .register)
    (hmem : inMemory (c.win32 || c.darwin) rt = false) :
    ∃ O, callEntry c fl bytes rt ats I = .ok O ∧ O.fn = I.fn ∧ pushed ats c.abi.regs ≤ stackAlign c bytes ∧
      AllPassed { O.entry.regs with sp := O.entry.sp + (stackAlign c bytes - pushed ats c.abi.regs) } ats
        (argVals I.mem ats I.avalue) (placeRev ats c.abi.regs) ∧
      (pushed ats c.abi.regs = stackAlign c bytes →
        AllPassed O.entry.regs ats (argVals I.mem ats I.avalue) (placeRev ats c.abi.regs)) := by
  have hu : (params c.abi).up = false := by rcases habi with h | h <;> rw [h] <;> rfl
  have hu' : ¬ (params c.abi).up = true := by simp [hu]
  obtain ⟨h1, h2, h3, h4, h5, h6⟩ := x86_prep h.prep
  have hpre := x86_pre h (.inr hmem)
  obtain ⟨O, hO, hp⟩ := callEntry_spec hpre
  have hpl := callEntry_placed hpre h1 hp
  have hg : gap c bytes ats = stackAlign c bytes - pushed ats c.abi.regs := if_neg hu'
  have hpd : placed c.abi (isMem fl) ats = placeRev ats c.abi.regs := if_neg hu'
  rw [hg, hpd] at hpl
  refine ⟨O, hO, hp.fn, ?_, hpl, ?_⟩
  · have e := pushed_eq hpre.target.data hu hpre.atsOk 0
    rw [List.drop_zero] at e
    have hd := downBytes_le (c := c) hpre.target.data hpre.atsOk (n := 0) (b := retBytes fl)
    have := stackAlign_ge (c := c) hpre.fits.2
    omega
  · intro heq
    have : up O.entry.regs (stackAlign c bytes - pushed ats c.abi.regs) = O.entry.regs := by
      unfold up; rw [heq, Nat.sub_self]; rfl
    rwa [this] at hpl

/-! ## C45: arguments survive a call of a closure -/

/-- A closure of a prepared signature has been entered according to its convention. -/
structure I386Entered (c : Cfg) (D : Data) (kind : Kind) (rt : FType) (ats : List FType) (fl : Flag) (bytes : Nat)
    (vs : List (List Byte)) (closure : Nat) (E : Entry) : Prop where
  prep : I386Prep c D rt ats fl bytes
  abi : c.abi ≠ .pascal ∧ c.abi ≠ .register
  ebx : c.pcc = false ∨ c.saveEbx = false
  words : E.eax.length = 4 ∧ E.edx.length = 4 ∧ E.ecx.length = 4 ∧ E.ebx.length = 4
  sp : 64 ≤ E.sp ∧ E.sp < 2 ^ 32
  align : 4 ∣ E.sp ∧ (c.msvc = false → 16 ∣ E.sp)
  obj : closure + 28 ≤ E.sp - 64 ∨ E.sp ≤ closure
  chain : kind = .go → leNat (if c.abi = .thiscall ∨ c.abi = .fastcall then E.eax else E.ecx) = closure
  passed : AllPassed E.regs ats vs (placeFrom c.abi ats (start c.abi (inMemory (c.win32 || c.darwin) rt)))

theorem x86_entered {c : Cfg} {D : Data} {kind : Kind} {rt : FType} {ats : List FType} {fl : Flag} {bytes : Nat}
    {vs : List (List Byte)} {closure : Nat} {E : Entry} (h : I386Entered c D kind rt ats fl bytes vs closure E) :
    ClosPost c D kind fl bytes ats vs closure E (closureEntry c kind fl bytes ats closure E) := by
  have hup := h.abi
  have hu : (params c.abi).up = true := by
    cases hc : c.abi <;> simp [hc] at hup <;> rfl
  obtain ⟨h1, h2, h3, h4, h5, h6⟩ := x86_prep h.prep
  have hg : gap c bytes ats = 0 := if_pos hu
  have hpd : placed c.abi (isMem fl) ats = placeFrom c.abi ats (start c.abi (isMem fl)) := if_pos hu
  exact closureEntry_spec ⟨h.prep.sig.target, hup.2, h.ebx, .inl hu, h1, h.prep.sig.atsOk,
    fun t ht => by have := h6 t ht; omega, ⟨by omega, by omega⟩, h.words, h.sp.1, h.sp.2, h.align, h.obj, h.chain,
    by rw [hg, hpd, h2]; exact h.passed⟩

/-- **C45, any caller.**  A closure entered according to its convention gives its handler
pointers to objects with the values passed, its own `cif`, function and data, and the
address for the result; nothing above its frame changes. -/
theorem C45_closure_partial {c : Cfg} {D : Data} {kind : Kind} {rt : FType} {ats : List FType} {fl : Flag} {bytes : Nat}
    {vs : List (List Byte)} {closure : Nat} {E : Entry} (h : I386Entered c D kind rt ats fl bytes vs closure E) :
    let V := closureEntry c kind fl bytes ats closure E
    AllFound V.mem ats vs V.args ∧
      V.cif = E.mem.rd (fieldAt kind closure) 4 ∧ V.handler = E.mem.rd (fieldAt kind closure + 4) 4 ∧
      V.userData = dataOf kind closure E.mem ∧
      V.rvalue = (if inMemory (c.win32 || c.darwin) rt then leNat (E.regs.at 4 (hidden c.abi)) else V.frame) ∧
      (∀ x, x < V.esp ∨ E.sp - 4 ≤ x → V.mem x = E.mem x) := by
  obtain ⟨h1, h2, h3, h4, h5, h6⟩ := x86_prep h.prep
  have hsp := h.sp
  have hq := x86_entered h
  refine ⟨hq.args, hq.cif, hq.handler, hq.userData, ?_, hq.keep⟩
  rw [← h2]
  cases hm : isMem fl with
  | true => simp only [if_true]; exact (hq.hidden hm).1
  | false => simp only [if_false, Bool.false_eq_true]; exact hq.plain hm

/-- **C45.**  For every convention but `FFI_REGISTER`, when `ffi_call` calls a closure of
the same signature the handler finds the bytes of every argument; under `FFI_PASCAL` if
the result is not in memory. -/
theorem C45_roundtrip_partial {c : Cfg} {D : Data} {rt : FType} {ats : List FType} {fl : Flag} {bytes : Nat}
    {I : CallIn} {closure : Nat} (h : I386Call c D rt ats fl bytes I) (habi : c.abi ≠ .register)
    (hdir : c.abi = .pascal → inMemory (c.win32 || c.darwin) rt = false) (hebx : c.pcc = false ∨ c.saveEbx = false)
    (obj : closure + 28 + bytes + rsize fl rt I.rvalue + 256 ≤ I.sp ∨ I.sp ≤ closure) :
    ∃ O, callEntry c fl bytes rt ats I = .ok O ∧
      let V := closureEntry c .closure fl bytes ats closure O.entry
      AllFound V.mem ats (argVals I.mem ats I.avalue) V.args ∧ V.cif = I.mem.rd (closure + 16) 4 ∧
        V.handler = I.mem.rd (closure + 20) 4 ∧ V.userData = I.mem.rd (closure + 24) 4 ∧
        (inMemory (c.win32 || c.darwin) rt = true → O.rvalue < 2 ^ 32 → V.rvalue = O.rvalue) := by
  have hdir' : (params c.abi).up = true ∨ inMemory (c.win32 || c.darwin) rt = false := by
    cases hc : c.abi with
    | register => exact absurd hc habi
    | pascal => exact .inr (hdir hc)
    | _ => exact .inl rfl
  obtain ⟨h1, h2, h3, h4, h5, h6⟩ := x86_prep h.prep
  have hpre := x86_pre h hdir'
  obtain ⟨O, hO, hp⟩ := callEntry_spec hpre
  have hpl := callEntry_placed hpre h1 hp
  have hB := x86_stackAlign (c := c) h5
  have hroom := h.room
  have hsp := hp.sp
  have hal := alloca_spec (c := c) (sp := I.sp) (n := stackAlign c bytes + 32 + rsize fl rt I.rvalue) (by omega)
  have hfr := hp.frame
  have htop := h.top
  obtain ⟨r1, r2, r3⟩ := hp.regs
  have hbx : O.entry.ebx = I.ebx := by
    have := hO
    unfold callEntry at this
    dsimp only at this
    split at this
    · cases this
    · injection this with this; rw [← this]; rfl
  have hcp : ClosPre c D .closure fl bytes ats (argVals I.mem ats I.avalue) closure O.entry :=
    ⟨hpre.target, habi, hebx, hpre.dir, h1, hpre.atsOk, hpre.sizes, hpre.fits,
      ⟨by rw [r1]; simp, by rw [r2]; simp, by rw [r3]; simp, by rw [hbx]; exact h.words.2.2.2.1⟩,
      by omega, by omega, hp.align, by omega, (fun h => by cases h), hpl⟩
  have hq := closureEntry_spec hcp
  have hkeep : ∀ k, k ≤ 24 → O.entry.mem.rd (closure + k) 4 = I.mem.rd (closure + k) 4 := by
    intro k hk
    apply Mem.rd_congr
    intro i hi
    exact hp.keep _ (by omega)
  refine ⟨O, hO, hq.args, ?_, ?_, ?_, ?_⟩
  · rw [hq.cif]; exact hkeep 16 (by omega)
  · rw [hq.handler]; exact hkeep 20 (by omega)
  · rw [hq.userData]; exact hkeep 24 (by omega)
  · intro hm hlt
    have hm' : isMem fl = true := by rw [h2, hm]
    rw [(hq.hidden hm').1]
    have hh := hp.hidden hm'
    have hfl := h1 hm'
    have hup : (params c.abi).up = true := hpre.dir.resolve_right (by rw [hm']; simp)
    have key : O.entry.regs.at 4 (hidden c.abi) = leBytes 4 O.rvalue := by
      have hl : ∀ m : Mem, ∀ a, (m.rd a 4).take 4 = m.rd a 4 := fun m a => List.take_of_length_le (by simp)
      cases hc : c.abi <;> rw [hc] at hup <;> first | (cases hup; done) | skip
      all_goals
        simp only [hfl, hc, params, structFlag, Spec.X86.hidden, Conv.regs, ne_eq, reduceCtorEq, not_false_eq_true,
          not_true_eq_false, and_true, and_false, if_true, if_false, List.getD_cons_zero,
          List.cons_ne_nil] at hh ⊢
      case thiscall => show (O.entry.ecx).take 4 = _; rw [r3, hl]; exact hh
      case fastcall => show (O.entry.ecx).take 4 = _; rw [r3, hl]; exact hh
      all_goals exact hh
    rw [key, leNat_leBytes, Nat.mod_eq_of_lt (show O.rvalue < 256 ^ 4 by omega)]

/-! ## C55: results -/

/-- **C55, calls.**  A result in registers is stored at the address given to `ffi_call`,
widened to `ffi_arg` if it is a small integer; nothing else outside `ffi_call`'s frame
changes. -/
theorem C55_call {c : Cfg} {D : Data} {rt : FType} {ats : List FType} {fl : Flag} {bytes : Nat} {I : CallIn}
    {O : CallOut} (h : I386Call c D rt ats fl bytes I)
    (hO : callEntry c fl bytes rt ats I = .ok O) {a : Nat} (ha : I.rvalue = some a) (ha32 : a < 2 ^ 32)
    (hm : inMemory (c.win32 || c.darwin) rt = false) {m : Mem}
    (hkeep : ∀ x, O.frame ≤ x → x < O.frame + 20 → m x = O.entry.mem x)
    {cvt : Nat → X87 → List Byte} {ebx eax edx v : List Byte} {st0 : X87} (hebx : ebx.length = 4) (heax : eax.length = 4)
    (hedx : edx.length = 4) (hv : v.length = valueBytes rt)
    (hret : Returned rt v eax (some edx) (some (st0.w, st0.bs))) :
    ∃ m', finishCall cvt O.frame ebx eax edx st0 m = some m' ∧ Delivered m' a rt v ∧
      (∀ x, (x < O.frame ∨ O.frame + 32 ≤ x) → (x < a ∨ a + resultRoom rt ≤ x) → m' x = m x) := by
  obtain ⟨h1, h2, h3, h4, h5, h6⟩ := x86_prep h.prep
  obtain ⟨O', hO', hp⟩ := callEntry_spec (x86_pre h (.inr hm))
  rw [hO] at hO'
  injection hO' with hO'
  subst hO'
  have hcf : callFlag fl I.rvalue = fl := by rw [ha]; cases fl <;> rfl
  have hrs : rsize fl rt I.rvalue = 0 := by rw [ha]; cases fl <;> rfl
  have hrv : O.rvalue = a := by rw [hp.rvalue, hrs, ha]; rfl
  have hk : ∀ k, k ≤ 16 → m.rd (O.frame + k) 4 = O.entry.mem.rd (O.frame + k) 4 := fun k hk =>
    Mem.rd_congr (fun i hi => hkeep _ (by omega) (by omega))
  obtain ⟨m', e1, e2, e3, _⟩ := finishCall_spec (cvt := cvt) (frame := O.frame) (p := a) (m := m) (h3 (by rw [h2, hm]))
    (by rw [hk 12 (by omega), hp.words.1, hcf]) (by rw [hk 16 (by omega), hp.words.2, hrv]) ha32 hebx heax hedx hv hret
  exact ⟨m', e1, e2, fun x hx => e3 x (by omega)⟩

/-- **C55, results not wanted or in memory** (except results in memory under the reversed
conventions).  With a null result address `ffi_call` stores
nothing outside its own frame and the room it reserved behind it; with a result in memory
it stores nothing at all outside its frame. -/
theorem C55_other_partial {c : Cfg} {D : Data} {rt : FType} {ats : List FType} {fl : Flag} {bytes : Nat} {I : CallIn}
    {O : CallOut} (h : I386Call c D rt ats fl bytes I)
    (hdir : (c.abi ≠ .pascal ∧ c.abi ≠ .register) ∨ inMemory (c.win32 || c.darwin) rt = false)
    (hO : callEntry c fl bytes rt ats I = .ok O) (hn : I.rvalue = none ∨ inMemory (c.win32 || c.darwin) rt = true)
    {m : Mem} (hkeep : ∀ x, O.frame ≤ x → x < O.frame + 20 → m x = O.entry.mem x)
    {cvt : Nat → X87 → List Byte} {ebx eax edx v : List Byte} {st0 : X87} (hebx : ebx.length = 4) (heax : eax.length = 4)
    (hedx : edx.length = 4) (hv : v.length = valueBytes rt)
    (hret : inMemory (c.win32 || c.darwin) rt = false → Returned rt v eax (some edx) (some (st0.w, st0.bs))) :
    ∃ m', finishCall cvt O.frame ebx eax edx st0 m = some m' ∧
      ∀ x, (x < O.frame ∨ I.sp ≤ x ∨ (inMemory (c.win32 || c.darwin) rt = true ∧ O.frame + 32 ≤ x)) → m' x = m x := by
  have hdir' : (params c.abi).up = true ∨ inMemory (c.win32 || c.darwin) rt = false := by
    rcases hdir with hd | hd
    · left; cases hc : c.abi <;> simp [hc] at hd <;> rfl
    · exact .inr hd
  obtain ⟨h1, h2, h3, h4, h5, h6⟩ := x86_prep h.prep
  obtain ⟨O', hO', hp⟩ := callEntry_spec (x86_pre h hdir')
  rw [hO] at hO'
  injection hO' with hO'
  subst hO'
  have hblk := hp.block
  have htop := h.top
  have hk : ∀ k, k ≤ 16 → m.rd (O.frame + k) 4 = O.entry.mem.rd (O.frame + k) 4 := fun k hk =>
    Mem.rd_congr (fun i hi => hkeep _ (by omega) (by omega))
  have hfl12 : m.rd (O.frame + 12) 4 = leBytes 4 (callFlag fl I.rvalue).code := by rw [hk 12 (by omega), hp.words.1]
  by_cases hnone : isMem (callFlag fl I.rvalue) = true ∨ callFlag fl I.rvalue = .void
  · refine ⟨_, finishCall_none hnone hfl12 hebx, ?_⟩
    intro x hx
    rw [Mem.wr_out _ _ _ _ (by omega)]
  · have hm : inMemory (c.win32 || c.darwin) rt = false := by
      rw [← h2]
      cases hx : isMem fl with
      | false => rfl
      | true => exact absurd (.inl (by rw [isMem_callFlag]; exact hx)) hnone
    have hnr : I.rvalue = none := hn.resolve_right (by rw [hm]; simp)
    have hcf : callFlag fl I.rvalue = fl ∧ rsize fl rt I.rvalue = rt.size ∧ word rt.tc = false ∧ rt.tc ≠ .void := by
      have hd := h3 (by rw [h2, hm])
      rw [hnr] at hnone ⊢
      cases hd with
      | float ht _ => rw [ht]; exact ⟨rfl, rfl, rfl, by simp⟩
      | double ht _ => rw [ht]; exact ⟨rfl, rfl, rfl, by simp⟩
      | ldouble ht _ => rw [ht]; exact ⟨rfl, rfl, rfl, by simp⟩
      | _ => exact absurd (.inr rfl) hnone
    have hrr : resultRoom rt = rt.size := by unfold resultRoom; rw [if_neg hcf.2.2.2, hcf.2.2.1]; rfl
    have hsz : rt.size ≠ 0 := by
      rcases h.prep.sig.rtOk with h' | h'
      · exact absurd h' hcf.2.2.2
      · have := h'.size_pos (tab_ok h.prep.sig.target.data); omega
    have hrv : O.rvalue = O.frame + 32 := by rw [hp.rvalue, if_pos (by rw [hcf.2.1]; exact hsz)]
    obtain ⟨m', e1, _, e3, _⟩ := finishCall_spec (cvt := cvt) (frame := O.frame) (p := O.frame + 32) (m := m)
      (h3 (by rw [h2, hm])) (by rw [hfl12, hcf.1]) (by rw [hk 16 (by omega), hp.words.2, hrv]) (by omega) hebx heax hedx hv
      (hret hm)
    refine ⟨m', e1, ?_⟩
    intro x hx
    rw [hm] at hx
    have hx' : x < O.frame ∨ I.sp ≤ x := by
      rcases hx with h | h | h
      · exact .inl h
      · exact .inr h
      · cases h.1
    exact e3 x (by omega) (by rw [hrr]; omega)

/-- **C55, closures** (except of the reversed conventions).  What the handler stores at the address it is given is returned by
the closure in the registers that the convention prescribes, small integers widened; the
closure returns to its caller, and for a result in memory it returns the address. -/
theorem C55_closure_partial {c : Cfg} {D : Data} {kind : Kind} {rt : FType} {ats : List FType} {fl : Flag} {bytes : Nat}
    {vs : List (List Byte)} {closure : Nat} {E : Entry} (h : I386Entered c D kind rt ats fl bytes vs closure E)
    {m : Mem} (hra : m.rd (E.sp - 4) 4 = E.mem.rd (E.sp - 4) 4) {v : List Byte} :
    let V := closureEntry c kind fl bytes ats closure E
    (inMemory (c.win32 || c.darwin) rt = false → rt.tc ≠ .void → m.rd V.rvalue (valueBytes rt) = v) →
    (inMemory (c.win32 || c.darwin) rt = true → ∀ x, V.frame ≤ x → x < V.frame + 4 → m x = V.mem x) →
    ∃ X, closureExit c kind V.esp V.frame V.ret m = some X ∧ X.retaddr = E.mem.rd (E.sp - 4) 4 ∧
      (if inMemory (c.win32 || c.darwin) rt then X.eax = E.regs.at 4 (hidden c.abi)
       else Returned rt v X.eax X.edx (X.st0.map fun x => (x.w, x.bs)) ∧ (rt.tc ≠ .void → WidenedTo rt v X.eax)) := by
  obtain ⟨h1, h2, h3, h4, h5, h6⟩ := x86_prep h.prep
  have hsp := h.sp
  have hq := x86_entered h
  intro V hval hpt
  obtain ⟨X, e1, e2, e3, e4, e5, e6⟩ := closureExit_spec (c := c) (kind := kind) (ret := V.ret) (fl := fl) hq.esp
    hsp.1 hq.frame (by show (closureEntry c kind fl bytes ats closure E).ret % 16 = _; rw [hq.ret, innerRet_mod]) m
  refine ⟨X, e1, by rw [e2, hra], ?_⟩
  cases hm : inMemory (c.win32 || c.darwin) rt with
  | true =>
    simp only [if_true]
    have hm' : isMem fl = true := by rw [h2, hm]
    have : m.rd V.frame 4 = V.mem.rd V.frame 4 := Mem.rd_congr (fun i hi => hpt hm _ (by omega) (by omega))
    rw [← (hq.hidden hm').2, e4]
    refine Eq.trans ?_ this
    have hf := h1 hm'
    unfold structFlag at hf
    split at hf <;> rw [hf] <;> rfl
  | false =>
    simp only [if_false, Bool.false_eq_true]
    have hm' : isMem fl = false := by rw [h2, hm]
    have := loadTable_spec (frame := V.frame) (m := m) (h3 hm') (v := v) (fun hnv => by
      rw [← hq.plain hm']; exact hval hm hnv)
    rw [← e4, ← e5, ← e6] at this
    exact this

/-! ## C46: closures that remove their arguments -/

/-- When the number of registers used is counted correctly. -/
theorem x86_lost_iff {A : Conv} (ts : List FType) : ∀ {p : Pos} {n : Nat}, p.free = A.regs.drop n → n ≤ A.regs.length →
    (lost A ts n = 0 ↔ ∀ k (hk : k < ts.length), A.closes ts[k].tc →
      A = .fastcall ∧ (endFrom A (ts.take k) p).free = []) := by
  induction ts with
  | nil => intro p n _ _; simp [lost]
  | cons t ts ih =>
    intro p n hp hn
    have split0 : (∀ k (hk : k < (t :: ts).length), A.closes (t :: ts)[k].tc →
          A = .fastcall ∧ (endFrom A ((t :: ts).take k) p).free = []) ↔
        ((A.closes t.tc → A = .fastcall ∧ p.free = []) ∧
          ∀ k (hk : k < ts.length), A.closes ts[k].tc →
            A = .fastcall ∧ (endFrom A (ts.take k) (placeArg A t p).2).free = []) := by
      constructor
      · intro h
        exact ⟨fun hc => h 0 (by simp) hc, fun k hk hc => h (k + 1) (by simpa using hk) hc⟩
      · rintro ⟨h0, h1⟩ k hk hc
        cases k with
        | zero => exact h0 hc
        | succ k => exact h1 k (by simpa using hk) hc
    rw [split0, lost]
    by_cases hw : word t.tc = true ∧ n < A.regs.length
    · have hnc : ¬ A.closes t.tc = true := by
        intro h
        have hw1 := hw.1
        revert h hw1
        cases A <;> cases t.tc <;> simp [Conv.closes, word]
      have hd : p.free = A.regs[n] :: A.regs.drop (n + 1) := by rw [hp]; exact List.drop_eq_getElem_cons hw.2
      have e : (placeArg A t p).2.free = A.regs.drop (n + 1) := by
        unfold placeArg; rw [hd]; simp only [hw.1, if_true]
      rw [if_pos hw, ih e hw.2]
      exact ⟨fun h => ⟨fun h' => absurd h' hnc, h⟩, fun h => h.2⟩
    · rw [if_neg hw]
      have e : (placeArg A t p).2.free = if A.closes t.tc then [] else p.free := by
        unfold placeArg
        cases hf : p.free with
        | nil => simp
        | cons r rs =>
          have hlt : n < A.regs.length := by
            rcases Nat.lt_or_ge n A.regs.length with h | h
            · exact h
            · rw [hp, List.drop_of_length_le h] at hf; cases hf
          have : ¬ word t.tc = true := fun h => hw ⟨h, hlt⟩
          simp only [this, if_false, Bool.false_eq_true]
      by_cases hcl : A.closes t.tc = true
      · rw [if_pos hcl] at e ⊢
        have hA : A = .thiscall ∨ A = .fastcall := by
          revert hcl
          cases A <;> simp [Conv.closes]
        rcases hA with hA | hA
        · subst hA
          have hn1 : n ≤ 1 := hn
          constructor
          · intro h; omega
          · rintro ⟨h, _⟩; cases (h hcl).1
        · have h2 : A.regs.length = 2 := by rw [hA]; rfl
          have := ih (p := (placeArg A t p).2) (n := 2) (by rw [e, ← h2, List.drop_length]) (by omega)
          have hfree : p.free = [] ↔ n = 2 := by
            rw [hp, List.drop_eq_nil_iff]; omega
          rw [← this, hfree]
          constructor
          · intro h; exact ⟨fun _ => ⟨hA, by omega⟩, by omega⟩
          · rintro ⟨h, h'⟩; have := (h hcl).2; omega
      · rw [if_neg hcl] at e ⊢
        rw [ih (p := (placeArg A t p).2) (n := n) (by rw [e, hp]) hn]
        exact ⟨fun h => ⟨fun h' => absurd h' hcl, h⟩, fun h => h.2⟩

/-- The stack pointer after a closure. -/
theorem x86_exit {c : Cfg} {D : Data} {kind : Kind} {rt : FType} {ats : List FType} {fl : Flag} {bytes : Nat}
    {vs : List (List Byte)} {closure : Nat} {E : Entry} (h : I386Entered c D kind rt ats fl bytes vs closure E) (m : Mem) :
    let V := closureEntry c kind fl bytes ats closure E
    ∃ X, closureExit c kind V.esp V.frame V.ret m = some X ∧ X.sp = E.sp + popCount c kind fl V.ret := by
  have hq := x86_entered h
  intro V
  obtain ⟨X, e1, e2, e3, e4, e5, e6⟩ := closureExit_spec (c := c) (kind := kind) (ret := V.ret) (fl := fl) hq.esp
    h.sp.1 hq.frame (by show (closureEntry c kind fl bytes ats closure E).ret % 16 = _; rw [hq.ret, innerRet_mod]) m
  exact ⟨X, e1, e3⟩

theorem x86_noreg {c : Cfg} (hr : c.abi.regs = []) (ts : List FType) :
    (∀ st : St, (layLoop c 0 ts st).2.narg = st.narg) ∧ ∀ n, lost c.abi ts n = 0 := by
  have hl : (params c.abi).regs.length = 0 := by rw [conv_regs_length, hr]; rfl
  have hc : ¬ (c.abi = .thiscall ∨ c.abi = .fastcall) := by
    rintro (h | h) <;> rw [h] at hr <;> cases hr
  have hcl : ∀ tc, c.abi.closes tc = false := by
    intro tc
    unfold Conv.closes
    rw [not_or] at hc
    simp [hc.1, hc.2]
  induction ts with
  | nil => exact ⟨fun _ => rfl, fun _ => rfl⟩
  | cons t ts ih =>
    constructor
    · intro st
      rw [layLoop]
      dsimp only
      rw [ih.1]
      unfold lay
      rw [hl]
      split
      · rw [if_neg (by omega)]
        split <;> rfl
      · have e : ¬ ((c.abi = .thiscall ∨ c.abi = .fastcall) ∧ (t.tc = .sint64 ∨ t.tc = .uint64 ∨ t.tc = .struct)) :=
          fun h => hc h.1
        dsimp only
        rw [if_neg e]
        split <;> rfl
    · intro n
      rw [lost, if_neg (by rw [hr]; simp), hcl]
      exact ih.2 n

/-- **C46.**  If no padding is needed before any argument, a closure removes exactly the
bytes that its convention prescribes if and only if no argument is a 64-bit integer or a
struct that makes `ffi_closure_inner` count an unused register: under `FFI_THISCALL`
there may be none at all, under `FFI_FASTCALL` only after two register arguments.  (The
other conventions have no registers.) -/
theorem C46_pop_exact_partial {c : Cfg} {D : Data} {rt : FType} {ats : List FType} {fl : Flag} {bytes : Nat}
    {vs : List (List Byte)} {closure : Nat} {E : Entry} (h : I386Entered c D .closure rt ats fl bytes vs closure E)
    (hpad : ∀ t ∈ ats, t.align ≤ 4 ∨ c.win32 = true ∧ c.abi = .stdcall) (m : Mem) :
    let V := closureEntry c .closure fl bytes ats closure E
    ∃ X, closureExit c .closure V.esp V.frame V.ret m = some X ∧
      (X.sp = E.sp + popped c.abi (c.win32 || c.darwin) rt ats ↔
        ∀ k (hk : k < ats.length), c.abi.closes ats[k].tc → c.abi = .fastcall ∧
          (endFrom c.abi (ats.take k) (start c.abi (inMemory (c.win32 || c.darwin) rt))).free = []) := by
  intro V
  obtain ⟨X, e1, e2⟩ := x86_exit h m
  refine ⟨X, e1, ?_⟩
  rw [e2]
  obtain ⟨h1, h2, h3, h4, h5, h6⟩ := x86_prep h.prep
  have hup := h.abi
  have hu : (params c.abi).up = true := by
    cases hc : c.abi <;> simp [hc] at hup <;> rfl
  have hq := x86_entered h
  have hret : V.ret = _ := hq.ret
  have hab : argBase c E.sp bytes = E.sp := if_pos hu
  rw [hab] at hret
  have h16 : D.ldAlign ≠ 4 → 16 ∣ E.sp := fun hne => h.align.2 (by
    cases hm : c.msvc with
    | false => rfl
    | true => exact absurd (h.prep.sig.target.win (.inr hm)) hne)
  obtain ⟨g1, g2, g3⟩ := end_count h.prep.sig.target hu h1 h.prep.sig.atsOk
    (fun t ht => (hpad t ht).symm) h.align.1 h16
  have hst : (start c.abi (isMem fl)).free = c.abi.regs.drop (startSt c fl E.sp).narg ∧
      (startSt c fl E.sp).narg ≤ c.abi.regs.length := by
    unfold startSt start
    cases hm : isMem fl with
    | false => simp
    | true =>
      rw [h1 hm]
      cases hc : c.abi <;> simp [hc] at hup <;> simp [hc, structFlag, params, Conv.regs]
  rw [← h2, ← x86_lost_iff ats hst.1 hst.2]
  have hl := lost_le c.abi ats (startSt c fl E.sp).narg (by omega)
  have hcode := code_lt fl
  have key : (endFrom c.abi ats (start c.abi (isMem fl))).ns = stackBytes c.abi (c.win32 || c.darwin) rt ats := by
    rw [h2]; rfl
  show E.sp + popCount c .closure fl V.ret = _ ↔ _
  rw [hret]
  rw [key, h4] at g1
  have hn0 : c.abi.regs = [] → (startSt c fl E.sp).narg = 0 := by
    intro h0
    have := hst.2
    rw [h0] at this
    exact Nat.le_zero.1 this
  have hnr : c.abi.regs = [] → lost c.abi ats (startSt c fl E.sp).narg = 0 ∧
      (layLoop c 0 ats (startSt c fl E.sp)).2.narg = 0 := by
    intro h0
    exact ⟨(x86_noreg h0 ats).2 _, by rw [(x86_noreg h0 ats).1, hn0 h0]⟩
  unfold popCount innerRet popped pops
  generalize lost c.abi ats (startSt c fl E.sp).narg = L at *
  generalize (layLoop c 0 ats (startSt c fl E.sp)).2.narg = N at *
  generalize stackBytes c.abi (c.win32 || c.darwin) rt ats = U at *
  rw [← h2]
  cases hc : c.abi with
  | sysv =>
    simp only [if_false, Bool.false_eq_true]
    have hs : fl = .structPop ↔ isMem fl = true := by
      constructor
      · intro h; rw [h]; rfl
      · intro hm; rw [h1 hm]; unfold structFlag; rw [hc]
    have := hnr (by rw [hc]; rfl)
    simp only [hs, this.1]
  | msCdecl =>
    simp only [if_false, Bool.false_eq_true]
    have hs : ¬ fl = .structPop := by
      intro h
      have hf := h1 (by rw [h]; rfl)
      unfold structFlag at hf
      rw [hc, h] at hf
      cases hf
    have := hnr (by rw [hc]; rfl)
    simp only [hs, this.1, if_false]
  | stdcall =>
    simp only [if_true]
    have := hnr (by rw [hc]; rfl)
    omega
  | thiscall => simp only [if_true]; omega
  | fastcall => simp only [if_true]; omega
  | pascal => exact absurd hc hup.1
  | register => exact absurd hc hup.2

/-- **C46, stdcall.**  `FFI_STDCALL` closures on Windows remove exactly their arguments,
whatever their types. -/
theorem C46_stdcall_win32 {c : Cfg} {D : Data} {rt : FType} {ats : List FType} {fl : Flag} {bytes : Nat}
    {vs : List (List Byte)} {closure : Nat} {E : Entry} (h : I386Entered c D .closure rt ats fl bytes vs closure E)
    (hc : c.abi = .stdcall) (hw : c.win32 = true) (m : Mem) :
    let V := closureEntry c .closure fl bytes ats closure E
    ∃ X, closureExit c .closure V.esp V.frame V.ret m = some X ∧ X.sp = E.sp + stackBytes .stdcall true rt ats := by
  obtain ⟨X, h1, h2⟩ := C46_pop_exact_partial h (fun t _ => .inr ⟨hw, hc⟩) m
  refine ⟨X, h1, ?_⟩
  have := h2.2 (fun k hk hcl => by rw [hc] at hcl; exact absurd hcl (by simp [Conv.closes]))
  rw [this, hc, hw]
  rfl

/-- **C46, Go closures.**  `FFI_THISCALL` and `FFI_FASTCALL` Go closures remove nothing. -/
theorem C46_go_never_pops {c : Cfg} {D : Data} {rt : FType} {ats : List FType} {fl : Flag} {bytes : Nat}
    {vs : List (List Byte)} {closure : Nat} {E : Entry} (h : I386Entered c D .go rt ats fl bytes vs closure E)
    (hc : c.abi = .thiscall ∨ c.abi = .fastcall) (m : Mem) :
    let V := closureEntry c .go fl bytes ats closure E
    ∃ X, closureExit c .go V.esp V.frame V.ret m = some X ∧ X.sp = E.sp := by
  intro V
  obtain ⟨X, e1, e2⟩ := x86_exit h m
  refine ⟨X, e1, ?_⟩
  rw [e2]
  obtain ⟨h1, _⟩ := x86_prep h.prep
  have hs : ¬ fl = .structPop := by
    intro h
    have hf := h1 (by rw [h]; rfl)
    unfold structFlag at hf
    rcases hc with hc | hc <;> rw [hc, h] at hf <;> cases hf
  unfold popCount pops
  rcases hc with hc | hc <;> simp only [hc, hs, if_false, Bool.false_eq_true, Nat.add_zero]

/-! ## `ffi_call` as the caller -/

/-- `ffi_call` enters closures as these theorems require. -/
theorem x86_call_entered {c : Cfg} {D : Data} {rt : FType} {ats : List FType} {fl : Flag} {bytes : Nat} {I : CallIn}
    {closure : Nat} (h : I386Call c D rt ats fl bytes I) (hup : c.abi ≠ .pascal ∧ c.abi ≠ .register)
    (hebx : c.pcc = false ∨ c.saveEbx = false)
    (obj : closure + 28 + bytes + rsize fl rt I.rvalue + 256 ≤ I.sp ∨ I.sp ≤ closure) :
    ∃ O, callEntry c fl bytes rt ats I = .ok O ∧
      I386Entered c D .closure rt ats fl bytes (argVals I.mem ats I.avalue) closure O.entry := by
  obtain ⟨O, hO, _, ha1, ha2, hpl, _, _, _⟩ := C54_placement_partial h hup
  have hu : (params c.abi).up = true := by
    cases hc : c.abi <;> simp [hc] at hup <;> rfl
  obtain ⟨h1, h2, h3, h4, h5, h6⟩ := x86_prep h.prep
  obtain ⟨O', hO', hp⟩ := callEntry_spec (x86_pre h (.inl hu))
  rw [hO] at hO'
  injection hO' with hO'
  subst hO'
  have hB := x86_stackAlign (c := c) h5
  have hroom := h.room
  have hsp := hp.sp
  have hal := alloca_spec (c := c) (sp := I.sp) (n := stackAlign c bytes + 32 + rsize fl rt I.rvalue) (by omega)
  have htop := h.top
  obtain ⟨r1, r2, r3⟩ := hp.regs
  have hbx : O.entry.ebx = I.ebx := by
    have := hO
    unfold callEntry at this
    dsimp only at this
    split at this
    · cases this
    · injection this with this; rw [← this]; rfl
  exact ⟨O, hO, h.prep, hup, hebx,
    ⟨by rw [r1]; simp, by rw [r2]; simp, by rw [r3]; simp, by rw [hbx]; exact h.words.2.2.2.1⟩,
    by omega, ⟨ha1, ha2⟩, by omega, (fun h => by cases h), hpl⟩

theorem x86_returned_set {t : FType} {v eax edx : List Byte} {oedx : Option (List Byte)} {st0 : Nat × List Byte}
    {ost0 : Option (Nat × List Byte)} (h : Returned t v eax oedx ost0) (he : ∀ e, oedx = some e → edx = e)
    (hs : ∀ s, ost0 = some s → st0 = s) : Returned t v eax (some edx) (some st0) := by
  unfold Returned at h ⊢
  split at h
  · trivial
  · rw [hs _ h]
  · rw [hs _ h]
  · rw [hs _ h]
  · by_cases h4 : t.size ≤ 4
    · rw [if_pos h4] at h ⊢
      exact h
    · rw [if_neg h4] at h ⊢
      cases oedx with
      | none => cases h
      | some e => rw [he e rfl]; exact h

/-- **C55, round trip** (except under the reversed conventions).  When `ffi_call` calls a closure of the same signature, the value
that the handler stores is what the caller of `ffi_call` finds, integers widened.  The
handler may change any memory but the closure's return address and `ffi_call`'s frame;
registers that the closure does not set are arbitrary. -/
theorem C55_roundtrip_partial {c : Cfg} {D : Data} {rt : FType} {ats : List FType} {fl : Flag} {bytes : Nat} {I : CallIn}
    {closure : Nat} (h : I386Call c D rt ats fl bytes I) (hup : c.abi ≠ .pascal ∧ c.abi ≠ .register)
    (hebx : c.pcc = false ∨ c.saveEbx = false)
    (obj : closure + 28 + bytes + rsize fl rt I.rvalue + 256 ≤ I.sp ∨ I.sp ≤ closure)
    {a : Nat} (ha : I.rvalue = some a) (ha32 : a < 2 ^ 32) (hm : inMemory (c.win32 || c.darwin) rt = false) :
    ∃ O, callEntry c fl bytes rt ats I = .ok O ∧
      let V := closureEntry c .closure fl bytes ats closure O.entry
      ∀ (m : Mem) (v : List Byte), v.length = valueBytes rt → (rt.tc ≠ .void → m.rd V.rvalue (valueBytes rt) = v) →
        (∀ x, O.frame ≤ x → x < O.frame + 20 → m x = V.mem x) →
        m.rd (O.entry.sp - 4) 4 = O.entry.mem.rd (O.entry.sp - 4) 4 →
        ∃ X, closureExit c .closure V.esp V.frame V.ret m = some X ∧
          X.retaddr = O.entry.mem.rd (O.entry.sp - 4) 4 ∧
          ∀ (cvt : Nat → X87 → List Byte) (ebx eax edx : List Byte) (st0 : X87), ebx.length = 4 → eax.length = 4 →
            edx.length = 4 → eax = X.eax → (∀ e, X.edx = some e → edx = e) → (∀ x, X.st0 = some x → st0 = x) →
            ∃ m', finishCall cvt O.frame ebx eax edx st0 m = some m' ∧ Delivered m' a rt v := by
  obtain ⟨O, hO, hE⟩ := x86_call_entered h hup hebx obj
  refine ⟨O, hO, ?_⟩
  have hq := x86_entered hE
  have hu : (params c.abi).up = true := by
    cases hc : c.abi <;> simp [hc] at hup <;> rfl
  obtain ⟨O', hO', hp⟩ := callEntry_spec (x86_pre h (.inl hu))
  rw [hO] at hO'
  injection hO' with hO'
  subst hO'
  have hfr := hp.frame
  intro V m v hv hval hkeep hra
  obtain ⟨X, e1, e2, e3⟩ := C55_closure_partial hE (m := m) hra (v := v) (fun _ => hval) (fun h' => by rw [hm] at h'; cases h')
  refine ⟨X, e1, e2, ?_⟩
  rw [if_neg (by rw [hm]; simp)] at e3
  intro cvt ebx eax edx st0 hb hx hd hea hed hst
  have hr := x86_returned_set e3.1 hed (st0 := (st0.w, st0.bs)) (by
    intro s hs
    cases hX : X.st0 with
    | none => rw [hX] at hs; cases hs
    | some x =>
      rw [hX] at hs
      injection hs with hs
      rw [← hs, hst x hX])
  rw [← hea] at hr
  obtain ⟨m', f1, f2, _⟩ := C55_call h hO ha ha32 hm (m := m)
    (fun x h1 h2 => by rw [hkeep x h1 h2]; exact hq.keep x (by omega)) (cvt := cvt) hb hx hd hv hr
  exact ⟨m', f1, f2⟩

/-! ## C47: raw calls -/

/-- **C47 (conventions without registers, arguments aligned to at most four bytes).**
`ffi_raw_call` enters the function with the arguments of the raw array where the
convention prescribes - which is where `ffi_call` puts them (C54). -/
theorem C47_raw_partial {c : Cfg} {D : Data} {rt : FType} {ats : List FType} {fl : Flag} {bytes raw : Nat} {I : CallIn}
    (h : I386Prep c D rt ats fl bytes) (habi : c.abi = .sysv ∨ c.abi = .stdcall ∨ c.abi = .msCdecl)
    (hal : ∀ t ∈ ats, t.align ≤ 4)
    (words : I.fn.length = 4 ∧ I.ebp.length = 4 ∧ I.retaddr.length = 4 ∧ I.pc.length = 4) (top : I.sp < 2 ^ 32)
    (room : bytes + rsize fl rt I.rvalue + 256 ≤ I.sp)
    (out : raw + 2 * bytes + rsize fl rt I.rvalue + 256 ≤ I.sp ∨ I.sp ≤ raw) {vs : List (List Byte)}
    (hraw : RawHolds I.mem ats vs raw) :
    ∃ O, rawEntry c fl bytes rt ats raw I = .ok O ∧ O.fn = I.fn ∧
      AllPassed O.entry.regs ats vs (placeFrom c.abi ats (start c.abi (inMemory (c.win32 || c.darwin) rt))) ∧
      (inMemory (c.win32 || c.darwin) rt = true → O.entry.regs.at 4 (hidden c.abi) = leBytes 4 O.rvalue) ∧
      (∀ a, I.rvalue = some a → O.rvalue = a) := by
  obtain ⟨h1, h2, h3, h4, h5, h6⟩ := x86_prep h
  have hB := x86_stackAlign (c := c) h5
  have hpre : RawPre c D fl bytes rt ats raw I :=
    ⟨h.sig.target, by rcases habi with h | h | h <;> rw [h] <;> rfl, by rcases habi with h | h | h <;> rw [h] <;> rfl, h1,
      h.sig.atsOk, hal, ⟨by omega, by omega⟩, words, top, by omega, by omega⟩
  obtain ⟨O, e1, e2, e3, e4, e5, _⟩ := rawEntry_spec hpre hraw
  rw [h2] at e3 e4
  refine ⟨O, e1, e2, e3, e4, ?_⟩
  intro a ha
  have : rsize fl rt I.rvalue = 0 := by rw [ha]; cases fl <;> rfl
  rw [e5, this, ha]
  rfl

/-! ## Examples -/

def x86I32 := mkScalar linux.tab .sint32
def x86I8 := mkScalar linux.tab .sint8
def x86I64 := mkScalar linux.tab .sint64
def x86F64 := mkScalar linux.tab .double
def x86F32 := mkScalar linux.tab .float
def x86LD := mkScalar linux.tab .longdouble
def x86Void : FType := .mk 1 1 .void []
/-- `struct { char c; }` -/
def x86S1 := mkStruct [x86I8]
/-- `struct { int a; double b; char c; }` -/
def x86S16 := mkStruct [x86I32, x86F64, x86I8]
def x86WinF64 := mkScalar windows.tab .double
def x86MacLD := mkScalar darwin.tab .longdouble

theorem x86_linux_ok : linux.Ok := ⟨.inl rfl, .inl ⟨rfl, rfl⟩⟩
theorem x86_windows_ok : windows.Ok := ⟨.inr rfl, .inl ⟨rfl, rfl⟩⟩
theorem x86_darwin_ok : Spec.X86.darwin.Ok := ⟨.inl rfl, .inr ⟨rfl, rfl⟩⟩

theorem x86_scalar_ok {D : Data} {tc : TC} (h : (D.tab tc).isSome = true) : Passable D (mkScalar D.tab tc) := by
  refine ⟨mkScalar_wf h, ?_⟩
  cases tc <;> first | (cases h; done) | (intro h'; cases h')

theorem x86I8_ok : Passable linux x86I8 := x86_scalar_ok rfl
theorem x86I32_ok : Passable linux x86I32 := x86_scalar_ok rfl
theorem x86I64_ok : Passable linux x86I64 := x86_scalar_ok rfl

theorem x86S16_ok : WF linux.tab x86S16 :=
  mkStruct_wf (tab_ok x86_linux_ok) (by simp) (by
    simpa using ⟨mkScalar_wf rfl, mkScalar_wf rfl, mkScalar_wf rfl⟩)

theorem x86S1_ok : WF linux.tab x86S1 :=
  mkStruct_wf (tab_ok x86_linux_ok) (by simp) (by simpa using x86I8_ok.1)

theorem x86_struct_ok {D : Data} {es : List FType} (h : WF D.tab (mkStruct es)) : Passable D (mkStruct es) :=
  ⟨h, fun h' => by cases h'⟩

/-- GNU/Linux. -/
def x86Gnu (A : Conv) : Cfg := ⟨A, false, false, false, false, false⟩
/-- Windows with GCC. -/
def x86Win (A : Conv) : Cfg := ⟨A, true, false, false, false, false⟩
/-- Darwin. -/
def x86Mac (A : Conv) : Cfg := ⟨A, false, true, false, false, false⟩

theorem x86Gnu_target (A : Conv) : I386.Target (x86Gnu A) linux := ⟨x86_linux_ok, fun h => by rcases h with h | h <;> cases h⟩
theorem x86Win_target (A : Conv) : I386.Target (x86Win A) windows := ⟨x86_windows_ok, fun _ => rfl⟩
theorem x86Mac_target (A : Conv) : I386.Target (x86Mac A) Spec.X86.darwin :=
  ⟨x86_darwin_ok, fun h => by rcases h with h | h <;> cases h⟩

/-- Argument objects from address 8192 on, 16 bytes apart, below a closure at 16384. -/
def x86Mem : Mem := fun a => if 8192 ≤ a then (BitVec.ofNat 8 (a * 7 + 1)) else 0#8

def x86In (n : Nat) (rv : Option Nat) : CallIn where
  sp := 4096
  mem := x86Mem
  fn := [1#8, 2#8, 3#8, 4#8]
  avalue := (List.range n).map fun i => 8192 + 16 * i
  rvalue := rv
  closure := [0#8, 0#8, 0#8, 0#8]
  ebp := [0xEE#8, 0xEE#8, 0xEE#8, 0xEE#8]
  ebx := [0xBB#8, 0xBB#8, 0xBB#8, 0xBB#8]
  retaddr := [0x11#8, 0x22#8, 0x33#8, 0x44#8]
  pc := [5#8, 6#8, 7#8, 8#8]

theorem x86_call_of {c : Cfg} {D : Data} {rt : FType} {ats : List FType} {fl : Flag} {bytes : Nat} {rv : Option Nat}
    (h : I386Prep c D rt ats fl bytes) (hb : bytes + rsize fl rt rv ≤ 3000) :
    I386Call c D rt ats fl bytes (x86In ats.length rv) where
  prep := h
  len := by simp [x86In]
  words := ⟨rfl, rfl, rfl, rfl, rfl, rfl⟩
  top := by show 4096 < 2 ^ 32; decide
  room := by show bytes + rsize fl rt rv + 256 ≤ 4096; omega
  out := by
    intro q hq
    right
    have := (List.of_mem_zip hq).2
    simp only [x86In, List.mem_map, List.mem_range] at this
    obtain ⟨i, _, hi⟩ := this
    show 4096 ≤ q.2
    omega

/-- `fastcall` with a result in memory: a register for the address, one for the first
argument, and the rest on the stack. -/
def x86Sig : List FType := [x86I8, x86F64, x86S16, x86I32, x86LD, x86I64, x86F32]

theorem x86Sig_ok : ∀ t ∈ x86Sig, Passable linux t := by
  simp only [x86Sig, List.forall_mem_cons, List.not_mem_nil, false_imp_iff, implies_true, and_true]
  exact ⟨x86_scalar_ok rfl, x86_scalar_ok rfl, x86_struct_ok x86S16_ok, x86_scalar_ok rfl, x86_scalar_ok rfl,
    x86_scalar_ok rfl, x86_scalar_ok rfl⟩

theorem x86Sig_prep : I386Prep (x86Gnu .fastcall) linux x86S16 x86Sig .structArg 60 :=
  ⟨⟨x86Gnu_target _, .inr x86S16_ok, x86Sig_ok, by decide +kernel⟩, by decide +kernel⟩

theorem x86Sig_call : I386Call (x86Gnu .fastcall) linux x86S16 x86Sig .structArg 60 (x86In 7 (some 20000)) :=
  x86_call_of x86Sig_prep (by decide)

example : placeFrom .fastcall x86Sig (start .fastcall (inMemory false x86S16)) =
    [.reg .edx, .stk 0, .stk 8, .stk 24, .stk 28, .stk 40, .stk 48] := by decide +kernel

example := C54_placement_partial x86Sig_call ⟨by decide, by decide⟩
example := C45_roundtrip_partial (closure := 16384) x86Sig_call (by decide) (fun h => by cases h) (.inl rfl)
  (.inr (by decide))
example := x86_call_entered (closure := 16384) x86Sig_call ⟨by decide, by decide⟩ (.inl rfl) (.inr (by decide))

/-- A signature in a build for Windows. -/
def x86WinSig : List FType := [mkScalar windows.tab .sint8, x86WinF64, mkScalar windows.tab .pointer]

theorem x86WinSig_ok : ∀ t ∈ x86WinSig, Passable windows t := by
  simp only [x86WinSig, List.forall_mem_cons, List.not_mem_nil, false_imp_iff, implies_true, and_true]
  exact ⟨x86_scalar_ok rfl, x86_scalar_ok rfl, x86_scalar_ok rfl⟩

theorem x86WinSig_prep (A : Conv) (fl : Flag) (b : Nat)
    (h : prep (x86Win A) (mkScalar windows.tab .double) x86WinSig = some (fl, b)) :
    I386Prep (x86Win A) windows (mkScalar windows.tab .double) x86WinSig fl b :=
  ⟨⟨x86Win_target _, .inr (mkScalar_wf rfl), x86WinSig_ok, by decide +kernel⟩, h⟩

theorem x86WinSig_call : I386Call (x86Win .stdcall) windows (mkScalar windows.tab .double) x86WinSig .double 16
    (x86In 3 (some 20000)) :=
  x86_call_of (x86WinSig_prep .stdcall .double 16 (by decide +kernel)) (by decide)

theorem x86Win_entered : ∃ O, callEntry (x86Win .stdcall) .double 16 (mkScalar windows.tab .double) x86WinSig
      (x86In 3 (some 20000)) = .ok O ∧
    I386Entered (x86Win .stdcall) windows .closure (mkScalar windows.tab .double) x86WinSig .double 16
      (argVals x86Mem x86WinSig (x86In 3 none).avalue) 16384 O.entry :=
  x86_call_entered x86WinSig_call ⟨by decide, by decide⟩ (.inl rfl) (.inr (by decide))

example : ∃ E vs, I386Entered (x86Win .stdcall) windows .closure (mkScalar windows.tab .double) x86WinSig .double 16 vs
    16384 E := by
  obtain ⟨O, _, h⟩ := x86Win_entered
  exact ⟨_, _, h⟩

example := C55_roundtrip_partial (closure := 16384) x86WinSig_call ⟨by decide, by decide⟩ (.inl rfl) (.inr (by decide)) rfl
  (by decide) (by decide +kernel)

/-- The exact condition of C46 holds for `fastcall(int, int, long long)` ... -/
example : ∃ O, callEntry (x86Gnu .fastcall) .void 16 x86Void [x86I32, x86I32, x86I64] (x86In 3 none) = .ok O ∧
    ∃ X, (let V := closureEntry (x86Gnu .fastcall) .closure .void 16 [x86I32, x86I32, x86I64] 16384 O.entry
      closureExit (x86Gnu .fastcall) .closure V.esp V.frame V.ret V.mem) = some X ∧ X.sp = O.entry.sp + 8 := by
  have hc : I386Call (x86Gnu .fastcall) linux x86Void [x86I32, x86I32, x86I64] .void 16 (x86In 3 none) :=
    x86_call_of (rv := none) ⟨⟨x86Gnu_target _, .inl rfl, by simpa using ⟨x86I32_ok, x86I64_ok⟩, by decide +kernel⟩,
      by decide +kernel⟩ (by decide)
  obtain ⟨O, hO, hE⟩ := x86_call_entered (closure := 16384) hc ⟨by decide, by decide⟩ (.inl rfl) (.inr (by decide))
  obtain ⟨X, h1, h2⟩ := C46_pop_exact_partial hE (by simp; decide) _
  refine ⟨O, hO, X, h1, ?_⟩
  have hk : ∀ k (hk : k < [x86I32, x86I32, x86I64].length),
      (x86Gnu .fastcall).abi.closes [x86I32, x86I32, x86I64][k].tc → (x86Gnu .fastcall).abi = .fastcall ∧
        (endFrom .fastcall ([x86I32, x86I32, x86I64].take k) (start .fastcall (inMemory false x86Void))).free = [] := by
    decide +kernel
  rw [h2.2 hk]
  rfl

/-- ... and fails for `thiscall(int, long long)`. -/
example : ¬ ∀ k (hk : k < [x86I32, x86I64].length), Conv.thiscall.closes [x86I32, x86I64][k].tc →
    Conv.thiscall = .fastcall ∧
      (endFrom .thiscall ([x86I32, x86I64].take k) (start .thiscall (inMemory false x86Void))).free = [] := by
  decide +kernel

example := fun m => C46_go_never_pops (c := x86Gnu .thiscall) (D := linux) (rt := x86Void) (ats := [x86I32, x86I32])
  (fl := .void) (bytes := 8) (vs := [[1#8, 0#8, 0#8, 0#8], [0#8, 0#8, 0#8, 0#8]]) (closure := 16384)
  (E := ⟨leBytes 4 16384, [0#8, 0#8, 0#8, 0#8], [1#8, 0#8, 0#8, 0#8], [0#8, 0#8, 0#8, 0#8], x86Mem, 4096⟩)
  { prep := ⟨⟨x86Gnu_target _, .inl rfl, by simpa using x86I32_ok, by decide +kernel⟩, by decide +kernel⟩
    abi := ⟨by decide, by decide⟩
    ebx := .inl rfl
    words := ⟨rfl, rfl, rfl, rfl⟩
    sp := ⟨by decide, by decide⟩
    align := ⟨by decide, fun _ => by decide⟩
    obj := .inr (by decide)
    chain := fun _ => by decide
    passed := ⟨⟨rfl, fun _ => rfl⟩, ⟨rfl, fun _ => rfl⟩, trivial⟩ } (.inl rfl) m

/-- `FFI_PASCAL` with four words on the stack, which fill 16 bytes. -/
theorem x86Pascal_call (fl : Flag) (rt : FType) (hr : Result linux rt)
    (h : prep (x86Gnu .pascal) rt [x86I32, x86F64, x86I8] = some (fl, 16)) :
    I386Call (x86Gnu .pascal) linux rt [x86I32, x86F64, x86I8] fl 16 (x86In 3 (some 20000)) := by
  refine x86_call_of ⟨⟨x86Gnu_target _, hr, ?_, by decide +kernel⟩, h⟩ ?_
  · simp only [List.forall_mem_cons, List.not_mem_nil, false_imp_iff, implies_true, and_true]
    exact ⟨x86_scalar_ok rfl, x86_scalar_ok rfl, x86_scalar_ok rfl⟩
  · cases fl <;> show 16 + 0 ≤ 3000 <;> decide

example := C54_reversed_partial (x86Pascal_call .void x86Void (.inl rfl) (by decide +kernel)) (.inl rfl) (by decide +kernel)
example : pushed [x86I32, x86F64, x86I8] (Conv.regs .pascal) = stackAlign (x86Gnu .pascal) 16 := by decide +kernel
example := C45_roundtrip_partial (closure := 16384) (x86Pascal_call .void x86Void (.inl rfl) (by decide +kernel)) (by decide)
  (fun _ => by decide +kernel) (.inl rfl) (.inr (by decide))

/-! ## Violations: C54 -/

theorem x86_ok {e : Except Abn CallOut} {P : CallOut → Prop} [DecidablePred P]
    (h : e.toOption.map (fun O => decide (P O)) = some true) : ∃ O, e = .ok O ∧ P O := by
  cases e with
  | error e => cases h
  | ok O => exact ⟨O, rfl, by simpa [Except.toOption] using h⟩

theorem x86_one {A : Conv} {t rt : FType} {fl : Flag} {b : Nat} (ht : Passable linux t) (hr : Result linux rt)
    (hs : t.size ≤ 100) (hp : prep (x86Gnu A) rt [t] = some (fl, b)) (hb : b ≤ 2000) (rv : Nat) :
    I386Call (x86Gnu A) linux rt [t] fl b (x86In 1 (some rv)) :=
  x86_call_of (rv := some rv)
    ⟨⟨x86Gnu_target _, hr, by simpa using ht, by
      simp only [List.map_cons, List.map_nil, List.sum_cons, List.sum_nil]; omega⟩, hp⟩
    (by have : rsize fl rt (some rv) = 0 := by cases fl <;> rfl
        omega)

/-- C54 violated: an `FFI_PASCAL` call with one `int` puts it 12 bytes above the place
where the function looks for it. -/
theorem C54_pascal_gap : ∃ I, I386Call (x86Gnu .pascal) linux x86Void [x86I32] .void 4 I ∧
    placeRev [x86I32] (Conv.regs .pascal) = [.stk 0] ∧
    ∃ O, callEntry (x86Gnu .pascal) .void 4 x86Void [x86I32] I = .ok O ∧
      O.entry.mem.rd O.entry.sp 4 ≠ I.mem.rd 8192 4 ∧ O.entry.mem.rd (O.entry.sp + 12) 4 = I.mem.rd 8192 4 :=
  ⟨_, x86_one x86I32_ok (.inl rfl) (by decide) (by decide +kernel) (by decide) 20000, by decide +kernel,
    x86_ok (by decide +kernel)⟩

/-- C54 violated: `FFI_PASCAL` and `FFI_REGISTER` calls with a result in memory do not
pass its address at all: it is in no register and nowhere on the stack of arguments. -/
theorem C54_pascal_hidden_lost : ∀ A, A = Conv.pascal ∨ A = .register →
    ∃ I, I386Call (x86Gnu A) linux x86S16 [x86I64] .structPop 12 I ∧
      ∃ O, callEntry (x86Gnu A) .structPop 12 x86S16 [x86I64] I = .ok O ∧ O.rvalue = 20000 ∧
        O.entry.eax ≠ leBytes 4 20000 ∧ O.entry.edx ≠ leBytes 4 20000 ∧ O.entry.ecx ≠ leBytes 4 20000 ∧
        ∀ o, o < O.frame - O.entry.sp → O.entry.mem.rd (O.entry.sp + o) 4 ≠ leBytes 4 20000 := by
  rintro A (rfl | rfl)
  · exact ⟨_, x86_one x86I64_ok (.inr x86S16_ok) (by decide) (by decide +kernel) (by decide) 20000,
      x86_ok (by decide +kernel)⟩
  · exact ⟨_, x86_one x86I64_ok (.inr x86S16_ok) (by decide) (by decide +kernel) (by decide) 20000,
      x86_ok (by decide +kernel)⟩

/-! ## Violations: C45 -/

/-- C45 violated: every `FFI_REGISTER` closure takes its return address for its own
address, and will return to its own address. -/
theorem C45_register_swapped {c : Cfg} (hc : c.abi = .register) (closure : Nat) (E : Entry)
    (hw : E.eax.length = 4 ∧ E.edx.length = 4 ∧ E.ecx.length = 4 ∧ E.ebx.length = 4) (hsp : 64 ≤ E.sp) :
    (asmEntry c .closure closure E).self = leNat (E.mem.rd (E.sp - 4) 4) ∧
      (asmEntry c .closure closure E).mem.rd (E.sp - 4) 4 = leBytes 4 closure := by
  obtain ⟨ha, hd, hcx, hb⟩ := hw
  have hfs : c.pcc = false ∧ fs c = 44 ∧ cf c = 0 ∨ c.pcc = true ∧ fs c = 60 ∧ cf c = 8 := by
    unfold fs cf; cases c.pcc <;> simp
  have hl : (leBytes 4 closure).length = 4 := by simp
  have e1 : E.sp - 4 - fs c + fs c = E.sp - 4 := by omega
  have e2 : E.sp - 4 - fs c + fs c - 4 = E.sp - 8 := by omega
  unfold asmEntry
  dsimp only
  rw [if_pos hc]
  dsimp only
  rw [e2, e1]
  generalize hes : E.sp - 4 - fs c = esp
  generalize hfr : esp + cf c = fr
  have hsv : ∀ a, E.sp - 8 ≤ a → ∀ m, (saveRegs fr E.eax E.edx E.ecx m).rd a 4 = m.rd a 4 := by
    intro a ha' m
    unfold saveRegs
    rw [Mem.rd_wr_disj _ _ _ _ _ (by omega), Mem.rd_wr_disj _ _ _ _ _ (by omega), Mem.rd_wr_disj _ _ _ _ _ (by omega)]
  constructor
  · rw [hsv _ (by omega), Mem.rd_wr_disj _ _ _ _ _ (by omega)]
  · rw [hsv (E.sp - 8) (by omega), rd_wr hl]
    generalize hm0 : (saveRegs fr E.eax E.edx E.ecx (E.mem.wr (E.sp - 8) (leBytes 4 closure))).wr (E.sp - 4)
      (leBytes 4 closure) = m0
    have h0 : m0.rd (E.sp - 4) 4 = leBytes 4 closure := by rw [← hm0]; exact rd_wr hl
    generalize leNat _ = self
    have h1 : (copyData .closure fr self m0).rd (E.sp - 4) 4 = leBytes 4 closure := by
      unfold copyData
      dsimp only
      rw [Mem.rd_wr_disj _ _ _ _ _ (by simp; omega), Mem.rd_wr_disj _ _ _ _ _ (by simp; omega),
        Mem.rd_wr_disj _ _ _ _ _ (by simp; omega), h0]
    generalize copyData .closure fr self m0 = m1 at h1
    have h2 : (if c.pcc = true then (m1.wr esp (leBytes 4 fr)).wr (esp + 4) (leBytes 4 E.sp) else m1).rd (E.sp - 4) 4 =
        leBytes 4 closure := by
      split
      · rw [Mem.rd_wr_disj _ _ _ _ _ (by simp; omega), Mem.rd_wr_disj _ _ _ _ _ (by simp; omega), h1]
      · exact h1
    generalize (if c.pcc = true then (m1.wr esp (leBytes 4 fr)).wr (esp + 4) (leBytes 4 E.sp) else m1) = m2 at h2
    split
    · rw [Mem.rd_wr_disj _ _ _ _ _ (by omega), h2]
    · exact h2

/-- What the closure then takes for its `cif`, handler and data is found at its return
address: here the handler differs from the one stored in the closure. -/
theorem C45_register_lost : ∃ I, I386Call (x86Gnu .register) linux x86Void [x86I32] .void 4 I ∧
    ∃ O, callEntry (x86Gnu .register) .void 4 x86Void [x86I32] I = .ok O ∧
      (closureEntry (x86Gnu .register) .closure .void 4 [x86I32] 16384 O.entry).handler ≠ I.mem.rd (16384 + 20) 4 :=
  ⟨_, x86_one x86I32_ok (.inl rfl) (by decide) (by decide +kernel) (by decide) 20000, x86_ok (by decide +kernel)⟩

/-- C45 violated: under `FFI_PASCAL` with a result in memory the first argument is
overwritten by the saved %ebp, and the handler is given %ebp as the address of the
result. -/
theorem C45_pascal_lost : ∃ I, I386Call (x86Gnu .pascal) linux x86S16 [x86I32] .structPop 8 I ∧
    ∃ O, callEntry (x86Gnu .pascal) .structPop 8 x86S16 [x86I32] I = .ok O ∧
      let V := closureEntry (x86Gnu .pascal) .closure .structPop 8 [x86I32] 16384 O.entry
      V.args.map (fun a => V.mem.rd a 4) = [I.ebp] ∧ I.mem.rd 8192 4 ≠ I.ebp ∧ V.rvalue = leNat I.ebp :=
  ⟨_, x86_one x86I32_ok (.inr x86S16_ok) (by decide) (by decide +kernel) (by decide) 20000, x86_ok (by decide +kernel)⟩

/-- C45 violated: a complex number of two 16-bit integers is accepted by `ffi_prep_cif`
and makes `ffi_call` abort. -/
theorem C45_small_complex_aborts : ∃ t, WF linux.tab t ∧ prep (x86Gnu .sysv) x86Void [t] = some (.void, 4) ∧
    ∀ I : CallIn, I.avalue.length = 1 → (callEntry (x86Gnu .sysv) .void 4 x86Void [t] I).toOption.isNone = true := by
  refine ⟨mkComplex linux.tab .sint16, mkComplex_wf rfl rfl, by decide +kernel, ?_⟩
  intro I hI
  obtain ⟨a, ha⟩ := List.length_eq_one_iff.1 hI
  unfold callEntry
  rw [ha]
  rfl

/-- C45 violated: with the Portable C Compiler and PIC without hidden visibility every
closure calls whatever is in %ebx instead of its handler. -/
theorem C45_pcc_handler {c : Cfg} (hp : c.pcc = true) (hs : c.saveEbx = true) (kind : Kind) (closure : Nat) (E : Entry)
    (hb : E.ebx.length = 4) :
    let A := asmEntry c kind closure E
    A.mem.rd (A.esp + cf c + 32) 4 = E.ebx := by
  intro A
  have hA : A = asmEntry c kind closure E := rfl
  unfold asmEntry at hA
  dsimp only at hA
  rw [if_pos hs] at hA
  rw [hA]
  dsimp only
  have : cf c = 8 := by unfold cf; rw [hp]; rfl
  rw [this]
  exact rd_wr hb

/-! ## Violations: C46 -/

/-- How far the stack pointer moves when `ffi_call` calls a closure. -/
def x86Popped (c : Cfg) (fl : Flag) (b : Nat) (ats : List FType) (O : CallOut) : Option Nat :=
  let V := closureEntry c .closure fl b ats 16384 O.entry
  (closureExit c .closure V.esp V.frame V.ret V.mem).map fun X => X.sp - O.entry.sp

/-- C46 violated: a `FFI_FASTCALL` closure with one 64-bit integer argument removes
nothing, one with a struct of one byte about 2^28 bytes. -/
theorem C46_fastcall_wrong :
    (∃ I, I386Call (x86Gnu .fastcall) linux x86Void [x86I64] .void 8 I ∧
      popped .fastcall false x86Void [x86I64] = 8 ∧
      ∃ O, callEntry (x86Gnu .fastcall) .void 8 x86Void [x86I64] I = .ok O ∧
        x86Popped (x86Gnu .fastcall) .void 8 [x86I64] O = some 0) ∧
    (∃ I, I386Call (x86Gnu .fastcall) linux x86Void [x86S1] .void 4 I ∧
      popped .fastcall false x86Void [x86S1] = 4 ∧
      ∃ O, callEntry (x86Gnu .fastcall) .void 4 x86Void [x86S1] I = .ok O ∧
        x86Popped (x86Gnu .fastcall) .void 4 [x86S1] O = some 0x0FFFFFFC) :=
  ⟨⟨_, x86_one x86I64_ok (.inl rfl) (by decide) (by decide +kernel) (by decide) 20000, by decide +kernel,
      x86_ok (by decide +kernel)⟩,
    ⟨_, x86_one (x86_struct_ok x86S1_ok) (.inl rfl) (by decide) (by decide +kernel) (by decide) 20000, by decide +kernel,
      x86_ok (by decide +kernel)⟩⟩

/-- C46 violated: alignment.  `cif->bytes` contains padding that is not on the stack: a
`FFI_THISCALL` closure on Windows with a pointer and a `double` removes 12 bytes instead
of 8, and a `FFI_STDCALL` closure on Darwin with an `int` and a `long double` 32 instead
of 20. -/
theorem C46_padding_wrong :
    (∃ I, I386Call (x86Win .thiscall) windows x86Void [mkScalar windows.tab .pointer, x86WinF64] .void 16 I ∧
      popped .thiscall true x86Void [mkScalar windows.tab .pointer, x86WinF64] = 8 ∧
      ∃ O, callEntry (x86Win .thiscall) .void 16 x86Void [mkScalar windows.tab .pointer, x86WinF64] I = .ok O ∧
        x86Popped (x86Win .thiscall) .void 16 [mkScalar windows.tab .pointer, x86WinF64] O = some 12) ∧
    (∃ I, I386Call (x86Mac .stdcall) Spec.X86.darwin x86Void [mkScalar Spec.X86.darwin.tab .sint32, x86MacLD] .void 32 I ∧
      popped .stdcall true x86Void [mkScalar Spec.X86.darwin.tab .sint32, x86MacLD] = 20 ∧
      ∃ O, callEntry (x86Mac .stdcall) .void 32 x86Void [mkScalar Spec.X86.darwin.tab .sint32, x86MacLD] I = .ok O ∧
        x86Popped (x86Mac .stdcall) .void 32 [mkScalar Spec.X86.darwin.tab .sint32, x86MacLD] O = some 32) := by
  constructor
  · refine ⟨_, x86_call_of (rv := none) ⟨⟨x86Win_target _, .inl rfl, ?_, by decide +kernel⟩, by decide +kernel⟩ (by decide),
      by decide +kernel, x86_ok (by decide +kernel)⟩
    simp only [List.forall_mem_cons, List.not_mem_nil, false_imp_iff, implies_true, and_true]
    exact ⟨x86_scalar_ok rfl, x86_scalar_ok rfl⟩
  · refine ⟨_, x86_call_of (rv := none) ⟨⟨x86Mac_target _, .inl rfl, ?_, by decide +kernel⟩, by decide +kernel⟩ (by decide),
      by decide +kernel, x86_ok (by decide +kernel)⟩
    simp only [List.forall_mem_cons, List.not_mem_nil, false_imp_iff, implies_true, and_true]
    exact ⟨x86_scalar_ok rfl, x86_scalar_ok rfl⟩

/-- C46 violated: `FFI_PASCAL` closures remove nothing. -/
theorem C46_pascal_wrong : ∃ I, I386Call (x86Gnu .pascal) linux x86Void [x86I32] .void 4 I ∧
    popped .pascal false x86Void [x86I32] = 4 ∧
    ∃ O, callEntry (x86Gnu .pascal) .void 4 x86Void [x86I32] I = .ok O ∧
      x86Popped (x86Gnu .pascal) .void 4 [x86I32] O = some 0 :=
  ⟨_, x86_one x86I32_ok (.inl rfl) (by decide) (by decide +kernel) (by decide) 20000, by decide +kernel,
    x86_ok (by decide +kernel)⟩

/-! ## Violations: C47 -/

/-- Two raw arguments, 1 and 2, followed by other memory. -/
def x86RawMem (z : Byte) : Mem := fun a => if a = 8192 then 1#8 else if a = 8196 then 2#8 else if 8200 ≤ a then z else 0#8

def x86RawIn (sp : Nat) (z : Byte) : CallIn := { x86In 1 none with mem := x86RawMem z, sp := sp }

theorem x86Raw_holds (z : Byte) :
    RawHolds (x86RawMem z) [x86I32, x86I32] [[1#8, 0#8, 0#8, 0#8], [2#8, 0#8, 0#8, 0#8]] 8192 := by
  refine ⟨rfl, ?_, rfl, ?_, trivial⟩ <;> intro _ <;> rfl

/-- The partial theorem applies to this array under `FFI_SYSV`. -/
example := C47_raw_partial (c := x86Gnu .sysv) (D := linux) (rt := x86Void) (fl := .void) (bytes := 8) (raw := 8192)
  (I := x86RawIn 4096 0) ⟨⟨x86Gnu_target _, .inl rfl, by simpa using x86I32_ok, by decide +kernel⟩, by decide +kernel⟩
  (.inl rfl) (by simp; decide) ⟨rfl, rfl, rfl, rfl⟩ (by decide) (by decide) (.inr (by decide)) (x86Raw_holds 0)

/-- C47 violated: under `FFI_FASTCALL` the second of two `int` arguments is read 16 bytes
after the start of the array, which has eight: %edx receives whatever is there. -/
theorem C47_fastcall_wrong (z : Byte) :
    RawHolds (x86RawIn 4096 z).mem [x86I32, x86I32] [[1#8, 0#8, 0#8, 0#8], [2#8, 0#8, 0#8, 0#8]] 8192 ∧
    rawBytes [x86I32, x86I32] = 8 ∧
    prep (x86Gnu .fastcall) x86Void [x86I32, x86I32] = some (.void, 8) ∧
    (rawEntry (x86Gnu .fastcall) .void 8 x86Void [x86I32, x86I32] 8192 (x86RawIn 4096 z)).toOption.map
      (fun O => (O.entry.ecx, O.entry.edx)) = some ([1#8, 0#8, 0#8, 0#8], [z, z, z, z]) := by
  refine ⟨x86Raw_holds z, rfl, by decide +kernel, ?_⟩
  revert z
  decide +kernel

/-- C47 violated: with no register arguments `ffi_raw_call` copies whole multiples of 16
bytes: what follows the array of eight bytes is read and reaches the stack. -/
theorem C47_overread (z : Byte) :
    (∀ y, ∀ a, a < 8200 → (x86RawIn 4096 y).mem a = (x86RawIn 4096 z).mem a) ∧
    rawBytes [x86I32, x86I32] = 8 ∧
    (rawEntry (x86Gnu .sysv) .void 8 x86Void [x86I32, x86I32] 8192 (x86RawIn 4096 z)).toOption.map
      (fun O => O.entry.mem.rd (O.entry.sp + 8) 8) = some [z, z, z, z, z, z, z, z] := by
  refine ⟨?_, rfl, by revert z; decide +kernel⟩
  intro y a ha
  show x86RawMem y a = x86RawMem z a
  unfold x86RawMem
  rw [if_neg (show ¬ 8200 ≤ a by omega), if_neg (show ¬ 8200 ≤ a by omega)]

/-- C47 violated: clearing bit 4 of the address that `alloca` returns, instead of
rounding it down, moves the stack out of the block: the arguments start 16 bytes below
it. -/
theorem C47_below_block : ∃ O, rawEntry (x86Gnu .sysv) .void 8 x86Void [x86I32, x86I32] 8192 (x86RawIn 4112 0) = .ok O ∧
    O.entry.sp + 16 = alloca (x86Gnu .sysv) 4112 (stackAlign (x86Gnu .sysv) 8 + 32 + 0 + 15) :=
  x86_ok (by decide +kernel)

/-- C47 violated: the order of the arguments under `FFI_PASCAL` is not reversed. -/
theorem C47_pascal_wrong : placeRev [x86I32, x86I32] (Conv.regs .pascal) = [.stk 4, .stk 0] ∧
    RawHolds (x86RawIn 4096 0).mem [x86I32, x86I32] [[1#8, 0#8, 0#8, 0#8], [2#8, 0#8, 0#8, 0#8]] 8192 ∧
    ∃ O, rawEntry (x86Gnu .pascal) .void 8 x86Void [x86I32, x86I32] 8192 (x86RawIn 4096 0) = .ok O ∧
      O.entry.mem.rd O.entry.sp 4 = [1#8, 0#8, 0#8, 0#8] ∧ O.entry.mem.rd (O.entry.sp + 4) 4 = [2#8, 0#8, 0#8, 0#8] :=
  ⟨by decide +kernel, x86Raw_holds 0, x86_ok (by decide +kernel)⟩

end Verif.Props
