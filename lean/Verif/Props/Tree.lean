import Verif.Core.Tree
import Verif.Props.Core
import Verif.Props.X64
import Verif.Props.Win64
import Verif.Props.AArch64
import Verif.Props.RiscV
import Verif.Props.I386
import Verif.Props.Arm

/-
Property C71: what the machine-dependent files see after `ffi_prep_cif`.
-/
namespace Verif.Props
open Verif Spec

/-- A signature as declared: a result that is `void` or a declared type, arguments that are
declared types; complex types only where the target supports them. -/
structure DeclaredSig (tab : ScalarTab) (T : Target) (h : Heap) (rtype : Addr) (atypes : List Addr) : Prop where
  ret : IsVoid h rtype ∨ Declared tab h rtype
  args : ∀ a ∈ atypes, Declared tab h a
  cx : T.hasComplex = false → ∀ a ∈ rtype :: atypes, ∀ d, h a = some d → d.tc ≠ .complex

theorem DeclaredSig.sigOk {tab : ScalarTab} {T : Target} {h0 h : Heap} {rtype : Addr} {atypes : List Addr}
    (hs : DeclaredSig tab T h0 rtype atypes) (hset : Settled h0 h) : SigOk T h (rtype :: atypes) where
  ptr a ha := by
    have : ∃ d, h0 a = some d := by
      rcases List.mem_cons.1 ha with rfl | ha
      · rcases hs.ret with h1 | h1
        · exact ⟨_, h1⟩
        · exact h1.ptr
      · exact (hs.args a ha).ptr
    obtain ⟨d, hd⟩ := this
    exact hset.valid_ptr hd
  cx hT a ha d hd := by
    rcases hset.good a with hg | ⟨d', s, al, h1, _, _, h4⟩
    · rw [hg] at hd
      exact hs.cx hT a ha d hd
    · rw [h4] at hd
      cases hd
      exact hs.cx hT a ha d' h1

/-- The trees of a signature in a heap: what its types unfold to, all well-formed. -/
structure SigTrees (tab : ScalarTab) (h : Heap) (rtype : Addr) (atypes : List Addr) (rt : FType) (ats : List FType) :
    Prop where
  ret : Unfolds h rtype rt
  args : UnfoldsL h atypes ats
  retOk : rt = voidT ∨ WF tab rt
  argsOk : ∀ t ∈ ats, WF tab t

theorem sig_trees {tab : ScalarTab} (ht : TabOk tab) {T : Target} {h0 h1 h' : Heap}
    (hset : Settled h0 h1) (hset' : Settled h1 h') {rtype : Addr} {atypes : List Addr}
    (hs : DeclaredSig tab T h0 rtype atypes) (hcl : ∀ a ∈ rtype :: atypes, Closed h1 h' a) :
    ∃ rt ats, SigTrees tab h' rtype atypes rt ats := by
  have hall := hset.trans hset'
  have hcl0 : ∀ a ∈ rtype :: atypes, Closed h0 h' a := by
    intro a ha
    by_cases hu : Unset h0 a
    · exact hall.done a hu (hcl a ha a (.refl a))
    · intro c hv
      cases hv with
      | refl => exact hcl a ha a (.refl a)
      | step hd hz _ _ _ => exact absurd ⟨_, hd, hz⟩ hu
  have hargs : ∀ l : List Addr, (∀ a ∈ l, a ∈ atypes) → ∃ ts, UnfoldsL h' l ts ∧ ∀ t ∈ ts, WF tab t := by
    intro l
    induction l with
    | nil => exact fun _ => ⟨[], .nil, by simp⟩
    | cons a l ih =>
      intro hl
      obtain ⟨ts, h1, h2⟩ := ih (fun x hx => hl x (by simp [hx]))
      have ha := hl a (by simp)
      obtain ⟨t, h3, h4, _⟩ := declared_unfolds ht hall (hs.args a ha) (hcl0 a (by simp [ha]))
      refine ⟨t :: ts, .cons h3 h1, ?_⟩
      intro x hx
      rcases List.mem_cons.1 hx with rfl | hx
      · exact h4
      · exact h2 x hx
  obtain ⟨ats, ha1, ha2⟩ := hargs atypes (fun _ h => h)
  rcases hs.ret with hv | hd
  · have hu : ¬ Unset h0 rtype := by
      rintro ⟨d', hd', h0'⟩; rw [hv] at hd'; cases hd'; cases h0'
    exact ⟨voidT, ats, .mk (((hall.good rtype).of_not_unset hu).trans hv) .nil, ha1, .inl rfl, ha2⟩
  · obtain ⟨rt, h1, h2, _⟩ := declared_unfolds ht hall hd (hcl0 rtype (by simp))
    exact ⟨rt, ats, h1, ha1, .inr h2, ha2⟩

theorem treeBytes_eq {T : Target} {h : Heap} {rtype : Addr} {atypes : List Addr} {rt : FType} {ats : List FType}
    (h1 : Unfolds h rtype rt) (h2 : UnfoldsL h atypes ats) {dr : Desc} (hdr : h rtype = some dr) :
    bytesFold T h (retBytes T dr) atypes = treeBytes T rt ats := by
  rw [bytesFold_trees h2]
  cases h1 with
  | mk hd _ =>
    rw [hdr] at hd
    cases hd
    rfl

/-- C71: after any history of preparations, preparing a signature of declared types ends
either with `FFI_BAD_TYPEDEF` — exactly if one of the types has no layout, that is, contains
an empty struct — or with the outcome of the machine-dependent stage; that stage sees every
type as a well-formed tree and `cif->bytes` as the stack space of those trees. -/
theorem C71_machdep {tab : ScalarTab} (ht : TabOk tab) {T0 T : Target} {h0 h : Heap} (hv : Valid h0)
    (hh : PrepHist T0 h0 h) {rtype : Addr} {atypes : List Addr} (hs : DeclaredSig tab T h0 rtype atypes) :
    ∃ N, ∀ n, N ≤ n → ∀ cif abi isvar nfixed, T.firstAbi < abi → abi < T.lastAbi →
      ((¬ ∀ t ∈ rtype :: atypes, HasLayout h0 t) →
        ∃ h' c', prepCifCore T n h cif abi isvar nfixed rtype atypes = .ok (.badTypedef, h', c')) ∧
      ((∀ t ∈ rtype :: atypes, HasLayout h0 t) → ∃ h' rt ats, SigTrees tab h' rtype atypes rt ats ∧
        prepCifCore T n h cif abi isvar nfixed rtype atypes =
          match T.machdep isvar nfixed h' ⟨abi, atypes.length, atypes, rtype, treeBytes T rt ats, 0⟩ with
          | .error e => .error e
          | .ok (s, c) => .ok (s, h', c)) := by
  have hset := hist_settled hv hh
  have hv' := hset.valid hv
  have hsig := hs.sigOk hset
  have hlay : ∀ t, HasLayout h t ↔ HasLayout h0 t := fun t =>
    ⟨fun ⟨s, al, hl⟩ => ⟨s, al, hset.layout_back hl⟩, fun ⟨s, al, hl⟩ => ⟨s, al, hset.layout_of hl⟩⟩
  obtain ⟨N, hN⟩ := prepCifCore_spec hv' T hsig.ptr hsig.cx
  refine ⟨N, fun n hn cif abi isvar nfixed h1 h2 => ?_⟩
  rcases hN n hn cif abi isvar nfixed h1 h2 with ⟨hall, h', dr, hr, hdr, hset', hcl⟩ | ⟨hno, h', c', hr⟩
  · refine ⟨fun hc => absurd (fun t ht => (hlay t).1 (hall t ht)) hc, fun _ => ?_⟩
    obtain ⟨rt, ats, htr⟩ := sig_trees ht hset hset' hs hcl
    refine ⟨h', rt, ats, htr, ?_⟩
    rw [hr, treeBytes_eq htr.ret htr.args hdr]
    generalize T.machdep isvar nfixed h' _ = x
    cases x <;> rfl
  · exact ⟨fun _ => ⟨h', c', hr⟩, fun hall => absurd (fun t ht => (hlay t).2 (hall t ht)) hno⟩

/-- C71: which declared types have no layout: those that contain an empty struct. -/
theorem C71_layout_iff {tab : ScalarTab} (ht : TabOk tab) {h : Heap} (hv : Valid h) {a : Addr}
    (hd : Declared tab h a) :
    HasLayout h a ↔ ∀ b d, Visits h a b → h b = some d → d.elements ≠ some [] := by
  induction hd with
  | @scalar a s al tc ha htab =>
    have hpos := (ht tc s al htab).2.1
    refine ⟨fun _ b d hb hd => ?_, fun _ => ⟨s, al, .preset ha (by dsimp only; omega)⟩⟩
    cases hb with
    | refl => rw [ha] at hd; cases hd; exact nofun
    | step hd' hz _ _ _ => rw [ha] at hd'; cases hd'; dsimp only at hz; omega
  | @complex a e s al tc ha he hb htab =>
    have hpos := (ht tc s al htab).2.1
    refine ⟨fun _ b d hb hd => ?_, fun _ => ⟨2 * s, al, .preset ha (by dsimp only; omega)⟩⟩
    cases hb with
    | refl => rw [ha] at hd; cases hd; exact nofun
    | step hd' hz _ _ _ => rw [ha] at hd'; cases hd'; dsimp only at hz; omega
  | @struct a al es ha hes ih =>
    rw [hasLayout_agg_iff hv ha rfl rfl]
    constructor
    · rintro ⟨hne, hall⟩ b d hb hd
      cases hb with
      | refl => rw [ha] at hd; cases hd; intro hc; cases hc; exact hne rfl
      | step hd' _ he hmem hvis =>
        rw [ha] at hd'
        cases hd'
        cases he
        exact (ih _ hmem).1 (hall _ hmem) b d hvis hd
    · intro hall
      refine ⟨?_, fun e hmem => (ih e hmem).2 fun b d hb hd => hall b d (.step ha rfl rfl hmem hb) hd⟩
      rintro rfl
      exact hall a _ (.refl a) ha rfl

/-- The outcome of a successful preparation. -/
theorem core_trees {tab : ScalarTab} (ht : TabOk tab) {T0 T : Target} {h0 h : Heap} (hv : Valid h0)
    (hh : PrepHist T0 h0 h) {rtype : Addr} {atypes : List Addr} (hs : DeclaredSig tab T h0 rtype atypes)
    {n cif abi isvar nfixed h' c'}
    (hres : prepCifCore T n h cif abi isvar nfixed rtype atypes = .ok (.ok, h', c')) :
    ∃ rt ats, SigTrees tab h' rtype atypes rt ats ∧
      T.machdep isvar nfixed h' ⟨abi, atypes.length, atypes, rtype, treeBytes T rt ats, 0⟩ = .ok (.ok, c') := by
  by_cases habi : T.firstAbi < abi ∧ abi < T.lastAbi
  · obtain ⟨N, hN⟩ := C71_machdep ht hv hh hs
    have hres' := prepCifCore_mono (m := max n N) (by omega) hres
    obtain ⟨h1, h2⟩ := hN (max n N) (by omega) cif abi isvar nfixed habi.1 habi.2
    by_cases hall : ∀ t ∈ rtype :: atypes, HasLayout h0 t
    · obtain ⟨h1', rt, ats, htr, hr⟩ := h2 hall
      rw [hr] at hres'
      split at hres'
      · cases hres'
      · rename_i hm
        cases hres'
        exact ⟨rt, ats, htr, hm⟩
    · obtain ⟨h1', c1, hr⟩ := h1 hall
      rw [hr] at hres'
      cases hres'
  · unfold prepCifCore at hres
    rw [if_pos habi] at hres
    cases hres

/-- A target whose machine-dependent stage is given on trees. -/
noncomputable def treeTarget (first last arg ptr : Nat) (cx specific : Bool) (mach : Mach) : Target :=
  ⟨first, last, arg, ptr, cx, specific, onTrees mach⟩

/-- C71: a successful `ffi_prep_cif` or `ffi_prep_cif_var`. -/
theorem C71_success {tab : ScalarTab} (ht : TabOk tab) {T0 : Target} {first last arg ptr : Nat} {cx specific : Bool}
    {mach : Mach} {h0 h : Heap} (hv : Valid h0) (hh : PrepHist T0 h0 h) {rtype : Addr} {atypes : List Addr}
    (hs : DeclaredSig tab (treeTarget first last arg ptr cx specific mach) h0 rtype atypes)
    {n cif abi isvar nfixed h' c'}
    (hres : (isvar = false ∧ nfixed = atypes.length ∧
        prepCif (treeTarget first last arg ptr cx specific mach) n h cif abi rtype atypes = .ok (.ok, h', c')) ∨
      (isvar = true ∧ ∃ fa isz,
        prepCifVar (treeTarget first last arg ptr cx specific mach) fa isz n h cif abi nfixed rtype atypes =
          .ok (.ok, h', c'))) :
    ∃ rt ats, SigTrees tab h' rtype atypes rt ats ∧
      mach abi isvar nfixed rt ats (treeBytes (treeTarget first last arg ptr cx specific mach) rt ats) =
        .ok (.ok, c'.bytes, c'.flags) ∧
      c'.abi = abi ∧ c'.nargs = atypes.length ∧ c'.argTypes = atypes ∧ c'.rtype = rtype := by
  have hcore : prepCifCore (treeTarget first last arg ptr cx specific mach) n h cif abi isvar nfixed rtype atypes =
      .ok (.ok, h', c') := by
    rcases hres with ⟨rfl, rfl, h1⟩ | ⟨rfl, fa, isz, h1⟩
    · exact h1
    · exact prepVar_core h1
  obtain ⟨rt, ats, htr, hm⟩ := core_trees ht hv hh hs hcore
  refine ⟨rt, ats, htr, ?_⟩
  have he : (treeTarget first last arg ptr cx specific mach).machdep = onTrees mach := rfl
  rw [he, onTrees_eq htr.ret htr.args] at hm
  dsimp only at hm
  split at hm
  · rename_i s b f hb
    rw [hb]
    cases hm
    exact ⟨rfl, rfl, rfl, rfl, rfl⟩
  · cases hm

/-! ## The targets -/

/-- x86-64 (not Windows): src/x86/ffitarget.h:55-57, 95-102, and the dispatch of
`ffi_prep_cif_machdep`, src/x86/ffi64.c:409-414, to src/x86/ffiw64.c; `e1` and `e2` encode the
flags. -/
noncomputable def x64Target (e1 : X64.Flags → Nat) (e2 : Win64.Flag → Nat) : Target :=
  treeTarget 1 5 8 8 true true fun abi _ _ rt ats _ =>
    if abi = 3 then .ok (.ok, (Win64.prep .win64 rt ats).2, e2 (Win64.prep .win64 rt ats).1)
    else if abi = 4 then .ok (.ok, (Win64.prep .gnuw64 rt ats).2, e2 (Win64.prep .gnuw64 rt ats).1)
    else
      match X64.prep rt ats with
      | .error e => .error e
      | .ok none => .ok (.badTypedef, 0, 0)
      | .ok (some (fl, b)) => .ok (.ok, b, e1 fl)

/-- AArch64: src/aarch64/ffitarget.h:46-49, 94. -/
noncomputable def a64Target (e : Bool → Nat → A64.Flags → Nat) : Target :=
  treeTarget 0 3 8 8 true false fun _ isvar nfixed rt ats b =>
    match A64.prep rt ats b with
    | .error err => .error err
    | .ok (f, b) => .ok (.ok, b, e isvar nfixed f)

/-- 32-bit ARM: src/arm/ffitarget.h:42-45, 61. -/
noncomputable def armTarget (e : Arm.Cif → Nat) : Target :=
  treeTarget 0 3 4 4 true false fun abi isvar _ rt ats b =>
    match Arm.prepMach (abi == 2 && !isvar) rt ats b with
    | .error err => .error err
    | .ok c => .ok (.ok, c.bytes, e c)

/-- 32-bit x86: src/x86/ffitarget.h:55-57, 104-126; `abi` decodes the ABI numbers of the
platform. -/
noncomputable def x86Target (last : Nat) (cfg : Nat → I386.Cfg) (e : I386.Flag → Nat) : Target :=
  treeTarget 0 last 4 4 true true fun abi _ _ rt ats _ =>
    match I386.prep (cfg abi) rt ats with
    | none => .ok (.badTypedef, 0, 0)
    | some (fl, b) => .ok (.ok, b, e fl)

/-- RISC-V: src/riscv/ffitarget.h:47-52; `ffi_prep_cif_machdep`, src/riscv/ffi.c:325-340, only
stores the number of fixed arguments. -/
noncomputable def rvTarget (w : Nat) : Target :=
  treeTarget 0 5 w w false false fun _ _ _ rt _ b => .ok (.ok, b, 0)

theorem treeBytes_plain {first last w : Nat} {cx : Bool} {mach : Mach} (hw : w = 4 ∨ w = 8) (rt : FType)
    (ats : List FType) : treeBytes (treeTarget first last w w cx false mach) rt ats =
      ats.foldl (fun b t => addArgBytes w b (descOf t)) (if rt.tc = .struct then w else 0) := by
  have hz : ffiAlign w w = w := by rcases hw with rfl | rfl <;> decide
  have h1 : (if (!(treeTarget first last w w cx false mach).specificStack && rt.tc == TC.struct) = true then
      ffiAlign (treeTarget first last w w cx false mach).ptrSize (treeTarget first last w w cx false mach).sizeofArg
      else 0) = if rt.tc = .struct then w else 0 := by
    by_cases h : rt.tc = .struct <;> simp [treeTarget, h, hz]
  unfold treeBytes
  rw [h1]
  rfl

/-- C71 for x86-64: the hypothesis of the properties of calls and closures, that
`X64.prep` or `Win64.prep` computed flags and size from the trees of the signature, is what
`ffi_prep_cif` establishes. -/
theorem C71_x64 {e1 e2 T0} {h0 h : Heap} (hv : Valid h0) (hh : PrepHist T0 h0 h) {rtype : Addr} {atypes : List Addr}
    (hs : DeclaredSig lp64 (x64Target e1 e2) h0 rtype atypes) {n cif abi h' c'}
    (hres : prepCif (x64Target e1 e2) n h cif abi rtype atypes = .ok (.ok, h', c')) :
    ∃ rt ats, SigTrees lp64 h' rtype atypes rt ats ∧
      (abi = 2 → ∃ fl, X64.prep rt ats = .ok (some (fl, c'.bytes)) ∧ c'.flags = e1 fl) ∧
      (abi = 3 → (Win64.prep .win64 rt ats).2 = c'.bytes ∧ c'.flags = e2 (Win64.prep .win64 rt ats).1) ∧
      (abi = 4 → (Win64.prep .gnuw64 rt ats).2 = c'.bytes ∧ c'.flags = e2 (Win64.prep .gnuw64 rt ats).1) := by
  obtain ⟨rt, ats, htr, hm, _⟩ := C71_success lp64_ok hv hh hs (.inl ⟨rfl, rfl, hres⟩)
  obtain ⟨cabi, cn, cat, crt, cb, cf⟩ := c'
  dsimp only at hm ⊢
  refine ⟨rt, ats, htr, ?_, ?_, ?_⟩
  · rintro rfl
    simp only [show (2 : Nat) ≠ 3 by decide, show (2 : Nat) ≠ 4 by decide, if_false] at hm
    split at hm
    · cases hm
    · cases hm
    · rename_i fl b hp
      cases hm
      exact ⟨fl, hp, rfl⟩
  · rintro rfl
    simp only [if_true] at hm
    cases hm
    exact ⟨rfl, rfl⟩
  · rintro rfl
    simp only [show (4 : Nat) ≠ 3 by decide, if_false, if_true] at hm
    cases hm
    exact ⟨rfl, rfl⟩

/-- C71 for AArch64. -/
theorem C71_aarch64 {e T0} {h0 h : Heap} (hv : Valid h0) (hh : PrepHist T0 h0 h) {rtype : Addr} {atypes : List Addr}
    (hs : DeclaredSig lp64 (a64Target e) h0 rtype atypes) {n cif abi h' c'}
    (hres : prepCif (a64Target e) n h cif abi rtype atypes = .ok (.ok, h', c')) :
    ∃ rt ats f, SigTrees lp64 h' rtype atypes rt ats ∧
      A64.prep rt ats (A64.coreBytes rt ats) = .ok (f, c'.bytes) ∧ c'.flags = e false atypes.length f := by
  obtain ⟨rt, ats, htr, hm, _⟩ := C71_success lp64_ok hv hh hs (.inl ⟨rfl, rfl, hres⟩)
  obtain ⟨cabi, cn, cat, crt, cb, cf⟩ := c'
  dsimp only at hm ⊢
  have hb : treeBytes (a64Target e) rt ats = A64.coreBytes rt ats := by
    exact treeBytes_plain (.inr rfl) rt ats
  split at hm
  · cases hm
  · rename_i f b hp
    cases hm
    refine ⟨rt, ats, f, htr, ?_, rfl⟩
    rw [← hb]
    exact hp

/-- C71 for 32-bit ARM. -/
theorem C71_arm {e T0} {h0 h : Heap} (hv : Valid h0) (hh : PrepHist T0 h0 h) {rtype : Addr} {atypes : List Addr}
    (hs : DeclaredSig A32.tab (armTarget e) h0 rtype atypes) {n cif abi isvar nfixed h' c'}
    (hres : (isvar = false ∧ nfixed = atypes.length ∧
        prepCif (armTarget e) n h cif abi rtype atypes = .ok (.ok, h', c')) ∨
      (isvar = true ∧ ∃ fa isz,
        prepCifVar (armTarget e) fa isz n h cif abi nfixed rtype atypes = .ok (.ok, h', c'))) :
    ∃ rt ats c, SigTrees A32.tab h' rtype atypes rt ats ∧
      Arm.prep (abi == 2) isvar rt ats = .ok c ∧ c'.bytes = c.bytes ∧ c'.flags = e c := by
  obtain ⟨rt, ats, htr, hm, _⟩ := C71_success Arm.tab_ok hv hh hs hres
  obtain ⟨cabi, cn, cat, crt, cb, cf⟩ := c'
  dsimp only at hm ⊢
  have hb : treeBytes (armTarget e) rt ats = Arm.coreBytes rt ats := by
    exact treeBytes_plain (.inl rfl) rt ats
  split at hm
  · cases hm
  · rename_i c hp
    cases hm
    refine ⟨rt, ats, c, htr, ?_, rfl, rfl⟩
    unfold Arm.prep
    rw [← hb]
    exact hp

/-- C71 for 32-bit x86. -/
theorem C71_x86 {D : X86.Data} (hD : D.Ok) {last cfg e T0} {h0 h : Heap} (hv : Valid h0) (hh : PrepHist T0 h0 h)
    {rtype : Addr} {atypes : List Addr}
    (hs : DeclaredSig D.tab (x86Target last cfg e) h0 rtype atypes) {n cif abi h' c'}
    (hres : prepCif (x86Target last cfg e) n h cif abi rtype atypes = .ok (.ok, h', c')) :
    ∃ rt ats fl, SigTrees D.tab h' rtype atypes rt ats ∧
      I386.prep (cfg abi) rt ats = some (fl, c'.bytes) ∧ c'.flags = e fl := by
  obtain ⟨rt, ats, htr, hm, _⟩ := C71_success (I386.tab_ok hD) hv hh hs (.inl ⟨rfl, rfl, hres⟩)
  obtain ⟨cabi, cn, cat, crt, cb, cf⟩ := c'
  dsimp only at hm ⊢
  split at hm
  · cases hm
  · rename_i fl b hp
    cases hm
    exact ⟨rt, ats, fl, htr, hp, rfl⟩

/-- C71 for RISC-V. -/
theorem C71_riscv {w : Nat} (hw : w = 4 ∨ w = 8) {T0} {h0 h : Heap} (hv : Valid h0) (hh : PrepHist T0 h0 h)
    {rtype : Addr} {atypes : List Addr}
    (hs : DeclaredSig (RV.tab w) (rvTarget w) h0 rtype atypes) {n cif abi h' c'}
    (hres : prepCif (rvTarget w) n h cif abi rtype atypes = .ok (.ok, h', c')) (fl nfixed : Nat) :
    ∃ rt ats, SigTrees (RV.tab w) h' rtype atypes rt ats ∧
      RV.coreBytes ⟨w, fl, nfixed⟩ rt ats = c'.bytes := by
  obtain ⟨rt, ats, htr, hm, _⟩ := C71_success (RV.tab_ok hw) hv hh hs (.inl ⟨rfl, rfl, hres⟩)
  obtain ⟨cabi, cn, cat, crt, cb, cf⟩ := c'
  dsimp only at hm ⊢
  have hb : treeBytes (rvTarget w) rt ats = RV.coreBytes ⟨w, fl, nfixed⟩ rt ats := by
    exact treeBytes_plain hw rt ats
  have h2 : treeBytes (rvTarget w) rt ats = cb := by
    simp only [Except.ok.injEq, Prod.mk.injEq] at hm
    exact hm.2.1
  exact ⟨rt, ats, htr, hb.symm.trans h2⟩

/-! ## A concrete case -/

theorem exHeap_declared : DeclaredSig lp64 exTarget exHeap 4 [3, 1, 2] := by
  have h1 : Declared lp64 exHeap 1 := .scalar (tc := .sint8) rfl rfl
  have h2 : Declared lp64 exHeap 2 := .scalar (tc := .double) rfl rfl
  have h3 : Declared lp64 exHeap 3 := .struct rfl (by simp [h1, h2])
  have h4 : Declared lp64 exHeap 4 := .struct rfl (by simp [h1, h3])
  exact ⟨.inr h4, by simp [h1, h2, h3], nofun⟩

/-- The struct shared by the result type and an argument is laid out once and unfolds to the
same tree in both places. -/
example : ∃ h' c', prepCif exTarget 5 exHeap ⟨0, 0, [], 0, 0, 0⟩ 2 4 [3, 1, 2] = .ok (.ok, h', c') ∧
    Unfolds h' 3 (.mk 16 8 .struct [.mk 1 1 .sint8 [], .mk 8 8 .double []]) ∧
    Unfolds h' 4 (.mk 40 8 .struct [.mk 16 8 .struct [.mk 1 1 .sint8 [], .mk 8 8 .double []],
      .mk 1 1 .sint8 [], .mk 16 8 .struct [.mk 1 1 .sint8 [], .mk 8 8 .double []]]) := by
  refine ⟨_, _, rfl, ?_⟩
  generalize hg : (Heap.set _ _ _ : Heap) = h'
  have h1 : Unfolds h' 1 (.mk 1 1 .sint8 []) := .mk (d := ⟨1, 1, .sint8, none⟩) (by rw [← hg]; decide) .nil
  have h2 : Unfolds h' 2 (.mk 8 8 .double []) := .mk (d := ⟨8, 8, .double, none⟩) (by rw [← hg]; decide) .nil
  have h3 : Unfolds h' 3 (.mk 16 8 .struct [.mk 1 1 .sint8 [], .mk 8 8 .double []]) :=
    .mk (d := ⟨16, 8, .struct, some [1, 2]⟩) (by rw [← hg]; decide) (.cons h1 (.cons h2 .nil))
  exact ⟨h3, .mk (d := ⟨40, 8, .struct, some [3, 1, 3]⟩) (by rw [← hg]; decide)
    (.cons h3 (.cons h1 (.cons h3 .nil)))⟩

/-- Preparing that signature for x86-64 succeeds: the conclusion of `C71_x64` is reached. -/
example (e1 e2) : ∃ N, ∀ n, N ≤ n → ∃ h' rt ats, SigTrees lp64 h' 4 [3, 1, 2] rt ats ∧
    prepCif (x64Target e1 e2) n exHeap ⟨0, 0, [], 0, 0, 0⟩ 3 4 [3, 1, 2] =
      .ok (.ok, h', ⟨3, 3, [3, 1, 2], 4, (Win64.prep .win64 rt ats).2, e2 (Win64.prep .win64 rt ats).1⟩) := by
  have hs : DeclaredSig lp64 (x64Target e1 e2) exHeap 4 [3, 1, 2] :=
    ⟨exHeap_declared.ret, exHeap_declared.args, nofun⟩
  obtain ⟨N, hN⟩ := C71_machdep lp64_ok exHeap_valid (.init (T := exTarget)) hs
  refine ⟨N, fun n hn => ?_⟩
  obtain ⟨h', rt, ats, htr, hr⟩ := (hN n hn ⟨0, 0, [], 0, 0, 0⟩ 3 false 3 (show 1 < 3 by decide) (show 3 < 5 by decide)).2 (by
    simp only [List.mem_cons, List.not_mem_nil, or_false]
    rintro t (rfl | rfl | rfl | rfl)
    · exact ⟨_, _, exHeap_layout4⟩
    · exact ⟨_, _, exHeap_layout3⟩
    · exact ⟨_, _, exHeap_layout1⟩
    · exact ⟨_, _, exHeap_layout2⟩)
  refine ⟨h', rt, ats, htr, ?_⟩
  unfold prepCif
  rw [show ([3, 1, 2] : List Addr).length = 3 from rfl, hr]
  unfold x64Target treeTarget
  dsimp only
  rw [onTrees_eq htr.ret htr.args]
  rfl

end Verif.Props
