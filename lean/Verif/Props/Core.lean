import Verif.Core.FuelLemmas

/-
Property theorems for the generic stage: C01–C07, C48.
-/
namespace Verif.Props
open Verif Spec

/-! ## C01 — alignment arithmetic -/

/-- C01: `FFI_ALIGN` yields the least multiple of a power-of-two alignment that
is not below the value. -/
theorem C01_align_up (v k : Nat) (h : v + 2 ^ k < 2 ^ 64) :
    2 ^ k ∣ ffiAlign v (2 ^ k) ∧ v ≤ ffiAlign v (2 ^ k) ∧
      ∀ m, 2 ^ k ∣ m → v ≤ m → ffiAlign v (2 ^ k) ≤ m :=
  isLeastMult_ffiAlign h

/-- C01: `FFI_ALIGN_DOWN` yields the greatest multiple not above the value. -/
theorem C01_align_down (v k : Nat) (hk : k < 64) (hv : v < 2 ^ 64) :
    2 ^ k ∣ ffiAlignDown v (2 ^ k) ∧ ffiAlignDown v (2 ^ k) ≤ v ∧
      ∀ m, 2 ^ k ∣ m → m ≤ v → m ≤ ffiAlignDown v (2 ^ k) := by
  rw [ffiAlignDown_eq hk hv]
  refine ⟨Nat.dvd_mul_left _ _, Nat.div_mul_le_self _ _, ?_⟩
  rintro m ⟨c, rfl⟩ hm
  rw [Nat.mul_comm (2 ^ k) c]
  apply Nat.mul_le_mul_right
  rw [Nat.le_div_iff_mul_le (Nat.two_pow_pos k)]
  rw [Nat.mul_comm]; exact hm

example : ffiAlign 13 (2 ^ 3) = 16 ∧ ffiAlign 16 (2 ^ 4) = 16 ∧ ffiAlign 0 (2 ^ 4) = 0 ∧
    ffiAlignDown 13 (2 ^ 3) = 8 := by decide

/-! ## A concrete heap used to show that hypotheses are satisfiable -/

/-- 1: `char`, 2: `double`, 3: `struct {char; double}` unset, 4: `struct {3; char; 3}`
unset (shares 3), 5: empty struct, 6: `struct {double; 5}`. -/
def exHeap : Heap := fun a =>
  if a = 1 then some ⟨1, 1, .sint8, none⟩
  else if a = 2 then some ⟨8, 8, .double, none⟩
  else if a = 3 then some ⟨0, 0, .struct, some [1, 2]⟩
  else if a = 4 then some ⟨0, 0, .struct, some [3, 1, 3]⟩
  else if a = 5 then some ⟨0, 0, .struct, some []⟩
  else if a = 6 then some ⟨0, 0, .struct, some [2, 5]⟩
  else none

theorem exHeap_cases {a : Addr} {d : Desc} (h : exHeap a = some d) :
    (a = 1 ∧ d = ⟨1, 1, .sint8, none⟩) ∨ (a = 2 ∧ d = ⟨8, 8, .double, none⟩) ∨
    (a = 3 ∧ d = ⟨0, 0, .struct, some [1, 2]⟩) ∨ (a = 4 ∧ d = ⟨0, 0, .struct, some [3, 1, 3]⟩) ∨
    (a = 5 ∧ d = ⟨0, 0, .struct, some []⟩) ∨ (a = 6 ∧ d = ⟨0, 0, .struct, some [2, 5]⟩) := by
  unfold exHeap at h
  split at h
  · cases h; simp_all
  split at h
  · cases h; simp_all
  split at h
  · cases h; simp_all
  split at h
  · cases h; simp_all
  split at h
  · cases h; simp_all
  split at h
  · cases h; simp_all
  · cases h

theorem exHeap_layout1 : Layout exHeap 1 1 1 :=
  .preset (d := ⟨1, 1, .sint8, none⟩) rfl (by decide)
theorem exHeap_layout2 : Layout exHeap 2 8 8 :=
  .preset (d := ⟨8, 8, .double, none⟩) rfl (by decide)

/-- `m` is a least multiple, by its quotient. -/
theorem leastMult_of {a v m : Nat} (ha : 0 < a) (h1 : a ∣ m) (h2 : v ≤ m) (h3 : m < v + a) :
    IsLeastMult a v m := by
  refine ⟨h1, h2, fun m' hd hm' => ?_⟩
  obtain ⟨c, rfl⟩ := h1
  obtain ⟨c', rfl⟩ := hd
  apply Nat.mul_le_mul_left
  by_contra hc
  have : a * (c' + 1) ≤ a * c := Nat.mul_le_mul_left _ (by omega)
  rw [Nat.mul_add] at this
  omega

theorem exHeap_layout3 : Layout exHeap 3 16 8 := by
  refine .agg (d := ⟨0, 0, .struct, some [1, 2]⟩) (es := [1, 2]) (ms := [(1, 1), (8, 8)])
    (offs := [0, 8]) rfl rfl rfl (.cons exHeap_layout1 (.cons exHeap_layout2 .nil)) ?_ (by decide)
  refine ⟨16, .cons (leastMult_of ?_ ?_ ?_ ?_) (.cons (leastMult_of ?_ ?_ ?_ ?_) (.nil _)),
    ⟨⟨(8, 8), by decide, rfl⟩, by decide⟩, leastMult_of ?_ ?_ ?_ ?_⟩ <;> decide

theorem exHeap_layout4 : Layout exHeap 4 40 8 := by
  refine .agg (d := ⟨0, 0, .struct, some [3, 1, 3]⟩) (es := [3, 1, 3])
    (ms := [(16, 8), (1, 1), (16, 8)])
    (offs := [0, 16, 24]) rfl rfl rfl
    (.cons exHeap_layout3 (.cons exHeap_layout1 (.cons exHeap_layout3 .nil))) ?_ (by decide)
  refine ⟨40, .cons (leastMult_of ?_ ?_ ?_ ?_) (.cons (leastMult_of ?_ ?_ ?_ ?_)
    (.cons (leastMult_of ?_ ?_ ?_ ?_) (.nil _))),
    ⟨⟨(16, 8), by decide, rfl⟩, by decide⟩, leastMult_of ?_ ?_ ?_ ?_⟩ <;> decide

theorem exHeap_nolayout5 {s al} : ¬ Layout exHeap 5 s al := by
  intro h
  cases h with
  | preset hd hs => cases hd; exact hs rfl
  | agg hd _ he hm hl _ =>
    cases hd; cases he; cases hm
    obtain ⟨_, _, ⟨⟨_, h, _⟩, _⟩, _⟩ := hl
    cases h

theorem exHeap_nolayout6 {s al} : ¬ Layout exHeap 6 s al := by
  intro h
  cases h with
  | preset hd hs => cases hd; exact hs rfl
  | agg hd _ he hm hl _ =>
    cases hd; cases he
    cases hm with
    | cons _ hm => cases hm with | cons h5 _ => exact exHeap_nolayout5 h5

/-- The concrete heap is valid although it contains a type that is not
layoutable. -/
theorem exHeap_valid : Valid exHeap where
  pow2 a d h hs := by
    rcases exHeap_cases h with ⟨rfl, rfl⟩ | ⟨rfl, rfl⟩ | ⟨rfl, rfl⟩ | ⟨rfl, rfl⟩ | ⟨rfl, rfl⟩ | ⟨rfl, rfl⟩
    · exact ⟨0, by decide, rfl⟩
    · exact ⟨3, by decide, rfl⟩
    all_goals exact absurd rfl hs
  ptrs a d es h hs he := by
    rcases exHeap_cases h with ⟨rfl, rfl⟩ | ⟨rfl, rfl⟩ | ⟨rfl, rfl⟩ | ⟨rfl, rfl⟩ | ⟨rfl, rfl⟩ | ⟨rfl, rfl⟩ <;>
      simp only [reduceCtorEq, Option.some.injEq] at he <;> (try subst he) <;>
      simp [exHeap]
  acyclic := by
    refine ⟨fun a => if a = 6 then 10 else a, ?_⟩
    intro a d es h hs he e hmem hu
    rcases exHeap_cases h with ⟨rfl, rfl⟩ | ⟨rfl, rfl⟩ | ⟨rfl, rfl⟩ | ⟨rfl, rfl⟩ | ⟨rfl, rfl⟩ | ⟨rfl, rfl⟩ <;>
      simp only [reduceCtorEq, Option.some.injEq] at he <;> (try subst he) <;>
      simp at hmem <;> (try (rcases hmem with rfl | rfl | rfl)) <;> (try rcases hmem with rfl | rfl) <;> simp
  fits a s al hl := by
    have key : (a = 1 ∨ a = 2 ∨ a = 3 ∨ a = 4 ∨ a = 5 ∨ a = 6) := by
      cases hl with
      | preset hd _ => rcases exHeap_cases hd with h | h | h | h | h | h <;> simp [h.1]
      | agg hd => rcases exHeap_cases hd with h | h | h | h | h | h <;> simp [h.1]
    rcases key with rfl | rfl | rfl | rfl | rfl | rfl
    · obtain ⟨rfl, _⟩ := hl.unique exHeap_layout1; decide
    · obtain ⟨rfl, _⟩ := hl.unique exHeap_layout2; decide
    · obtain ⟨rfl, _⟩ := hl.unique exHeap_layout3; decide
    · obtain ⟨rfl, _⟩ := hl.unique exHeap_layout4; decide
    · exact absurd hl exHeap_nolayout5
    · exact absurd hl exHeap_nolayout6

/-- A target with the x86-64 SysV parameters and a trivial machine stage. -/
def exTarget : Target where
  firstAbi := 1
  lastAbi := 5
  sizeofArg := 8
  ptrSize := 8
  hasComplex := true
  specificStack := false
  machdep := fun _ _ _ c => .ok (.ok, c)

/-! ## Signatures -/

/-- The pointers handed to `ffi_prep_cif` are valid and complex types are only
used where the target supports them. -/
structure SigOk (T : Target) (h : Heap) (sig : List Addr) : Prop where
  ptr : ∀ a ∈ sig, ∃ d, h a = some d
  cx : T.hasComplex = false → ∀ a ∈ sig, ∀ d, h a = some d → d.tc ≠ .complex

example : SigOk exTarget exHeap [4, 3, 1] where
  ptr := by simp [exHeap]
  cx := by simp [exTarget]

/-! ## C04 — status codes -/

/-- C04: unsupported ABI numbers are rejected without touching anything; and only
those are (whatever the heap looks like). -/
theorem C04_bad_abi (T : Target) (n : Nat) (h : Heap) (cif : Cif) (abi : Nat) (rtype : Addr)
    (atypes : List Addr) (habi : abi ≤ T.firstAbi ∨ T.lastAbi ≤ abi) :
    prepCif T n h cif abi rtype atypes = .ok (.badAbi, h, cif) := by
  unfold prepCif prepCifCore
  rw [if_pos (by omega)]

/-- C04: with a supported ABI number, the generic stage reports
`FFI_BAD_TYPEDEF` if some type of the signature has no layout, and otherwise
hands over to the machine-dependent stage with all types of the signature laid
out.  In particular preparation terminates. -/
theorem C04_status {h : Heap} (hv : Valid h) (T : Target) {rtype : Addr} {atypes : List Addr}
    (hsig : SigOk T h (rtype :: atypes)) :
    ∃ N, ∀ n, N ≤ n → ∀ cif abi, T.firstAbi < abi → abi < T.lastAbi →
      ((¬ ∀ t ∈ rtype :: atypes, HasLayout h t) →
        ∃ h' c', prepCif T n h cif abi rtype atypes = .ok (.badTypedef, h', c')) ∧
      ((∀ t ∈ rtype :: atypes, HasLayout h t) →
        ∃ h' b, (∀ t ∈ rtype :: atypes, ∃ d s al, h' t = some d ∧ Layout h t s al ∧
            d.size = s ∧ d.align = al) ∧
          prepCif T n h cif abi rtype atypes =
          match T.machdep false atypes.length h'
              ⟨abi, atypes.length, atypes, rtype, b, 0⟩ with
          | .error e => .error e
          | .ok (s, c) => .ok (s, h', c)) := by
  obtain ⟨N, hN⟩ := prepCifCore_spec hv T hsig.ptr hsig.cx
  refine ⟨N, fun n hn cif abi h1 h2 => ?_⟩
  rcases hN n hn cif abi false atypes.length h1 h2 with ⟨hall, h', dr, hr, hdr, hset, hcl⟩ | ⟨hno, h', c', hr⟩
  · refine ⟨fun hc => absurd hall hc, fun _ => ⟨h', _, ?_, hr⟩⟩
    intro t ht
    obtain ⟨d, hd, hne⟩ := hcl t ht t (.refl t)
    exact ⟨d, d.size, d.align, hd, (hset.good t).layout hd hne, rfl, rfl⟩
  · exact ⟨fun _ => ⟨h', c', hr⟩, fun hall => absurd hall hno⟩

/-- The two alternatives of C04 are both inhabited on the concrete heap. -/
example : (∀ t ∈ ([4, 3, 1] : List Addr), HasLayout exHeap t) ∧ ¬ HasLayout exHeap 6 :=
  ⟨by
    intro t ht
    simp only [List.mem_cons, List.not_mem_nil, or_false] at ht
    rcases ht with rfl | rfl | rfl
    · exact ⟨_, _, exHeap_layout4⟩
    · exact ⟨_, _, exHeap_layout3⟩
    · exact ⟨_, _, exHeap_layout1⟩,
   fun ⟨_, _, h⟩ => exHeap_nolayout6 h⟩

/-! ## C02 — layout -/

/-- `h'` differs from `h` only in aggregates that were unset and now have their C
layout. -/
def LaidOutFrom (h h' : Heap) : Prop :=
  ∀ b, h' b = h b ∨ ∃ d s al, h b = some d ∧ d.size = 0 ∧ Layout h b s al ∧
    h' b = some { d with size := s, align := al }

/-- C02: if `ffi_prep_cif` succeeds, then every type visited from the signature
(at any depth, shared or not) has its C layout, and nothing else changed. -/
theorem C02_layout {h : Heap} (hv : Valid h) (T : Target) {rtype : Addr} {atypes : List Addr}
    (hsig : SigOk T h (rtype :: atypes)) {n cif abi h' c'}
    (hres : prepCif T n h cif abi rtype atypes = .ok (.ok, h', c')) :
    LaidOutFrom h h' ∧
    ∀ t ∈ rtype :: atypes, ∀ b, Visits h t b →
      ∃ d, h' b = some d ∧ Layout h b d.size d.align := by
  by_cases habi : T.firstAbi < abi ∧ abi < T.lastAbi
  · obtain ⟨N, hN⟩ := prepCifCore_spec hv T hsig.ptr hsig.cx
    have hres' := prepCifCore_mono (m := max n N) (by omega) hres
    rcases hN (max n N) (by omega) cif abi false atypes.length habi.1 habi.2 with
      ⟨hall, h1, dr, hr, hdr, hset, hcl⟩ | ⟨hno, h1, c1, hr⟩
    · rw [hr] at hres'
      split at hres'
      · cases hres'
      · cases hres'
        refine ⟨hset.good, ?_⟩
        intro t ht b hb
        obtain ⟨d, hd, hne⟩ := hcl t ht b hb
        exact ⟨d, hd, (hset.good b).layout hd hne⟩
    · rw [hr] at hres'; cases hres'
  · rw [C04_bad_abi T n h cif abi rtype atypes (by omega)] at hres
    cases hres

/-- Concrete instance: success, and the nested shared struct gets size 40. -/
example : ∃ h' c', prepCif exTarget 5 exHeap ⟨0, 0, [], 0, 0, 0⟩ 2 4 [3, 1] = .ok (.ok, h', c') ∧
    h' 4 = some ⟨40, 8, .struct, some [3, 1, 3]⟩ := ⟨_, _, rfl, by decide⟩

/-- One successful API call that lays out types. -/
inductive PrepStep (T : Target) (h0 : Heap) : Heap → Heap → Prop
  | prep {n h cif abi rtype atypes h' c'} : SigOk T h (rtype :: atypes) →
      prepCif T n h cif abi rtype atypes = .ok (.ok, h', c') → PrepStep T h0 h h'
  | prepVar {fa isz n h cif abi nf rtype atypes h' c'} : SigOk T h (rtype :: atypes) →
      prepCifVar T fa isz n h cif abi nf rtype atypes = .ok (.ok, h', c') → PrepStep T h0 h h'
  | offsets {n h abi t h' offs} : Unset h0 t →
      getStructOffsets T n h abi t = .ok (.ok, h', offs) → PrepStep T h0 h h'

/-- Histories of successful calls. -/
inductive PrepHist (T : Target) (h0 : Heap) : Heap → Prop
  | init : PrepHist T h0 h0
  | step {h h'} : PrepHist T h0 h → PrepStep T h0 h h' → PrepHist T h0 h'

theorem core_settled {h : Heap} (hv : Valid h) (T : Target) {rtype : Addr} {atypes : List Addr}
    (hsig : SigOk T h (rtype :: atypes)) {n cif abi isv nf h' c'}
    (hres : prepCifCore T n h cif abi isv nf rtype atypes = .ok (.ok, h', c')) : Settled h h' := by
  by_cases habi : T.firstAbi < abi ∧ abi < T.lastAbi
  · obtain ⟨N, hN⟩ := prepCifCore_spec hv T hsig.ptr hsig.cx
    have hres' := prepCifCore_mono (m := max n N) (by omega) hres
    rcases hN (max n N) (by omega) cif abi isv nf habi.1 habi.2 with
      ⟨hall, h1, dr, hr, hdr, hset, hcl⟩ | ⟨hno, h1, c1, hr⟩
    · rw [hr] at hres'
      split at hres'
      · cases hres'
      · cases hres'; exact hset
    · rw [hr] at hres'; cases hres'
  · unfold prepCifCore at hres
    rw [if_pos habi] at hres
    cases hres

theorem prepVar_core {T fa isz n h cif abi nf rtype atypes h' c'}
    (hres : prepCifVar T fa isz n h cif abi nf rtype atypes = .ok (.ok, h', c')) :
    prepCifCore T n h cif abi true nf rtype atypes = .ok (.ok, h', c') := by
  unfold prepCifVar at hres
  cases hc : prepCifCore T n h cif abi true nf rtype atypes with
  | error e => rw [hc] at hres; cases hres
  | ok v =>
    obtain ⟨rc, h1, c1⟩ := v
    rw [hc] at hres
    simp only [bind, Except.bind] at hres
    split at hres
    · rename_i hne; cases hres; exact absurd rfl hne
    · rename_i hne
      split at hres
      · cases hres
      · cases hres
        simp only [ne_eq, not_not] at hne
        rw [hne]

theorem hist_settled {h0 : Heap} (hv : Valid h0) {T : Target} {h : Heap} (hh : PrepHist T h0 h) :
    Settled h0 h := by
  induction hh with
  | init => exact Settled.refl h0
  | step _ hst ih =>
    have hv' := ih.valid hv
    cases hst with
    | prep hsig hres => exact ih.trans (core_settled hv' T hsig hres)
    | prepVar hsig hres => exact ih.trans (core_settled hv' T hsig (prepVar_core hres))
    | @offsets n _ abi t _ offs hu hres =>
      unfold getStructOffsets at hres
      split at hres
      · cases hres
      · obtain ⟨N, hN⟩ := initAggOffs_again hv ih hu
        rename_i h _ _ _
        cases hg : h.get t with
        | error e => rw [hg] at hres; cases hres
        | ok d =>
          rw [hg] at hres
          simp only [bind, Except.bind] at hres
          split at hres
          · cases hres
          · have hm := initAggOffs_mono (m := max n N) (by omega) hres
            obtain ⟨st, h', offs', hr, hcase⟩ := hN (max n N) (by omega)
            rw [hr] at hm
            cases hm
            rcases hcase with ⟨_, _, _, _, _, _, _, _, _, _, _, hs, _⟩ | ⟨_, hbad⟩
            · exact hs
            · cases hbad

/-- C02 (histories): starting from any valid heap, after any sequence of
successful `ffi_prep_cif`, `ffi_prep_cif_var` and `ffi_get_struct_offsets` calls
every aggregate is either still unset or has exactly the C layout determined by
the initial declarations. -/
theorem C02_history {h0 : Heap} (hv : Valid h0) {T : Target} {h : Heap} (hh : PrepHist T h0 h) :
    LaidOutFrom h0 h ∧ ∀ a s al, Layout h a s al ↔ Layout h0 a s al := by
  have hs := hist_settled hv hh
  exact ⟨hs.good, fun a s al => ⟨hs.layout_back, hs.layout_of⟩⟩

/-! ## C03 — offsets -/

/-- C03: on success `ffi_get_struct_offsets` reports, for a struct that was
declared unset, one offset per member: aligned for the member, in order, without
overlap, minimal, and within the struct size, which itself is minimal. -/
theorem C03_offsets {h0 : Heap} (hv : Valid h0) {T : Target} {h : Heap} (hh : PrepHist T h0 h)
    {t : Addr} (hu : Unset h0 t) {n abi h' offs}
    (hres : getStructOffsets T n h abi t = .ok (.ok, h', offs)) :
    ∃ d es ms size align, h0 t = some d ∧ d.elements = some es ∧ Members h0 es ms ∧
      h' t = some { d with size := size, align := align } ∧
      ms.length = es.length ∧ offs.length = ms.length ∧
      (∀ i (hi : i < offs.length) (hi' : i < ms.length),
        ms[i].2 ∣ offs[i] ∧ offs[i] + ms[i].1 ≤ size ∧ ms[i].2 ≤ align) ∧
      (∀ i (hi : i + 1 < offs.length) (hi' : i + 1 < ms.length),
        offs[i] + ms[i].1 ≤ offs[i + 1] ∧ offs[i + 1] < offs[i] + ms[i].1 + ms[i + 1].2) ∧
      (∀ (h0 : 0 < offs.length), offs[0] = 0) ∧
      align ∣ size ∧
      (∀ (hl : 0 < offs.length) (hl' : 0 < ms.length),
        size < offs[offs.length - 1] + ms[ms.length - 1].1 + align) := by
  have hs := hist_settled hv hh
  obtain ⟨N, hN⟩ := initAggOffs_again hv hs hu
  unfold getStructOffsets at hres
  split at hres
  · cases hres
  cases hg : h.get t with
  | error e => rw [hg] at hres; cases hres
  | ok d =>
  rw [hg] at hres
  simp only [bind, Except.bind] at hres
  split at hres
  · cases hres
  have hm := initAggOffs_mono (m := max n N) (by omega) hres
  obtain ⟨st, h1, offs', hr, hcase⟩ := hN (max n N) (by omega)
  rw [hr] at hm
  cases hm
  rcases hcase with ⟨d, es, ms, s, al, hd, he, hmm, hsl, hl, _, _, hh'⟩ | ⟨_, hbad⟩
  swap
  · cases hbad
  refine ⟨d, es, ms, s, al, hd, he, hmm, hh', hmm.length, ?_⟩
  obtain ⟨e, hp, hmax, hlm⟩ := hsl
  have hpos : ∀ m ∈ ms, 0 < m.2 := by
    intro m hmem
    obtain ⟨k, _, hk⟩ := hmm.pow2 hv m hmem
    rw [hk]; exact Nat.two_pow_pos k
  have halp : 0 < al := by
    obtain ⟨⟨m, hmem, rfl⟩, _⟩ := hmax
    exact hpos m hmem
  -- consequences of a placement
  have leastlt : ∀ {a v m : Nat}, 0 < a → IsLeastMult a v m → m < v + a := by
    intro a v m ha hl
    have := (isLeastMult_roundUp (v := v) ha).unique hl
    rw [← this]; exact roundUp_lt ha
  have gen : ∀ {e0 ms offs e1}, Placed e0 ms offs e1 → (∀ m ∈ ms, 0 < m.2) →
      offs.length = ms.length ∧
      (∀ i (hi : i < offs.length) (hi' : i < ms.length),
        ms[i].2 ∣ offs[i] ∧ e0 ≤ offs[i] ∧ offs[i] + ms[i].1 ≤ e1) ∧
      (∀ i (hi : i + 1 < offs.length) (hi' : i + 1 < ms.length),
        offs[i] + ms[i].1 ≤ offs[i + 1] ∧ offs[i + 1] < offs[i] + ms[i].1 + ms[i + 1].2) ∧
      (∀ (hl : 0 < offs.length) (hl' : 0 < ms.length), offs[0] < e0 + ms[0].2 ∧
        IsLeastMult ms[0].2 e0 offs[0]) ∧
      (∀ (hl : 0 < offs.length) (hl' : 0 < ms.length),
        e1 = offs[offs.length - 1] + ms[ms.length - 1].1) := by
    intro e0 ms offs e1 hp
    induction hp with
    | nil e => intro _; simp
    | @cons e o s a ms os e' hlm hp ih =>
      intro hpos
      obtain ⟨i1, i2, i3, i4, i5⟩ := ih (fun m hm => hpos m (by simp [hm]))
      have ha : 0 < a := hpos (s, a) (by simp)
      have hple := hp.le
      refine ⟨by simp [i1], ?_, ?_, ?_, ?_⟩
      · intro i hi hi'
        cases i with
        | zero => exact ⟨hlm.1, hlm.2.1, hple⟩
        | succ i =>
          simp only [List.getElem_cons_succ]
          simp only [List.length_cons] at hi hi'
          obtain ⟨j1, j2, j3⟩ := i2 i (by omega) (by omega)
          have := hlm.2.1
          exact ⟨j1, by omega, j3⟩
      · intro i hi hi'
        simp only [List.length_cons] at hi hi'
        cases i with
        | zero =>
          simp only [Nat.zero_add, List.getElem_cons_succ, List.getElem_cons_zero]
          obtain ⟨j1, j2⟩ := i4 (by omega) (by omega)
          exact ⟨j2.2.1, j1⟩
        | succ i =>
          simp only [List.getElem_cons_succ]
          exact i3 i (by omega) (by omega)
      · intro _ _
        exact ⟨leastlt ha hlm, hlm⟩
      · intro _ _
        by_cases hz : os.length = 0
        · have h1 : os = [] := List.length_eq_zero_iff.1 hz
          subst h1
          cases hp with
          | nil => simp
        · have := i5 (by omega) (by omega)
          rw [this]
          simp only [List.length_cons, Nat.add_sub_cancel]
          have e1 : (o :: os)[os.length] = os[os.length - 1] := by
            rw [List.getElem_cons]; simp [hz]
          have hz' : ms.length ≠ 0 := by omega
          have e2 : ((s, a) :: ms)[ms.length] = ms[ms.length - 1] := by
            rw [List.getElem_cons]; simp [hz']
          rw [e1, e2]
  obtain ⟨g1, g2, g3, g4, g5⟩ := gen hp hpos
  have hse := hlm.2.1
  refine ⟨g1, ?_, g3, ?_, hlm.1, ?_⟩
  · intro i hi hi'
    obtain ⟨j1, j2, j3⟩ := g2 i hi hi'
    exact ⟨j1, by omega, hmax.2 _ (List.getElem_mem _)⟩
  · intro hl
    have := (g4 hl (by omega)).2
    have h0' : IsLeastMult ms[0].2 0 0 := ⟨Nat.dvd_zero _, Nat.le_refl _, fun _ _ h => h⟩
    exact this.unique h0'
  · intro hl hl'
    have := g5 hl hl'
    have := leastlt halp hlm
    omega

example : ∃ h', getStructOffsets exTarget 5 exHeap 2 4 = .ok (.ok, h', [0, 16, 24]) := ⟨_, rfl⟩

/-! ## C05 — repetition -/

/-- C05 (part): a successful preparation is reproducible: repeating the call on
the resulting heap, with any fuel and any previous contents of the cif, gives
the same status, heap and cif.  Missing: the same for rejected signatures, which
is false, see `C05_rejection_not_stable`. -/
theorem C05_repeat_partial {h : Heap} (hv : Valid h) (T : Target) {rtype : Addr}
    {atypes : List Addr} (hsig : SigOk T h (rtype :: atypes)) {n cif abi h' c'}
    (hres : prepCif T n h cif abi rtype atypes = .ok (.ok, h', c')) (n2 : Nat) (cif2 : Cif) :
    prepCif T n2 h' cif2 abi rtype atypes = .ok (.ok, h', c') := by
  by_cases habi : T.firstAbi < abi ∧ abi < T.lastAbi
  swap
  · rw [C04_bad_abi T n h cif abi rtype atypes (by omega)] at hres
    cases hres
  obtain ⟨N, hN⟩ := prepCifCore_spec hv T hsig.ptr hsig.cx
  have hres' := prepCifCore_mono (m := max n N) (by omega) hres
  rcases hN (max n N) (by omega) cif abi false atypes.length habi.1 habi.2 with
    ⟨hall, h1, dr, hr, hdr, hset, hcl⟩ | ⟨hno, h1, c1, hr⟩
  swap
  · rw [hr] at hres'; cases hres'
  have hsame : h1 = h' := by
    rw [hr] at hres'
    split at hres'
    · cases hres'
    · cases hres'; rfl
  subst hsame
  -- every type of the signature is set, so no initialisation happens
  have hguard : ∀ a ∈ rtype :: atypes, initIfUnset n2 h1 a = .ok (.ok, h1) := by
    intro a ha
    obtain ⟨d, hd, hne⟩ := hcl a ha a (.refl a)
    simp [initIfUnset, guardInit, hd, hne]
  have hnc : ∀ a ∈ rtype :: atypes, ∀ d, h1 a = some d →
      (!T.hasComplex && d.tc == TC.complex) = false := by
    intro a ha d hd
    cases hT : T.hasComplex with
    | true => rfl
    | false =>
      obtain ⟨d0, hd0⟩ := hsig.ptr a ha
      have := hsig.cx hT a ha d0 hd0
      have htc : d.tc = d0.tc := by
        rcases hset.good a with h2 | ⟨d2, s, al, h2, _, _, h3⟩
        · rw [h2, hd0] at hd; cases hd; rfl
        · rw [hd0] at h2; cases h2; rw [h3] at hd; cases hd; rfl
      rw [htc]; simp [this]
  have hargs : ∀ (as : List Addr), (∀ a ∈ as, a ∈ rtype :: atypes) → ∀ b,
      prepArgs T n2 h1 as b = .ok (true, h1, bytesFold T h1 b as) := by
    intro as
    induction as with
    | nil => intro _ b; rfl
    | cons a as ih =>
      intro hsub b
      obtain ⟨d, hd, _⟩ := hcl a (hsub a (by simp)) a (.refl a)
      rw [prepArgs, hguard a (hsub a (by simp))]
      simp only [bind, Except.bind, ne_eq, not_true_eq_false, if_false, Heap.get_ok hd,
        hnc a (hsub a (by simp)) d hd, Bool.false_eq_true]
      rw [ih (fun x hx => hsub x (by simp [hx]))]
      simp [bytesFold, hd]
  have : prepCif T n2 h1 cif2 abi rtype atypes =
      (match T.machdep false atypes.length h1
        ⟨abi, atypes.length, atypes, rtype, bytesFold T h1 (retBytes T dr) atypes, 0⟩ with
            | .error e => .error e
            | .ok (s, c) => .ok (s, h1, c)) := by
    unfold prepCif prepCifCore
    rw [if_neg (by simp [habi]), hguard rtype (by simp)]
    simp only [bind, Except.bind, ne_eq, not_true_eq_false, if_false, Heap.get_ok hdr,
      hnc rtype (by simp) dr hdr, Bool.false_eq_true, hargs atypes (fun x hx => by simp [hx]),
      if_true, retBytes]
    generalize T.machdep _ _ _ _ = x
    cases x <;> rfl
  rw [this]
  rw [hr] at hres'
  exact hres'

/-- C05 is violated for rejections: `struct { double; struct {} }` is rejected by
the first `ffi_prep_cif` and accepted by the second one, because the failed
initialisation leaves a non-zero size in the outer descriptor. -/
theorem C05_rejection_not_stable : ∃ h1 c1 h2 c2,
    prepCif exTarget 5 exHeap ⟨0, 0, [], 0, 0, 0⟩ 2 1 [6] = .ok (.badTypedef, h1, c1) ∧
    prepCif exTarget 5 h1 c1 2 1 [6] = .ok (.ok, h2, c2) :=
  ⟨_, _, _, _, rfl, rfl⟩

/-! ## C06 — variadic promotion -/

/-- What C's default argument promotions rule out for a variadic argument: a
`float`, or a scalar narrower than `int`. -/
def NeedsPromotion (intSize : Nat) (d : Desc) : Prop :=
  d.tc = .float ∨ (d.tc ≠ .struct ∧ d.tc ≠ .complex ∧ d.size < intSize)

/-- C06 (part): provided the only descriptor with type code float in use is the
library's own, `ffi_prep_cif_var` succeeds exactly when generic preparation
succeeds and no variadic argument needs promotion; otherwise (generic
preparation fine) it returns `FFI_BAD_ARGTYPE`.  Missing: user-made float
descriptors, for which it is false (`C06_float_copy_accepted`). -/
theorem C06_variadic_partial {T : Target} {fa isz n h cif abi nf rtype atypes h1 c1}
    (hcore : prepCifCore T n h cif abi true nf rtype atypes = .ok (.ok, h1, c1))
    (hptr : ∀ a ∈ atypes, ∃ d, h1 a = some d)
    (hfl : ∀ a ∈ atypes, ∀ d, h1 a = some d → (d.tc = .float ↔ a = fa)) :
    (prepCifVar T fa isz n h cif abi nf rtype atypes = .ok (.ok, h1, c1) ↔
      ∀ a ∈ atypes.drop nf, ∀ d, h1 a = some d → ¬ NeedsPromotion isz d) ∧
    (prepCifVar T fa isz n h cif abi nf rtype atypes = .ok (.badArgtype, h1, c1) ↔
      ∃ a ∈ atypes.drop nf, ∃ d, h1 a = some d ∧ NeedsPromotion isz d) := by
  have hchk : ∀ (as : List Addr), (∀ a ∈ as, a ∈ atypes) →
      ((varCheck fa isz h1 as = .ok .ok ∧
          ∀ a ∈ as, ∀ d, h1 a = some d → ¬ NeedsPromotion isz d) ∨
        (varCheck fa isz h1 as = .ok .badArgtype ∧
          ∃ a ∈ as, ∃ d, h1 a = some d ∧ NeedsPromotion isz d)) := by
    intro as
    induction as with
    | nil => intro _; left; exact ⟨rfl, by simp⟩
    | cons a as ih =>
      intro hsub
      obtain ⟨d, hd⟩ := hptr a (hsub a (by simp))
      have hf := hfl a (hsub a (by simp)) d hd
      rw [varCheck, Heap.get_ok hd]
      simp only [bind, Except.bind]
      by_cases hneed : NeedsPromotion isz d
      · right
        rw [if_pos]
        · exact ⟨rfl, a, by simp, d, hd, hneed⟩
        · rcases hneed with h2 | ⟨h2, h3, h4⟩
          · exact .inl (hf.1 h2)
          · exact .inr ⟨⟨h2, h3⟩, h4⟩
      · rw [if_neg]
        · rcases ih (fun x hx => hsub x (by simp [hx])) with ⟨h2, h3⟩ | ⟨h2, x, hx, d', h3, h4⟩
          · left
            refine ⟨h2, ?_⟩
            intro x hx d' hd'
            rcases List.mem_cons.1 hx with rfl | hx
            · rw [hd] at hd'; cases hd'; exact hneed
            · exact h3 x hx d' hd'
          · right
            exact ⟨h2, x, by simp [hx], d', h3, h4⟩
        · rintro (h2 | ⟨⟨h2, h3⟩, h4⟩)
          · exact hneed (.inl (hf.2 h2))
          · exact hneed (.inr ⟨h2, h3, h4⟩)
  have hunf : ∀ s, varCheck fa isz h1 (atypes.drop nf) = .ok s →
      prepCifVar T fa isz n h cif abi nf rtype atypes = .ok (s, h1, c1) := by
    intro s hs
    unfold prepCifVar
    rw [hcore]
    simp [bind, Except.bind, hs]
  rcases hchk (atypes.drop nf) (fun a ha => List.mem_of_mem_drop ha) with ⟨h2, h3⟩ | ⟨h2, x, hx, d, h3, h4⟩
  · rw [hunf _ h2]
    refine ⟨⟨fun _ => h3, fun _ => rfl⟩, ?_⟩
    constructor
    · intro hc; cases hc
    · rintro ⟨x, hx, d, hd, hn⟩
      exact absurd hn (h3 x hx d hd)
  · rw [hunf _ h2]
    constructor
    · constructor
      · intro hc; cases hc
      · intro hall; exact absurd h4 (hall x hx d h3)
    · exact ⟨fun _ => ⟨x, hx, d, h3, h4⟩, fun _ => rfl⟩

/-- C06: arguments in fixed position are never rejected by the variadic check. -/
theorem C06_fixed_args_free {T : Target} {fa isz n h cif abi nf rtype atypes h1 c1}
    (hcore : prepCifCore T n h cif abi true nf rtype atypes = .ok (.ok, h1, c1))
    (hall : atypes.length ≤ nf) :
    prepCifVar T fa isz n h cif abi nf rtype atypes = .ok (.ok, h1, c1) := by
  unfold prepCifVar
  rw [hcore]
  simp [bind, Except.bind, List.drop_eq_nil_of_le hall, varCheck]

/-- A heap with the library's float descriptor at 7 and a user copy at 8. -/
def floatHeap : Heap := fun a =>
  if a = 1 then some ⟨4, 4, .sint32, none⟩
  else if a = 7 ∨ a = 8 then some ⟨4, 4, .float, none⟩
  else none

/-- C06 is violated for user-made float descriptors: the library's descriptor is
rejected, an identical copy at another address is accepted. -/
theorem C06_float_copy_accepted :
    (∃ h1 c1, prepCifVar exTarget 7 4 5 floatHeap ⟨0, 0, [], 0, 0, 0⟩ 2 1 1 [1, 7]
      = .ok (.badArgtype, h1, c1)) ∧
    (∃ h1 c1, prepCifVar exTarget 7 4 5 floatHeap ⟨0, 0, [], 0, 0, 0⟩ 2 1 1 [1, 8]
      = .ok (.ok, h1, c1)) := ⟨⟨_, _, rfl⟩, ⟨_, _, rfl⟩⟩

/-! ## C07 — frame -/

/-- C07: whatever the heap (cyclic, ill-formed) and whatever the outcome,
`ffi_prep_cif` and `ffi_prep_cif_var` change only descriptors whose size was
unset and which are visited from the signature, and never change a type code or
an element list. -/
theorem C07_frame (T : Target) {n h cif abi isv nf rtype atypes st h' c'}
    (hres : prepCifCore T n h cif abi isv nf rtype atypes = .ok (st, h', c')) :
    (∀ b, h' b ≠ h b → Unset h b ∧ ∃ t ∈ rtype :: atypes, Visits h t b) ∧
    (∀ b, (h' b).map (fun d => (d.tc, d.elements)) = (h b).map (fun d => (d.tc, d.elements))) := by
  obtain ⟨ha, hf⟩ := prepCifCore_frame T n hres
  exact ⟨hf, ha.shape⟩

/-- C07 for `ffi_prep_cif_var`, whose argument check is read-only. -/
theorem C07_frame_var (T : Target) {fa isz n h cif abi nf rtype atypes st h' c'}
    (hres : prepCifVar T fa isz n h cif abi nf rtype atypes = .ok (st, h', c')) :
    (∀ b, h' b ≠ h b → Unset h b ∧ ∃ t ∈ rtype :: atypes, Visits h t b) ∧
    (∀ b, (h' b).map (fun d => (d.tc, d.elements)) = (h b).map (fun d => (d.tc, d.elements))) := by
  unfold prepCifVar at hres
  cases hc : prepCifCore T n h cif abi true nf rtype atypes with
  | error e => rw [hc] at hres; cases hres
  | ok v =>
    obtain ⟨rc, h1, c1⟩ := v
    rw [hc] at hres
    have hh : h1 = h' := by
      simp only [bind, Except.bind] at hres
      split at hres
      · cases hres; rfl
      · split at hres
        · cases hres
        · cases hres; rfl
    subst hh
    exact C07_frame T hc

/-- The frame is exercised: a rejected signature does change a descriptor. -/
example : ∃ h' c', prepCifCore exTarget 5 exHeap ⟨0, 0, [], 0, 0, 0⟩ 2 false 1 1 [6]
    = .ok (.badTypedef, h', c') ∧ h' 6 ≠ exHeap 6 := ⟨_, _, rfl, by decide⟩

/-! ## C48 — generic stack reservation -/

theorem addArgBytes_eq {sa bytes k : Nat} {d : Desc} (hk : k < 16) (hal : d.align = 2 ^ k)
    {j : Nat} (hsa : sa = 2 ^ j) (hj : j < 16)
    (hfit : roundUp bytes (2 ^ k) + roundUp d.size sa < 2 ^ 32) :
    addArgBytes sa bytes d = roundUp bytes (2 ^ k) + roundUp d.size sa := by
  have hk2 : (2 : Nat) ^ k ≤ 2 ^ 15 := Nat.pow_le_pow_right (by decide) (by omega)
  have hj2 : (2 : Nat) ^ j ≤ 2 ^ 15 := Nat.pow_le_pow_right (by decide) (by omega)
  have hkp := Nat.two_pow_pos k
  have hb := roundUp_ge (v := bytes) hkp
  have hsz := roundUp_ge (v := d.size) (a := sa) (by rw [hsa]; exact Nat.two_pow_pos j)
  have hA : ffiAlign d.size sa = roundUp d.size sa := by
    rw [hsa]; exact ffiAlign_eq_roundUp (by rw [hsa] at hsz hfit; omega)
  have hB : ffiAlign bytes (2 ^ k) = roundUp bytes (2 ^ k) := ffiAlign_eq_roundUp (by omega)
  unfold addArgBytes
  simp only [hal, hA, hB]
  have hmask : ((BitVec.ofNat 32 (2 ^ k) - 1) &&& BitVec.ofNat 32 bytes).toNat = bytes % 2 ^ k := by
    rw [BitVec.toNat_and]
    have e1 : (BitVec.ofNat 32 (2 ^ k) - 1).toNat = 2 ^ k - 1 := by
      have h1 : (1 : BitVec 32).toNat = 1 := by decide
      have h2 : (2 : Nat) ^ k % 2 ^ 32 = 2 ^ k := Nat.mod_eq_of_lt (by omega)
      rw [BitVec.toNat_sub, BitVec.toNat_ofNat, h1, h2]
      omega
    have h3 : bytes % 2 ^ 32 = bytes := Nat.mod_eq_of_lt (by omega)
    rw [e1, BitVec.toNat_ofNat, h3, Nat.and_comm, Nat.and_two_pow_sub_one_eq_mod]
  by_cases hz : bytes % 2 ^ k = 0
  · have h0 : ((BitVec.ofNat 32 (2 ^ k) - 1) &&& BitVec.ofNat 32 bytes) = 0 := by
      apply BitVec.eq_of_toNat_eq; rw [hmask, hz]; rfl
    rw [if_neg (not_not.2 h0)]
    have : roundUp bytes (2 ^ k) = bytes := roundUp_of_dvd hkp (Nat.dvd_of_mod_eq_zero hz)
    rw [this] at hfit ⊢
    exact Nat.mod_eq_of_lt hfit
  · have h0 : ((BitVec.ofNat 32 (2 ^ k) - 1) &&& BitVec.ofNat 32 bytes) ≠ 0 := by
      intro hc
      rw [hc] at hmask
      exact hz hmask.symm
    rw [if_pos h0]
    have h4 : roundUp bytes (2 ^ k) % 2 ^ 32 = roundUp bytes (2 ^ k) := Nat.mod_eq_of_lt (by omega)
    rw [h4]
    exact Nat.mod_eq_of_lt hfit

/-- Argument slots as the ABI-independent stage reserves them: each argument at
the least offset admissible for its alignment, occupying its size rounded up to
`sizeof(ffi_arg)`. -/
def slots (sa : Nat) (ds : List Desc) : List (Nat × Nat) := ds.map fun d => (roundUp d.size sa, d.align)

theorem bytes_fold_placed (sa : Nat) {j : Nat} (hsa : sa = 2 ^ j) (hj : j < 16) (ds : List Desc)
    (hpow : ∀ d ∈ ds, ∃ k, k < 16 ∧ d.align = 2 ^ k) {b0 offs total}
    (hp : Placed b0 (slots sa ds) offs total) (hfit : total < 2 ^ 32) :
    ds.foldl (fun b d => addArgBytes sa b d) b0 = total := by
  induction ds generalizing b0 offs with
  | nil => simp only [slots, List.map_nil] at hp; cases hp; rfl
  | cons d ds ih =>
    simp only [slots, List.map_cons] at hp
    cases hp with
    | @cons _ o _ _ _ os _ hlm hp =>
      obtain ⟨k, hk, hal⟩ := hpow d (by simp)
      have ho : roundUp b0 (2 ^ k) = o := by
        rw [hal] at hlm
        exact (isLeastMult_roundUp (Nat.two_pow_pos k)).unique hlm
      have hle := hp.le
      rw [List.foldl_cons, addArgBytes_eq hk hal hsa hj (by omega), ho]
      exact ih (fun x hx => hpow x (by simp [hx])) hp

/-- C48 (part): if the argument slots, placed one after the other, fit in 32
bits, the recorded `bytes` is exactly the end of the last slot (hence enough for
all of them, disjoint and aligned).  Missing: totals of 4 GiB and more wrap
around, see `C48_bytes_wrap`. -/
theorem C48_bytes_partial {h : Heap} (T : Target) (hT : T.specificStack = false)
    {j : Nat} (hsa : T.sizeofArg = 2 ^ j) (hj : j < 16)
    {as : List Addr} {ds : List Desc} (hds : as.map h = ds.map some)
    (hpow : ∀ d ∈ ds, ∃ k, k < 16 ∧ d.align = 2 ^ k) {b0 offs total}
    (hp : Placed b0 (slots T.sizeofArg ds) offs total) (hfit : total < 2 ^ 32) :
    bytesFold T h b0 as = total := by
  rw [← bytes_fold_placed T.sizeofArg hsa hj ds hpow hp hfit]
  clear hp
  unfold bytesFold
  induction as generalizing ds b0 with
  | nil => cases ds with
    | nil => rfl
    | cons d ds => simp at hds
  | cons a as ih =>
    cases ds with
    | nil => simp at hds
    | cons d ds =>
      simp only [List.map_cons, List.cons.injEq] at hds
      rw [List.foldl_cons, List.foldl_cons, hds.1]
      simp only
      rw [if_neg (by simp [hT])]
      exact ih hds.2 (fun x hx => hpow x (by simp [hx]))

/-- C48 (part), as seen through `ffi_prep_cif`: the cif handed to the machine
stage records exactly the placed slots. -/
theorem C48_reserved_partial {h : Heap} (hv : Valid h) (T : Target) (hT : T.specificStack = false)
    {j : Nat} (hsa : T.sizeofArg = 2 ^ j) (hj : j < 16)
    (hid : ∀ v nf h c, T.machdep v nf h c = .ok (.ok, c))
    {rtype : Addr} {atypes : List Addr} (hsig : SigOk T h (rtype :: atypes)) {n cif abi h' c'}
    (hres : prepCif T n h cif abi rtype atypes = .ok (.ok, h', c')) :
    ∃ ds, atypes.map h' = ds.map some ∧ ∀ dr offs total, h' rtype = some dr →
      Placed (if dr.tc = .struct then roundUp T.ptrSize T.sizeofArg else 0)
        (slots T.sizeofArg ds) offs total → T.ptrSize < 2 ^ 32 → total < 2 ^ 32 → c'.bytes = total := by
  by_cases habi : T.firstAbi < abi ∧ abi < T.lastAbi
  swap
  · rw [C04_bad_abi T n h cif abi rtype atypes (by omega)] at hres
    cases hres
  obtain ⟨N, hN⟩ := prepCifCore_spec hv T hsig.ptr hsig.cx
  have hres' := prepCifCore_mono (m := max n N) (by omega) hres
  rcases hN (max n N) (by omega) cif abi false atypes.length habi.1 habi.2 with
    ⟨hall, h1, dr, hr, hdr, hset, hcl⟩ | ⟨hno, h1, c1, hr⟩
  swap
  · rw [hr] at hres'; cases hres'
  rw [hr, hid] at hres'
  cases hres'
  have hex : ∀ (as : List Addr), (∀ a ∈ as, a ∈ rtype :: atypes) →
      ∃ ds : List Desc, as.map h' = ds.map some ∧ ∀ d ∈ ds, ∃ k, k < 16 ∧ d.align = 2 ^ k := by
    intro as
    induction as with
    | nil => intro _; exact ⟨[], rfl, by simp⟩
    | cons a as ih =>
      intro hsub
      obtain ⟨ds, h2, h3⟩ := ih (fun x hx => hsub x (by simp [hx]))
      obtain ⟨d, hd, hne⟩ := hcl a (hsub a (by simp)) a (.refl a)
      refine ⟨d :: ds, by simp [hd, h2], ?_⟩
      intro x hx
      rcases List.mem_cons.1 hx with rfl | hx
      · exact ((hset.good a).layout hd hne).pow2 hv
      · exact h3 x hx
  obtain ⟨ds, hds, hpow⟩ := hex atypes (fun x hx => by simp [hx])
  refine ⟨ds, hds, ?_⟩
  intro dr' offs total hdr' hp hps hfit
  rw [hdr] at hdr'; cases hdr'
  have hret : retBytes T dr = if dr.tc = .struct then roundUp T.ptrSize T.sizeofArg else 0 := by
    unfold retBytes
    rw [hT]
    by_cases hst : dr.tc = .struct
    · simp only [hst]
      have hj2 : (2 : Nat) ^ j ≤ 2 ^ 15 := Nat.pow_le_pow_right (by decide) (by omega)
      rw [hsa]
      rw [ffiAlign_eq_roundUp (by omega)]
      simp
    · simp [hst]
  rw [hret]
  exact C48_bytes_partial T hT hsa hj hds hpow hp hfit

/-- Two arguments of 2 GiB each. -/
def hugeHeap : Heap := fun a =>
  if a = 1 then some ⟨1, 1, .void, none⟩
  else if a = 2 then some ⟨2 ^ 31, 8, .struct, some [1]⟩ else none

/-- C48 is violated at 4 GiB: the signature is accepted and zero bytes of
argument space are recorded for 4 GiB of arguments. -/
theorem C48_bytes_wrap : ∃ h' c',
    prepCif exTarget 5 hugeHeap ⟨0, 0, [], 0, 0, 0⟩ 2 1 [2, 2] = .ok (.ok, h', c') ∧
    c'.bytes = 0 := ⟨_, _, rfl, by decide⟩

end Verif.Props
