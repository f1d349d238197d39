import Verif.Ppc.Whole
import Verif.Spec.Build

/-!
C86-C89: 64-bit Power, ELF V2, little endian (`src/powerpc`: `ffi_linux64.c`, `linux64.S`, `linux64_closure.S`).
-/
namespace Verif.Props
open Verif Verif.Spec Verif.Spec.Ppc Verif.Ppc Verif.Ppc.Asm

/-- What `ffi_call` is asked for.  `var` says whether the cif is from `ffi_prep_cif_var`, with `nfixed` named
arguments; `buf` and `tmp` are the places of `smst_buffer` and of memory from `alloca`. -/
structure PpcIn where
  ld : LD
  var : Bool
  nfixed : Nat
  rt : FType
  ats : List FType
  rvalue : Nat
  avalue : List Nat
  fn : Nat
  closure : Nat
  ecif : Nat
  buf : Nat
  tmp : Nat
  mem : Mem

def PpcIn.cif (I : PpcIn) : Ppc.Cif := Ppc.prepCif I.ld I.var I.nfixed I.rt I.ats
def PpcIn.cnt (I : PpcIn) : Cnt := prepCnt I.ld I.var I.rt I.ats
/-- `ecif.rvalue`. -/
def PpcIn.rv (I : PpcIn) : Nat := callRv I.cif I.rt I.rvalue I.buf I.tmp
/-- Named arguments. -/
def PpcIn.named (I : PpcIn) : Nat := namedOf I.var I.nfixed I.ats

/-- `ffi_call_int` calls `ffi_call_LINUX64`, src/powerpc/ffi.c:107-108. -/
structure PpcAtCall (E : Env) (I : PpcIn) (s : M) : Prop where
  pc : s.pc = E.L + 4 * off .call .callLocal
  r3 : s.r 3 = I.ecif
  r4 : s.r 4 = I.fn
  r5 : s.r 5 = I.rv
  r6 : s.r 6 = I.cif.flags
  r7 : s.r 7 = I.closure
  r8 : s.r 8 = 2 ^ 64 - I.cif.bytes
  mem : s.mem = I.mem
  regs : ∀ k, s.r k < 2 ^ 64
  lr : s.lr < 2 ^ 64 ∧ 4 ∣ s.lr
  sp : 16 ∣ s.r 1
  room : prepBytes I.cnt + 512 ≤ s.r 1

/-- Types are what they say, and values are where the call does not write. -/
structure PpcCall (I : PpcIn) (AP : Nat) : Prop where
  rtype : Ty I.ld I.rt ∨ I.rt.tc = .void
  types : ∀ t ∈ I.ats, Ty I.ld t
  vals : I.avalue.length = I.ats.length
  apart : ∀ (i : Nat) (t : FType) (a : Nat), I.ats[i]? = some t → I.avalue[i]? = some a → a + t.size ≤ AP - prepBytes I.cnt ∨ AP + 32 ≤ a
  fn : 4 ∣ I.fn
  rvalue : I.rvalue < 2 ^ 64
  buf : AP + 32 ≤ I.buf ∧ 16 ∣ I.buf ∧ I.buf < 2 ^ 64
  tmp : AP + 32 ≤ I.tmp ∧ I.tmp < 2 ^ 64

/-- The function is entered; `AP` is the stack pointer before. -/
structure PpcEntry (I : PpcIn) (AP : Nat) (t : M) : Prop where
  pc : t.pc = I.fn ∧ t.r 12 = I.fn
  chain : t.r 11 = I.closure % 2 ^ 64
  args : AllPassed (mregs t) I.ats (vals I.mem I.ats I.avalue) (places I.ld I.rt I.named I.ats)
  ret : retPlace I.ld I.rt = .mem → t.r 3 = if I.rvalue = 0 then I.tmp else I.rvalue
  sp : t.r 1 + prepBytes I.cnt = AP ∧ t.r 1 < AP ∧ 16 ∣ t.r 1
  back : leNat (t.mem.rd (t.r 1) 8) = AP
  area : HasArea I.var I.ats (places I.ld I.rt I.named I.ats) ∨ I.cnt.ps = true → t.r 1 + 32 + 8 * max 8 (endFrom I.ld I.ats (start I.ld I.rt)).slot ≤ AP - 32
  rest : ∀ x, AP + 24 ≤ x → t.mem x = I.mem x

theorem ppc_given {I : PpcIn} {AP : Nat} (h : PpcCall I AP) {P : Nat → Prop} (hP : ∀ x, P x → AP - prepBytes I.cnt ≤ x ∧ x < AP + 32) : Given P I.ats I.avalue := by
  have key : ∀ (ts : List FType) (as : List Nat), as.length = ts.length →
      (∀ (i : Nat) (t : FType) (a : Nat), ts[i]? = some t → as[i]? = some a → a + t.size ≤ AP - prepBytes I.cnt ∨ AP + 32 ≤ a) → Given P ts as := by
    intro ts
    induction ts with
    | nil => intro as hl _; cases as with | nil => trivial | cons _ _ => cases hl
    | cons t ts ih =>
      intro as hl ha
      cases as with
      | nil => cases hl
      | cons a as =>
        refine ⟨?_, ih as (by simpa using hl) (fun i t a h1 h2 => ha (i + 1) t a h1 h2)⟩
        intro i hi hp
        have h1 := hP _ hp
        rcases ha 0 t a rfl rfl with h | h <;> omega
  exact key _ _ h.vals h.apart

theorem ppc_callEnd_id {ld : LD} {rt : FType} (_ : Ty ld rt ∨ rt.tc = .void) {rvalue buf tmp rv : Nat} (hst : ¬ (rt.tc = .struct ∧ retPlace ld rt ≠ .mem))
    (hrv : rv = if rt.tc = .struct then (if retPlace ld rt = .mem then (if rvalue = 0 then tmp else rvalue) else buf) else rvalue) (m : Mem) :
    callEnd rt rvalue buf rv m = m := by
  unfold callEnd
  split
  · rename_i hc
    have : rv = rvalue := by
      rw [hrv]
      split
      · split
        · rw [if_neg hc.1]
        · rename_i h3 h4; exact absurd ⟨h3, h4⟩ hst
      · rfl
    rw [← this, hc.2]
    exact wr_self _ _ _
  · rfl

/-- C86: `ffi_call`. Partial: `cif->bytes` has 32 bits, so the frame must be smaller than 4 GiB; without `rvalue`
the result must be a struct or void, see `ppc_null_C86`. -/
theorem ppc_call_partial {E : Env} {I : PpcIn} {s : M} (hs : PpcAtCall E I s) (h : PpcCall I (s.r 1)) (hb : prepBytes I.cnt < 2 ^ 32)
    (hal : ∀ c n, retPlace I.ld I.rt = .parts c n → I.rt.tc ≠ .struct → c = .v128 → 16 ∣ I.rvalue) :
    ∃ t, Runs .call E s t ∧ t.pc = E.H ∧ t.r 3 = I.ecif ∧ t.r 4 = t.r 1 ∧ t.r 1 = s.r 1 - prepBytes I.cnt ∧
      (∀ x, x < t.r 1 ∨ s.r 1 + 24 ≤ x → t.mem x = I.mem x) ∧
      ∀ u, Prepared I.ld I.cif I.ats I.rv I.avalue t u → ∃ e, Runs .call E u e ∧ PpcEntry I (s.r 1) e ∧ e.mem = u.mem ∧ e.lr = E.L + 4 * 73 ∧
        ∀ w, Conforms e w → (∀ x, e.r 1 + 24 ≤ x ∧ x < e.r 1 + 32 ∨ s.r 1 - 32 ≤ x ∧ x < s.r 1 + 24 → w.mem x = e.mem x) →
          (I.rt.tc ≠ .struct → I.rvalue ≠ 0 ∧ (I.rvalue + resSize I.ld I.rt ≤ s.r 1 - 32 ∨ s.r 1 + 24 ≤ I.rvalue) ∨ retPlace I.ld I.rt = .void) →
          ∃ v, Runs .call E w v ∧ v.pc = s.lr ∧ (∀ k, k = 1 ∨ k = 2 ∨ 14 ≤ k ∧ k ≤ 31 → v.r k = s.r k) ∧ (∀ k, 14 ≤ k → k ≤ 31 → v.f k = s.f k) ∧
            (∀ k, 20 ≤ k → k ≤ 31 → v.v k = s.v k) ∧ (∀ k, 8 ≤ k → k < 20 → v.cr k = s.cr k) ∧
            (∀ x, x < I.rvalue ∨ I.rvalue + resSize I.ld I.rt ≤ x → x < I.buf ∨ I.buf + 128 ≤ x → callEnd I.rt I.rvalue I.buf I.rv v.mem x = w.mem x) ∧
            (I.rvalue ≠ 0 → ∀ val, Returned I.ld I.rt val (mregs w) → Result I.ld I.rt val (callEnd I.rt I.rvalue I.buf I.rv v.mem) I.rvalue) := by
  obtain ⟨n, hn⟩ : ∃ n, n = I.cnt := ⟨_, rfl⟩
  have hcif : I.cif = ⟨prepFlags I.ld I.rt n, prepBytes n, I.named⟩ := by rw [hn]; exact prepCif_eq hb
  rw [← hn] at hb
  have hroom := hs.room
  rw [← hn] at hroom ⊢
  have hB0 : 128 ≤ prepBytes n ∧ (n.ps = true → 128 + 8 * n.int ≤ prepBytes n) := (frOf_geo (S := 0) (nfx := 0) h.rtype rfl).2
  have hr8 := hs.r8
  rw [hcif] at hr8
  dsimp only at hr8
  obtain ⟨t, rt, at'⟩ := call_prep (B := prepBytes n) hs.pc hr8 (by omega) (hs.regs 1) (by omega)
  refine ⟨t, rt, at'.pc, at'.r3.trans hs.r3, at'.r4.trans at'.sp.symm, at'.sp, ?_, ?_⟩
  · intro x hx
    rw [at'.sp] at hx
    rw [at'.mem, savedMem_out hB0.1 (by omega) (by omega) (by omega) (by omega), hs.mem]
  intro u hu
  obtain ⟨S, hS⟩ : ∃ S, S = s.r 1 - prepBytes n := ⟨_, rfl⟩
  have hmod := prepBytes_mod n
  have hSal : S % 16 = 0 := by have := hs.sp; omega
  have u28 : u.r 28 = s.r 1 := (hu.conf.r 28 (by decide)).trans at'.r28
  have u29 : u.r 29 = I.fn := ((hu.conf.r 29 (by decide)).trans at'.r29).trans hs.r4
  have u30 : u.r 30 = I.rv := ((hu.conf.r 30 (by decide)).trans at'.r30).trans hs.r5
  have u31 : u.r 31 = prepFlags I.ld I.rt n := ((hu.conf.r 31 (by decide)).trans at'.r31).trans (by rw [hs.r6, hcif])
  have u1 : u.r 1 = S := ((hu.conf.r 1 (by decide)).trans at'.sp).trans hS.symm
  obtain ⟨e, re, le⟩ := call_load (E := E) (u := u) (hu.conf.pc.trans at'.lr) (by rw [u28]; have := hs.sp; omega) (by rw [u28]; omega)
  -- memory when the function is entered
  have tm : t.mem = savedMem (prepBytes n) s := at'.mem
  have t1 : t.r 1 = S := at'.sp.trans hS.symm
  have hAP : S + prepBytes n = s.r 1 := by omega
  have hrv : I.rv < 2 ^ 64 := by
    unfold PpcIn.rv
    rw [hcif, callRv_eq h.rtype]
    have := h.rvalue; have := h.buf; have := h.tmp
    split
    · split
      · split <;> omega
      · omega
    · omega
  obtain ⟨b1, b2, b3⟩ := frOf_base (ld := I.ld) (rt := I.rt) h.rtype (n := n) (S := S) (nfx := I.named) hSal
  obtain ⟨g, -, -⟩ := frOf_geo (ld := I.ld) (rt := I.rt) h.rtype (n := n) (S := S) (nfx := I.named) hSal
  have pa := prepArgs_ok (ld := I.ld) (var := I.var) (nfixed := I.nfixed) (rt := I.rt) (ats := I.ats) h.rtype h.types (by rw [hn] at hb; exact hb) (S := S) hSal hrv
    (as := I.avalue) (m := t.mem) (ppc_given h (fun x hx => by
      have hx : Area (frOf I.cif S) x := hx
      unfold Area at hx
      rw [hcif, b1, show (frOf ⟨prepFlags I.ld I.rt n, prepBytes n, I.named⟩ S).S = S from rfl] at hx
      rw [← hn]
      omega))
  rw [show Ppc.prepCif I.ld I.var I.nfixed I.rt I.ats = I.cif from rfl] at pa
  obtain ⟨m', hm'⟩ : ∃ m', m' = Ppc.prepArgs I.ld I.cif I.ats I.rv I.avalue S t.mem := ⟨_, rfl⟩
  have um : ∀ x, S ≤ x → x < S + 8 ∨ S + 24 ≤ x → u.mem x = m' x := by
    intro x h1 h2
    rw [hm', ← t1]
    exact hu.mem x (by omega) (by omega)
  rw [← hm', hcif] at pa
  obtain ⟨p1, p2, p3⟩ := pa
  generalize hF : frOf ⟨prepFlags I.ld I.rt n, prepBytes n, I.named⟩ S = F at *
  have hFS : F.S = S := by rw [← hF]; rfl
  have hsav : ∀ x, S ≤ x ∧ x < S + 8 ∨ S + 24 ≤ x ∧ x < S + 32 ∨ s.r 1 - 32 ≤ x → u.mem x = savedMem (prepBytes n) s x := by
    intro x hx
    rw [um x (by omega) (by omega), p3 x (by unfold Area; rw [b1, hFS]; omega), tm]
  have fr := savedMem_frame (B := prepBytes n) (s := s) hB0.1 (by omega)
  have hpos := prepCnt_pos h.rtype h.types I.var
  rw [show prepCnt I.ld I.var I.rt I.ats = n from hn.symm] at hpos
  have e1 : (endFrom I.ld I.ats (start I.ld I.rt)).slot = n.int := by rw [← hpos]; rfl
  have e2 : (endFrom I.ld I.ats (start I.ld I.rt)).nf = n.fp := by rw [← hpos]; rfl
  have e3 : (endFrom I.ld I.ats (start I.ld I.rt)).nv = n.vec := by rw [← hpos]; rfl
  have er1 : e.r 1 = S := (le.r 1 (.inl (by decide))).trans u1
  have gpr : ∀ k, k < 8 → (k < 4 ∨ k < n.int) → e.r (3 + k) = leNat (m'.rd (F.gprBase + 8 * k) 8) := by
    intro k hk hk4
    have hr : e.r (3 + k) = leNat (u.mem.rd (u.r 28 - 96 + 8 * k) 8) := by
      by_cases h4 : k < 4
      · exact le.gpr k h4
      · exact le.gpr2 (by rw [u31, prepFlags_gpr h.rtype]; simp; omega) k (by omega) hk
    rw [hr, u28, b1, hAP]
    exact congrArg leNat (Mem.rd_congr (fun i hi => um _ (by omega) (by omega)))
  have hregs : RegsEq (n.fp != 0) (n.vec != 0) n.int (regsOf F m') (mregs e) := by
    constructor
    · intro k hk hn
      exact (gpr k hk (.inr hn)).symm
    · intro hf k hk
      have hr := le.fpr (by rw [u31, prepFlags_fp h.rtype]; exact hf) k hk
      show leNat (m'.rd (F.fprBase + 8 * k) 8) = e.f (1 + k)
      have := g.f hf
      rw [hr, u28, b2, hAP]
      exact congrArg leNat (Mem.rd_congr (fun i hi => um _ (by omega) (by omega))).symm
    · intro hv k hk
      have hr := le.vec (by rw [u31, prepFlags_vec h.rtype]; exact hv) k hk
      show leNat (m'.rd (F.vecBase + 16 * k) 16) = e.v (2 + k)
      have hg := g.v hv
      rw [hr, u31, prepFlags_fp h.rtype, u28]
      rw [b3, hAP] at hg ⊢
      split at hg <;> rename_i hf
      · rw [if_pos hf]
        exact congrArg leNat (Mem.rd_congr (fun i hi => um _ (by omega) (by omega))).symm
      · rw [if_neg hf]
        exact congrArg leNat (Mem.rd_congr (fun i hi => um _ (by omega) (by omega))).symm
    · intro o h1 h2
      show m' (F.S + 32 + o) = e.mem (e.r 1 + 32 + o)
      rw [le.mem, er1, hFS]
      exact (um _ (by omega) (by omega)).symm
  have hvals : vals t.mem I.ats I.avalue = vals I.mem I.ats I.avalue := by
    refine vals_congr (P := fun x => S ≤ x ∧ x < s.r 1 + 32) ?_ (ppc_given h (fun x hx => by rw [← hn]; omega))
    intro x hx
    rw [tm, savedMem_out hB0.1 (by omega) (by omega) (by omega) (by omega), hs.mem]
  rw [hvals] at p1
  refine ⟨e, re, ?_, le.mem, le.lr, ?_⟩
  · constructor
    · exact ⟨by rw [le.pc, u29]; have := h.fn; omega, le.r12.trans u29⟩
    · rw [le.r11, u28, Mem.rd_congr (fun i hi => hsav _ (by omega)), fr.chain, leNat_leBytes, hs.r7, show (256 : Nat) ^ 8 = 2 ^ 64 by decide]
    · unfold places at p1 ⊢
      exact allPassed_congr hregs h.types (by omega) (fun hh => by simp; omega) (fun hh => by simp; omega) p1
    · intro hm
      rw [show e.r 3 = (mregs e).gpr 0 from rfl, show (mregs e).gpr 0 = (regsOf F m').gpr 0 from gpr 0 (by decide) (.inl (by decide)), p2 hm]
      unfold PpcIn.rv
      have hst : I.rt.tc = .struct := by have := retFlags_cases h.rtype; rw [hm] at this; exact this.2
      rw [hcif, callRv_eq h.rtype, if_pos hst, if_pos hm]
    · exact ⟨by rw [← hn]; omega, by omega, by omega⟩
    · rw [er1, le.mem, Mem.rd_congr (fun i hi => hsav _ (by omega)), hS, fr.back, leNat_leBytes, Nat.mod_eq_of_lt (by simpa using hs.regs 1)]
    · intro ha
      have hps : (prepCnt I.ld I.var I.rt I.ats).ps = true := ha.elim (hasArea_ps h.rtype h.types) id
      rw [show prepCnt I.ld I.var I.rt I.ats = n from hn.symm] at hps
      have := hB0.2 hps
      rw [er1, e1]
      omega
    · intro x hx
      rw [le.mem, hsav x (by omega), savedMem_out hB0.1 (by omega) (by omega) (by omega) (by omega), hs.mem]
  · intro w hw hkeep hrvh
    have er : ∀ k, k = 1 ∨ 14 ≤ k ∧ k ≤ 31 → w.r k = e.r k := hw.r
    have w28 : w.r 28 = s.r 1 := by rw [er 28 (by decide), le.r 28 (.inr (by decide)), u28]
    have w30 : w.r 30 = I.rv := by rw [er 30 (by decide), le.r 30 (.inr (by decide)), u30]
    have w31 : w.r 31 = prepFlags I.ld I.rt n := by rw [er 31 (by decide), le.r 31 (.inr (by decide)), u31]
    have w1 : w.r 1 = S := (er 1 (.inl rfl)).trans er1
    have hrve : I.rv = if I.rt.tc = .struct then (if retPlace I.ld I.rt = .mem then (if I.rvalue = 0 then I.tmp else I.rvalue) else I.buf) else I.rvalue := by
      unfold PpcIn.rv; rw [hcif, callRv_eq h.rtype]
    obtain ⟨fb0, fb3⟩ := flags_bits h.rtype n
    obtain ⟨v, rv, bk⟩ := call_tail (E := E) (u := w) (AP := s.r 1) (hw.pc.trans le.lr) w31 w30 w28 (fun h3 h1 => by
      obtain ⟨k, hk⟩ := fb3 h3
      rw [hrve]
      by_cases hst : I.rt.tc = .struct
      · rw [if_pos hst, if_neg (by rw [hk]; simp)]
        have := h.buf; omega
      · rw [if_neg hst]
        have := hal _ _ hk hst rfl; omega) fb0
    -- what is written is apart from the frame
    have hraw : ∀ x, s.r 1 - 32 ≤ x → x < s.r 1 + 24 → stored (prepFlags I.ld I.rt n) I.rv w x = w.mem x := by
      intro x h1 h2
      apply stored_out h.rtype
      rw [hrve]
      unfold rawSize
      by_cases hst : I.rt.tc = .struct
      · rw [if_pos hst, if_pos hst]
        have := h.buf
        split
        · omega
        · omega
      · rw [if_neg hst, if_neg hst]
        rcases hrvh hst with h3 | h3
        · omega
        · unfold resSize; rw [h3]; dsimp only; omega
    have hkw : ∀ x, S + 24 ≤ x ∧ x < S + 32 ∨ s.r 1 - 32 ≤ x ∧ x < s.r 1 + 24 → w.mem x = savedMem (prepBytes n) s x := by
      intro x hx
      rw [hkeep x (by rw [er1]; exact hx), le.mem]
      exact hsav x (by omega)
    have hkv : ∀ x, s.r 1 - 32 ≤ x ∧ x < s.r 1 + 24 → stored (prepFlags I.ld I.rt n) I.rv w x = savedMem (prepBytes n) s x := by
      intro x hx
      rw [hraw x hx.1 hx.2]
      exact hkw x (.inr hx)
    have back : ∀ x, x < 2 ^ 64 → leNat (leBytes 8 x) = x := fun x hx => by rw [leNat_leBytes, Nat.mod_eq_of_lt (by simpa using hx)]
    refine ⟨v, rv, ?_, ?_, ?_, ?_, ?_, ?_, ?_⟩
    · rw [bk.pc, Mem.rd_congr (fun i hi => hkv _ (by omega)), fr.lr, back _ hs.lr.1]
      have := hs.lr.2; omega
    · intro k hk
      by_cases k1 : k = 1
      · rw [k1, bk.sp]
      by_cases k2 : k = 2
      · rw [k2, bk.r2, w1, Mem.rd_congr (fun i hi => hkw _ (by omega)), hS, fr.toc, back _ (hs.regs 2)]
      by_cases k3 : k ≤ 27
      · rw [bk.rest k (by omega) k3, er k (by omega), le.r k (by omega), hu.conf.r k (by omega), at'.rest k (by omega) k3]
      obtain rfl | rfl | rfl | rfl : k = 28 ∨ k = 29 ∨ k = 30 ∨ k = 31 := by omega
      · rw [bk.r28, Mem.rd_congr (fun i hi => hkv _ (by omega)), fr.r28, back _ (hs.regs _)]
      · rw [bk.r29, Mem.rd_congr (fun i hi => hkv _ (by omega)), fr.r29, back _ (hs.regs _)]
      · rw [bk.r30, Mem.rd_congr (fun i hi => hkv _ (by omega)), fr.r30, back _ (hs.regs _)]
      · rw [bk.r31, Mem.rd_congr (fun i hi => hkv _ (by omega)), fr.r31, back _ (hs.regs _)]
    · intro k h1 h2
      rw [bk.fr, hw.f k h1 h2, le.f k h1, hu.conf.f k h1 h2, at'.f]
    · intro k h1 h2
      rw [bk.vr, hw.v k h1 h2, le.v k (by omega), hu.conf.v k h1 h2, at'.v]
    · intro k h1 h2
      rw [bk.cr k h1 h2, hw.cr k h1 h2, le.cr k h1, hu.conf.cr k h1 h2, at'.cr]
    · intro x h1 h2
      rw [bk.mem]
      by_cases hst : I.rt.tc = .struct ∧ retPlace I.ld I.rt ≠ .mem
      · obtain ⟨z1, z2⟩ := small_size h.rtype hst.1 hst.2
        rw [if_pos hst.1, if_neg hst.2] at hrve
        unfold callEnd
        have key : stored (prepFlags I.ld I.rt n) I.rv w x = w.mem x := by
          apply stored_out h.rtype
          rw [hrve]; unfold rawSize; rw [if_pos hst.1, if_neg hst.2]; exact h2
        split
        · rw [Mem.wr_out _ _ _ _ (by rw [Mem.rd_length, Nat.mod_eq_of_lt (by omega)]; omega), key]
        · exact key
      · have hid := ppc_callEnd_id h.rtype (buf := I.buf) (rvalue := I.rvalue) (tmp := I.tmp) (rv := I.rv) hst hrve (stored (prepFlags I.ld I.rt n) I.rv w)
        rw [hid]
        apply stored_out h.rtype
        unfold rawSize
        by_cases h3 : I.rt.tc = .struct
        · have h4 : retPlace I.ld I.rt = .mem := by by_contra h4; exact hst ⟨h3, h4⟩
          rw [if_pos h3, if_pos h4]; omega
        · rw [if_neg h3, hrve, if_neg h3]; exact h1
    · intro hnz val hval
      rw [bk.mem]
      by_cases hst : I.rt.tc = .struct ∧ retPlace I.ld I.rt ≠ .mem
      · obtain ⟨z1, z2⟩ := small_size h.rtype hst.1 hst.2
        rw [if_pos hst.1, if_neg hst.2] at hrve
        have hres := stored_result h.rtype (n := n) (rv := I.rv) hval
        unfold callEnd
        rw [if_pos ⟨hnz, hrve⟩, Nat.mod_eq_of_lt (by omega)]
        rw [hrve] at hres ⊢
        unfold Result at hres ⊢
        have hne := retFlags_cases h.rtype
        cases hp : retPlace I.ld I.rt with
        | void => trivial
        | mem => trivial
        | int => rw [hp] at hne; exact absurd hst.1 hne.2
        | small => rw [hp] at hres; dsimp only at hres ⊢; rw [wr_rd _ _ (Mem.rd_length _ _ _)]; exact hres
        | parts c k => rw [hp] at hres; dsimp only at hres ⊢; rw [wr_rd _ _ (Mem.rd_length _ _ _)]; exact hres
      · have hid := ppc_callEnd_id h.rtype (buf := I.buf) (rvalue := I.rvalue) (tmp := I.tmp) (rv := I.rv) hst hrve (stored (prepFlags I.ld I.rt n) I.rv w)
        rw [hid]
        have hrr : I.rv = I.rvalue := by
          rw [hrve]
          split
          · split
            · simp [hnz]
            · rename_i h3 h4; exact absurd ⟨h3, h4⟩ hst
          · rfl
        have := stored_result h.rtype (n := n) (rv := I.rv) hval
        rw [← hrr]
        exact this

/-- C86: without `rvalue`, an integer result is stored at address 0; libffi.texi does not allow a null `rvalue` unless
the function returns void, other targets make room. -/
theorem ppc_null_C86 {E : Env} {I : PpcIn} {s : M} (hs : PpcAtCall E I s) (h : PpcCall I (s.r 1)) (hb : prepBytes I.cnt < 2 ^ 32)
    (hi : retPlace I.ld I.rt = .int) (h0 : I.rvalue = 0) :
    ∃ t, Runs .call E s t ∧ t.pc = E.H ∧ ∀ u, Prepared I.ld I.cif I.ats I.rv I.avalue t u → ∃ e, Runs .call E u e ∧ e.pc = I.fn ∧
      ∀ w, Conforms e w → ∃ v, Runs .call E w v ∧ v.mem.rd 0 8 = leBytes 8 (w.r 3) := by
  have hcif : I.cif = ⟨prepFlags I.ld I.rt I.cnt, prepBytes I.cnt, I.named⟩ := prepCif_eq hb
  have hroom := hs.room
  have hB0 : 128 ≤ prepBytes I.cnt := (frOf_geo (S := 0) (nfx := 0) h.rtype rfl).2.1
  have hr8 := hs.r8
  rw [hcif] at hr8
  obtain ⟨t, rt, at'⟩ := call_prep (B := prepBytes I.cnt) hs.pc hr8 (by omega) (hs.regs 1) (by omega)
  refine ⟨t, rt, at'.pc, fun u hu => ?_⟩
  have u28 : u.r 28 = s.r 1 := (hu.conf.r 28 (by decide)).trans at'.r28
  have u29 : u.r 29 = I.fn := ((hu.conf.r 29 (by decide)).trans at'.r29).trans hs.r4
  have u30 : u.r 30 = I.rv := ((hu.conf.r 30 (by decide)).trans at'.r30).trans hs.r5
  have u31 : u.r 31 = prepFlags I.ld I.rt I.cnt := ((hu.conf.r 31 (by decide)).trans at'.r31).trans (by rw [hs.r6, hcif])
  obtain ⟨e, re, le⟩ := call_load (E := E) (u := u) (hu.conf.pc.trans at'.lr) (by rw [u28]; have := hs.sp; omega) (by rw [u28]; omega)
  refine ⟨e, re, by rw [le.pc, u29]; have := h.fn; omega, fun w hw => ?_⟩
  have hst : I.rt.tc ≠ .struct := by have := retFlags_cases h.rtype; rw [hi] at this; exact this.2
  have hrv : I.rv = 0 := by unfold PpcIn.rv; rw [hcif, callRv_eq h.rtype, if_neg hst, h0]
  obtain ⟨fb0, fb3⟩ := flags_bits h.rtype I.cnt
  obtain ⟨v, rv, bk⟩ := call_tail (E := E) (u := w) (fl := prepFlags I.ld I.rt I.cnt) (rv := 0) (AP := s.r 1) (hw.pc.trans le.lr)
    (by rw [hw.r 31 (by decide), le.r 31 (.inr (by decide)), u31])
    (by rw [hw.r 30 (by decide), le.r 30 (.inr (by decide)), u30, hrv])
    (by rw [hw.r 28 (by decide), le.r 28 (.inr (by decide)), u28]) (fun _ _ => rfl) fb0
  refine ⟨v, rv, ?_⟩
  rw [bk.mem, stored_eq h.rtype, hi]
  exact wr_rd _ _ (leBytes_length _ _)

/-- A struct of `8 * 2 ^ n` bytes. -/
def ppcBig : Nat → FType
  | 0 => mkScalar (tab .ieee) .uint64
  | n + 1 => mkStruct [ppcBig n, ppcBig n]

theorem ppc_big : ∀ n, WF (tab .ieee) (ppcBig n) ∧ plain (ppcBig n) = true ∧ (ppcBig n).size = 8 * 2 ^ n ∧ (ppcBig n).align = 8 ∧
    (∀ o, ∃ l ls, leaves (ppcBig n) o = l :: ls ∧ l.tc = .uint64) ∧ (n ≠ 0 → (ppcBig n).tc = .struct)
  | 0 => ⟨mkScalar_wf (by decide), rfl, rfl, rfl, fun _ => ⟨_, _, rfl, rfl⟩, fun h => absurd rfl h⟩
  | n + 1 => by
    obtain ⟨h1, h2, h3, h4, h5, _⟩ := ppc_big n
    refine ⟨mkStruct_wf (tab_ok .ieee) (by simp) (by intro e he; simp at he; rw [he]; exact h1), ?_, ?_, ?_, ?_, fun _ => rfl⟩
    · rw [ppcBig]
      simp [mkStruct, Ppc.plain, Ppc.plainL, h2]
    · rw [ppcBig]
      generalize ppcBig n = t at h3 h4
      obtain ⟨a, b, c, d⟩ := t
      have h3 : a = 8 * 2 ^ n := h3
      have h4 : b = 8 := h4
      subst h3 h4
      simp only [mkStruct, FType.size, List.map_cons, List.map_nil, buildEnd, buildAlign, FType.align]
      simp [roundUp, Nat.pow_succ]
      omega
    · rw [ppcBig]
      generalize ppcBig n = t at h4
      obtain ⟨a, b, c, d⟩ := t
      have h4 : b = 8 := h4
      subst h4
      simp [mkStruct, FType.size, List.map_cons, List.map_nil, buildAlign, FType.align]
    · intro o
      rw [ppcBig]
      obtain ⟨l, ls, e1, e2⟩ := h5 (o + 0)
      simp only [mkStruct, leaves, leavesL]
      rw [show roundUp 0 (ppcBig n).align = 0 by rw [h4]; rfl, e1]
      exact ⟨l, _, rfl, e2⟩

/-- C86, negation: `cif->bytes` is cut off to 32 bits.  For a struct of 4 GiB the frame has 128 bytes, and `ffi_prep_args64`
writes the 4 GiB upwards from its parameter area. -/
theorem ppc_bytes_wrap (S a : Nat) (m : Mem) (hS : S % 16 = 0) (ha : a + 2 ^ 32 ≤ S) (rt : FType) (hrt : rt.tc = .void) :
    Ty .ieee (ppcBig 29) ∧ (ppcBig 29).size = 2 ^ 32 ∧ (Ppc.prepCif .ieee false 0 rt [ppcBig 29]).bytes = 128 ∧
    (Ppc.prepArgs .ieee (Ppc.prepCif .ieee false 0 rt [ppcBig 29]) [ppcBig 29] 0 [a] S m).rd (S + 32) (2 ^ 32) = m.rd a (2 ^ 32) := by
  obtain ⟨h1, h2, h3, h4, h5, h6⟩ := ppc_big 29
  have h3 : (ppcBig 29).size = 2 ^ 32 := h3
  have h6 := h6 (by decide)
  have hty : Ty .ieee (ppcBig 29) := ⟨h1, h2⟩
  have hh : homog .ieee (ppcBig 29) = none := by
    obtain ⟨l, ls, e1, e2⟩ := h5 0
    unfold homog
    rw [e1, List.map_cons, e2]
    rfl
  have hd : discover .ieee (ppcBig 29) = none := by
    rw [discover_eq hty, hh]; rfl
  refine ⟨hty, h3, ?_⟩
  generalize ppcBig 29 = t at *
  have hrf : retFlags .ieee rt = 2 := by unfold retFlags; rw [hrt]; rfl
  have hn : prepCnt .ieee false rt [t] = ⟨0, 2 ^ 29, 0, true⟩ := by
    unfold prepCnt prepStart
    rw [hrf]
    simp [prepLoop, prepArg, h6, prepStruct, hd, prepAlign, h4, h3, flagRetRef, numGpr]
  have hcif : Ppc.prepCif .ieee false 0 rt [t] = ⟨prepFlags .ieee rt ⟨0, 2 ^ 29, 0, true⟩, 128, 1⟩ := by
    unfold Ppc.prepCif
    dsimp only
    rw [hn]
    rfl
  refine ⟨by rw [hcif], ?_⟩
  rw [hcif]
  unfold Ppc.prepArgs frOf
  dsimp only
  have hfl : prepFlags .ieee rt ⟨0, 2 ^ 29, 0, true⟩ = 2 ||| 2 ^ 24 ||| 2 ^ 26 := by unfold prepFlags; rw [hrf]; rfl
  rw [hfl, if_neg (by decide)]
  have hF : (Fr.mk S 128 (decide ((2 ||| 2 ^ 24 ||| 2 ^ 26) &&& flagFpArgs ≠ 0))).gprBase = S + 32 ∧
      (Fr.mk S 128 (decide ((2 ||| 2 ^ 24 ||| 2 ^ 26) &&& flagFpArgs ≠ 0))).rest = S + 96 := by
    constructor
    · show S + 128 - 8 * 4 - 8 * 8 = S + 32; omega
    · rfl
  generalize Fr.mk S 128 (decide ((2 ||| 2 ^ 24 ||| 2 ^ 26) &&& flagFpArgs ≠ 0)) = F at hF
  obtain ⟨f1, f2⟩ := hF
  have f3 : F.gprEnd = S + 96 := by unfold Fr.gprEnd; rw [f1]; rfl
  simp only [Ppc.callLoop, callArg, h6, callStruct, hd, h3]
  have hal : alignStruct F t ⟨F.gprBase, F.fprBase, 0, F.vecBase, 0⟩ = ⟨S + 32, F.fprBase, 0, F.vecBase, 0⟩ := by
    unfold alignStruct
    rw [h4, f1]
    have : roundUp (S + 32) 8 = S + 32 := by unfold roundUp; omega
    simp only [Nat.reduceGT, if_false, if_true, this]
    rw [show F.bump (S + 32) = S + 32 by unfold Fr.bump; rw [f3, if_neg (by omega)]]
  rw [hal]
  unfold putStruct
  dsimp only
  rw [f1, f2, f3, if_pos (by omega)]
  dsimp only
  rw [show S + 96 - (S + 32) = 64 by omega, show (2 : Nat) ^ 32 = 64 + (2 ^ 32 - 64) by decide, Mem.rd_append, Mem.rd_append,
    Mem.rd_wr_disj _ _ _ _ _ (by rw [Mem.rd_length]; omega), wr_rd _ _ (Mem.rd_length _ _ _), show 64 + (2 ^ 32 - 64) - 64 = 2 ^ 32 - 64 by decide,
    show S + 32 + 64 = S + 96 by omega, wr_rd _ _ (Mem.rd_length _ _ _), Mem.rd_wr_disj _ _ _ _ _ (by rw [Mem.rd_length]; omega)]

/-! ## A call -/

/-- `int, double, struct { float, float }, struct { char[17] }, long double, ...: unsigned long`. -/
def ppcAts (ld : LD) : List FType :=
  [mkScalar (tab ld) .sint32, mkScalar (tab ld) .double, mkStruct [mkScalar (tab ld) .float, mkScalar (tab ld) .float],
    mkStruct (List.replicate 17 (mkScalar (tab ld) .uint8)), mkScalar (tab ld) .longdouble, mkScalar (tab ld) .uint64]

theorem ppc_ats (ld : LD) : ∀ t ∈ ppcAts ld, Ty ld t := by
  intro t ht
  have sc : ∀ {k : TC}, (tab ld k).isSome = true → WF (tab ld) (mkScalar (tab ld) k) := fun h => mkScalar_wf h
  simp only [ppcAts, List.mem_cons, List.not_mem_nil, or_false] at ht
  rcases ht with rfl | rfl | rfl | rfl | rfl | rfl
  · exact ⟨sc rfl, by cases ld <;> rfl⟩
  · exact ⟨sc rfl, by cases ld <;> rfl⟩
  · exact ⟨mkStruct_wf (tab_ok ld) (by simp) (by intro e he; simp at he; rw [he]; exact sc rfl), by cases ld <;> rfl⟩
  · exact ⟨mkStruct_wf (tab_ok ld) (by simp) (by intro e he; rw [List.eq_of_mem_replicate he]; exact sc rfl), by cases ld <;> rfl⟩
  · exact ⟨sc (by cases ld <;> rfl), by cases ld <;> rfl⟩
  · exact ⟨sc rfl, by cases ld <;> rfl⟩

def ppcIn (ld : LD) (rvalue : Nat) : PpcIn :=
  ⟨ld, true, 5, mkScalar (tab ld) .sint32, ppcAts ld, rvalue, [2 ^ 21, 2 ^ 21 + 8, 2 ^ 21 + 16, 2 ^ 21 + 24, 2 ^ 21 + 48, 2 ^ 21 + 64], 2 ^ 22, 77, 2 ^ 20 + 512,
    2 ^ 20 + 1024, 2 ^ 20 + 2048, fun a => BitVec.ofNat 8 (7 * a)⟩

def ppcState (E : Env) (I : PpcIn) : M :=
  ⟨fun k => if k = 1 then 2 ^ 20 else if k = 3 then I.ecif else if k = 4 then I.fn else if k = 5 then I.rv else if k = 6 then I.cif.flags else if k = 7 then I.closure else
    if k = 8 then 2 ^ 64 - I.cif.bytes else 1000 + k % 32, fun _ => 3, fun _ => 5, fun _ => false, 4096, 0, I.mem, E.L + 4 * off .call .callLocal⟩

theorem ppc_case (E : Env) (ld : LD) (rvalue : Nat) (hr : rvalue < 2 ^ 64) :
    PpcAtCall E (ppcIn ld rvalue) (ppcState E (ppcIn ld rvalue)) ∧ PpcCall (ppcIn ld rvalue) (2 ^ 20) ∧ prepBytes (ppcIn ld rvalue).cnt < 1024 := by
  have hB : prepBytes (ppcIn ld 0).cnt < 1024 ∧ 0 < (ppcIn ld 0).cif.bytes ∧ (ppcIn ld 0).cif.flags < 2 ^ 64 := by cases ld <;> decide +kernel
  have hrv : (ppcIn ld rvalue).rv = rvalue ∨ (ppcIn ld rvalue).rv < 2 ^ 21 := by
    unfold PpcIn.rv callRv
    split
    · right; exact (by decide : 2 ^ 20 + 1024 < 2 ^ 21)
    · split
      · right; exact (by decide : 2 ^ 20 + 2048 < 2 ^ 21)
      · left; rfl
  have h1 : (ppcIn ld rvalue).cif = (ppcIn ld 0).cif := rfl
  have h2 : (ppcIn ld rvalue).cnt = (ppcIn ld 0).cnt := rfl
  refine ⟨⟨rfl, rfl, rfl, rfl, rfl, rfl, rfl, rfl, ?_, ⟨by show 4096 < 2 ^ 64; decide, by show 4 ∣ 4096; decide⟩, by show 16 ∣ 2 ^ 20; decide, ?_⟩, ?_, by rw [h2]; exact hB.1⟩
  · intro k
    unfold ppcState
    dsimp only
    rw [h1]
    have a1 : (ppcIn ld rvalue).ecif = 2 ^ 20 + 512 := rfl
    have a2 : (ppcIn ld rvalue).fn = 2 ^ 22 := rfl
    have a3 : (ppcIn ld rvalue).closure = 77 := rfl
    repeat' split
    all_goals omega
  · show _ ≤ 2 ^ 20
    rw [h2]; omega
  · refine ⟨.inl ⟨mkScalar_wf rfl, by cases ld <;> rfl⟩, ppc_ats ld, rfl, ?_, ⟨2 ^ 20, rfl⟩, hr, (by decide : 2 ^ 20 + 32 ≤ 2 ^ 20 + 1024 ∧ 16 ∣ 2 ^ 20 + 1024 ∧ 2 ^ 20 + 1024 < 2 ^ 64),
      (by decide : 2 ^ 20 + 32 ≤ 2 ^ 20 + 2048 ∧ 2 ^ 20 + 2048 < 2 ^ 64)⟩
    intro i t a _ ha
    right
    have : a ∈ (ppcIn ld rvalue).avalue := List.mem_of_getElem? ha
    have h : ∀ x ∈ (ppcIn ld 0).avalue, 2 ^ 20 + 32 ≤ x := by cases ld <;> decide +kernel
    exact h a this

example (E : Env) (ld : LD) : ∃ t, Runs .call E (ppcState E (ppcIn ld (2 ^ 21 + 128))) t ∧ t.pc = E.H ∧
    ∀ u, Prepared ld (ppcIn ld (2 ^ 21 + 128)).cif (ppcAts ld) (ppcIn ld (2 ^ 21 + 128)).rv (ppcIn ld (2 ^ 21 + 128)).avalue t u →
      ∃ e, Runs .call E u e ∧ PpcEntry (ppcIn ld (2 ^ 21 + 128)) (2 ^ 20) e := by
  obtain ⟨h1, h2, h3⟩ := ppc_case E ld (2 ^ 21 + 128) (by decide)
  obtain ⟨t, a, b, _, _, _, _, c⟩ := ppc_call_partial h1 h2 (by omega) (by
    intro c n hp
    have : retPlace ld (mkScalar (tab ld) .sint32) = .int := by cases ld <;> decide +kernel
    cases this.symm.trans hp)
  refine ⟨t, a, b, fun u hu => ?_⟩
  obtain ⟨e, r, he, _⟩ := c u hu
  exact ⟨e, r, he⟩

example (E : Env) (ld : LD) : ∃ t, Runs .call E (ppcState E (ppcIn ld 0)) t ∧ t.pc = E.H := by
  obtain ⟨h1, h2, h3⟩ := ppc_case E ld 0 (by decide)
  obtain ⟨t, a, b, _⟩ := ppc_null_C86 h1 h2 (by omega) (by cases ld <;> decide +kernel) rfl
  exact ⟨t, a, b⟩

example : (2 ^ 34) % 16 = 0 ∧ 4096 + 2 ^ 32 ≤ 2 ^ 34 ∧ (FType.mk 1 1 .void []).tc = .void := by decide

/-- r3, f1, f2 and f3, r6 to r8, f4 and f5, and the doubleword after those of r3 to r10. -/
example : places .ibm (mkScalar (tab .ibm) .sint32) 5 (ppcAts .ibm) =
    [.int 0, .parts 1 .f64 1 0 true, .parts 2 .f32 2 1 true, .agg 3, .parts 6 .ibm 2 3 true, .int 8] := by decide +kernel

end Verif.Props
