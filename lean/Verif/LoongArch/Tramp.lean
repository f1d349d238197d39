import Verif.LoongArch.AsmLemmas
import Verif.Ppc.Tramp

/-! Execution of the trampolines of LoongArch. -/
namespace Verif.LA.Asm
open Verif Verif.RV Verif.RV.Asm

theorem add_eq {b n : Nat} {k : Int} (h : (b : Int) + k = n) (hn : n < 2 ^ 64) : add b k = n := by
  unfold add; rw [h]; omega

/-- What `ffi_prep_closure_loc` leaves in the object. -/
structure Fields (m : Mem) (a cif fn ud : Nat) : Prop where
  cif : Code m (a + 24) (leBytes 8 cif)
  fn : Code m (a + 32) (leBytes 8 fn)
  ud : Code m (a + 40) (leBytes 8 ud)

structure Image (m : Mem) (a entry cif fn ud : Nat) : Prop extends Fields m a cif fn ud where
  w0 : Code m (a + 0) (leBytes 4 0x1800000c)
  w1 : Code m (a + 4) (leBytes 4 0x28c0418d)
  w2 : Code m (a + 8) (leBytes 4 0x4c0001a0)
  entry : Code m (a + 16) (leBytes 8 entry)

theorem prep_image {abi entry closure cif fn ud : Nat} {m m' : Mem}
    (h : prepClosure abi entry closure cif fn ud m = some m') : Image m' closure entry cif fn ud := by
  unfold prepClosure at h
  split at h
  · simp only [Option.some.injEq] at h
    subst h
    have hcode : Code (m.wr closure (trampWords.flatMap (leBytes 4))) closure
        (leBytes 4 0x1800000c ++ (leBytes 4 0x28c0418d ++ (leBytes 4 0x4c0001a0 ++ (leBytes 4 0x03400000 ++ [])))) := Code.same
    obtain ⟨c0, hcode⟩ := hcode.append
    obtain ⟨c1, hcode⟩ := hcode.append
    obtain ⟨c2, -⟩ := hcode.append
    rw [leBytes_length] at c1 c2
    rw [leBytes_length] at c2
    generalize m.wr closure (trampWords.flatMap (leBytes 4)) = m1 at *
    refine ⟨⟨?_, ?_, Code.same⟩, ?_, ?_, ?_, ?_⟩
    · refine Code.wr (Code.wr Code.same ?_) ?_ <;> simp
    · exact Code.wr Code.same (by simp)
    · refine Code.wr (Code.wr (Code.wr (Code.wr (Code.wr c0 ?_) ?_) ?_) ?_) ?_ <;> simp <;> omega
    · refine Code.wr (Code.wr (Code.wr (Code.wr (Code.wr c1 ?_) ?_) ?_) ?_) ?_ <;> simp <;> omega
    · refine Code.wr (Code.wr (Code.wr (Code.wr (Code.wr c2 ?_) ?_) ?_) ?_) ?_ <;> simp <;> omega
    · refine Code.wr (Code.wr (Code.wr ?_ ?_) ?_) ?_ <;> try (simp; done)
      rw [show leBytes 8 entry = leBytes 4 entry ++ leBytes 4 (entry / 2 ^ 32) from leBytes_split (n := 4) (k := 4)]
      exact Code.join (Code.wr Code.same (by simp)) (by rw [leBytes_length]; exact Code.same)
  · cases h

theorem Fields.view {m m' : Mem} {a b cif fn ud : Nat} (h : Fields m a cif fn ud)
    (hv : ∀ i, 24 ≤ i → i < 48 → m' (b + i) = m (a + i)) : Fields m' b cif fn ud := by
  have t : ∀ {k : Nat} {bs : List Byte}, 24 ≤ k → k + bs.length ≤ 48 → Code m (a + k) bs → Code m' (b + k) bs := by
    intro k bs hk1 hk hc
    refine hc.congr fun i hi => ?_
    rw [Nat.add_assoc, Nat.add_assoc, hv _ (by omega) (by omega)]
  exact ⟨t (by omega) (by simp) h.cif, t (by omega) (by simp) h.fn, t (by omega) (by simp) h.ud⟩

theorem Image.view {m m' : Mem} {a b entry cif fn ud : Nat} (h : Image m a entry cif fn ud)
    (hv : ∀ i, i < 48 → m' (b + i) = m (a + i)) : Image m' b entry cif fn ud := by
  have t : ∀ {k : Nat} {bs : List Byte}, k + bs.length ≤ 48 → Code m (a + k) bs → Code m' (b + k) bs := by
    intro k bs hk hc
    refine hc.congr fun i hi => ?_
    rw [Nat.add_assoc, Nat.add_assoc, hv _ (by omega)]
  exact ⟨h.toFields.view fun i _ hi => hv i hi, t (by simp) h.w0, t (by simp) h.w1, t (by simp) h.w2, t (by simp) h.entry⟩

theorem tstep_word {m : MState} {w : Nat} {i : TIns} (ha : m.pc % 4 = 0) (h : Code m.s.mem m.pc (leBytes 4 w)) (hw : w < 2 ^ 32)
    (hd : decode w = some i) : tstep m = some (texec m i) := by
  unfold tstep
  unfold Code at h
  rw [leBytes_length] at h
  rw [if_pos ha, h, leNat_leBytes, show 256 ^ 4 = 2 ^ 32 from rfl, Nat.mod_eq_of_lt hw, hd]
  rfl

theorem tsteps_succ {n : Nat} {s t : MState} (h : tstep s = some t) : tsteps (n + 1) s = tsteps n t := by
  show (tstep s).bind _ = _; rw [h]; rfl

theorem rd_word8 {m : Mem} {a v : Nat} (h : Code m a (leBytes 8 v)) (hv : v < 2 ^ 64) : leNat (m.rd a 8) = v := by
  unfold Code at h
  rw [leBytes_length] at h
  rw [h, leNat_leBytes, show 256 ^ 8 = 2 ^ 64 from rfl, Nat.mod_eq_of_lt hv]

/-- The dynamic trampoline. -/
theorem tramp_run {s : AState} {a entry cif fn ud : Nat} (h : Image s.mem a entry cif fn ud) (hl : a + 48 < 2 ^ 64) (h4 : a % 4 = 0)
    (he : entry < 2 ^ 64) : tsteps 3 ⟨a, s⟩ = some ⟨entry, ⟨upd (upd s.x 12 a) 13 entry, s.f, s.mem⟩⟩ := by
  have e1 : tstep ⟨a, s⟩ = some ⟨a + 4, ⟨upd s.x 12 a, s.f, s.mem⟩⟩ := by
    rw [tstep_word (w := 0x1800000c) h4 h.w0 (by decide) (show _ = some (.pcaddi 12 0) by decide)]
    simp only [texec, setX, sext]
    rw [add_eq (n := a + 4) (by push_cast; rfl) (by omega), add_eq (n := a) (by simp) (by omega)]
    simp
  have e2 : tstep ⟨a + 4, ⟨upd s.x 12 a, s.f, s.mem⟩⟩ = some ⟨a + 8, ⟨upd (upd s.x 12 a) 13 entry, s.f, s.mem⟩⟩ := by
    rw [tstep_word (w := 0x28c0418d) (by dsimp only; omega) h.w1 (by decide) (show _ = some (.ldd 13 12 16) by decide)]
    simp only [texec, setX, sext, rdX]
    rw [add_eq (n := a + 8) (by push_cast; omega) (by omega)]
    simp [upd]
    rw [show add a 16 = a + 16 from add_eq (by push_cast; rfl) (by omega), rd_word8 h.entry he]
  have e3 : tstep ⟨a + 8, ⟨upd (upd s.x 12 a) 13 entry, s.f, s.mem⟩⟩ = some ⟨entry, ⟨upd (upd s.x 12 a) 13 entry, s.f, s.mem⟩⟩ := by
    rw [tstep_word (w := 0x4c0001a0) (by dsimp only; omega) h.w2 (by decide) (show _ = some (.jirl 0 13 0) by decide)]
    simp [texec, setX, sext, rdX, upd]
    exact add_eq (by simp) he
  rw [tsteps_succ e1, tsteps_succ e2, tsteps_succ e3]
  rfl

theorem codeTable_getD (k i : Nat) (hk : k < 4096) (hi : i < 16) :
    codeTable.getD (16 * k + i) 0 = (slotWords.flatMap (leBytes 4)).getD i 0 :=
  Ppc.Asm.flat_getD (slotWords.flatMap (leBytes 4)) i hi _ k hk

/-- Slot `k` of a table mapped at `T`; parameters are 64 KiB further. -/
theorem static_run {s : AState} {T k data target : Nat} (hk : k < 4096) (hT : s.mem.rd T 65536 = codeTable) (h4 : T % 4 = 0) (hl : T + 131072 ≤ 2 ^ 64)
    (hd : leNat (s.mem.rd (T + 65536 + 16 * k) 8) = data) (ht : leNat (s.mem.rd (T + 65536 + 16 * k + 8) 8) = target) (htt : target < 2 ^ 64) :
    tsteps 4 ⟨T + 16 * k, s⟩ = some ⟨target, ⟨upd (upd s.x 12 data) 13 target, s.f, s.mem⟩⟩ := by
  obtain ⟨a, ha⟩ : ∃ a, T + 16 * k = a := ⟨_, rfl⟩
  have hcode : Code s.mem (T + 16 * k) (leBytes 4 0x1c00020d ++ (leBytes 4 0x28c001ac ++ (leBytes 4 0x28c021ad ++ (leBytes 4 0x4c0001a0 ++ [])))) := by
    show s.mem.rd _ 16 = slotWords.flatMap (leBytes 4)
    apply bytes_ext
    · rw [Mem.rd_length]; rfl
    · intro i hi
      rw [Mem.rd_length] at hi
      rw [Mem.rd_getD _ _ _ _ hi, ← codeTable_getD k i hk hi, ← hT, Mem.rd_getD _ _ _ _ (by omega), Nat.add_assoc]
  rw [ha] at hcode ⊢
  rw [show T + 65536 + 16 * k = a + 65536 by omega] at hd ht
  obtain ⟨c0, hcode⟩ := hcode.append
  obtain ⟨c1, hcode⟩ := hcode.append
  obtain ⟨c2, hcode⟩ := hcode.append
  obtain ⟨c3, -⟩ := hcode.append
  rw [leBytes_length] at c1 c2 c3
  rw [leBytes_length] at c2 c3
  rw [leBytes_length] at c3
  have e1 : tstep ⟨a, s⟩ = some ⟨a + 4, ⟨upd s.x 13 (a + 65536), s.f, s.mem⟩⟩ := by
    rw [tstep_word (w := 0x1c00020d) (by dsimp only; omega) c0 (by decide) (show _ = some (.pcaddu12i 13 16) by decide)]
    simp only [texec, setX, sext]
    rw [add_eq (n := a + 4) (by push_cast; rfl) (by omega), add_eq (n := a + 65536) (by simp) (by omega)]
    simp
  have e2 : tstep ⟨a + 4, ⟨upd s.x 13 (a + 65536), s.f, s.mem⟩⟩ = some ⟨a + 8, ⟨upd (upd s.x 13 (a + 65536)) 12 data, s.f, s.mem⟩⟩ := by
    rw [tstep_word (w := 0x28c001ac) (by dsimp only; omega) c1 (by decide) (show _ = some (.ldd 12 13 0) by decide)]
    simp only [texec, setX, sext, rdX]
    rw [add_eq (n := a + 8) (by push_cast; omega) (by omega)]
    simp [upd]
    rw [show add (a + 65536) 0 = a + 65536 from add_eq (by simp) (by omega), hd]
  have e3 : tstep ⟨a + 8, ⟨upd (upd s.x 13 (a + 65536)) 12 data, s.f, s.mem⟩⟩ =
      some ⟨a + 12, ⟨upd (upd (upd s.x 13 (a + 65536)) 12 data) 13 target, s.f, s.mem⟩⟩ := by
    rw [tstep_word (w := 0x28c021ad) (by dsimp only; omega) c2 (by decide) (show _ = some (.ldd 13 13 8) by decide)]
    simp only [texec, setX, sext, rdX]
    rw [add_eq (n := a + 12) (by push_cast; omega) (by omega)]
    simp [upd]
    rw [show add (a + 65536) 8 = a + 65536 + 8 from add_eq (by simp) (by omega), ht]
  have e4 : tstep ⟨a + 12, ⟨upd (upd (upd s.x 13 (a + 65536)) 12 data) 13 target, s.f, s.mem⟩⟩ =
      some ⟨target, ⟨upd (upd s.x 12 data) 13 target, s.f, s.mem⟩⟩ := by
    rw [tstep_word (w := 0x4c0001a0) (by dsimp only; omega) c3 (by decide) (show _ = some (.jirl 0 13 0) by decide)]
    simp only [texec, setX, sext, rdX]
    have hx : upd (upd (upd s.x 13 (a + 65536)) 12 data) 13 target = upd (upd s.x 12 data) 13 target := by
      funext r; simp only [upd]; split
      · rfl
      · split <;> rfl
    rw [hx]
    simp [upd]
    exact add_eq (by simp) htt
  rw [tsteps_succ e1, tsteps_succ e2, tsteps_succ e3, tsteps_succ e4]
  rfl

end Verif.LA.Asm
