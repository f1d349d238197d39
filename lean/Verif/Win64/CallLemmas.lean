import Verif.Win64.Lemmas

namespace Verif.Win64
open Verif Spec.Win64

/-- What the slot of one argument holds on entry: `b` is the element of `avalue`
after the copy loop. -/
structure SlotOk (M : Mem) (I : CallIn) (top S k : Nat) (t : FType) (a b : Nat) : Prop where
  val : ByValue t.size → (M.rd (S + 8 * k) 8).take t.size = I.mem.rd a t.size
  ref : ¬ByValue t.size → M.rd (S + 8 * k) 8 = leBytes 8 b
  obj : M.rd b t.size = I.mem.rd a t.size
  copied : t.tc = .struct → intGt8 t.size = true → top ≤ b ∧ b + t.size ≤ I.sp
  same : ¬(t.tc = .struct ∧ intGt8 t.size = true) → b = a

theorem slotVal_take {m : Mem} {t : FType} {b : Nat} (h : ByValue t.size) :
    (slotVal m t b).take t.size = m.rd b t.size := by
  unfold slotVal
  rcases h with h | h | h | h <;> rw [h] <;> simp [List.take_of_length_le]

theorem slotVal_ref {m : Mem} {t : FType} {b : Nat} (h : ¬ByValue t.size) :
    slotVal m t b = leBytes 8 b := by
  unfold ByValue at h
  unfold slotVal
  rw [if_neg (by omega), if_neg (by omega), if_neg (by omega), if_neg (by omega)]

/-- Summary of the state produced by `callEntry`. -/
structure EntrySpec (fl : Flag) (bytes : Nat) (rt : FType) (ats : List FType) (I : CallIn) (lo : Nat)
    (O : CallOut) : Prop where
  align : O.entry.args % 16 = 0
  low : lo + 8 ≤ O.entry.args
  frame : O.frame = O.entry.args + bytes
  top : O.frame + 40 + callRsize fl rt I.rvalue ≤ I.sp
  outside : ∀ x, x < lo ∨ I.sp ≤ x → O.entry.mem x = I.mem x
  gpr : ∀ k, k < 4 → O.entry.gpr k = O.entry.mem.rd (O.entry.args + 8 * k) 8
  xmm : ∀ k, k < 4 → O.entry.xmm k = O.entry.mem.rd (O.entry.args + 8 * k) 8
  r10 : O.entry.r10 = I.closure
  flags : O.flags = callFlags fl I.rvalue
  rvalue : O.rvalue = if callRsize fl rt I.rvalue ≠ 0 then O.frame + 40 else I.rvalue.getD 0
  hidden : O.flags = .tc .struct → O.entry.mem.rd O.entry.args 8 = leBytes 8 O.rvalue
  fn : O.entry.mem.rd (O.frame + 16) 8 = leBytes 8 I.fn
  fflags : O.entry.mem.rd (O.frame + 24) 8 = leBytes 8 O.flags.code
  frvalue : O.entry.mem.rd (O.frame + 32) 8 = leBytes 8 O.rvalue
  len : O.avalue.length = ats.length
  slots : ∀ (i : Nat) t a b, ats[i]? = some t → I.avalue[i]? = some a → O.avalue[i]? = some b →
    SlotOk O.entry.mem I (O.frame + 40 + callRsize fl rt I.rvalue) O.entry.args
      ((if O.flags = .tc .struct then 1 else 0) + i) t a b

theorem callEntry_spec {fl : Flag} {bytes : Nat} {rt : FType} {ats : List FType} {I : CallIn} {lo : Nat}
    (hlen : I.avalue.length = ats.length)
    (hb : 8 * ((if callFlags fl I.rvalue = .tc .struct then 1 else 0) + ats.length) ≤ bytes)
    (hb32 : 32 ≤ bytes)
    (room : lo + 8 + need ats + (bytes + 40 + callRsize fl rt I.rvalue + 15) ≤ I.sp)
    (obj : ∀ (i : Nat) t a, ats[i]? = some t → I.avalue[i]? = some a → Disj a t.size lo I.sp) :
    EntrySpec fl bytes rt ats I lo (callEntry fl bytes rt ats I) := by
  obtain ⟨c1, c2, c3, c4, c5⟩ := copyArgs_spec lo ats I.avalue I.sp I.mem hlen (by omega) obj
  unfold callEntry
  generalize copyArgs ats I.avalue I.sp I.mem = r at c1 c2 c3 c4 c5
  obtain ⟨av, sp, m0⟩ := r
  simp only at c1 c2 c3 c4 c5 ⊢
  generalize hrs : callRsize fl rt I.rvalue = rsize at *
  generalize hfl : callFlags fl I.rvalue = flags at *
  have hal := alloca_spec (sp := sp) (n := bytes + 40 + rsize) (by omega)
  generalize alloca sp (bytes + 40 + rsize) = S at *
  obtain ⟨s1, s2, s3⟩ := hal
  generalize h0 : (if rsize ≠ 0 then S + bytes + 40 else I.rvalue.getD 0) = rv
  generalize hh : (if flags = .tc .struct then 1 else 0) = hid at *
  -- the memory just before the slot loop
  generalize hm1 : (if flags = Flag.tc TC.struct then
    (((m0.wr (S + bytes + 16) (leBytes 8 I.fn)).wr (S + bytes + 24) (leBytes 8 flags.code)).wr
      (S + bytes + 32) (leBytes 8 rv)).wr S (leBytes 8 rv)
    else ((m0.wr (S + bytes + 16) (leBytes 8 I.fn)).wr (S + bytes + 24) (leBytes 8 flags.code)).wr
      (S + bytes + 32) (leBytes 8 rv)) = m1
  have o1 : ∀ x, x < S ∨ S + bytes + 40 ≤ x → m1 x = m0 x := by
    intro x hx
    rw [← hm1]
    split_ifs
    · rw [Mem.wr_out, Mem.wr_out, Mem.wr_out, Mem.wr_out] <;> simp only [leBytes_length] <;> omega
    · rw [Mem.wr_out, Mem.wr_out, Mem.wr_out] <;> simp only [leBytes_length] <;> omega
  have same : ∀ (m : Mem) a v, (m.wr a (leBytes 8 v)).rd a 8 = leBytes 8 v := by
    intro m a v
    have := Mem.rd_wr_same m a (leBytes 8 v)
    rwa [leBytes_length] at this
  have f1 : m1.rd (S + bytes + 16) 8 = leBytes 8 I.fn := by
    rw [← hm1]
    split_ifs
    · rw [Mem.rd_wr_disj, Mem.rd_wr_disj, Mem.rd_wr_disj, same] <;> simp only [leBytes_length] <;> omega
    · rw [Mem.rd_wr_disj, Mem.rd_wr_disj, same] <;> simp only [leBytes_length] <;> omega
  have f2 : m1.rd (S + bytes + 24) 8 = leBytes 8 flags.code := by
    rw [← hm1]
    split_ifs
    · rw [Mem.rd_wr_disj, Mem.rd_wr_disj, same] <;> simp only [leBytes_length] <;> omega
    · rw [Mem.rd_wr_disj, same] <;> simp only [leBytes_length] <;> omega
  have f3 : m1.rd (S + bytes + 32) 8 = leBytes 8 rv := by
    rw [← hm1]
    split_ifs
    · rw [Mem.rd_wr_disj, same] ; simp only [leBytes_length] ; omega
    · rw [same]
  have f4 : flags = .tc .struct → m1.rd S 8 = leBytes 8 rv := by
    intro h
    rw [← hm1, if_pos h, same]
  clear hm1
  have ob : ∀ (i : Nat) t b, ats[i]? = some t → av[i]? = some b → Disj b t.size lo (S + bytes + 40 + rsize) := by
    intro i t b h1 h2
    obtain ⟨a, ha⟩ : ∃ a, I.avalue[i]? = some a := by
      have : i < I.avalue.length := by
        rw [hlen]; exact (List.getElem?_eq_some_iff.1 h1).1
      exact ⟨_, List.getElem?_eq_getElem this⟩
    have := c5 i t a b h1 ha h2
    by_cases hc : t.tc = .struct ∧ intGt8 t.size = true
    · right
      have := this.2.1 hc
      omega
    · have := this.2.2 hc
      subst this
      rcases obj i t b h1 ha with h | h
      · exact .inl h
      · right; omega
  obtain ⟨g1, g2⟩ := fillSlots_spec S ats av hid m1 (by rw [c1]) (fun i t b h1 h2 => by
    rcases ob i t b h1 h2 with h | h
    · left; omega
    · right; omega)
  generalize fillSlots S ats av hid m1 = m2 at g1 g2
  generalize hm3 : ((m2.wr (S + bytes) (leBytes 8 I.rbp)).wr (S + bytes + 8) (leBytes 8 I.raddr)) = m3
  have o3 : ∀ x, x < S + bytes ∨ S + bytes + 16 ≤ x → m3 x = m2 x := by
    intro x hx
    rw [← hm3, Mem.wr_out, Mem.wr_out] <;> simp only [leBytes_length] <;> omega
  clear hm3
  generalize hm4 : m3.wr (S - 8) (leBytes 8 I.raddr2) = m4
  have o4 : ∀ x, x < S - 8 ∨ S ≤ x → m4 x = m3 x := by
    intro x hx
    rw [← hm4, Mem.wr_out]; simp only [leBytes_length]; omega
  clear hm4
  have hhid : flags = .tc .struct → hid = 1 := by intro h; rw [← hh, if_pos h]
  refine ⟨s3, ?_, rfl, ?_, ?_, ?_, ?_, rfl, hfl.symm, ?_, ?_, ?_, ?_, ?_, c1, ?_⟩ <;> simp only [hrs, hh]
  · omega
  · omega
  · intro x hx
    rw [o4 x (by omega), o3 x (by omega), g1 x (by omega), o1 x (by omega), c4 x (by omega)]
  · intro k hk
    exact (Mem.rd_congr fun i hi => o4 _ (by omega)).symm
  · intro k hk
    exact (Mem.rd_congr fun i hi => o4 _ (by omega)).symm
  · exact h0.symm
  · intro h
    have := hhid h
    rw [← f4 h]
    exact Mem.rd_congr fun i hi => by
      rw [o4 _ (by omega), o3 _ (by omega), g1 _ (by omega)]
  · rw [← f1]
    exact Mem.rd_congr fun i hi => by
      rw [o4 _ (by omega), o3 _ (by omega), g1 _ (by omega)]
  · rw [← f2]
    exact Mem.rd_congr fun i hi => by
      rw [o4 _ (by omega), o3 _ (by omega), g1 _ (by omega)]
  · rw [← f3]
    exact Mem.rd_congr fun i hi => by
      rw [o4 _ (by omega), o3 _ (by omega), g1 _ (by omega)]
  · intro i t a b h1 h2 h3
    obtain ⟨d1, d2, d3⟩ := c5 i t a b h1 h2 h3
    have dd := ob i t b h1 h3
    have hi : i < ats.length := (List.getElem?_eq_some_iff.1 h1).1
    have e1 : m1.rd b t.size = I.mem.rd a t.size := by
      rw [← d1]
      exact Mem.rd_congr fun k hk => o1 _ (by rcases dd with h | h <;> omega)
    have e2 : m4.rd (S + 8 * (hid + i)) 8 = slotVal m1 t b := by
      rw [← g2 i t b h1 h3]
      exact Mem.rd_congr fun k hk => by rw [o4 _ (by omega), o3 _ (by omega)]
    refine ⟨?_, ?_, ?_, ?_, ?_⟩
    · intro hv
      rw [e2, slotVal_take hv, e1]
    · intro hv
      rw [e2, slotVal_ref hv]
    · rw [← e1]
      exact Mem.rd_congr fun k hk => by
        rw [o4 _ (by rcases dd with h | h <;> omega), o3 _ (by rcases dd with h | h <;> omega),
          g1 _ (by rcases dd with h | h <;> omega)]
    · intro x y
      have := d2 ⟨x, y⟩
      omega
    · exact d3

end Verif.Win64
