import Verif.X64.AsmClosExit

/-! What the assembly code does, compared with the functions that describe it in `Model` and
`Ret`. -/
namespace Verif.X64.Asm
open Verif

/-- Memory as the contents of an object. -/
def objAt (m : Mem) (a n : Nat) : Buf := ⟨n, fun i => m (a + i)⟩

/-- The argument registers in order: rdi, rsi, rdx, rcx, r8, r9. -/
def argReg : Nat → Nat
  | 0 => 7 | 1 => 6 | 2 => 2 | 3 => 1 | 4 => 8 | _ => 9

/-- The registers and the arguments in memory are as in `E`; `sp` points to the return
address. -/
structure Shows (E : Entry) (r : Nat → Nat) (x : Nat → List Byte) (m : Mem) : Prop where
  gpr : ∀ i, i < 6 → ∀ j, j < 8 → (leBytes 8 (r (argReg i))).getD j 0 = E.gpr i j
  xmm : ∀ i, i < 8 → ∀ j, j < 16 → (x i).getD j 0 = E.xmm i j
  eax : r 0 = E.eax
  r10 : r 10 = E.r10
  stk : ∀ i, i < E.stk.size → m (r 4 + 8 + i) = E.stk.at_ i

theorem rd_getD' (m : Mem) (a n j : Nat) (h : j < n) : (m.rd a n).getD j 0 = m (a + j) := by
  unfold Mem.rd
  simp [List.getD_eq_getElem?_getD, h]

theorem word_getD (m : Mem) (a j : Nat) (h : j < 8) : (leBytes 8 (leNat (m.rd a 8))).getD j 0 = m (a + j) := by
  have := leBytes_leNat (m.rd a 8)
  rw [Mem.rd_length] at this
  rw [this, rd_getD' _ _ _ _ h]

theorem obj_read (m : Mem) (a n o k : Nat) (h : o + k ≤ n) : (objAt m a n).read o k = some (m.rd (a + o) k) := by
  unfold Buf.read objAt Mem.rd
  rw [if_pos h]
  simp [Nat.add_assoc]

theorem obj_write (m : Mem) (a n o : Nat) (bs : List Byte) (h : o + bs.length ≤ n) :
    wr (objAt m a n) o bs = .ok (objAt (m.wr (a + o) bs) a n) := by
  unfold wr Buf.write objAt Mem.wr
  rw [if_pos h]
  simp only [Except.ok.injEq, Buf.mk.injEq, true_and]
  funext i
  by_cases hi : o ≤ i ∧ i < o + bs.length
  · rw [if_pos hi, if_pos (by omega), show a + i - (a + o) = i - o by omega]
  · rw [if_neg hi, if_neg (by omega)]

/-- The four words that `ffi_call_unix64` saves. -/
def savedWords (s : St) : List Byte := leBytes 8 (s.r 2) ++ (leBytes 8 (s.r 1) ++ (leBytes 8 (s.r 5) ++ s.mem.rd (s.r 4) 8))

theorem framed_wr (s : St) : framed s = s.mem.wr (s.r 7 + s.r 6) (savedWords s) := by
  unfold framed savedWords
  rw [← wr_append, ← wr_append, ← wr_append]
  simp only [leBytes_length]

/-- `ffi_call_unix64` enters the function as `enter` says. -/
theorem call_enter (c : Ctx) (s : St) (n : Nat) (h6 : s.r 6 = n + 192) :
    ∃ E, enter (objAt s.mem (s.r 7) (s.r 6 + 32)) n (savedWords s) (fun i j => (s.x i).getD j 0) = .ok E ∧
      Shows E (callState c s).r (callState c s).x (callState c s).mem := by
  have hlen : (savedWords s).length = 32 := by simp [savedWords, Mem.rd_length]
  have e176 : (framed s).rd (s.r 7 + 176) 4 = s.mem.rd (s.r 7 + 176) 4 := framed_rd (by omega)
  refine ⟨{ gpr := fun i j => framed s (s.r 7 + (8 * i + j)),
            xmm := fun i j => if leNat (s.mem.rd (s.r 7 + 176) 4) ≠ 0 then framed s (s.r 7 + (48 + 16 * i + j)) else (s.x i).getD j 0,
            eax := leNat (s.mem.rd (s.r 7 + 176) 4), r10 := leNat ((framed s).rd (s.r 7 + 184) 8),
            stk := ⟨n, fun i => framed s (s.r 7 + (192 + i))⟩ }, ?_, ?_⟩
  · unfold enter
    rw [show 192 + n = s.r 6 by omega, obj_write _ _ _ _ _ (by omega), ← framed_wr]
    dsimp only
    rw [obj_read _ _ _ _ _ (by omega), obj_read _ _ _ _ _ (by omega)]
    dsimp only
    rw [if_pos (by show s.r 6 ≤ s.r 6 + 32; omega), e176]
    rfl
  refine ⟨?_, ?_, ?_, ?_, ?_⟩
  · intro i hi j hj
    have : (callState c s).r (argReg i) = leNat ((framed s).rd (s.r 7 + 8 * i) 8) := by
      interval_cases i <;> rfl
    rw [this, word_getD _ _ _ hj, Nat.add_assoc]
  · intro i hi j hj
    dsimp only
    have hx : (callState c s).x = if leNat (s.mem.rd (s.r 7 + 176) 4) = 0 then s.x else loadX s.x s.mem (s.r 7) := rfl
    rw [hx]
    by_cases h0 : leNat (s.mem.rd (s.r 7 + 176) 4) = 0
    · rw [if_pos h0, if_neg (by simp [h0])]
    · rw [if_neg h0, if_pos h0, framed_out (.inl (by omega))]
      have : loadX s.x s.mem (s.r 7) i = s.mem.rd (s.r 7 + (48 + 16 * i)) 16 := by
        interval_cases i <;> rfl
      rw [this, Mem.rd_getD _ _ _ _ hj, Nat.add_assoc]
  · exact congrArg leNat e176
  · rfl
  · intro i hi
    show ((framed s).wr (s.r 7 + 184) _) (s.r 7 + 184 + 8 + i) = _
    rw [Mem.wr_out _ _ _ _ (by rw [leBytes_length]; omega), Nat.add_assoc, Nat.add_assoc, ← Nat.add_assoc 184]

/-! ## Result of a call -/

/-- The registers are as in `R`. -/
structure RetShows (R : RetRegs) (rax rdx : Nat) (x : Nat → List Byte) (fp : List (List Byte)) (k : Nat) : Prop where
  rax : ∀ j, j < 8 → (leBytes 8 rax).getD j 0 = R.rax j
  rdx : ∀ j, j < 8 → (leBytes 8 rdx).getD j 0 = R.rdx j
  xmm0 : ∀ j, j < 8 → (x 0).getD j 0 = R.xmm0 j
  xmm1 : ∀ j, j < 8 → (x 1).getD j 0 = R.xmm1 j
  st0 : 0 < k → ∀ j, j < 10 → (fp.getD 0 []).getD j 0 = R.st0 j
  st1 : 1 < k → ∀ j, j < 10 → (fp.getD 1 []).getD j 0 = R.st1 j

theorem low_eq {f : Nat → Byte} {bs : List Byte} {n k : Nat} (hk : k ≤ n) (hl : k ≤ bs.length) (h : ∀ j, j < n → bs.getD j 0 = f j) :
    low f k = bs.take k := by
  unfold low
  apply List.ext_getElem
  · simp; omega
  · intro i h1 h2
    simp at h1 h2 ⊢
    have := h i (by omega)
    rw [List.getD_eq_getElem?_getD, List.getElem?_eq_getElem (by omega)] at this
    exact this.symm

theorem sext_take {v z : Nat} (hz : z ≤ 8) : sext64 ((leBytes 8 v).take z) = leBytes 8 (sext z 8 v) := by
  unfold sext64 sext
  rw [leBytes_take _ hz, leBytes_length, leNat_leBytes]
  congr 3
  apply BitVec.eq_of_toNat_eq
  simp only [BitVec.toNat_ofNat]
  rw [show (256 : Nat) = 2 ^ 8 by rfl, ← Nat.pow_mul, Nat.mod_mod]

theorem wr_obj {m : Mem} {a k : Nat} {bs : List Byte} (h : bs.length ≤ k) (fr : Buf) :
    (wr (objAt m a k) 0 bs).map (·, fr) = .ok (objAt (m.wr a bs) a k, fr) := by
  rw [obj_write _ _ _ _ _ (by omega)]
  rfl

/-- A pair of registers is stored as `storeStruct` says. -/
theorem pair_eq {m : Mem} {F a n k : Nat} {lo hi : Nat → Byte} {l h : List Byte} (hl : low lo 8 = l) (hh : low hi 8 = h)
    (ll : l.length = 8) (lh : h.length = 8) (hn : n ≤ 20) (hk : n ≤ k) :
    ∃ rv fr, storeStruct (objAt m F 32) (objAt m a k) lo hi n = .ok (rv, fr) ∧ ∀ i, i < n → pair m F a n l h (a + i) = rv.at_ i := by
  have e : storeStruct (objAt m F 32) (objAt m a k) lo hi n =
      .ok (objAt (m.wr a ((((m.wr (F + 12) h).wr (F + 4) l)).rd (F + 4) n)) a k, objAt ((m.wr (F + 12) h).wr (F + 4) l) F 32) := by
    unfold storeStruct
    rw [hl, hh, obj_write _ _ _ _ _ (by omega)]
    dsimp only
    rw [obj_write _ _ _ _ _ (by omega)]
    dsimp only
    rw [obj_read _ _ _ _ _ (by omega)]
    exact wr_obj (by rw [Mem.rd_length]; omega) _
  refine ⟨_, _, e, fun i hi => ?_⟩
  show (Mem.wr _ a _) (a + i) = (Mem.wr _ a _) (a + i)
  rw [Mem.wr_in _ _ _ _ (by rw [Mem.rd_length]; exact hi), Mem.wr_in _ _ _ _ (by rw [Mem.rd_length]; exact hi)]

/-- The result is stored as `storeRet` says. -/
theorem stored_eq {ret : Ret} {n rax rdx : Nat} {x : Nat → List Byte} {fp : List (List Byte)} {m : Mem} {F a : Nat} {R : RetRegs}
    (hR : RetShows R rax rdx x fp (pops ret)) (hx0 : (x 0).length = 16) (hx1 : (x 1).length = 16) (hfl : ∀ v ∈ fp, v.length = 10)
    (hfp : pops ret ≤ fp.length) (hn : n ≤ 20) {k : Nat} (hk : need ret n ≤ k) :
    ∃ rv fr, storeRet ret n R (objAt m F 32) (objAt m a k) = .ok (rv, fr) ∧
      ∀ i, i < need ret n → stored ret n rax rdx x fp m F a (a + i) = rv.at_ i := by
  have l8 : ∀ v, (leBytes 8 v).length = 8 := fun v => leBytes_length 8 v
  have ra : ∀ z, z ≤ 8 → low R.rax z = leBytes z rax := fun z hz => by rw [low_eq hz (by simp; omega) hR.rax, leBytes_take _ hz]
  have rd : low R.rdx 8 = leBytes 8 rdx := by rw [low_eq (Nat.le_refl 8) (by simp) hR.rdx, leBytes_take _ (Nat.le_refl 8)]
  have x0 : ∀ z, z ≤ 8 → low R.xmm0 z = (x 0).take z := fun z hz => low_eq hz (by omega) hR.xmm0
  have x1 : low R.xmm1 8 = (x 1).take 8 := low_eq (Nat.le_refl 8) (by omega) hR.xmm1
  have t0 : ∀ z, z ≤ 8 → ((x 0).take z).length = z := fun z hz => by simp; omega
  have t1 : ((x 1).take 8).length = 8 := by simp; omega
  have sx : ∀ z, z ≤ 8 → sext64 (low R.rax z) = leBytes 8 (sext z 8 rax) := fun z hz => by
    rw [ra z hz, ← leBytes_take rax hz, sext_take hz]
  have zx : ∀ z, z ≤ 8 → leBytes 8 (leNat (low R.rax z)) = leBytes 8 (rax % 2 ^ (8 * z)) := fun z hz => by
    rw [ra z hz, leNat_leBytes, Nat.pow_mul]
  cases ret
  case void => exact ⟨_, _, rfl, fun i hi => absurd hi (Nat.not_lt_zero _)⟩
  case uint8 => exact ⟨_, _, wr_obj (by rw [l8]; exact hk) _, fun i hi => by rw [zx 1 (by omega)]; rfl⟩
  case uint16 => exact ⟨_, _, wr_obj (by rw [l8]; exact hk) _, fun i hi => by rw [zx 2 (by omega)]; rfl⟩
  case uint32 => exact ⟨_, _, wr_obj (by rw [l8]; exact hk) _, fun i hi => by rw [zx 4 (by omega)]; rfl⟩
  case sint8 => exact ⟨_, _, wr_obj (by rw [sx 1 (by omega), l8]; exact hk) _, fun i hi => by rw [sx 1 (by omega)]; rfl⟩
  case sint16 => exact ⟨_, _, wr_obj (by rw [sx 2 (by omega), l8]; exact hk) _, fun i hi => by rw [sx 2 (by omega)]; rfl⟩
  case sint32 => exact ⟨_, _, wr_obj (by rw [sx 4 (by omega), l8]; exact hk) _, fun i hi => by rw [sx 4 (by omega)]; rfl⟩
  case int64 => exact ⟨_, _, wr_obj (by rw [ra 8 (by omega), l8]; exact hk) _, fun i hi => by rw [ra 8 (by omega)]; rfl⟩
  case xmm32 => exact ⟨_, _, wr_obj (by rw [x0 4 (by omega), t0 4 (by omega)]; exact hk) _, fun i hi => by rw [x0 4 (by omega)]; rfl⟩
  case xmm64 => exact ⟨_, _, wr_obj (by rw [x0 8 (by omega), t0 8 (by omega)]; exact hk) _, fun i hi => by rw [x0 8 (by omega)]; rfl⟩
  case x87 =>
    match fp, hfp with
    | v :: vs, _ =>
      have lv : v.length = 10 := hfl v (by simp)
      have e0 : low R.st0 10 = v := by
        rw [low_eq (bs := v) (Nat.le_refl 10) (by omega) (hR.st0 (by decide)), ← lv]
        exact List.take_length
      exact ⟨_, _, wr_obj (by rw [e0, lv]; exact hk) _, fun i hi => by rw [e0]; rfl⟩
  case x87_2 =>
    match fp, hfp with
    | v :: v' :: vs, _ =>
      have lv : v.length = 10 := hfl v (by simp)
      have lv' : v'.length = 10 := hfl v' (by simp)
      have e0 : low R.st0 10 = v := by
        rw [low_eq (bs := v) (Nat.le_refl 10) (by omega) (hR.st0 (by decide)), ← lv]
        exact List.take_length
      have e1 : low R.st1 10 = v' := by
        rw [low_eq (bs := v') (Nat.le_refl 10) (by omega) (hR.st1 (by decide)), ← lv']
        exact List.take_length
      have hk' : 26 ≤ k := hk
      refine ⟨objAt ((m.wr a v).wr (a + 16) v') a k, objAt m F 32, ?_, fun i hi => rfl⟩
      unfold storeRet
      dsimp only
      rw [e0, e1, obj_write _ _ _ _ _ (by omega)]
      dsimp only
      rw [obj_write _ _ _ _ _ (by omega)]
      rfl
  case stXmm0Rax => exact pair_eq (x0 8 (by omega)) (ra 8 (by omega)) (t0 8 (by omega)) (l8 _) hn hk
  case stRaxXmm0 => exact pair_eq (ra 8 (by omega)) (x0 8 (by omega)) (l8 _) (t0 8 (by omega)) hn hk
  case stXmm0Xmm1 => exact pair_eq (x0 8 (by omega)) x1 (t0 8 (by omega)) t1 hn hk
  case stRaxRdx => exact pair_eq (ra 8 (by omega)) rd (l8 _) (l8 _) hn hk

/-- Nothing else is written but the frame. -/
theorem stored_out {ret : Ret} {n rax rdx : Nat} {x : Nat → List Byte} {fp : List (List Byte)} {m : Mem} {F a y : Nat}
    (hx0 : (x 0).length = 16) (hx1 : (x 1).length = 16) (hfl : ∀ v ∈ fp, v.length = 10) (hfp : pops ret ≤ fp.length)
    (h1 : y < a ∨ a + need ret n ≤ y) (h2 : y < F ∨ F + 32 ≤ y) : stored ret n rax rdx x fp m F a y = m y := by
  have hp : ∀ {l h : List Byte}, l.length = 8 → h.length = 8 → (y < a ∨ a + n ≤ y) → pair m F a n l h y = m y := by
    intro l h hl hh h1
    unfold pair
    rw [Mem.wr_out _ _ _ _ (by rw [Mem.rd_length]; exact h1), Mem.wr_out _ _ _ _ (by omega), Mem.wr_out _ _ _ _ (by omega)]
  have t0 : ∀ z, z ≤ 8 → ((x 0).take z).length = z := fun z hz => by simp; omega
  have t1 : ((x 1).take 8).length = 8 := by simp; omega
  cases ret
  case x87 =>
    match fp, hfp with
    | v :: vs, _ => exact Mem.wr_out _ _ _ _ (by have := hfl v (by simp); simp only [need] at h1; show y < a ∨ a + v.length ≤ y; omega)
  case x87_2 =>
    match fp, hfp with
    | v :: v' :: vs, _ =>
      have := hfl v (by simp)
      have := hfl v' (by simp)
      simp only [need] at h1
      show Mem.wr (Mem.wr _ _ v) _ v' y = _
      rw [Mem.wr_out _ _ _ _ (by omega), Mem.wr_out _ _ _ _ (by omega)]
  case void => rfl
  case stXmm0Rax => exact hp (t0 8 (by omega)) (by simp) h1
  case stRaxXmm0 => exact hp (by simp) (t0 8 (by omega)) h1
  case stXmm0Xmm1 => exact hp (t0 8 (by omega)) t1 h1
  case stRaxRdx => exact hp (by simp) (by simp) h1
  case xmm32 => exact Mem.wr_out _ _ _ _ (by rw [t0 4 (by omega)]; exact h1)
  case xmm64 => exact Mem.wr_out _ _ _ _ (by rw [t0 8 (by omega)]; exact h1)
  all_goals exact Mem.wr_out _ _ _ _ (by rw [leBytes_length]; exact h1)

/-! ## Closures -/

/-- The frame of a closure is filled as `spill` says. -/
theorem closFrame_eq {E : Entry} {sse : Bool} {r : Nat → Nat} {x : Nat → List Byte} {m : Mem} {b : Nat} {f0 : Buf}
    (hE : Shows E r x m) (hx : ∀ i, i < 8 → (x i).length = 16) {k : Nat} (hk : k < 48 ∨ k < 176 ∧ sse = true) :
    closFrame sse r x m b (b + k) = (spill E sse f0).at_ k := by
  have hg : ∀ m', k < 48 → gprs r m' b (b + k) = E.gpr (k / 8) (k % 8) := by
    intro m' h
    rw [← hE.gpr (k / 8) (by omega) (k % 8) (by omega)]
    have l8 : ∀ v, (leBytes 8 v).length = 8 := fun v => leBytes_length 8 v
    have key : ∀ {m'' : Mem} {p v : Nat}, p ≤ b + k → b + k < p + 8 → (m''.wr p (leBytes 8 v)) (b + k) = (leBytes 8 v).getD (b + k - p) 0 := by
      intro m'' p v h1 h2
      obtain ⟨j, hj⟩ : ∃ j, b + k = p + j := ⟨b + k - p, by omega⟩
      rw [hj, Mem.wr_in _ _ _ _ (by rw [l8]; omega), Nat.add_sub_cancel_left]
    have ho : ∀ {m'' : Mem} {p v : Nat}, b + k < p → (m''.wr p (leBytes 8 v)) (b + k) = m'' (b + k) :=
      fun h => Mem.wr_out _ _ _ _ (.inl h)
    unfold gprs
    have hq : k / 8 < 6 := by omega
    obtain ⟨q, hq'⟩ : ∃ q, k / 8 = q := ⟨_, rfl⟩
    rw [hq'] at hq ⊢
    have hj : k % 8 = k - 8 * q := by omega
    rw [hj]
    interval_cases q
    · rw [ho (by omega), ho (by omega), ho (by omega), ho (by omega), ho (by omega), key (by omega) (by omega), Nat.add_sub_cancel_left]
      rfl
    · rw [ho (by omega), ho (by omega), ho (by omega), ho (by omega), key (by omega) (by omega), Nat.add_sub_add_left]
      rfl
    · rw [ho (by omega), ho (by omega), ho (by omega), key (by omega) (by omega), Nat.add_sub_add_left]
      rfl
    · rw [ho (by omega), ho (by omega), key (by omega) (by omega), Nat.add_sub_add_left]
      rfl
    · rw [ho (by omega), key (by omega) (by omega), Nat.add_sub_add_left]
      rfl
    · rw [key (by omega) (by omega), Nat.add_sub_add_left]
      rfl
  unfold closFrame spill
  dsimp only
  by_cases h : k < 48
  · rw [if_pos h, hg _ h]
  · obtain ⟨h1, h2⟩ : k < 176 ∧ sse = true := by
      rcases hk with hk | hk
      · omega
      · exact hk
    rw [if_neg h, if_pos h2, if_pos ⟨h1, h2⟩, gprs_out (by omega), ← hE.xmm ((k - 48) / 16) (by omega) ((k - 48) % 16) (by omega)]
    have key : ∀ {m'' : Mem} {p i : Nat}, i < 8 → p ≤ b + k → b + k < p + 16 → (m''.wr p (x i)) (b + k) = (x i).getD (b + k - p) 0 := by
      intro m'' p i hi h1 h2
      obtain ⟨j, hj⟩ : ∃ j, b + k = p + j := ⟨b + k - p, by omega⟩
      rw [hj, Mem.wr_in _ _ _ _ (by rw [hx i hi]; omega), Nat.add_sub_cancel_left]
    have ho : ∀ {m'' : Mem} {p i : Nat}, b + k < p → (m''.wr p (x i)) (b + k) = m'' (b + k) :=
      fun h => Mem.wr_out _ _ _ _ (.inl h)
    unfold xmms
    obtain ⟨q, hq'⟩ : ∃ q, (k - 48) / 16 = q := ⟨_, rfl⟩
    have hq : q < 8 := by omega
    have hj : (k - 48) % 16 = k - (48 + 16 * q) := by omega
    rw [hq', hj]
    interval_cases q
    · rw [ho (by omega), ho (by omega), ho (by omega), ho (by omega), ho (by omega), ho (by omega), ho (by omega),
        key (by omega) (by omega) (by omega), Nat.add_sub_add_left]
    · rw [ho (by omega), ho (by omega), ho (by omega), ho (by omega), ho (by omega), ho (by omega),
        key (by omega) (by omega) (by omega), Nat.add_sub_add_left]
    · rw [ho (by omega), ho (by omega), ho (by omega), ho (by omega), ho (by omega),
        key (by omega) (by omega) (by omega), Nat.add_sub_add_left]
    · rw [ho (by omega), ho (by omega), ho (by omega), ho (by omega),
        key (by omega) (by omega) (by omega), Nat.add_sub_add_left]
    · rw [ho (by omega), ho (by omega), ho (by omega), key (by omega) (by omega) (by omega), Nat.add_sub_add_left]
    · rw [ho (by omega), ho (by omega), key (by omega) (by omega) (by omega), Nat.add_sub_add_left]
    · rw [ho (by omega), key (by omega) (by omega) (by omega), Nat.add_sub_add_left]
    · rw [key (by omega) (by omega) (by omega), Nat.add_sub_add_left]

theorem setLow_lt {f : Nat → Byte} {bs : List Byte} {j : Nat} (h : j < bs.length) : setLow f bs j = bs.getD j 0 := by
  unfold setLow
  rw [if_pos h]

theorem sext_low {z v : Nat} (hz : 8 * z ≤ 32) : sext z 8 v % 2 ^ 32 = sext z 4 v := by
  unfold sext
  generalize BitVec.ofNat (8 * z) v = y
  have : (y.signExtend 64).setWidth 32 = y.signExtend 32 := by
    ext i hi
    rw [BitVec.getElem_setWidth, BitVec.getLsbD_signExtend, BitVec.getElem_signExtend]
    rw [decide_eq_true (by omega : i < 64), Bool.true_and]
    by_cases h : i < 8 * z
    · rw [if_pos h, dif_pos h, BitVec.getLsbD_eq_getElem h]
    · rw [if_neg h, dif_neg h]
  have h := congrArg BitVec.toNat this
  rw [BitVec.toNat_setWidth] at h
  exact h

theorem sext32_eq {bs : List Byte} (hz : bs.length ≤ 4) :
    (sext64 bs).take 4 ++ [0, 0, 0, 0] = leBytes 8 (sext bs.length 4 (leNat bs)) := by
  have e : sext64 bs = leBytes 8 (sext bs.length 8 (leNat bs)) := rfl
  rw [e, leBytes_take _ (by omega), ← leBytes_mod 4 (sext bs.length 8 (leNat bs)), show (256 : Nat) ^ 4 = 2 ^ 32 by rfl, sext_low (by omega)]
  have hlt : sext bs.length 4 (leNat bs) < 2 ^ 32 := BitVec.isLt _
  have h84 : leBytes 8 (sext bs.length 4 (leNat bs)) = leBytes (4 + 4) (sext bs.length 4 (leNat bs)) := rfl
  rw [h84, leBytes_append, Nat.div_eq_of_lt (by rw [show (256 : Nat) ^ 4 = 2 ^ 32 by rfl]; exact hlt)]
  rfl

/-- The result registers are loaded as `loadRet` says. -/
theorem resultRegs_eq {ret : Ret} {m : Mem} {A : Nat} {S : Regs} {R : RetRegs}
    (hR : RetShows R S.rax S.rdx (fun i => if i = 0 then S.x0 else S.x1) S.fp 0) :
    ∃ R', loadRet ret R (objAt m A 32) = .ok R' ∧
      RetShows R' (resultRegs ret m A S).rax (resultRegs ret m A S).rdx
        (fun i => if i = 0 then (resultRegs ret m A S).x0 else (resultRegs ret m A S).x1) (resultRegs ret m A S).fp (pops ret) := by
  have hr : ∀ {o k : Nat}, o + k ≤ 32 → (objAt m A 32).read o k = some (m.rd (A + o) k) := fun h => obj_read _ _ _ _ _ h
  have hr0 : ∀ {k : Nat}, k ≤ 32 → (objAt m A 32).read 0 k = some (m.rd A k) := fun h => obj_read m A 32 0 _ (by omega)
  have no0 : ∀ {P : Prop}, 0 < 0 → P := fun h => absurd h (Nat.lt_irrefl 0)
  have no1 : ∀ {P : Prop}, 1 < 0 → P := fun h => absurd h (by omega)
  have lw : ∀ (a : Nat) {f : Nat → Byte} (j : Nat), j < 8 → (leBytes 8 (leNat (m.rd a 8))).getD j 0 = setLow f (m.rd a 8) j := by
    intro a f j hj
    rw [setLow_lt (by rw [Mem.rd_length]; exact hj), word_getD _ _ _ hj, Mem.rd_getD _ _ _ _ hj]
  have lb : ∀ (v : Nat) {f : Nat → Byte} (j : Nat), j < 8 → (leBytes 8 v).getD j 0 = setLow f (leBytes 8 v) j := by
    intro v f j hj
    rw [setLow_lt (by rw [leBytes_length]; exact hj)]
  have lx : ∀ (a : Nat) {f : Nat → Byte} (j : Nat), j < 8 → (m.rd a 8 ++ List.replicate 8 0).getD j 0 = setLow f (m.rd a 8) j := by
    intro a f j hj
    rw [setLow_lt (by rw [Mem.rd_length]; exact hj), List.getD_eq_getElem?_getD, List.getElem?_append_left (by rw [Mem.rd_length]; exact hj),
      ← List.getD_eq_getElem?_getD]
  have lt : ∀ (a : Nat) {f : Nat → Byte} (j : Nat), j < 10 → (m.rd a 10).getD j 0 = setLow f (m.rd a 10) j := by
    intro a f j hj
    rw [setLow_lt (by rw [Mem.rd_length]; exact hj)]
  unfold loadRet
  cases ret
  case void => exact ⟨_, rfl, hR⟩
  case uint8 =>
    dsimp only; rw [hr0 (by omega)]
    refine ⟨_, rfl, ?_⟩
    dsimp only [resultRegs]
    exact ⟨lb _, hR.rdx, hR.xmm0, hR.xmm1, no0, no1⟩
  case uint16 =>
    dsimp only; rw [hr0 (by omega)]
    refine ⟨_, rfl, ?_⟩
    dsimp only [resultRegs]
    exact ⟨lb _, hR.rdx, hR.xmm0, hR.xmm1, no0, no1⟩
  case uint32 =>
    dsimp only; rw [hr0 (by omega)]
    refine ⟨_, rfl, ?_⟩
    dsimp only [resultRegs]
    exact ⟨lb _, hR.rdx, hR.xmm0, hR.xmm1, no0, no1⟩
  case sint32 =>
    dsimp only; rw [hr0 (by omega)]
    refine ⟨_, rfl, ?_⟩
    dsimp only [resultRegs]
    exact ⟨lb _, hR.rdx, hR.xmm0, hR.xmm1, no0, no1⟩
  case sint8 =>
    dsimp only; rw [hr0 (by omega)]
    dsimp only; rw [sext32_eq (by rw [Mem.rd_length]; omega), Mem.rd_length]
    refine ⟨_, rfl, ?_⟩
    dsimp only [resultRegs]
    exact ⟨lb _, hR.rdx, hR.xmm0, hR.xmm1, no0, no1⟩
  case sint16 =>
    dsimp only; rw [hr0 (by omega)]
    dsimp only; rw [sext32_eq (by rw [Mem.rd_length]; omega), Mem.rd_length]
    refine ⟨_, rfl, ?_⟩
    dsimp only [resultRegs]
    exact ⟨lb _, hR.rdx, hR.xmm0, hR.xmm1, no0, no1⟩
  case int64 =>
    dsimp only; rw [hr0 (by omega)]
    refine ⟨_, rfl, ?_⟩
    dsimp only [resultRegs]
    exact ⟨lw _, hR.rdx, hR.xmm0, hR.xmm1, no0, no1⟩
  case xmm32 =>
    dsimp only; rw [hr0 (by omega)]
    refine ⟨_, rfl, ?_⟩
    dsimp only [resultRegs]
    refine ⟨hR.rax, hR.rdx, fun j hj => ?_, hR.xmm1, no0, no1⟩
    dsimp only
    rw [setLow_lt (by simp; omega)]
    show (m.rd A 4 ++ ([0, 0, 0, 0] ++ List.replicate 8 0)).getD j 0 = _
    rw [← List.append_assoc, List.getD_eq_getElem?_getD, List.getElem?_append_left (by simp; omega), ← List.getD_eq_getElem?_getD]
  case xmm64 =>
    dsimp only; rw [hr0 (by omega)]
    refine ⟨_, rfl, ?_⟩
    dsimp only [resultRegs]
    exact ⟨hR.rax, hR.rdx, lx _, hR.xmm1, no0, no1⟩
  case x87 =>
    dsimp only; rw [hr0 (by omega)]
    refine ⟨_, rfl, ?_⟩
    dsimp only [resultRegs]
    exact ⟨hR.rax, hR.rdx, hR.xmm0, hR.xmm1, fun _ => lt _, fun h => absurd h (by decide)⟩
  case x87_2 =>
    dsimp only; rw [hr (by omega), hr0 (by omega)]
    refine ⟨_, rfl, ?_⟩
    dsimp only [resultRegs]
    exact ⟨hR.rax, hR.rdx, hR.xmm0, hR.xmm1, fun _ => lt _, fun _ => lt _⟩
  case stXmm0Rax =>
    dsimp only; rw [hr (by omega), hr0 (by omega)]
    refine ⟨_, rfl, ?_⟩
    dsimp only [resultRegs]
    exact ⟨lw _, hR.rdx, lx _, hR.xmm1, no0, no1⟩
  case stRaxXmm0 =>
    dsimp only; rw [hr (by omega), hr0 (by omega)]
    refine ⟨_, rfl, ?_⟩
    dsimp only [resultRegs]
    exact ⟨lw _, hR.rdx, lx _, hR.xmm1, no0, no1⟩
  case stXmm0Xmm1 =>
    dsimp only; rw [hr (by omega), hr0 (by omega)]
    refine ⟨_, rfl, ?_⟩
    dsimp only [resultRegs]
    exact ⟨hR.rax, hR.rdx, lx _, lx _, no0, no1⟩
  case stRaxRdx =>
    dsimp only; rw [hr (by omega), hr0 (by omega)]
    refine ⟨_, rfl, ?_⟩
    dsimp only [resultRegs]
    exact ⟨lw _, lw _, hR.xmm0, hR.xmm1, no0, no1⟩

end Verif.X64.Asm
