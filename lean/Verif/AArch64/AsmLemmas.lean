import Verif.AArch64.Asm
import Verif.Base.Code
import Mathlib.Tactic.IntervalCases

/-! Execution of the entry points of AArch64. -/
namespace Verif.A64.Asm
open Verif Verif.A64

variable {P : Pac} {T : Nat}

/-- What a mode makes of a return address. -/
def signed (P : Pac) (mode : Mode) (p m : Nat) : Nat := if mode = .plain then p else P.sign p m

theorem run_nil {k : Nat} {s : AState} : run P T [] k s = some s := by cases k <;> rfl

theorem run_drop (is : List Ins) (k : Nat) (s : AState) : run P T is k s = run P T (is.drop k) 0 s := by
  induction is generalizing k with
  | nil => cases k <;> rfl
  | cons i is ih =>
    cases k with
    | zero => rfl
    | succ k => exact ih k

/-- The memory when the function is entered, and when `ffi_call_SYSV` continues. -/
def callMemory (P : Pac) (mode : Mode) (s : AState) : Mem :=
  ((s.mem.wr (s.x 1) (leBytes 8 (s.x 29) ++ leBytes 8 (signed P mode (s.x 30) (s.x 1)))).wr (s.x 1 + 32) (leBytes 8 (s.x 31))).wr
    (s.x 1 + 16) (leBytes 8 (s.x 3) ++ leBytes 8 (s.x 4))

theorem callFrame_run (mode : Mode) (go : Bool) (s : AState) :
    ∃ t, run P T (callIn mode go) 0 s = run P T callLoads 0 t ∧ t.mem = callMemory P mode s ∧ t.v = s.v ∧ t.x 31 = s.x 0 ∧
      t.x 29 = s.x 1 ∧ t.x 9 = s.x 2 ∧ t.x 8 = s.x 3 ∧ t.x 4 = s.x 4 ∧ t.x 18 = (if go then s.x 5 else s.x 18) ∧
      ∀ r, 19 ≤ r → r < 29 → t.x r = s.x r := by
  cases mode <;> cases go <;>
  · refine ⟨_, rfl, rfl, rfl, rfl, rfl, rfl, rfl, rfl, rfl, fun r h1 h2 => ?_⟩
    simp only [AState.set, upd]
    repeat rw [if_neg (by omega)]

/-- Eight registers at once. -/
def upd8 {α : Type} (x : Nat → α) (f : Nat → α) : Nat → α :=
  upd (upd (upd (upd (upd (upd (upd (upd x 0 (f 0)) 1 (f 1)) 2 (f 2)) 3 (f 3)) 4 (f 4)) 5 (f 5)) 6 (f 6)) 7 (f 7)

theorem upd8_lt {α : Type} {x f : Nat → α} {k : Nat} (h : k < 8) : upd8 x f k = f k := by
  interval_cases k <;> rfl

theorem upd8_ge {α : Type} {x f : Nat → α} {k : Nat} (h : 8 ≤ k) : upd8 x f k = x k := by
  simp only [upd8, upd]
  repeat rw [if_neg (by omega)]

theorem loadX_run (s : AState) : run P T (callLoads.drop 5) 0 s =
    some { s with x := upd (upd8 s.x fun k => leNat (s.mem.rd (s.x 31 + 128 + 8 * k) 8)) 31 (s.x 31 + 192) } := rfl

theorem loadV_run (s : AState) : run P T (callLoads.drop 1) 0 s =
    run P T (callLoads.drop 5) 0 { s with v := upd8 s.v fun k => ldv s.mem (s.x 31 + 16 * k) 16 } := rfl

theorem callLoads_run (s : AState) :
    ∃ t, run P T callLoads 0 s = some t ∧ t.mem = s.mem ∧ t.x 31 = s.x 31 + 192 ∧
      (∀ k, k < 8 → t.x k = leNat (s.mem.rd (s.x 31 + 128 + 8 * k) 8)) ∧
      (∀ r, 8 ≤ r → r ≠ 31 → t.x r = s.x r) ∧
      (∀ k, k < 8 → t.v k = if (s.x 4).testBit 7 then s.mem.rd (s.x 31 + 16 * k) 16 else s.v k) ∧
      (∀ k, 8 ≤ k → t.v k = s.v k) := by
  have e16 : ∀ a, ldv s.mem a 16 = s.mem.rd a 16 := fun a => by simp [ldv]
  have hx : ∀ (f : Nat → Nat) k w, k < 8 → upd (upd8 s.x f) 31 w k = f k := by
    intro f k w hk
    unfold upd
    rw [if_neg (by omega), upd8_lt hk]
  have hx' : ∀ (f : Nat → Nat) r w, 8 ≤ r → r ≠ 31 → upd (upd8 s.x f) 31 w r = s.x r := by
    intro f r w h1 h2
    unfold upd
    rw [if_neg h2, upd8_ge h1]
  by_cases h : (s.x 4).testBit 7
  · have e : run P T callLoads 0 s = run P T (callLoads.drop 1) 0 s := by
      simp only [callLoads, run, exec, h, if_true, List.drop_succ_cons, List.drop_zero]
    rw [e, loadV_run, loadX_run]
    refine ⟨_, rfl, rfl, rfl, fun k hk => hx _ _ _ hk, fun r h1 h2 => hx' _ _ _ h1 h2, fun k hk => ?_,
      fun k hk => upd8_ge (x := s.v) (f := fun k => ldv s.mem (s.x 31 + 16 * k) 16) hk⟩
    rw [if_pos h, ← e16]
    exact upd8_lt (x := s.v) (f := fun k => ldv s.mem (s.x 31 + 16 * k) 16) hk
  · have e : run P T callLoads 0 s = run P T (callLoads.drop 5) 0 s := by
      simp only [callLoads, run, exec, h, List.drop_succ_cons, List.drop_zero]
      rfl
    rw [e, loadX_run]
    refine ⟨_, rfl, rfl, rfl, fun k hk => hx _ _ _ hk, fun r h1 h2 => hx' _ _ _ h1 h2, fun k hk => ?_, fun k hk => rfl⟩
    rw [if_neg h]

/-- The registers when the table is entered. -/
def backX (T : Nat) (s : AState) : Nat → Nat :=
  let fr := s.x 29
  upd (upd (upd (upd (upd (upd (upd (upd (upd (upd s.x 3 (leNat (s.mem.rd (fr + 16) 8))) 4 (leNat (s.mem.rd (fr + 24) 8)))
    9 (leNat (s.mem.rd (fr + 32) 8))) 31 (leNat (s.mem.rd (fr + 32) 8))) 2 fr) 29 (leNat (s.mem.rd fr 8)))
    30 (leNat (s.mem.rd (fr + 8) 8))) 5 T) 4 (leNat (s.mem.rd (fr + 24) 8) % 32))
    5 (T + 16 * (leNat (s.mem.rd (fr + 24) 8) % 32))

theorem callBack_step (s : AState) (tab : List Ins) :
    run P T (callBack ++ tab) 0 s = run P T (.br 5 :: tab) 0 { s with x := backX T s } := rfl

theorem br_step {s : AState} {a n : Nat} {tab : List Ins} (h : s.x a = T + 16 * n) :
    run P T (.br a :: tab) 0 s = run P T tab (4 * n) s := by
  simp only [run, exec, h]
  rw [if_pos ⟨by omega, by omega⟩]
  simp only
  congr 1
  omega

theorem callBack_run (s : AState) : run P T (callBack ++ callTable) 0 s =
    run P T callTable (4 * (leNat (s.mem.rd (s.x 29 + 24) 8) % 32)) { s with x := backX T s } :=
  (callBack_step s _).trans (br_step rfl)

theorem callTable_run {ret a : Nat} {s : AState} {m' : Mem} (ha : s.x 3 = a)
    (h : storeRet ret ⟨fun k => leBytes 8 (s.x k), s.v⟩ a s.mem = .ok m') :
    ∃ t, run P T callTable (4 * ret) s = some t ∧ t.mem = m' ∧ (∀ r, r ≠ 0 → t.x r = s.x r) ∧ t.v = s.v := by
  have hz : ∀ (f : Nat → Nat) w r, r ≠ 0 → upd f 0 w r = f r := fun f w r h => if_neg h
  subst ha
  unfold storeRet at h
  split at h <;> cases h
  all_goals
    refine ⟨_, rfl, ?_, fun r hr => ?_, rfl⟩
  all_goals first
    | rfl
    | exact hz _ _ _ hr

/-! ## Closures -/

theorem wr_append (m : Mem) (a : Nat) (xs ys : List Byte) : m.wr a (xs ++ ys) = (m.wr a xs).wr (a + xs.length) ys := by
  funext x
  by_cases h1 : x < a
  · rw [Mem.wr_out _ _ _ _ (.inl h1), Mem.wr_out _ _ _ _ (by omega), Mem.wr_out _ _ _ _ (.inl h1)]
  · by_cases h2 : x < a + xs.length
    · obtain ⟨i, rfl⟩ : ∃ i, x = a + i := ⟨x - a, by omega⟩
      rw [Mem.wr_in _ _ _ _ (by simp; omega), Mem.wr_out _ _ _ _ (.inl h2), Mem.wr_in _ _ _ _ (by omega)]
      simp [List.getElem?_append_left (show i < xs.length by omega), List.getD]
    · by_cases h3 : x < a + xs.length + ys.length
      · obtain ⟨i, rfl⟩ : ∃ i, x = a + xs.length + i := ⟨x - (a + xs.length), by omega⟩
        rw [Mem.wr_in _ _ _ _ (by omega), show a + xs.length + i = a + (xs.length + i) by omega,
          Mem.wr_in _ _ _ _ (by simp; omega)]
        simp [List.getD, List.getElem?_append_right (show xs.length ≤ xs.length + i by omega)]
      · rw [Mem.wr_out _ _ _ _ (by simp; omega), Mem.wr_out _ _ _ _ (by omega), Mem.wr_out _ _ _ _ (by omega)]

/-- Eight registers stored in pairs. -/
def savePairs (a z : Nat) (r : Nat → List Byte) (m : Mem) : Mem :=
  (((m.wr a (r 0 ++ r 1)).wr (a + 2 * z) (r 2 ++ r 3)).wr (a + 4 * z) (r 4 ++ r 5)).wr (a + 6 * z) (r 6 ++ r 7)

theorem savePairs_eq {a z : Nat} {r : Nat → List Byte} (h : ∀ k, (r k).length = z) (m : Mem) :
    savePairs a z r m = saveRegs a z r 8 m := by
  unfold savePairs
  simp only [wr_append, h, saveRegs]
  rw [Nat.mul_zero, Nat.mul_one, Nat.add_zero, Nat.mul_comm z 2, Nat.mul_comm z 3, Nat.mul_comm z 4, Nat.mul_comm z 5, Nat.mul_comm z 6,
    Nat.mul_comm z 7, show a + 2 * z + z = a + 3 * z by omega, show a + 4 * z + z = a + 5 * z by omega,
    show a + 6 * z + z = a + 7 * z by omega]

/-- The frame of a closure; `lr` is the return address as stored. -/
def frameMem (vec : Bool) (lr : Nat) (s : AState) : Mem :=
  let fp := s.x 31 - 272
  let m := s.mem.wr fp (leBytes 8 (s.x 29) ++ leBytes 8 lr)
  let m := if vec then savePairs (fp + 16) 16 (fun k => (s.v k).take 16) m else m
  savePairs (fp + 144) 8 (fun k => leBytes 8 (s.x k)) m

theorem stpPre_step {s : AState} {is : List Ins} (h : 272 ≤ s.x 31) : run P T (.stpPre 29 30 272 :: is) 0 s =
    run P T is 0 { s with mem := s.mem.wr (s.x 31 - 272) (leBytes 8 (s.x 29) ++ leBytes 8 (s.x 30)), x := upd s.x 31 (s.x 31 - 272) } := by
  simp only [run, exec]
  rw [if_pos h]

theorem saveV_step (s : AState) (is : List Ins) : run P T (saveV ++ is) 0 s =
    run P T is 0 { s with mem := savePairs (s.x 31 + 16) 16 (fun k => (s.v k).take 16) s.mem } := rfl

theorem saveX_step (s : AState) (is : List Ins) : run P T (saveX ++ is) 0 s =
    run P T is 0 ⟨upd s.x 29 (s.x 31), s.v, savePairs (s.x 31 + 144) 8 (fun k => leBytes 8 (s.x k)) s.mem⟩ := rfl

theorem upd_same {α : Type} (x : Nat → α) (n : Nat) (v : α) : upd x n v n = v := if_pos rfl

theorem savePairs_upd (a w : Nat) (x : Nat → Nat) (m : Mem) :
    savePairs a 8 (fun k => leBytes 8 (upd x 31 w k)) m = savePairs a 8 (fun k => leBytes 8 (x k)) m := rfl

/-- Everything between the signing and the call; `ld` loads the first three arguments. -/
theorem save_run {s : AState} (h : 272 ≤ s.x 31) (vec : Bool) (ld : List Ins) :
    run P T ([.stpPre 29 30 272] ++ (if vec then saveV else []) ++ saveX ++ ld) 0 s =
      run P T ld 0 ⟨upd (upd s.x 31 (s.x 31 - 272)) 29 (s.x 31 - 272), s.v, frameMem vec (s.x 30) s⟩ := by
  rw [List.append_assoc, List.append_assoc, List.singleton_append, stpPre_step h]
  cases vec
  · show run P T (saveX ++ ld) 0 _ = _
    rw [saveX_step]
    dsimp only
    rw [upd_same, savePairs_upd]
    simp only [frameMem, Bool.false_eq_true, if_false]
  · show run P T (saveV ++ (saveX ++ ld)) 0 _ = _
    rw [saveV_step]
    dsimp only
    rw [upd_same, saveX_step]
    dsimp only
    rw [upd_same, savePairs_upd]
    simp only [frameMem, if_true]

theorem pac_step (s : AState) (is : List Ins) : run P T (.pac 31 :: is) 0 s = run P T is 0 (s.set 30 (P.sign (s.x 30) (s.x 31))) := rfl

theorem sign_step (mode : Mode) (s : AState) (is : List Ins) :
    run P T (signLr mode ++ is) 0 s = run P T is 0 (s.set 30 (signed P mode (s.x 30) (s.x 31))) := by
  cases mode
  · show run P T is 0 s = _
    congr 1
    obtain ⟨x, v, m⟩ := s
    show AState.mk x v m = ⟨upd x 30 (x 30), v, m⟩
    congr 1
    funext i
    unfold upd
    split
    · subst i; rfl
    · rfl
  · rfl
  · rfl

/-- The registers when `ffi_closure_SYSV_inner` is called. -/
def innerX (s : AState) (x : Nat → Nat) (cif fn ud : Nat) : Nat → Nat :=
  upd (upd (upd (upd (upd (upd (upd x 0 cif) 1 fn) 2 ud) 3 (s.x 31 - 272 + 16)) 4 (s.x 31 - 272 + 272)) 5 (s.x 31 - 272 + 208)) 6 (s.x 8)

theorem frameMem_set (vec : Bool) (lr w : Nat) (s : AState) : frameMem vec lr (s.set 30 w) = frameMem vec lr s := by
  cases vec <;> rfl

theorem closureIn_run {s : AState} (h : 272 ≤ s.x 31) (mode : Mode) (vec : Bool) (off : Nat) :
    ∃ t, run P T (closureIn mode vec off) 0 s = some t ∧ t.mem = frameMem vec (signed P mode (s.x 30) (s.x 31)) s ∧ t.v = s.v ∧
      t.x = innerX s (upd (upd (upd s.x 30 (signed P mode (s.x 30) (s.x 31))) 31 (s.x 31 - 272)) 29 (s.x 31 - 272))
        (leNat (t.mem.rd (s.x 17 + off) 8)) (leNat (t.mem.rd (s.x 17 + off + 8) 8)) (leNat (t.mem.rd (s.x 17 + (off + 16)) 8)) := by
  have e : run P T (closureIn mode vec off) 0 s = run P T ([.ldp 0 1 17 off, .ldr 8 false 2 17 (off + 16)] ++ doClosure) 0
      ⟨upd (upd (upd s.x 30 (signed P mode (s.x 30) (s.x 31))) 31 (s.x 31 - 272)) 29 (s.x 31 - 272), s.v,
        frameMem vec (signed P mode (s.x 30) (s.x 31)) s⟩ := by
    unfold closureIn
    rw [show ∀ A B C D E F : List Ins, A ++ B ++ C ++ D ++ E ++ F = A ++ (B ++ C ++ D ++ (E ++ F)) by intros; simp]
    rw [sign_step, save_run (s := s.set 30 _) h, frameMem_set]
    rfl
  generalize frameMem vec (signed P mode (s.x 30) (s.x 31)) s = m at e ⊢
  exact ⟨_, e.trans rfl, rfl, rfl, rfl⟩

theorem goIn_run {s : AState} (h : 272 ≤ s.x 31) (mode : Mode) (vec : Bool) :
    ∃ t lr, run P T (goIn mode vec) 0 s = some t ∧ lr = (if vec = false ∧ mode = .linux then P.sign (s.x 30) (s.x 31) else s.x 30) ∧
      t.mem = frameMem vec lr s ∧ t.v = s.v ∧
      t.x = innerX s (upd (upd (upd s.x 30 lr) 31 (s.x 31 - 272)) 29 (s.x 31 - 272))
        (leNat (t.mem.rd (s.x 18 + 8) 8)) (leNat (t.mem.rd (s.x 18 + 8 + 8) 8)) (s.x 18) := by
  have same : s.set 30 (s.x 30) = s := by
    obtain ⟨x, v, m⟩ := s
    show AState.mk (upd x 30 (x 30)) v m = ⟨x, v, m⟩
    congr 1
    funext i
    unfold upd
    split
    · subst i; rfl
    · rfl
  have e : ∀ is, run P T ((if vec then [] else signLrLinux mode) ++ is) 0 s =
      run P T is 0 (s.set 30 (if vec = false ∧ mode = .linux then P.sign (s.x 30) (s.x 31) else s.x 30)) := by
    intro is
    cases vec
    · cases mode
      · exact congrArg _ same.symm
      · rfl
      · exact congrArg _ same.symm
    · cases mode <;> exact congrArg _ same.symm
  obtain ⟨lr, hlr⟩ : ∃ lr, lr = (if vec = false ∧ mode = .linux then P.sign (s.x 30) (s.x 31) else s.x 30) := ⟨_, rfl⟩
  rw [← hlr] at e
  have e' : run P T (goIn mode vec) 0 s = run P T ([.ldp 0 1 18 8, .mov 2 18] ++ doClosure) 0
      ⟨upd (upd (upd s.x 30 lr) 31 (s.x 31 - 272)) 29 (s.x 31 - 272), s.v, frameMem vec lr s⟩ := by
    unfold goIn
    rw [show ∀ A B C D E F : List Ins, A ++ B ++ C ++ D ++ E ++ F = A ++ (B ++ C ++ D ++ (E ++ F)) by intros; simp]
    rw [e, save_run (s := s.set 30 _) h, frameMem_set]
    rfl
  suffices H : ∀ m, frameMem vec lr s = m → ∃ t, run P T (goIn mode vec) 0 s = some t ∧ t.mem = m ∧ t.v = s.v ∧
      t.x = innerX s (upd (upd (upd s.x 30 lr) 31 (s.x 31 - 272)) 29 (s.x 31 - 272))
        (leNat (t.mem.rd (s.x 18 + 8) 8)) (leNat (t.mem.rd (s.x 18 + 8 + 8) 8)) (s.x 18) by
    obtain ⟨t, h1, h2, h3, h4⟩ := H _ rfl
    exact ⟨t, lr, h1, hlr, h2, h3, h4⟩
  intro m hm
  rw [hm] at e'
  exact ⟨_, e'.trans rfl, rfl, rfl, rfl⟩

/-- The registers when the table is entered. -/
def cbackX (T : Nat) (s : AState) : Nat → Nat :=
  upd (upd (upd (upd s.x 1 T) 0 (s.x 0 % 32)) 1 (T + 16 * (s.x 0 % 32))) 3 (s.x 31 + 208)

theorem closureBack_step (s : AState) (tab : List Ins) :
    run P T (closureBack ++ tab) 0 s = run P T (.br 1 :: tab) 0 { s with x := cbackX T s } := rfl

theorem closureBack_run (s : AState) : run P T (closureBack ++ closureTable) 0 s =
    run P T closureTable (4 * (s.x 0 % 32)) { s with x := cbackX T s } :=
  (closureBack_step s _).trans (br_step rfl)

theorem closureTable_run {ret : Nat} {s : AState} {R' : RetRegs}
    (h : loadRet ret (s.x 3) s.mem ⟨fun k => leBytes 8 (s.x k), s.v⟩ = .ok R') :
    ∃ t, run P T closureTable (4 * ret) s = some t ∧ t.mem = s.mem ∧ (∀ r, 2 ≤ r → t.x r = s.x r) ∧
      (∀ k, leBytes 8 (t.x k) = R'.x k) ∧ t.v = R'.v := by
  have h8 : ∀ a, leBytes 8 (leNat (s.mem.rd a 8)) = s.mem.rd a 8 := fun a => by
    have := leBytes_leNat (s.mem.rd a 8)
    rwa [Mem.rd_length] at this
  have hz : ∀ (f : Nat → Nat) w r, 2 ≤ r → upd f 0 w r = f r := fun f w r h => if_neg (by omega)
  have hz1 : ∀ (f : Nat → Nat) w r, 2 ≤ r → upd f 1 w r = f r := fun f w r h => if_neg (by omega)
  unfold loadRet at h
  split at h <;> cases h
  all_goals refine ⟨_, rfl, rfl, fun r hr => ?_, fun k => ?_, ?_⟩
  all_goals first
    | rfl
    | exact hz _ _ _ hr
    | exact (hz1 _ _ _ hr).trans (hz _ _ _ hr)
    | (simp only [AState.set, upd]; rcases k with _ | _ | k <;> simp [widen, h8])
    | (funext k; simp only [upd]; rcases k with _ | _ | _ | _ | k <;> simp)

end Verif.A64.Asm
