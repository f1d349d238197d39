import Verif.AArch64.ClosureLemmas

/-
Results: the store table of calls and the load table of closures.
-/
namespace Verif.A64
open Verif Spec Spec.A64

theorem lanes_length {v : Nat → List Byte} {z n : Nat} (h : ∀ j < n, z ≤ (v j).length) : (lanes v z n).length = z * n := by
  induction n with
  | zero => rfl
  | succ n ih =>
    rw [lanes, List.length_append, ih fun j hj => h j (by omega), List.length_take, Nat.mul_succ,
      Nat.min_eq_left (h n (by omega))]

theorem lanes_eq {v : Nat → List Byte} {z n : Nat} {val : List Byte}
    (h : ∀ j < n, (v j).take z = (val.drop (z * j)).take z) : lanes v z n = val.take (z * n) := by
  induction n with
  | zero => simp [lanes]
  | succ n ih => rw [lanes, ih fun j hj => h j (by omega), h n (by omega), Nat.mul_succ, List.take_add]

/-- A store of exactly `bs` at `a`. -/
def Stores (a : Nat) (bs : List Byte) (m m' : Mem) : Prop :=
  m'.rd a bs.length = bs ∧ ∀ x, x < a ∨ a + bs.length ≤ x → m' x = m x

theorem stores_wr (a : Nat) (bs : List Byte) (m : Mem) : Stores a bs m (m.wr a bs) :=
  ⟨Mem.rd_wr_same _ _ _, fun x hx => Mem.wr_out _ _ _ _ hx⟩

/-- Writes of two neighbouring pieces, the upper one first. -/
theorem stores_append {a b : Nat} {l r : List Byte} {m m1 : Mem} (h : Stores b r m m1) (hb : b = a + l.length) :
    Stores a (l ++ r) m (m1.wr a l) := by
  subst hb
  obtain ⟨h1, h2⟩ := h
  constructor
  · rw [List.length_append, Mem.rd_append, Mem.rd_wr_same, Mem.rd_wr_disj _ _ _ _ _ (by omega), h1]
  · intro x hx
    rw [List.length_append] at hx
    rw [Mem.wr_out _ _ _ _ (by omega)]
    exact h2 x (by omega)

theorem stores_trans {a b : Nat} {l r : List Byte} {m m1 : Mem} (h : Stores b r m m1) (hb : b + r.length = a) :
    Stores b (r ++ l) m (m1.wr a l) := by
  subst hb
  obtain ⟨h1, h2⟩ := h
  constructor
  · rw [List.length_append, Mem.rd_append, Mem.rd_wr_same, Mem.rd_wr_disj _ _ _ _ _ (by omega), h1]
  · intro x hx
    rw [List.length_append] at hx
    rw [Mem.wr_out _ _ _ _ (by omega)]
    exact h2 x (by omega)

theorem storeRet_hfa {k : TC} {z n : Nat} (hk : fpSize k = some z) (h1 : 1 ≤ n) (h4 : n ≤ 4) {R : RetRegs}
    (hv : ∀ j < 4, (R.v j).length = 16) (a : Nat) (m : Mem) :
    ∃ m', storeRet (fpCode k * 4 + (4 - n)) R a m = .ok m' ∧ Stores a (lanes R.v z n) m m' := by
  have hc : (fpCode k = 2 ∧ z = 4) ∨ (fpCode k = 3 ∧ z = 8) ∨ (fpCode k = 4 ∧ z = 16) := by
    cases k <;> simp [fpSize] at hk <;> subst hk <;> simp [fpCode]
  have hl2 : (lanes R.v 16 2).length = 32 := by
    rw [lanes_length fun j hj => by rw [hv j (by omega)]]
  obtain rfl | rfl | rfl | rfl : n = 1 ∨ n = 2 ∨ n = 3 ∨ n = 4 := by omega
  all_goals rcases hc with ⟨h, rfl⟩ | ⟨h, rfl⟩ | ⟨h, rfl⟩
  all_goals rw [h]
  all_goals try exact ⟨_, rfl, stores_wr _ _ _⟩
  · refine ⟨_, rfl, ?_⟩
    rw [lanes]
    exact stores_append (stores_wr _ _ _) (by rw [hl2])
  · refine ⟨_, rfl, ?_⟩
    rw [lanes, lanes, List.append_assoc]
    refine stores_append (b := a + 32) ?_ (by rw [hl2])
    exact stores_append (stores_wr _ _ _) (by rw [List.length_take, hv 2 (by omega)]; rfl)

theorem loadRet_hfa {k : TC} {z n : Nat} (hk : fpSize k = some z) (h1 : 1 ≤ n) (h4 : n ≤ 4) (R : RetRegs)
    (a : Nat) (m : Mem) :
    loadRet (fpCode k * 4 + (4 - n)) a m R =
      .ok { R with v := fun j => if j < n then ldv m (a + z * j) z else R.v j } := by
  have hc : (fpCode k = 2 ∧ z = 4) ∨ (fpCode k = 3 ∧ z = 8) ∨ (fpCode k = 4 ∧ z = 16) := by
    cases k <;> simp [fpSize] at hk <;> subst hk <;> simp [fpCode]
  obtain rfl | rfl | rfl | rfl : n = 1 ∨ n = 2 ∨ n = 3 ∨ n = 4 := by omega
  all_goals rcases hc with ⟨h, rfl⟩ | ⟨h, rfl⟩ | ⟨h, rfl⟩
  all_goals rw [h]
  all_goals rfl

/-- Integer results. -/
theorem ret_int {t : FType} {sg : Bool} (hi : intLoad t.tc = some (t.size, sg)) :
    ∃ r, intRet t.tc = some r ∧ retPlace t = .int ∧
      (∀ (R : RetRegs) a m, (R.x 0).length = 8 →
        storeRet r R a m = .ok (m.wr a (leBytes 8 (widen sg ((R.x 0).take t.size))))) ∧
      (∀ (R : RetRegs) a m, loadRet r a m R =
        .ok { R with x := fun k => if k = 0 then leBytes 8 (widen sg (m.rd a t.size)) else R.x k }) := by
  have h64 : ∀ bs : List Byte, bs.length = 8 → leBytes 8 (widen false bs) = bs := by
    intro bs h
    have : widen false bs = leNat bs := by simp [widen]
    rw [this, ← h, leBytes_leNat]
  obtain ⟨s, al, tc, es⟩ := t
  simp only [FType.tc_mk, FType.size_mk] at *
  cases tc <;> simp [intLoad] at hi <;> obtain ⟨rfl, rfl⟩ := hi
  all_goals refine ⟨_, rfl, rfl, ?_, ?_⟩
  all_goals first
    | (intro R a m h; rw [h64 _ (by simp [h])]; rfl)
    | (intro R a m; rw [h64 _ (by simp)]; rfl)
    | exact fun _ _ _ _ => rfl
    | exact fun _ _ _ => rfl

/-- The result classes. -/
theorem ret_cases {t : FType} (hw : WF lp64 t) :
    (∃ sg r, intLoad t.tc = some (t.size, sg) ∧ t.size ≤ 8 ∧ intRet t.tc = some r ∧ retFlags t = .ok ⟨r, false, false, false⟩) ∨
    (∃ k z n, fpSize k = some z ∧ 1 ≤ n ∧ n ≤ 4 ∧ t.size = n * z ∧ retPlace t = .v n ∧
      retFlags t = .ok ⟨fpCode k * 4 + (4 - n), false, false, false⟩) ∨
    (retPlace t = .mem ∧ retFlags t = .ok ⟨0, true, false, false⟩) ∨
    (retPlace t = .x ∧ t.size = 16 ∧ retFlags t = .ok ⟨2, false, false, false⟩) ∨
    (retPlace t = .x ∧ t.size = 8 ∧ retFlags t = .ok ⟨1, false, false, false⟩) ∨
    (retPlace t = .x ∧ t.size < 16 ∧ retFlags t = .ok ⟨2, false, true, false⟩) := by
  rcases wf_kind hw with ⟨sg, hi, h8, hh⟩ | ⟨hi, hk⟩
  · left
    obtain ⟨r, hr, _⟩ := ret_int hi
    exact ⟨sg, r, hi, h8, hr, by unfold retFlags; rw [hr]⟩
  · have hir : intRet t.tc = none := by
      rcases hk with h | h | h | h | h <;> rw [h] <;> rfl
    have hrp : retPlace t = match hfa t with
        | some n => .v n
        | none => if 16 < t.size then .mem else .x := by
      unfold retPlace
      rcases hk with h | h | h | h | h <;> rw [h] <;> rfl
    obtain ⟨c, hc, hm⟩ := isVfp_spec hw
    have hf : retFlags t = if c ≠ 0 then .ok ⟨c, false, false, false⟩
        else if 16 < t.size then .ok ⟨0, true, false, false⟩
        else if t.size = 16 then .ok ⟨2, false, false, false⟩
        else if t.size = 8 then .ok ⟨1, false, false, false⟩
        else .ok ⟨2, false, true, false⟩ := by
      unfold retFlags
      rw [hir, hc]
      rfl
    cases hh : hfa t with
    | some n =>
      rw [hh] at hm hrp
      obtain ⟨k, z, hk', h1, h4, _, hs, _, rfl⟩ := hm
      have hne : fpCode k * 4 + (4 - n) ≠ 0 := by
        have : fpCode k ≠ 0 := by cases k <;> simp [fpSize] at hk' <;> simp [fpCode]
        omega
      rw [if_pos hne] at hf
      exact Or.inr (Or.inl ⟨k, z, n, hk', h1, h4, hs, hrp, hf⟩)
    | none =>
      rw [hh] at hm hrp
      obtain rfl : c = 0 := hm
      rw [if_neg (by simp)] at hf
      dsimp only at hrp
      by_cases hb : 16 < t.size
      · rw [if_pos hb] at hf hrp
        exact Or.inr (Or.inr (Or.inl ⟨hrp, hf⟩))
      · rw [if_neg hb] at hf hrp
        by_cases h16 : t.size = 16
        · rw [if_pos h16] at hf
          exact Or.inr (Or.inr (Or.inr (Or.inl ⟨hrp, h16, hf⟩)))
        · rw [if_neg h16] at hf
          by_cases h8 : t.size = 8
          · rw [if_pos h8] at hf
            exact Or.inr (Or.inr (Or.inr (Or.inr (Or.inl ⟨hrp, h8, hf⟩))))
          · rw [if_neg h8] at hf
            exact Or.inr (Or.inr (Or.inr (Or.inr (Or.inr ⟨hrp, by omega, hf⟩))))

/-- A value in the result registers is delivered to the caller's object. -/
theorem finishCall_spec {rt : FType} {f : Flags} {val : List Byte} {R : RetRegs} {m : Mem} {a buf : Nat}
    (hw : WF lp64 rt) (hf : retFlags rt = .ok f) (hmem : retPlace rt ≠ .mem)
    (hx : ∀ k < 2, (R.x k).length = 8) (hv : ∀ k < 4, (R.v k).length = 16) (hr : ReturnedIn R.x R.v rt val)
    (av : Bool) (hbuf : f.needCopy = false → buf = a) (hd : f.needCopy = true → a + rt.size ≤ buf ∨ buf + 16 ≤ a) :
    ∃ m', finishCall (callFlags { f with argV := av } (some a)) rt buf (some a) R m = .ok m' ∧
      m'.rd a (resultObj rt val).length = resultObj rt val ∧
      ∀ x, (x < a ∨ a + (resultObj rt val).length ≤ x) → (f.needCopy = true → x < buf ∨ buf + 16 ≤ x) → m' x = m x := by
  obtain ⟨hl, hint, hxr, hvr⟩ := hr
  have hcf : callFlags { f with argV := av } (some a) = { f with argV := av } := by
    unfold callFlags; split <;> simp
  rw [hcf]
  have key : ∀ {bs : List Byte} {m' : Mem}, f.needCopy = false → storeRet f.ret R a m = .ok m' → Stores a bs m m' →
      bs = resultObj rt val → ∃ m', finishCall { f with argV := av } rt buf (some a) R m = .ok m' ∧
      m'.rd a (resultObj rt val).length = resultObj rt val ∧
      ∀ x, (x < a ∨ a + (resultObj rt val).length ≤ x) → (f.needCopy = true → x < buf ∨ buf + 16 ≤ x) → m' x = m x := by
    intro bs m' hn hs hst hbs
    obtain rfl := hbuf hn
    subst hbs
    refine ⟨m', ?_, hst.1, fun x hx _ => hst.2 x hx⟩
    unfold finishCall
    dsimp only
    rw [hs, hn]
    rfl
  have hobj : retPlace rt ≠ .int → resultObj rt val = val := by
    intro h; unfold resultObj; rw [if_neg h]
  rcases ret_cases hw with ⟨sg, r, hi, h8, hir, hfl⟩ | ⟨k, z, n, hk, h1, h4, hs, hp, hfl⟩ | ⟨hp, hfl⟩ |
    ⟨hp, hs, hfl⟩ | ⟨hp, hs, hfl⟩ | ⟨hp, hs, hfl⟩
  · obtain ⟨r', hr', hpl, hst, _⟩ := ret_int hi
    rw [hir] at hr'
    cases hr'
    rw [hf] at hfl
    cases hfl
    apply key rfl (hst R a m (hx 0 (by omega))) (stores_wr _ _ _)
    rw [hint hpl]
    unfold resultObj
    rw [if_pos hpl, widen_extend hi hl]
  · rw [hf] at hfl
    cases hfl
    obtain ⟨m', hm', hst⟩ := storeRet_hfa hk h1 h4 (R := R) hv a m
    have hdiv : rt.size / n = z := by rw [hs, Nat.mul_div_cancel_left _ (by omega)]
    have := hvr n hp
    rw [hdiv] at this
    rw [lanes_eq this, List.take_of_length_le (by rw [hl, hs, Nat.mul_comm])] at hst
    exact key rfl hm' hst (hobj (by rw [hp]; simp)).symm
  · exact absurd hp hmem
  · rw [hf] at hfl
    cases hfl
    have h2 : xs R.x 0 2 = (R.x 0).take 8 ++ (R.x 1).take 8 := by
      rw [List.take_of_length_le (by rw [hx 0 (by omega)]), List.take_of_length_le (by rw [hx 1 (by omega)])]
      rfl
    apply key (bs := (R.x 0).take 8 ++ (R.x 1).take 8) rfl rfl (stores_wr _ _ _)
    rw [hobj (by rw [hp]; simp), ← hxr hp, ← h2, List.take_of_length_le]
    rw [h2, List.length_append, List.length_take, List.length_take, hs]; omega
  · rw [hf] at hfl
    cases hfl
    apply key (bs := (R.x 0).take 8) rfl rfl (stores_wr _ _ _)
    rw [hobj (by rw [hp]; simp), ← hxr hp, hs]
    change _ = ([] ++ R.x 0 ++ R.x 1).take 8
    rw [List.nil_append, List.take_append, hx 0 (by omega)]
    simp
  · rw [hf] at hfl
    cases hfl
    rw [hobj (by rw [hp]; simp)]
    have hd' := hd rfl
    have h2 : xs R.x 0 2 = (R.x 0).take 8 ++ (R.x 1).take 8 := by
      rw [List.take_of_length_le (by rw [hx 0 (by omega)]), List.take_of_length_le (by rw [hx 1 (by omega)])]
      rfl
    have hlen : ((R.x 0).take 8 ++ (R.x 1).take 8).length = 16 := by
      rw [List.length_append, List.length_take, List.length_take, hx 0 (by omega), hx 1 (by omega)]; rfl
    have hrd : (m.wr buf ((R.x 0).take 8 ++ (R.x 1).take 8)).rd buf rt.size = val := by
      rw [Mem.rd_wr_prefix _ _ _ (by omega), ← h2]
      exact hxr hp
    refine ⟨_, rfl, ?_, ?_⟩
    · simp only [if_true, Option.getD_some]
      rw [hrd]
      exact Mem.rd_wr_same _ _ _
    · intro x hx1 hx2
      have := hx2 rfl
      simp only [if_true, Option.getD_some]
      rw [hrd, Mem.wr_out _ _ _ _ hx1, Mem.wr_out _ _ _ _ (by omega)]

/-- With a NULL result address nothing is stored. -/
theorem finishCall_null {rt : FType} {f : Flags} {R : RetRegs} {m : Mem} {buf : Nat} (hmem : f.inMem = false) :
    finishCall (callFlags f none) rt buf none R m = .ok m := by
  unfold callFlags finishCall
  rw [if_neg (by simp [hmem])]
  rfl

/-- Results in memory and `void`: nothing is stored after the call. -/
theorem finishCall_mem {rt : FType} {f : Flags} {R : RetRegs} {m : Mem} {buf : Nat} {o : Option Nat}
    (hr : f.ret = 0) (hn : f.needCopy = false) : finishCall (callFlags f o) rt buf o R m = .ok m := by
  have h1 : (callFlags f o).ret = 0 := by
    unfold callFlags; split <;> (try split) <;> first | exact hr | rfl
  have h2 : (callFlags f o).needCopy = false := by
    unfold callFlags; split <;> (try split) <;> first | exact hn | rfl
  unfold finishCall
  rw [h1, h2]
  rfl

/-- What the handler stored is returned in the registers of the standard, integers
filling the register. -/
theorem loadRet_spec {rt : FType} {f : Flags} {m : Mem} {a : Nat} {R : RetRegs}
    (hw : WF lp64 rt) (hf : retFlags rt = .ok f) (hmem : retPlace rt ≠ .mem)
    (hx : ∀ k < 2, (R.x k).length = 8) (hv : ∀ k < 4, (R.v k).length = 16) :
    ∃ R', loadRet f.ret a m R = .ok R' ∧ ReturnedIn R'.x R'.v rt (m.rd a rt.size) ∧
      (∀ k < 2, (R'.x k).length = 8) ∧ (∀ k < 4, (R'.v k).length = 16) ∧
      (retPlace rt = .int → R'.x 0 = leBytes 8 (extend64 rt.tc (m.rd a rt.size))) := by
  have hxs : ∀ s, s ≤ 16 → (xs (fun k => if k = 0 then m.rd a 8 else if k = 1 then m.rd (a + 8) 8 else R.x k) 0 2).take s = m.rd a s := by
    intro s hs
    have : xs (fun k => if k = 0 then m.rd a 8 else if k = 1 then m.rd (a + 8) 8 else R.x k) 0 2 = m.rd a 16 := by
      change ([] ++ m.rd a 8) ++ m.rd (a + 8) 8 = _
      rw [List.nil_append, ← Mem.rd_append]
    rw [this, Mem.rd_take _ _ hs]
  have hxl : ∀ k < 2, ((fun k => if k = 0 then m.rd a 8 else if k = 1 then m.rd (a + 8) 8 else R.x k) k).length = 8 := by
    intro k hk
    obtain rfl | rfl : k = 0 ∨ k = 1 := by omega
    · simp
    · simp
  rcases ret_cases hw with ⟨sg, r, hi, h8, hir, hfl⟩ | ⟨k, z, n, hk, h1, h4, hs, hp, hfl⟩ | ⟨hp, hfl⟩ |
    ⟨hp, hs, hfl⟩ | ⟨hp, hs, hfl⟩ | ⟨hp, hs, hfl⟩
  · obtain ⟨r', hr', hpl, _, hld⟩ := ret_int hi
    rw [hir] at hr'
    cases hr'
    rw [hf] at hfl
    cases hfl
    refine ⟨_, hld R a m, ⟨by simp, ?_, by rw [hpl]; simp, by rw [hpl]; simp⟩, ?_, hv, ?_⟩
    · intro _
      have := leBytes_widen (sg := sg) (bs := m.rd a rt.size) (by simpa using h8)
      rw [Mem.rd_length] at this
      exact this
    · intro k hk
      dsimp only
      split
      · simp
      · exact hx k hk
    · intro _
      dsimp only
      rw [if_pos rfl, widen_extend hi (by simp)]
  · rw [hf] at hfl
    cases hfl
    have hz16 : z ≤ 16 := by cases k <;> simp [fpSize] at hk <;> subst hk <;> decide
    refine ⟨_, loadRet_hfa hk h1 h4 R a m, ⟨by simp, by rw [hp]; simp, by rw [hp]; simp, ?_⟩, hx, ?_, by rw [hp]; simp⟩
    · intro n' hp'
      rw [hp] at hp'
      cases hp'
      have hdiv : rt.size / n = z := by rw [hs, Nat.mul_div_cancel_left _ (by omega)]
      rw [hdiv]
      intro j hj
      dsimp only
      rw [if_pos hj]
      have hjz : z * j + z ≤ rt.size := by
        rw [hs]; calc z * j + z = (j + 1) * z := by ring
          _ ≤ n * z := Nat.mul_le_mul_right _ hj
      rw [rd_slice _ _ _ _ _ hjz]
      unfold ldv
      rw [List.take_left' (by simp)]
    · intro j hj
      dsimp only
      split
      · simp [ldv]; omega
      · exact hv j hj
  · exact absurd hp hmem
  · rw [hf] at hfl
    cases hfl
    refine ⟨_, rfl, ⟨by simp, by rw [hp]; simp, fun _ => hxs _ (by omega), by rw [hp]; simp⟩, hxl, hv, by rw [hp]; simp⟩
  · rw [hf] at hfl
    cases hfl
    refine ⟨_, rfl, ⟨by simp, by rw [hp]; simp, ?_, by rw [hp]; simp⟩, ?_, hv, by rw [hp]; simp⟩
    · intro _
      rw [hs]
      change (([] ++ m.rd a 8) ++ _).take 8 = _
      rw [List.nil_append, List.take_left' (by simp)]
    · intro k hk
      dsimp only
      split
      · simp
      · exact hx k hk
  · rw [hf] at hfl
    cases hfl
    refine ⟨_, rfl, ⟨by simp, by rw [hp]; simp, fun _ => hxs _ (by omega), by rw [hp]; simp⟩, hxl, hv, by rw [hp]; simp⟩

end Verif.A64
