import Verif.Ppc.Call

/-! The arguments one by one. -/
namespace Verif.Ppc
open Verif Verif.Spec Verif.Spec.Ppc

theorem Mid.weaken {F : Fr} {ps named named' : Bool} {s : St} {o nf nv : Nat} (h : Mid F ps named s o nf nv) (hn : named' = true → named = true) :
    Mid F ps named' s o nf nv := ⟨h.na, h.fc, h.vc, fun h1 => h.fb (hn h1), fun h1 => h.vb (hn h1)⟩

theorem even_cases (n : Nat) : (n % 2 = 0 ∧ even n = n) ∨ (n % 2 = 1 ∧ even n = n + 1) := by
  unfold even
  omega

theorem at_mod {F : Fr} {ps fp vec : Bool} {N : Nat} (g : Geo F ps fp vec N) (o d : Nat) (hd : d = 8 ∨ d = 16) : F.at o % d = o % d := by
  have h1 := g.al
  have h2 := g.alg
  unfold Fr.at
  split <;> rcases hd with rfl | rfl <;> omega

theorem bump_self {F : Fr} {ps fp vec : Bool} {N : Nat} (g : Geo F ps fp vec N) {o : Nat} (hN : o ≤ 8 * N) (h : o < 64 ∨ ps = true) : F.bump (F.at o) = F.at o := by
  have h1 := g.g
  unfold Fr.bump Fr.at Fr.gprEnd Fr.rest numGpr
  by_cases h64 : o < 64
  · rw [if_pos h64, if_neg (by omega)]
  · rw [if_neg h64]
    have h2 := g.gps (h.resolve_left h64)
    rw [if_neg (by omega)]

theorem roundUp_16 (x : Nat) (h : x % 8 = 0) : roundUp x 16 = if x % 16 = 0 then x else x + 8 := by
  unfold roundUp
  split <;> omega

/-- Rounding up the pointer rounds up the offset. -/
theorem bump_round {F : Fr} {ps fp vec : Bool} {N : Nat} (g : Geo F ps fp vec N) {k : Nat} (hN : even k ≤ N) (h : 8 * even k < 64 ∨ ps = true) :
    F.bump (roundUp (F.at (8 * k)) 16) = F.at (8 * even k) := by
  have h8 := at_mod g (8 * k) 8 (.inl rfl)
  have h16 := at_mod g (8 * k) 16 (.inr rfl)
  rw [roundUp_16 _ (by omega)]
  rcases even_cases k with ⟨e1, e2⟩ | ⟨e1, e2⟩
  · rw [if_pos (by omega), e2]
    rw [e2] at h hN
    exact bump_self g (by omega) h
  · rw [if_neg (by omega), e2, bump_at g (.inr (.inl rfl)) (by omega) (by omega) (by rw [e2] at h; exact h.imp_left (fun h => by omega))]
    congr 1

theorem alignStruct_ok {F : Fr} {ps fp vec : Bool} {N : Nat} (g : Geo F ps fp vec N) {ld : LD} {t : FType} (ht : Ty ld t) (hs : t.tc = .struct)
    {named : Bool} {s : St} {k nf nv : Nat} (h : Mid F ps named s (8 * k) nf nv) (hN : first ld t k ≤ N) :
    Mid F ps named (alignStruct F t s) (8 * first ld t k) nf nv := by
  have hfirst : first ld t k = if t.align = 16 then even k else k := by unfold first; simp [hs]
  rw [hfirst] at hN ⊢
  have hsm : ∀ a, a = 2 ∨ a = 4 ∨ a = 8 → 8 * k < 64 ∨ ps = true → k ≤ N → F.bump (roundUp s.na a) = F.at (8 * k) := by
    intro a ha hk hN
    have h8 := at_mod g (8 * k) 8 (.inl rfl)
    rw [h.na hk, roundUp_of_dvd (by omega) (by rcases ha with rfl | rfl | rfl <;> omega), bump_self g (by omega) hk]
  have hsa : alignStruct F t s = if t.align > 1 then { s with na := F.bump (roundUp s.na t.align) } else s := by
    unfold alignStruct
    have : (if t.align > 16 then 16 else t.align) = t.align := if_neg (by rcases ty_align ht with e | e | e | e | e <;> omega)
    rw [this]
  rw [hsa]
  rcases ty_align ht with e | e | e | e | e <;> rw [e] at hN ⊢
  · rw [if_neg (by decide : ¬ 1 > 1), if_neg (by decide)]
    exact h
  · rw [if_neg (by decide)] at hN
    rw [if_pos (by decide : 2 > 1), if_neg (by decide)]
    exact ⟨fun hh => hsm 2 (by simp) hh hN, h.fc, h.vc, h.fb, h.vb⟩
  · rw [if_neg (by decide)] at hN
    rw [if_pos (by decide : 4 > 1), if_neg (by decide)]
    exact ⟨fun hh => hsm 4 (by simp) hh hN, h.fc, h.vc, h.fb, h.vb⟩
  · rw [if_neg (by decide)] at hN
    rw [if_pos (by decide : 8 > 1), if_neg (by decide)]
    exact ⟨fun hh => hsm 8 (by simp) hh hN, h.fc, h.vc, h.fb, h.vb⟩
  · rw [if_pos rfl] at hN
    rw [if_pos (by decide : 16 > 1), if_pos rfl]
    refine ⟨fun hh => ?_, h.fc, h.vc, h.fb, h.vb⟩
    dsimp only
    have := even_cases k
    rw [h.na (hh.imp_left (fun h => by omega)), bump_round g hN hh]

theorem padFloat_ok {F : Fr} {ps fp vec : Bool} {N : Nat} (g : Geo F ps fp vec N) {named : Bool} {s : St} {o nf nv : Nat}
    (h : Mid F ps named s o nf nv) (h4 : o % 4 = 0) (hN : (o + 7) / 8 ≤ N) : Mid F ps named (padFloat F s) (8 * ((o + 7) / 8)) nf nv := by
  unfold padFloat
  have hc : o % 8 = 0 ∨ o % 8 = 4 := by omega
  have ht : 8 * ((o + 7) / 8) < 64 ∨ ps = true → s.na = F.at o := fun hh => h.na (hh.imp_left (fun h => by omega))
  have h8 := at_mod g o 8 (.inl rfl)
  by_cases hs : s.na % 8 ≠ 0
  · rw [if_pos hs]
    refine ⟨fun hh => ?_, h.fc, h.vc, h.fb, h.vb⟩
    dsimp only
    have e := ht hh
    rw [e] at hs ⊢
    rw [bump_at g (.inl rfl) h4 (by omega) (hh.imp_left (fun h => by omega))]
    congr 1
    omega
  · rw [if_neg hs]
    refine ⟨fun hh => ?_, h.fc, h.vc, h.fb, h.vb⟩
    have e := ht hh
    rw [e] at hs ⊢
    congr 1
    omega

theorem putStruct_ok {F : Fr} {ps fp vec : Bool} {N : Nat} (g : Geo F ps fp vec N) {named : Bool} {s : St} {k nf nv a sz : Nat} {m : Mem}
    (h : Mid F ps named s (8 * k) nf nv) (hsz : 0 < sz) (hN : k + (sz + 7) / 8 ≤ N) (hr : k + (sz + 7) / 8 ≤ 8 ∨ ps = true)
    (ha : ∀ i, i < sz → ¬ Area F (a + i)) :
    Mid F ps named (putStruct F sz a s m).1 (8 * (k + (sz + 7) / 8)) nf nv ∧
    (∀ i, i < sz → (putStruct F sz a s m).2 (F.at (8 * k + i)) = (m.rd a sz).getD i 0) ∧
    (∀ x, ¬ Later F ps fp vec N (8 * k) nf nv x → (putStruct F sz a s m).2 x = m x) := by
  have hna := h.na (hr.imp_left (fun h => by omega))
  have h1 := g.g
  have hat : F.at (8 * k) = if 8 * k < 64 then F.gprBase + 8 * k else F.S + 32 + 8 * k := rfl
  generalize hw : (sz + 7) / 8 = w at hN hr ⊢
  unfold putStruct
  dsimp only
  rw [hna, hw]
  by_cases hsp : F.at (8 * k) ≥ F.gprBase ∧ F.at (8 * k) + 8 * w > F.gprEnd
  · rw [if_pos hsp]
    have hge : F.gprEnd = F.gprBase + 64 := rfl
    have hre : F.rest = F.S + 96 := rfl
    have hk : k < 8 := by
      by_contra hk
      rw [if_neg (by omega)] at hat
      have := g.gps (hr.resolve_left (by omega))
      omega
    rw [if_pos (by omega)] at hat
    have hps : ps = true := hr.resolve_left (by omega)
    have hgp := g.gps hps
    have hf : F.gprEnd - F.at (8 * k) = 64 - 8 * k := by omega
    rw [hf, hre]
    refine ⟨⟨?_, h.fc, h.vc, h.fb, h.vb⟩, ?_, ?_⟩
    · intro _
      dsimp only
      unfold Fr.at
      rw [if_neg (by omega)]
      omega
    · intro i hi
      dsimp only
      rw [Mem.rd_getD _ _ _ _ hi]
      by_cases hi64 : 8 * k + i < 64
      · rw [show F.at (8 * k + i) = F.gprBase + 8 * k + i by unfold Fr.at; rw [if_pos hi64]; omega]
        rw [Mem.wr_out _ _ _ _ (by simp only [Mem.rd_length]; omega), hat, Mem.wr_in _ _ _ _ (by simp only [Mem.rd_length]; omega),
          Mem.rd_getD _ _ _ _ (by omega)]
      · rw [show F.at (8 * k + i) = F.S + 96 + (8 * k + i - 64) by unfold Fr.at; rw [if_neg hi64]; omega]
        rw [Mem.wr_in _ _ _ _ (by simp only [Mem.rd_length]; omega), Mem.rd_getD _ _ _ _ (by omega)]
        rw [show a + (64 - 8 * k) + (8 * k + i - 64) = a + i by omega]
        apply Mem.wr_out
        have := ha i hi
        unfold Area at this
        simp only [Mem.rd_length]
        omega
    · intro x hx
      dsimp only
      rw [Mem.wr_out, Mem.wr_out]
      · by_contra hcon
        apply hx
        simp only [Mem.rd_length] at hcon
        exact .inl ⟨by omega, by omega⟩
      · by_contra hcon
        apply hx
        simp only [Mem.rd_length] at hcon
        exact .inr (.inl ⟨hps, by omega, by omega, by omega⟩)
  · rw [if_neg hsp]
    have hge : F.gprEnd = F.gprBase + 64 := rfl
    have hre : F.rest = F.S + 96 := rfl
    have hin : ∀ i, i < 8 * w → F.at (8 * k + i) = F.at (8 * k) + i := by
      intro i hi
      by_cases hk : 8 * k < 64
      · rw [if_pos hk] at hat
        have := fun hcon => hsp ⟨by omega, hcon⟩
        rw [hat]
        unfold Fr.at
        rw [if_pos (by omega)]
        omega
      · rw [if_neg hk] at hat
        rw [hat]
        unfold Fr.at
        rw [if_neg (by omega)]
        omega
    refine ⟨⟨?_, h.fc, h.vc, h.fb, h.vb⟩, ?_, ?_⟩
    · intro hh
      dsimp only
      have hl := hin (8 * w - 8) (by omega)
      rw [show F.at (8 * k) + 8 * w = F.at (8 * k + (8 * w - 8)) + 8 by omega]
      rw [bump_at g (.inr (.inl rfl)) (by omega) (by omega) (hh.imp_left (fun h => by omega))]
      congr 1
      omega
    · intro i hi
      dsimp only
      rw [hin i (by omega), Mem.wr_in _ _ _ _ (by simpa using hi)]
    · intro x hx
      apply Mem.wr_out
      by_contra hcon
      apply hx
      simp only [Mem.rd_length] at hcon
      rw [show x = F.at (8 * k + (x - F.at (8 * k))) by rw [hin _ (by omega)]; omega]
      exact at_later (by omega) (by
        by_cases h64 : 8 * k + (x - F.at (8 * k)) < 64
        · exact .inl h64
        · exact .inr ⟨hr.resolve_left (by omega), by omega⟩)

theorem putGpr_ok {F : Fr} {ps fp vec : Bool} {N : Nat} (g : Geo F ps fp vec N) {named : Bool} {s : St} {k nf nv v : Nat} {m : Mem}
    (h : Mid F ps named s (8 * k) nf nv) (hN : k + 1 ≤ N) (hr : k + 1 ≤ 8 ∨ ps = true) :
    Mid F ps named (putGpr F v s m).1 (8 * (k + 1)) nf nv ∧
    (∀ i, i < 8 → (putGpr F v s m).2 (F.at (8 * k + i)) = (leBytes 8 v).getD i 0) ∧
    (∀ x, ¬ Later F ps fp vec N (8 * k) nf nv x → (putGpr F v s m).2 x = m x) := by
  have hna := h.na (hr.imp_left (fun h => by omega))
  unfold putGpr
  rw [hna]
  refine ⟨⟨fun hh => ?_, h.fc, h.vc, h.fb, h.vb⟩, ?_, ?_⟩
  · exact bump_at g (.inr (.inl rfl)) (by omega) (by omega) (hh.imp_left (fun h => by omega))
  · intro i hi
    dsimp only
    rw [← at_add (.inr (.inl rfl)) (by omega) hi, Mem.wr_in _ _ _ _ (by simpa using hi)]
  · intro x hx
    apply Mem.wr_out
    by_contra hcon
    apply hx
    simp only [leBytes_length] at hcon
    rw [show x = F.at (8 * k + (x - F.at (8 * k))) by rw [← at_add (.inr (.inl rfl)) (by omega) (show _ < 8 by omega)]; omega]
    exact at_later (by omega) (by
      by_cases h64 : 8 * k + (x - F.at (8 * k)) < 64
      · exact .inl h64
      · exact .inr ⟨hr.resolve_left (by omega), by omega⟩)

/-! ## Integers -/

theorem intVal_getInt {ld : LD} {t : FType} (ht : tab ld t.tc = some (t.size, t.align)) (hc : cls ld t.tc = none) {m : Mem} {a : Nat} {sgn : Bool} {n : Nat}
    (hi : intType t.tc = some (sgn, n)) : ((getInt sgn n m a : Nat) : Int) = intVal t.tc (m.rd a t.size) % 2 ^ 64 ∧ getInt sgn n m a < 2 ^ 64 ∧ t.size ≤ 8 := by
  obtain ⟨s, al, tc, es⟩ := t
  simp only [FType.tc_mk, FType.size_mk, FType.align_mk] at *
  have hl := leNat_lt (m.rd a s)
  have hl8 := leNat_lt (m.rd a 8)
  rw [Mem.rd_length] at hl hl8
  cases tc <;> simp [intType] at hi <;> simp [tab] at ht <;> obtain ⟨rfl, rfl⟩ := hi <;> obtain ⟨rfl, rfl⟩ := ht <;>
    simp only [getInt, intVal, signed, Mem.rd_length] <;> simp at hl hl8 ⊢ <;> (try split) <;> (try push_cast) <;> omega

theorem intType_some {ld : LD} {t : FType} (ht : tab ld t.tc = some (t.size, t.align)) (hc : cls ld t.tc = none) : ∃ x, intType t.tc = some x := by
  obtain ⟨s, al, tc, es⟩ := t
  simp only [FType.tc_mk, FType.size_mk, FType.align_mk] at *
  cases tc <;> cases ld <;> simp [tab, cls] at ht hc <;> simp [intType]

theorem callArg_int {F : Fr} {ld : LD} {named : Bool} {t : FType} {a : Nat} {s : St} {m : Mem} (ht : tab ld t.tc = some (t.size, t.align)) (hc : cls ld t.tc = none)
    {sgn : Bool} {n : Nat} (hi : intType t.tc = some (sgn, n)) : callArg F ld named t a s m = putGpr F (getInt sgn n m a) s m := by
  obtain ⟨z, al, tc, es⟩ := t
  simp only [FType.tc_mk, FType.size_mk, FType.align_mk] at *
  cases tc <;> cases ld <;> simp [tab, cls] at ht hc <;> simp [intType] at hi <;> obtain ⟨rfl, rfl⟩ := hi <;> rfl

/-! ## One argument -/

theorem placeArg_homog {ld : LD} {t : FType} {c : Cls} {n : Nat} (hh : homog ld t = some (c, n)) (named : Bool) (p : Pos) :
    placeArg ld named t p = (.parts (first ld t p.slot) c n (rOf c p.nf p.nv) named, ⟨first ld t p.slot + (t.size + 7) / 8, nfOf c p.nf n, nvOf c p.nv n⟩) := by
  unfold placeArg
  rw [hh]
  cases c <;> rfl

theorem placeArg_none {ld : LD} {t : FType} (hh : homog ld t = none) (named : Bool) (p : Pos) :
    placeArg ld named t p = (if t.tc = .struct then .agg (first ld t p.slot) else .int (first ld t p.slot), ⟨first ld t p.slot + (t.size + 7) / 8, p.nf, p.nv⟩) := by
  unfold placeArg
  rw [hh]

theorem parts_passed {R : Regs} {t : FType} {c : Cls} {n r k : Nat} {named : Bool} {m : Mem} {a : Nat} (hs : t.size = c.bytes * n)
    (h : ∀ j, j < n → Got R c named (r + j) (8 * k + c.bytes * j) (m.rd (a + c.bytes * j) c.bytes)) :
    PassedAt R t (m.rd a t.size) (.parts k c n r named) := by
  intro j hj
  have he : part c (m.rd a t.size) j = m.rd (a + c.bytes * j) c.bytes := by
    have hle : c.bytes * (j + 1) ≤ c.bytes * n := Nat.mul_le_mul_left _ hj
    rw [Nat.mul_succ] at hle
    unfold part
    apply bytes_ext
    · simp only [List.length_take, List.length_drop, Mem.rd_length]; omega
    · intro i hi
      simp only [List.length_take, List.length_drop, Mem.rd_length] at hi
      rw [Mem.rd_getD _ _ _ _ (by omega), List.getD_eq_getElem?_getD, List.getElem?_take_of_lt (by omega), List.getElem?_drop,
        ← List.getD_eq_getElem?_getD, Mem.rd_getD _ _ _ _ (by omega)]
      congr 1
      omega
  rw [he]
  exact h j hj

theorem first_ge (ld : LD) (t : FType) (k : Nat) : k ≤ first ld t k ∧ first ld t k ≤ k + 1 := by
  unfold first
  have := even_cases k
  split <;> omega

theorem callArg_ok {F : Fr} {ps fp vec : Bool} {N : Nat} (g : Geo F ps fp vec N) {ld : LD} {t : FType} (ht : Ty ld t) {named : Bool} {s : St} {p : Pos} {a : Nat} {m : Mem}
    (h : Mid F ps named s (8 * p.slot) p.nf p.nv) (hN : (placeArg ld named t p).2.slot ≤ N)
    (hf : p.nf < (placeArg ld named t p).2.nf → fp = true) (hv : p.nv < (placeArg ld named t p).2.nv → vec = true)
    (hreg : ps = false → named = true ∧ AllRegs t (placeArg ld named t p).1) (ha : ∀ i, i < t.size → ¬ Area F (a + i)) :
    Mid F ps named (callArg F ld named t a s m).1 (8 * (placeArg ld named t p).2.slot) (placeArg ld named t p).2.nf (placeArg ld named t p).2.nv ∧
    PassedAt (regsOf F (callArg F ld named t a s m).2) t (m.rd a t.size) (placeArg ld named t p).1 ∧
    (∀ x, ¬ Later F ps fp vec N (8 * p.slot) p.nf p.nv x → (callArg F ld named t a s m).2 x = m x) := by
  have hfg := first_ge ld t p.slot
  cases hh : homog ld t with
  | none =>
    rw [placeArg_none hh] at *
    dsimp only at hN hreg ⊢
    by_cases hs : t.tc = .struct
    · rw [if_pos hs] at hreg ⊢
      have hc : callArg F ld named t a s m = putStruct F t.size a (alignStruct F t s) m := by
        unfold callArg callStruct
        rw [hs, discover_eq ht, hh]
        rfl
      rw [hc]
      obtain ⟨h1, h2, h3⟩ := putStruct_ok (m := m) g (alignStruct_ok g ht hs h (by omega)) (ht.1.size_pos (tab_ok ld)) hN
        (by cases hp : ps with
            | false => exact .inl (hreg hp).2
            | true => exact .inr rfl) ha
      exact ⟨h1, img_rd (by simp) h2, fun x hx => h3 x (fun hl => hx (hl.mono (by omega) (Nat.le_refl _) (Nat.le_refl _)))⟩
    · rw [if_neg hs] at hreg ⊢
      obtain ⟨htab, hcl⟩ := (ty_scalar_or ht).resolve_left hs
      have hcn : cls ld t.tc = none := by
        cases hc : cls ld t.tc with
        | none => rfl
        | some c => rw [hh, hc] at hcl; cases hcl
      obtain ⟨⟨sgn, n⟩, hi⟩ := intType_some htab hcn
      obtain ⟨i1, i2, i3⟩ := intVal_getInt (m := m) (a := a) htab hcn hi
      have hz := ht.1.size_pos (tab_ok ld)
      have hfe : first ld t p.slot = p.slot := by
        unfold first
        rw [if_neg]
        rintro ⟨h16, _⟩
        have := (ht.1.align_dvd_size (tab_ok ld))
        rw [h16] at this
        have := Nat.le_of_dvd hz this
        omega
      have hw : (t.size + 7) / 8 = 1 := by omega
      rw [hfe, hw] at hN ⊢
      rw [hfe] at hreg
      rw [callArg_int htab hcn hi]
      obtain ⟨h1, h2, h3⟩ := putGpr_ok (m := m) (v := getInt sgn n m a) g h hN
        (by cases hp : ps with
            | false => exact .inl (hreg hp).2
            | true => exact .inr rfl)
      refine ⟨h1, ?_, h3⟩
      show ((leNat _ : Nat) : Int) = _
      rw [img_rd (by simp) h2, leNat_leBytes, Nat.mod_eq_of_lt (by simpa using i2), i1]
  | some q =>
    obtain ⟨c, n⟩ := q
    rw [placeArg_homog hh] at *
    dsimp only at hN hf hv hreg ⊢
    obtain ⟨a1, a2, a3, a4, a5⟩ := homog_size ht hh
    have hoc := homog_occurs hh
    have hhas : Has fp vec c := by
      cases c
      · exact hf (by simp only [nfOf]; omega)
      · exact hf (by simp only [nfOf]; omega)
      · exact hf (by simp only [nfOf]; omega)
      · exact hv (by simp only [nvOf]; omega)
    have hroom : ∀ j, j < n → ¬ (named = true ∧ rOf c p.nf p.nv + j < c.count) → ps = true := by
      intro j hj hcon
      cases hp : ps with
      | true => rfl
      | false =>
        obtain ⟨b1, b2⟩ := hreg hp
        have b2 : rOf c p.nf p.nv + n ≤ c.count := b2
        exact absurd ⟨b1, by omega⟩ hcon
    by_cases hs : t.tc = .struct
    · have hm := alignStruct_ok g ht hs h (by omega)
      have hal : 8 * first ld t p.slot % c.bytes = 0 := by
        cases c
        · simp only [Cls.bytes]; omega
        · simp only [Cls.bytes]; omega
        · simp only [Cls.bytes]; omega
        · have : even p.slot % 2 = 0 := by have := even_cases p.slot; omega
          unfold first
          rw [if_pos ⟨a1, .inl hs⟩]
          simp only [Cls.bytes]; omega
      have hdiv : c.bytes * n ≤ 8 * ((t.size + 7) / 8) := by omega
      obtain ⟨h1, h2, h3⟩ := putParts_ok (named := named) g c hhas n _ _ _ _ a m hm hal (by omega) (fun j hj hcon => .inr (hroom j hj hcon)) (by rw [← a2]; exact ha)
      have hc : callArg F ld named t a s m =
          ((if c = .f32 then padFloat F (putParts F named (kOf c) n a (alignStruct F t s) m).1 else (putParts F named (kOf c) n a (alignStruct F t s) m).1),
            (putParts F named (kOf c) n a (alignStruct F t s) m).2) := by
        unfold callArg callStruct
        rw [hs, discover_eq ht, hh]
        cases c
        · simp [elt, kOf]
        · simp [elt, kOf]
        · have := hoc.1 rfl
          subst this
          simp [elt, kOf]
        · have := hoc.2 rfl
          subst this
          simp [elt, kOf]
      rw [hc]
      refine ⟨?_, parts_passed a2 h2, fun x hx => h3 x (fun hl => hx (hl.mono (by omega) (Nat.le_refl _) (Nat.le_refl _)))⟩
      dsimp only
      by_cases h32 : c = .f32
      · subst h32
        rw [if_pos rfl]
        have hb : Cls.bytes .f32 = 4 := rfl
        rw [hb] at h1 a2
        have := padFloat_ok g h1 (by omega) (by omega)
        rw [show first ld t p.slot + (t.size + 7) / 8 = (8 * first ld t p.slot + 4 * n + 7) / 8 by rw [a2]; omega]
        exact this
      · rw [if_neg h32]
        rw [show 8 * (first ld t p.slot + (t.size + 7) / 8) = 8 * first ld t p.slot + c.bytes * n by
          cases c
          · exact absurd rfl h32
          · simp only [Cls.bytes] at a2 ⊢; omega
          · simp only [Cls.bytes] at a2 ⊢; omega
          · simp only [Cls.bytes] at a2 ⊢; omega]
        exact h1
    · obtain ⟨htab, hcl⟩ := (ty_scalar_or ht).resolve_left hs
      rw [hh] at hcl
      cases hcc : cls ld t.tc with
      | none => rw [hcc] at hcl; cases hcl
      | some d =>
        rw [hcc] at hcl
        simp only [Option.map_some, Option.some.injEq, Prod.mk.injEq] at hcl
        obtain ⟨rfl, rfl⟩ := hcl
        cases c
        · -- float
          have hca : callArg F ld named t a s m = put32 F named 8 a s m := by
            obtain ⟨z, al, tc, es⟩ := t
            simp only [FType.tc_mk] at hcc
            cases tc <;> cases ld <;> simp [cls] at hcc <;> rfl
          have hfe : first ld t p.slot = p.slot := by
            unfold first
            rw [if_neg (by rw [a1]; simp [Cls.regs, Cls.bytes])]
          have hw : (t.size + 7) / 8 = 1 := by rw [a2]; rfl
          rw [hfe, hw] at hN ⊢
          rw [hca]
          have hr : ¬ (named = true ∧ p.nf < 13) → 8 * p.slot + 8 ≤ 64 ∨ ps = true := fun hcon => .inr (hroom 0 (by decide) hcon)
          obtain ⟨h1, h2⟩ := put32_ok (m := m) (a := a) g h (.inr rfl) (by omega) (by omega) hr
          refine ⟨h1, ?_, ?_⟩
          · apply parts_passed a2
            intro j hj
            have hj0 : j = 0 := by have hj : j < 1 := hj; omega
            subst hj0
            exact cell_got (c := .f32) (by simp [Cls.bytes]) (by simp only [Cls.bytes]; omega) h2
          · exact cell_frame hhas (by simp [Cls.bytes]) (by simp only [Cls.bytes]; omega) h2 rfl (fun hcon => .inr ⟨hroom 0 (by decide) hcon, by simp only [Cls.bytes]; omega⟩)
        · -- double
          have hca : callArg F ld named t a s m = put64 F named a s m := by
            obtain ⟨z, al, tc, es⟩ := t
            simp only [FType.tc_mk] at hcc
            cases tc <;> cases ld <;> simp [cls] at hcc <;> rfl
          have hfe : first ld t p.slot = p.slot := by
            unfold first
            rw [if_neg (by rw [a1]; simp [Cls.regs, Cls.bytes])]
          have hw : (t.size + 7) / 8 = 1 := by rw [a2]; rfl
          rw [hfe, hw] at hN ⊢
          rw [hca]
          have hr : ¬ (named = true ∧ p.nf < 13) → 8 * p.slot + 8 ≤ 64 ∨ ps = true := fun hcon => .inr (hroom 0 (by decide) hcon)
          obtain ⟨h1, h2⟩ := put64_ok (m := m) (a := a) g h .f64 (.inl rfl) (by omega) (by omega) hr
          refine ⟨h1, ?_, ?_⟩
          · apply parts_passed a2
            intro j hj
            have hj0 : j = 0 := by have hj : j < 1 := hj; omega
            subst hj0
            exact cell_got (c := .f64) (by simp [Cls.bytes]) (by simp only [Cls.bytes]; omega) h2
          · exact cell_frame hhas (by simp [Cls.bytes]) (by simp only [Cls.bytes]; omega) h2 rfl (fun hcon => .inr ⟨hroom 0 (by decide) hcon, by simp only [Cls.bytes]; omega⟩)
        · -- a pair of doubles
          have hl := hoc.1 rfl
          subst hl
          have hca : callArg F .ibm named t a s m = putParts F named (kOf .ibm) 2 a s m := by
            obtain ⟨z, al, tc, es⟩ := t
            simp only [FType.tc_mk] at hcc
            cases tc <;> simp [cls] at hcc <;> rfl
          have hfe : first .ibm t p.slot = p.slot := by
            unfold first
            rw [if_neg (by simp [hs])]
          have hw : (t.size + 7) / 8 = 2 := by rw [a2]; rfl
          rw [hfe, hw] at hN ⊢
          rw [hca]
          obtain ⟨h1, h2, h3⟩ := putParts_ok (named := named) g .ibm hhas 2 _ _ _ _ a m h (by simp only [Cls.bytes]; omega) (by simp only [Cls.bytes]; omega)
            (fun j hj hcon => .inr (hroom j hj hcon)) (by rw [← show t.size = Cls.bytes .ibm * 2 from a2]; exact ha)
          exact ⟨h1, parts_passed a2 h2, h3⟩
        · -- binary128
          have hl := hoc.2 rfl
          subst hl
          have hca : callArg F .ieee named t a s m = put128 F named a { s with na := F.bump (roundUp s.na 16) } m := by
            obtain ⟨z, al, tc, es⟩ := t
            simp only [FType.tc_mk] at hcc
            cases tc <;> simp [cls] at hcc <;> rfl
          have hfe : first .ieee t p.slot = even p.slot := by
            unfold first
            rw [if_pos ⟨a1, .inr rfl⟩]
          have hw : (t.size + 7) / 8 = 2 := by rw [a2]; rfl
          rw [hfe, hw] at hN ⊢
          rw [hca]
          have hev := even_cases p.slot
          have hm : Mid F ps named { s with na := F.bump (roundUp s.na 16) } (8 * even p.slot) p.nf p.nv := by
            refine ⟨fun hcon => ?_, h.fc, h.vc, h.fb, h.vb⟩
            dsimp only
            rw [h.na (hcon.imp_left (fun h => by omega)), bump_round g (by omega) hcon]
          obtain ⟨h1, h2⟩ := put128_ok (m := m) (a := a) g hm (by omega) (by omega) (fun hcon => .inr (hroom 0 (by decide) hcon))
          refine ⟨h1, ?_, ?_⟩
          · apply parts_passed a2
            intro j hj
            have hj0 : j = 0 := by have hj : j < 1 := hj; omega
            subst hj0
            exact cell_got (c := .v128) (by simp [Cls.bytes]) (by simp only [Cls.bytes]; omega) h2
          · intro x hx
            exact cell_frame hhas (by simp [Cls.bytes]) (by simp only [Cls.bytes]; omega) h2 rfl
              (fun hcon => .inr ⟨hroom 0 (by decide) hcon, by simp only [Cls.bytes]; omega⟩) x (fun hl => hx (hl.mono (by omega) (Nat.le_refl _) (Nat.le_refl _)))

end Verif.Ppc
