import Verif.RiscV.Flat

/-! The decisions of `marshal`, `unmarshal` and `passed_by_ref` against the standard. -/
namespace Verif.RV
open Verif Verif.Spec Verif.Spec.RV

/-- The convention a configuration is for. -/
def abi (c : Cfg) : Abi := ⟨c.w, c.fl⟩

theorem isInt_eq {c : Cfg} (hc : (abi c).Ok) (tc : TC) : isInt c tc = (abi c).integer tc := by
  have hw : c.w = 4 ∨ c.w = 8 := hc.1
  obtain ⟨w, fl, nx⟩ := c
  dsimp only at hw
  rcases hw with rfl | rfl <;> cases tc <;> rfl

theorem isFloat_eq {c : Cfg} (hc : (abi c).Ok) (tc : TC) : isFloat c tc = (abi c).real tc := by
  have hf : c.fl = 0 ∨ c.fl = 4 ∨ c.fl = 8 := hc.2
  obtain ⟨w, fl, nx⟩ := c
  dsimp only at hf
  rcases hf with rfl | rfl | rfl <;> cases tc <;> rfl

/-- Place of an atom: a real in the next floating-point register. -/
def atomLoc (A : Abi) (tc : TC) (p : Pos) : Loc × Pos :=
  if A.real tc then (.fa p.nf, { p with nf := p.nf + 1 }) else word A p

theorem real_not_int {A : Abi} {tc : TC} (h : A.real tc = true) : A.integer tc = false := by
  cases tc <;> simp_all [Abi.real, Abi.integer]

/-- How an argument is treated. -/
inductive Class (c : Cfg) (t : FType) (var : Bool) (p : Pos) (st : St) : Prop
  | one (s a : Nat) (tc : TC) (hv : var = false) (ht : tab c.w tc = some (s, a)) (hs : t.size = s) (ha : t.align = a)
      (hl : ∀ o, leaves t o = [⟨o, s, tc⟩]) (hr : (abi c).real tc = true) (hn : p.nf < 8)
      (hp : placeArg (abi c) var t p =
        (.direct [⟨0, s, (atomLoc (abi c) tc p).1⟩], (atomLoc (abi c) tc p).2))
      (hf : fsiOf c t var st = some ⟨tc, 0, .void⟩ ∨ fsiOf c t var st = none ∧ t.tc = tc)
  | two (s a s' a' : Nat) (tc tc' : TC) (hv : var = false) (ht : tab c.w tc = some (s, a))
      (ht' : tab c.w tc' = some (s', a'))
      (hl : ∀ o, leaves t o = [⟨o, s, tc⟩, ⟨o + roundUp s a', s', tc'⟩])
      (h1 : (abi c).real tc = true ∧ p.nf < 8 ∨ (abi c).integer tc = true ∧ p.ni < 8)
      (h2 : (abi c).real tc' = true ∧ (atomLoc (abi c) tc p).2.nf < 8 ∨
        (abi c).integer tc' = true ∧ (atomLoc (abi c) tc p).2.ni < 8)
      (hp : placeArg (abi c) var t p =
        (.direct [⟨0, s, (atomLoc (abi c) tc p).1⟩, ⟨roundUp s a', s', (atomLoc (abi c) tc' (atomLoc (abi c) tc p).2).1⟩],
          (atomLoc (abi c) tc' (atomLoc (abi c) tc p).2).2))
      (hf : fsiOf c t var st = some ⟨tc, roundUp s a', tc'⟩)
  | int (hp : placeArg (abi c) var t p = intConv (abi c) var t p) (hf : fsiOf c t var st = none)
      (hn : (!var && decide (st.uf < 8) && isFloat c t.tc) = false)

theorem take3 {α} {l : List α} : (∀ x y, l.take 3 = [x, y] → l = [x, y]) ∧ (∀ x, l.take 3 = [x] → l = [x]) := by
  constructor <;> intros <;> rename_i h
  all_goals
    have hl := congrArg List.length h
    rw [List.length_take] at hl
    rw [List.take_of_length_le (by simp at hl; omega)] at h
    exact h

theorem tab_small {w : Nat} (hw : w = 4 ∨ w = 8) {tc : TC} {s a : Nat} (h : tab w tc = some (s, a)) :
    s ≤ 16 ∧ (a = 1 ∨ a = 2 ∨ a = 4 ∨ a = 8 ∨ a = 16) ∧ 0 < s ∧ a ∣ s := by
  have := tab_ok hw _ _ _ h
  exact ⟨this.2.2.2.1, this.1, this.2.1, this.2.2.1⟩

theorem align_small {v a : Nat} (ha : a = 1 ∨ a = 2 ∨ a = 4 ∨ a = 8 ∨ a = 16) (hv : v < 2 ^ 63) :
    ffiAlign v a = roundUp v a := by
  rcases ha with rfl | rfl | rfl | rfl | rfl
  · exact ffiAlign_eq_roundUp (k := 0) (by omega)
  · exact ffiAlign_eq_roundUp (k := 1) (by omega)
  · exact ffiAlign_eq_roundUp (k := 2) (by omega)
  · exact ffiAlign_eq_roundUp (k := 3) (by omega)
  · exact ffiAlign_eq_roundUp (k := 4) (by omega)

theorem classify {c : Cfg} (hc : (abi c).Ok) {t : FType} (h : Plain (tab c.w) t) {var : Bool} {p : Pos} {st : St}
    (hu : st.ui = p.ni) (hf : st.uf = p.nf) (hni : p.ni ≤ 8) (hok : SingleOk (abi c) var t p) :
    Class c t var p st := by
  have hw : c.w = 4 ∨ c.w = 8 := hc.1
  have htab := tab_ok hw
  cases var with
  | true => exact .int (by unfold placeArg; rw [if_pos rfl]) rfl rfl
  | false =>
    have hflz : c.fl = 0 → ∀ tc, (abi c).real tc = false := by
      intro h0 tc; unfold Abi.real abi; rw [h0]; cases tc <;> rfl
    have hfl := flatten_eq htab h [] (by simp)
    rw [List.nil_append] at hfl
    have hlen := leaves_length htab h 0
    -- the number of scalars
    rcases hsc : scal t with _ | ⟨s1, _ | ⟨s2, _ | ⟨s3, r⟩⟩⟩
    · exact absurd hsc (scal_ne htab h)
    · -- one scalar
      obtain ⟨ht1, hsz, hal, hlv⟩ := one_scal htab h hsc
      rw [hsc] at hfl
      have hfl : flatten t [] = [s1] := hfl
      by_cases hr : (abi c).real s1.tc = true ∧ p.nf < 8
      · obtain ⟨hr, hn⟩ := hr
        refine .one _ _ s1.tc rfl ht1 hsz hal hlv hr hn ?_ ?_
        · unfold placeArg atomLoc
          rw [if_neg (by decide), hlv, if_pos hr]
          dsimp only
          rw [if_pos ⟨hr, hn⟩]
        · have h0 : c.fl ≠ 0 := fun h0 => by rw [hflz h0] at hr; cases hr
          by_cases hst : t.tc = .struct
          · left
            unfold fsiOf asElements
            rw [hst, hfl]
            simp only [Bool.not_false, Bool.true_and, beq_self_eq_true, bne_iff_ne, ne_eq, h0, not_false_eq_true,
              if_true, isFloat_eq hc, hr]
          · right
            constructor
            · unfold fsiOf
              rw [if_neg (by simp [hst])]
            · cases h with
              | scalar h' =>
                rw [scal, if_neg (htab _ _ _ h').2.2.2.2.1] at hsc
                cases hsc; rfl
              | struct => exact absurd rfl hst
      · -- integer convention
        have hp : placeArg (abi c) false t p = intConv (abi c) false t p := by
          unfold placeArg
          rw [if_neg (by decide), hlv]
          dsimp only
          rw [if_neg hr]
        by_cases hreal : (abi c).real s1.tc = true
        · have hn : ¬ p.nf < 8 := fun hn => hr ⟨hreal, hn⟩
          have hst : t.tc ≠ .struct := fun hst => hn (hok rfl hst _ (hlv 0) hreal)
          refine .int hp ?_ ?_
          · unfold fsiOf
            rw [if_neg (by simp [hst])]
          · rw [hf]; simp [hn]
        · have hreal : (abi c).real s1.tc = false := by simpa using hreal
          refine .int hp ?_ ?_
          · unfold fsiOf
            split
            · unfold asElements
              rw [hfl]
              dsimp only
              rw [isFloat_eq hc, hreal]
              rfl
            · rfl
          · have : isFloat c t.tc = false := by
              rw [isFloat_eq hc]
              cases h with
              | scalar h' =>
                rw [scal, if_neg (htab _ _ _ h').2.2.2.2.1] at hsc
                cases hsc; exact hreal
              | struct => rfl
            rw [this, Bool.and_false]
    · -- two scalars
      obtain ⟨ht1, ht2, hst, hlv⟩ := two_scal htab h hsc
      rw [hsc] at hfl
      have hfl : flatten t [] = [s1, s2] := hfl
      have hfloat : (!false && decide (st.uf < 8) && isFloat c t.tc) = false := by
        rw [hst]; simp [isFloat]
      have hoff : ffiAlign s1.size s2.align = roundUp s1.size s2.align :=
        align_small (tab_small hw ht2).2.1 (by have := (tab_small hw ht1).1; omega)
      have hfsi : ∀ (b : Bool), (decide (c.fl ≠ 0)) = b → fsiOf c t false st = if b then asElements c st.ui st.uf t else none := by
        intro b hb
        unfold fsiOf
        rw [hst, ← hb]
        simp only [Bool.not_false, beq_self_eq_true, Bool.and_self, Bool.true_and, bne_iff_ne, decide_eq_true_eq]
      have has : asElements c st.ui st.uf t =
          if ((abi c).real s1.tc).toNat + ((abi c).real s2.tc).toNat = 0 ∨
            ((abi c).real s1.tc).toNat + ((abi c).real s2.tc).toNat + (((abi c).integer s1.tc).toNat +
              ((abi c).integer s2.tc).toNat) ≠ 2 then none
          else if 8 < p.nf + (((abi c).real s1.tc).toNat + ((abi c).real s2.tc).toNat) ∨
            8 < p.ni + (2 - (((abi c).real s1.tc).toNat + ((abi c).real s2.tc).toNat)) then none
          else some ⟨s1.tc, roundUp s1.size s2.align, s2.tc⟩ := by
        unfold asElements
        rw [hfl]
        simp only [isFloat_eq hc, isInt_eq hc, hoff, hu, hf]
      have hplace : placeArg (abi c) false t p =
          if (abi c).real s1.tc = true ∧ (abi c).real s2.tc = true ∧ p.nf + 1 < 8 then
            (.direct [⟨0, s1.size, .fa p.nf⟩, ⟨roundUp s1.size s2.align, s2.size, .fa (p.nf + 1)⟩], { p with nf := p.nf + 2 })
          else if (abi c).real s1.tc = true ∧ (abi c).integer s2.tc = true ∧ p.nf < 8 ∧ p.ni < 8 then
            (.direct [⟨0, s1.size, .fa p.nf⟩, ⟨roundUp s1.size s2.align, s2.size, .a p.ni⟩],
              { p with nf := p.nf + 1, ni := p.ni + 1 })
          else if (abi c).integer s1.tc = true ∧ (abi c).real s2.tc = true ∧ p.nf < 8 ∧ p.ni < 8 then
            (.direct [⟨0, s1.size, .a p.ni⟩, ⟨roundUp s1.size s2.align, s2.size, .fa p.nf⟩],
              { p with nf := p.nf + 1, ni := p.ni + 1 })
          else intConv (abi c) false t p := by
        unfold placeArg
        rw [if_neg (by decide), hlv]
        simp only [Nat.zero_add]
      have hri1 := @real_not_int (abi c) s1.tc
      have hri2 := @real_not_int (abi c) s2.tc
      have hz : ∀ tc, (abi c).real tc = true → decide (c.fl ≠ 0) = true := by
        intro tc htc
        rw [decide_eq_true_eq]
        intro h0; rw [hflz h0] at htc; cases htc
      by_cases k1 : (abi c).real s1.tc = true
      · by_cases k2 : (abi c).real s2.tc = true
        · have hfs := hfsi _ (hz _ k1)
          rw [if_pos rfl, has, k1, k2, hri1 k1, hri2 k2] at hfs
          rw [k1, k2, hri1 k1, hri2 k2] at hplace
          by_cases hroom : p.nf + 1 < 8
          · rw [if_neg (by decide), if_neg (by simp; omega)] at hfs
            rw [if_pos ⟨rfl, rfl, hroom⟩] at hplace
            refine .two _ _ _ _ _ _ rfl ht1 ht2 hlv (.inl ⟨k1, by omega⟩) (.inl ⟨k2, ?_⟩) ?_ hfs
            · unfold atomLoc; rw [if_pos k1]; exact hroom
            · rw [hplace]; unfold atomLoc; rw [if_pos k1, if_pos k2]
          · rw [if_neg (by decide), if_pos (by simp; omega)] at hfs
            rw [if_neg (by simp; omega), if_neg (by simp), if_neg (by simp)] at hplace
            exact .int hplace hfs hfloat
        · have k2 : (abi c).real s2.tc = false := by simpa using k2
          have hfs := hfsi _ (hz _ k1)
          rw [if_pos rfl, has, k1, k2, hri1 k1] at hfs
          rw [k1, k2, hri1 k1] at hplace
          by_cases i2 : (abi c).integer s2.tc = true
          · rw [i2] at hfs hplace
            by_cases hroom : p.nf < 8 ∧ p.ni < 8
            · rw [if_neg (by decide), if_neg (by simp; omega)] at hfs
              rw [if_neg (by simp), if_pos ⟨rfl, rfl, hroom⟩] at hplace
              refine .two _ _ _ _ _ _ rfl ht1 ht2 hlv (.inl ⟨k1, hroom.1⟩) (.inr ⟨i2, ?_⟩) ?_ hfs
              · unfold atomLoc; rw [if_pos k1]; exact hroom.2
              · rw [hplace]; unfold atomLoc word
                rw [if_pos k1, if_neg (by simp [k2])]
                dsimp only
                rw [if_pos hroom.2]
            · rw [if_neg (by decide), if_pos (by simp; omega)] at hfs
              rw [if_neg (by simp), if_neg (by simp; omega), if_neg (by simp)] at hplace
              exact .int hplace hfs hfloat
          · have i2 : (abi c).integer s2.tc = false := by simpa using i2
            rw [i2] at hfs hplace
            rw [if_pos (by simp)] at hfs
            rw [if_neg (by simp), if_neg (by simp), if_neg (by simp)] at hplace
            exact .int hplace hfs hfloat
      · have k1 : (abi c).real s1.tc = false := by simpa using k1
        by_cases k2 : (abi c).real s2.tc = true
        · have hfs := hfsi _ (hz _ k2)
          rw [if_pos rfl, has, k1, k2, hri2 k2] at hfs
          rw [k1, k2, hri2 k2] at hplace
          by_cases i1 : (abi c).integer s1.tc = true
          · rw [i1] at hfs hplace
            by_cases hroom : p.nf < 8 ∧ p.ni < 8
            · rw [if_neg (by decide), if_neg (by simp; omega)] at hfs
              rw [if_neg (by simp), if_neg (by simp), if_pos ⟨rfl, rfl, hroom⟩] at hplace
              have hw1 : atomLoc (abi c) s1.tc p = (.a p.ni, { p with ni := p.ni + 1 }) := by
                unfold atomLoc word
                rw [if_neg (by simp [k1]), if_pos hroom.2]
              refine .two _ _ _ _ _ _ rfl ht1 ht2 hlv (.inr ⟨i1, hroom.2⟩) (.inl ⟨k2, ?_⟩) ?_ hfs
              · rw [hw1]; exact hroom.1
              · rw [hplace, hw1]; unfold atomLoc
                rw [if_pos k2]
            · rw [if_neg (by decide), if_pos (by simp; omega)] at hfs
              rw [if_neg (by simp), if_neg (by simp), if_neg (by simp; omega)] at hplace
              exact .int hplace hfs hfloat
          · have i1 : (abi c).integer s1.tc = false := by simpa using i1
            rw [i1] at hfs hplace
            rw [if_pos (by simp)] at hfs
            rw [if_neg (by simp), if_neg (by simp), if_neg (by simp)] at hplace
            exact .int hplace hfs hfloat
        · have k2 : (abi c).real s2.tc = false := by simpa using k2
          rw [k1, k2] at hplace
          rw [if_neg (by simp), if_neg (by simp), if_neg (by simp)] at hplace
          refine .int hplace ?_ hfloat
          rw [hfsi _ rfl]
          split
          · rw [has, k1, k2, if_pos (by simp)]
          · rfl
    · -- three or more
      rw [hsc] at hlen hfl
      have h3 : flatten t [] = [s1, s2, s3] := by rw [hfl]; simp [List.take_succ_cons]
      refine .int ?_ ?_ ?_
      · unfold placeArg
        rw [if_neg (by decide)]
        rcases hlv : leaves t 0 with _ | ⟨l1, _ | ⟨l2, _ | ⟨l3, r⟩⟩⟩
        · rfl
        · rw [hlv] at hlen; simp at hlen
        · rw [hlv] at hlen; simp at hlen
        · rfl
      · unfold fsiOf
        split
        · unfold asElements
          rw [h3]
        · rfl
      · have hst : t.tc = .struct := by
          cases h with
          | scalar h' => rw [scal, if_neg (htab _ _ _ h').2.2.2.2.1] at hsc; cases hsc
          | struct => rfl
        rw [hst]; simp [isFloat]

end Verif.RV
