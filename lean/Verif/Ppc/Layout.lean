import Verif.Ppc.Model
import Verif.AArch64.Hfa

/-! How types are passed: the code's decisions are those of the convention. -/
namespace Verif.Ppc
open Verif Verif.Spec Verif.Spec.Ppc
open Verif.A64 (tcs tcs_scalar tcs_struct tcs_ne_nil)

theorem tab_ok (ld : LD) : TabOk (tab ld) := by
  intro tc s a h
  cases ld <;> cases tc <;> simp [tab] at h <;> obtain ⟨rfl, rfl⟩ := h <;> decide

theorem plainL_elems {es : List FType} (h : plainL es = true) : ∀ e ∈ es, plain e = true := by
  induction es with
  | nil => intro e he; cases he
  | cons x xs ih =>
    simp only [plainL, Bool.and_eq_true] at h
    intro e he
    rcases List.mem_cons.1 he with rfl | he
    · exact h.1
    · exact ih h.2 e he

/-- Induction on types that have no complex parts. -/
theorem ty_rec' {ld : LD} {P : FType → Prop} (hs : ∀ tc s a, tab ld tc = some (s, a) → P (.mk s a tc []))
    (ht : ∀ es s a offs, (∀ e ∈ es, Ty ld e) → (∀ e ∈ es, P e) → StructLayout (es.map fun e => (e.size, e.align)) offs s a →
      P (.mk s a .struct es)) {t : FType} (h : Ty ld t) : P t := by
  obtain ⟨hw, hp⟩ := h
  induction hw with
  | scalar h => exact hs _ _ _ h
  | complex _ _ => simp [plain] at hp
  | @struct es s a offs hwf hl ih =>
    have hpe : ∀ e ∈ es, plain e = true := by
      simp only [plain, Bool.and_eq_true] at hp
      exact plainL_elems hp.2
    exact ht es s a offs (fun e he => ⟨hwf e he, hpe e he⟩) (fun e he => ih e he (hpe e he)) hl

theorem homog_eq (ld : LD) (t : FType) : homog ld t =
    match (tcs t).map (cls ld) with
    | some c :: cs => if cs.all (· == some c) ∧ c.regs * (cs.length + 1) ≤ 8 then some (c, c.regs * (cs.length + 1)) else none
    | _ => none := by
  unfold homog tcs
  rw [List.map_map]
  rfl

/-- Runs over the classes of the numbers as the code does. -/
def scan : List (Option Cls) → Option Cls → Nat → Option (Option Cls × Nat)
  | [], b, n => some (b, n)
  | none :: _, _, _ => none
  | some c :: cs, b, n => if b ≠ none ∧ b ≠ some c then none else if n + c.regs > 8 then none else scan cs (some c) (n + c.regs)

theorem scan_append (xs ys : List (Option Cls)) : ∀ b n, scan (xs ++ ys) b n = (scan xs b n).bind fun r => scan ys r.1 r.2 := by
  induction xs with
  | nil => intro b n; rfl
  | cons x xs ih =>
    intro b n
    cases x with
    | none => rfl
    | some c =>
      simp only [List.cons_append, scan]
      split
      · rfl
      · split
        · rfl
        · exact ih _ _

/-- All of one class. -/
theorem scan_some (c : Cls) : ∀ (cs : List (Option Cls)) n, n ≤ 8 → scan cs (some c) n =
    if cs.all (· == some c) ∧ n + c.regs * cs.length ≤ 8 then some (some c, n + c.regs * cs.length) else none := by
  intro cs
  induction cs with
  | nil => intro n hn; simp [scan, hn]
  | cons x xs ih =>
    intro n hn
    cases x with
    | none => rw [scan, if_neg (by simp)]
    | some d =>
      by_cases hd : d = c
      · subst hd
        rw [scan, if_neg (by simp)]
        by_cases h8 : n + d.regs > 8
        · rw [if_pos h8, if_neg]
          rintro ⟨_, h2⟩
          rw [List.length_cons, Nat.mul_succ] at h2
          omega
        · rw [if_neg h8, ih _ (by omega)]
          have e : n + d.regs + d.regs * xs.length = n + d.regs * (some d :: xs).length := by rw [List.length_cons, Nat.mul_succ]; omega
          rw [e]
          simp
      · rw [scan, if_pos ⟨by simp, by simp; exact fun h => hd h.symm⟩, if_neg]
        simp [hd]

theorem scan_none (ld : LD) {t : FType} (hne : tcs t ≠ []) : scan ((tcs t).map (cls ld)) none 0 = (homog ld t).map fun p => (some p.1, p.2) := by
  rw [homog_eq]
  obtain ⟨k, ks, hk⟩ := List.exists_cons_of_ne_nil hne
  rw [hk, List.map_cons]
  cases hc : cls ld k with
  | none => rfl
  | some c =>
    have h2 : c.regs ≤ 2 := by cases c <;> decide
    simp only [scan]
    rw [if_neg (by simp), if_neg (by omega), scan_some c _ _ (by omega)]
    have e : 0 + c.regs + c.regs * (ks.map (cls ld)).length = c.regs * ((ks.map (cls ld)).length + 1) := by rw [Nat.mul_succ]; omega
    rw [e]
    split <;> rfl

/-- The code's names for the classes. -/
def elt : Cls → TC
  | .f32 => .float
  | .f64 => .double
  | .ibm | .v128 => .longdouble

/-- Classes that occur. -/
def Occurs (ld : LD) (c : Cls) : Prop := (c = .ibm → ld = .ibm) ∧ (c = .v128 → ld = .ieee)

theorem elt_inj {ld : LD} {c d : Cls} (hc : Occurs ld c) (hd : Occurs ld d) (h : elt c = elt d) : c = d := by
  obtain ⟨h1, h2⟩ := hc
  obtain ⟨h3, h4⟩ := hd
  cases c <;> cases d <;> simp_all [elt]

theorem occurs_cls {ld : LD} {k : TC} {c : Cls} (h : cls ld k = some c) : Occurs ld c := by
  cases k <;> cases ld <;> simp [cls] at h <;> subst h <;> exact ⟨by simp, by simp⟩

theorem homog_occurs {ld : LD} {t : FType} {c : Cls} {n : Nat} (h : homog ld t = some (c, n)) : Occurs ld c := by
  rw [homog_eq] at h
  cases hk : tcs t with
  | nil => rw [hk] at h; cases h
  | cons k ks =>
    rw [hk, List.map_cons] at h
    cases hc : cls ld k with
    | none => rw [hc] at h; cases h
    | some d =>
      rw [hc] at h
      dsimp only at h
      split at h
      · cases h; exact occurs_cls hc
      · cases h

theorem homog_scalar {ld : LD} {tc : TC} {s a : Nat} (h : tab ld tc = some (s, a)) :
    homog ld (.mk s a tc []) = (cls ld tc).map fun c => (c, c.regs) := by
  rw [homog_eq, tcs_scalar (tab_ok ld) h, List.map_cons, List.map_nil]
  cases hc : cls ld tc with
  | none => rfl
  | some c => cases c <;> rfl

/-- `discover_homogeneous_aggregate` finds the types that the convention calls homogeneous. -/
theorem discover_eq {ld : LD} {t : FType} (h : Ty ld t) : discover ld t = (homog ld t).map fun p => (elt p.1, p.2) := by
  refine ty_rec' (P := fun t => discover ld t = (homog ld t).map fun p => (elt p.1, p.2)) ?_ ?_ h
  · intro tc s a ht
    rw [homog_scalar ht]
    cases tc <;> cases ld <;> simp [tab] at ht <;> rfl
  · intro es s a offs hty ih hl
    rw [discover]
    have key : ∀ (es : List FType), (∀ e ∈ es, Ty ld e) → (∀ e ∈ es, discover ld e = (homog ld e).map fun p => (elt p.1, p.2)) →
        ∀ (b : Option Cls) n, n ≤ 8 → (∀ c, b = some c → Occurs ld c) → discoverL ld es (b.map elt) n =
          (scan ((es.flatMap tcs).map (cls ld)) b n).bind fun r => r.1.map fun c => (elt c, r.2) := by
      intro es
      induction es with
      | nil => intro _ _ b n hn _; cases b <;> rfl
      | cons e es ih2 =>
        intro hty ih b n hn hb
        have hne := tcs_ne_nil (tab_ok ld) (hty e (by simp)).1
        rw [discoverL, ih e (by simp), List.flatMap_cons, List.map_append, scan_append]
        obtain ⟨k, ks, hk⟩ := List.exists_cons_of_ne_nil hne
        cases hh : homog ld e with
        | none =>
          have hsc : scan ((tcs e).map (cls ld)) b n = none := by
            have h0 := scan_none ld hne
            rw [hh] at h0
            rw [hk, List.map_cons] at h0 ⊢
            cases hc : cls ld k with
            | none => rfl
            | some c =>
              have h2 : c.regs ≤ 2 := by cases c <;> decide
              rw [hc] at h0
              simp only [scan] at h0 ⊢
              rw [if_neg (by simp), if_neg (by omega), scan_some c _ _ (by omega)] at h0
              split
              · rfl
              · split
                · rfl
                · rw [scan_some c _ _ (by omega)]
                  split at h0
                  · cases h0
                  · rename_i hneg
                    rw [if_neg]
                    rintro ⟨g1, g2⟩
                    exact hneg ⟨g1, by omega⟩
          rw [hsc]
          rfl
        | some p =>
          obtain ⟨c, m⟩ := p
          have hoc := homog_occurs hh
          have h0 := scan_none ld hne
          rw [hh] at h0
          have hsc : scan ((tcs e).map (cls ld)) b n = if b ≠ none ∧ b ≠ some c then none else if n + m > 8 then none else some (some c, n + m) := by
            rw [hk, List.map_cons] at h0 ⊢
            cases hc : cls ld k with
            | none => rw [hc] at h0; cases h0
            | some d =>
              have h2 : d.regs ≤ 2 := by cases d <;> decide
              rw [hc] at h0
              simp only [scan] at h0 ⊢
              rw [if_neg (by simp), if_neg (by omega), scan_some d _ _ (by omega)] at h0
              split at h0
              · rename_i hpos
                simp only [Option.map_some, Option.some.injEq, Prod.mk.injEq] at h0
                obtain ⟨rfl, rfl⟩ := h0
                by_cases hb' : b ≠ none ∧ b ≠ some d
                · rw [if_pos hb', if_pos hb']
                · rw [if_neg hb', if_neg hb']
                  by_cases h8 : n + d.regs > 8
                  · rw [if_pos h8, if_pos (by omega)]
                  · rw [if_neg h8, scan_some d _ _ (by omega)]
                    by_cases h9 : n + (0 + d.regs + d.regs * (List.map (cls ld) ks).length) > 8
                    · rw [if_pos h9, if_neg]
                      rintro ⟨_, g2⟩
                      omega
                    · rw [if_neg h9, if_pos ⟨hpos.1, by omega⟩]
                      rw [show n + d.regs + d.regs * (List.map (cls ld) ks).length = n + (0 + d.regs + d.regs * (List.map (cls ld) ks).length) by omega]
              · cases h0
          rw [hsc]
          dsimp only [Option.map_some]
          have hcond : (b.map elt ≠ none ∧ b.map elt ≠ some (elt c)) ↔ (b ≠ none ∧ b ≠ some c) := by
            cases b with
            | none => simp
            | some d =>
              simp only [Option.map_some, ne_eq, Option.some.injEq, reduceCtorEq, not_false_eq_true, true_and]
              exact ⟨fun h1 h2 => h1 (by rw [h2]), fun h1 h2 => h1 (elt_inj (hb d rfl) hoc h2)⟩
          by_cases hb' : b ≠ none ∧ b ≠ some c
          · rw [if_pos (hcond.2 hb'), if_pos hb']; rfl
          · rw [if_neg (fun h => hb' (hcond.1 h)), if_neg hb']
            by_cases h8 : n + m > 8
            · rw [if_pos h8, if_pos h8]; rfl
            · rw [if_neg h8, if_neg h8]
              have := ih2 (fun x hx => hty x (by simp [hx])) (fun x hx => ih x (by simp [hx])) (some c) (n + m) (by omega)
                (by intro d hd; cases hd; exact hoc)
              rw [Option.map_some] at this
              rw [this]
              rfl
    have := key es hty ih none 0 (by omega) (by intro c hc; cases hc)
    rw [Option.map_none] at this
    rw [this]
    have hw : WF (tab ld) (.mk s a .struct es) := .struct (fun e he => (hty e he).1) hl
    have h0 := scan_none ld (tcs_ne_nil (tab_ok ld) hw)
    rw [tcs_struct] at h0
    rw [h0]
    cases homog ld (.mk s a .struct es) <;> rfl

/-- Numbers of one class: no padding. -/
theorem cls_size {ld : LD} {c : Cls} {t : FType} (h : Ty ld t) (hall : ∀ k ∈ tcs t, cls ld k = some c) :
    t.align = c.regs * c.bytes ∧ t.size = (tcs t).length * (c.regs * c.bytes) := by
  revert hall
  refine ty_rec' (P := fun t => (∀ k ∈ tcs t, cls ld k = some c) → t.align = c.regs * c.bytes ∧ t.size = (tcs t).length * (c.regs * c.bytes)) ?_ ?_ h
  · intro tc s a ht hall
    rw [tcs_scalar (tab_ok ld) ht] at hall ⊢
    have := hall tc (by simp)
    cases tc <;> cases ld <;> simp [cls] at this <;> subst this <;> simp [tab] at ht <;> obtain ⟨rfl, rfl⟩ := ht <;> decide
  · intro es s a offs hty ih hl hall
    rw [tcs_struct] at hall ⊢
    generalize hz : c.regs * c.bytes = z at ih ⊢
    have hzp : 0 < z := by rw [← hz]; cases c <;> decide
    have hm : ∀ e ∈ es, e.align = z ∧ e.size = (tcs e).length * z := fun e he =>
      ih e he (fun c hc => hall c (List.mem_flatMap.2 ⟨e, he, hc⟩))
    obtain ⟨e', hp, hmax, hlm⟩ := hl
    have ha : a = z := by
      obtain ⟨m, hm1, hm2⟩ := hmax.1
      obtain ⟨e, he, rfl⟩ := List.mem_map.1 hm1
      rw [← hm2]; exact (hm e he).1
    subst ha
    have hend : ∀ (es : List FType) (cur offs e'), (∀ e ∈ es, e.align = a ∧ e.size = (tcs e).length * a) →
        a ∣ cur → Placed cur (es.map fun e => (e.size, e.align)) offs e' →
        e' = cur + (es.flatMap tcs).length * a := by
      intro es
      induction es with
      | nil => intro cur offs e' _ _ hp; cases hp; simp
      | cons e es ih2 =>
        intro cur offs e' hm hd hp
        cases hp with
        | @cons _ o _ _ _ os _ h1 h2 =>
          obtain ⟨he1, he2⟩ := hm e (by simp)
          rw [he1] at h1
          have ho : o = cur := by rw [h1.eq_roundUp hzp, roundUp_of_dvd hzp hd]
          subst ho
          rw [he2] at h2
          have := ih2 _ _ _ (fun x hx => hm x (by simp [hx])) (Nat.dvd_add hd (Nat.dvd_mul_left _ _)) h2
          rw [this, List.flatMap_cons, List.length_append]
          ring
    have he := hend es 0 offs e' hm (Nat.dvd_zero _) hp
    rw [Nat.zero_add] at he
    refine ⟨rfl, ?_⟩
    rw [FType.size_mk, hlm.eq_roundUp hzp, he, roundUp_of_dvd hzp (Nat.dvd_mul_left _ _)]

/-- What is known of a homogeneous type. -/
theorem homog_size {ld : LD} {t : FType} {c : Cls} {n : Nat} (h : Ty ld t) (hh : homog ld t = some (c, n)) :
    t.align = c.regs * c.bytes ∧ t.size = c.bytes * n ∧ 1 ≤ n ∧ n ≤ 8 ∧ n % c.regs = 0 := by
  rw [homog_eq] at hh
  cases hk : tcs t with
  | nil => rw [hk] at hh; cases hh
  | cons k ks =>
    rw [hk, List.map_cons] at hh
    cases hc : cls ld k with
    | none => rw [hc] at hh; cases hh
    | some d =>
      rw [hc] at hh
      dsimp only at hh
      split at hh
      · rename_i hall
        simp only [Option.some.injEq, Prod.mk.injEq] at hh
        obtain ⟨rfl, rfl⟩ := hh
        have := cls_size (c := d) h (by
          rw [hk]
          intro x hx
          rcases List.mem_cons.1 hx with rfl | hx
          · exact hc
          · have := List.all_eq_true.1 hall.1 _ (List.mem_map_of_mem hx)
            simpa using this)
        obtain ⟨h1, h2⟩ := this
        have hp : 0 < d.regs := by cases d <;> decide
        rw [hk] at h2
        refine ⟨h1, ?_, ?_, hall.2, by simp⟩
        · rw [h2]; simp only [List.length_cons, List.length_map]; ring
        · exact Nat.mul_pos hp (by omega)
      · cases hh

/-- The types that are not structs. -/
theorem ty_scalar_or {ld : LD} {t : FType} (h : Ty ld t) : t.tc = .struct ∨ (tab ld t.tc = some (t.size, t.align) ∧ homog ld t = (cls ld t.tc).map fun c => (c, c.regs)) := by
  obtain ⟨hw, hp⟩ := h
  cases hw with
  | scalar h => exact .inr ⟨h, homog_scalar h⟩
  | complex _ _ => simp [plain] at hp
  | struct _ _ => exact .inl rfl

theorem ty_align {ld : LD} {t : FType} (h : Ty ld t) : t.align = 1 ∨ t.align = 2 ∨ t.align = 4 ∨ t.align = 8 ∨ t.align = 16 := h.1.align_cases (tab_ok ld)

theorem roundUp_two (n : Nat) : roundUp n 2 = even n := rfl

theorem prepAlign_eq {ld : LD} {t : FType} (h : Ty ld t) (hs : t.tc = .struct) (n : Nat) : prepAlign t n = first ld t n := by
  unfold prepAlign first
  dsimp only
  rcases ty_align h with e | e | e | e | e <;> rw [e]
  all_goals simp [hs]
  exact roundUp_two n

/-- Positions as the code counts them. -/
def posOf (n : Cnt) : Pos := ⟨n.int, n.fp, n.vec⟩

/-- The counters advance as the convention says. -/
theorem prepArg_pos {ld : LD} {t : FType} (h : Ty ld t) (named : Bool) (n : Cnt) : posOf (prepArg ld t n) = (placeArg ld named t (posOf n)).2 := by
  rcases ty_scalar_or h with hs | ⟨ht, hh⟩
  · unfold prepArg
    rw [hs]
    dsimp only
    unfold prepStruct placeArg
    rw [prepAlign_eq h hs, discover_eq h]
    dsimp only [posOf]
    cases hh : homog ld t with
    | none => rfl
    | some p =>
      obtain ⟨c, k⟩ := p
      have ho := homog_occurs hh
      cases c
      · simp [elt]
      · simp [elt]
      · have := ho.1 rfl
        subst this
        simp [elt]
      · have := ho.2 rfl
        subst this
        simp [elt]
  · obtain ⟨s, a, tc, es⟩ := t
    simp only [FType.tc_mk, FType.size_mk, FType.align_mk] at ht hh
    unfold placeArg
    rw [hh]
    cases tc <;> cases ld <;> simp [tab] at ht <;> obtain ⟨rfl, rfl⟩ := ht <;>
      simp [prepArg, cls, posOf, first, prepNum, Cls.regs, FType.tc, FType.align, FType.size] <;> (unfold even; omega)

theorem prepArg_ps {ld : LD} {t : FType} {n : Cnt} (h : (prepArg ld t n).ps = false) : n.ps = false := by
  unfold prepArg at h
  split at h
  · split at h <;> simp [prepNum] at h <;> exact h.1
  · simp [prepNum] at h; exact h.1
  · simp [prepNum] at h; exact h.1
  · unfold prepStruct at h
    dsimp only at h
    split at h
    · split at h <;> simp at h <;> exact h.1
    · simp at h; exact h.1
  · exact h
  · exact h
  · simp at h; exact h.1

theorem prepLoop_ps {ld : LD} (ts : List FType) : ∀ n, (prepLoop ld ts n).ps = false → n.ps = false := by
  induction ts with
  | nil => intro n h; exact h
  | cons t ts ih => intro n h; exact prepArg_ps (ih _ h)

/-- Without FLAG_ARG_NEEDS_PSAVE nothing is in memory. -/
def AllRegs (t : FType) : Place → Prop
  | .int s => s + 1 ≤ 8
  | .agg s => s + (t.size + 7) / 8 ≤ 8
  | .parts _ c n r _ => r + n ≤ c.count

theorem prepArg_regs {ld : LD} {t : FType} (h : Ty ld t) (named : Bool) (n : Cnt) (hp : (prepArg ld t n).ps = false) :
    AllRegs t (placeArg ld named t (posOf n)).1 := by
  rcases ty_scalar_or h with hs | ⟨ht, hh⟩
  · unfold prepArg at hp
    rw [hs] at hp
    dsimp only at hp
    unfold prepStruct at hp
    unfold placeArg
    rw [prepAlign_eq h hs, discover_eq h] at hp
    dsimp only [posOf]
    cases hh : homog ld t with
    | none =>
      rw [hh] at hp
      simp [numGpr] at hp
      simp [hs, AllRegs]
      exact hp.2
    | some p =>
      obtain ⟨c, k⟩ := p
      have ho := homog_occurs hh
      rw [hh] at hp
      cases c
      · simp [elt, numFpr] at hp; exact hp.2
      · simp [elt, numFpr] at hp; exact hp.2
      · have := ho.1 rfl
        subst this
        simp [elt, numFpr] at hp; exact hp.2
      · have := ho.2 rfl
        subst this
        simp [elt, numVec] at hp; exact hp.2
  · obtain ⟨s, a, tc, es⟩ := t
    simp only [FType.tc_mk, FType.size_mk, FType.align_mk] at ht hh
    unfold placeArg
    rw [hh]
    cases tc <;> cases ld <;> simp [tab] at ht <;> obtain ⟨rfl, rfl⟩ := ht <;>
      simp [prepArg, cls, posOf, first, prepNum, Cls.regs, FType.tc, FType.align, FType.size, AllRegs, numFpr, numVec, numGpr, Cls.count] at hp ⊢ <;>
      exact hp.2

theorem prepLoop_pos {ld : LD} {ts : List FType} (h : ∀ t ∈ ts, Ty ld t) : ∀ n, posOf (prepLoop ld ts n) = endFrom ld ts (posOf n) := by
  induction ts with
  | nil => intro n; rfl
  | cons t ts ih =>
    intro n
    rw [prepLoop, endFrom, ih (fun x hx => h x (by simp [hx])), prepArg_pos (h t (by simp)) true]

theorem placeArg_pos (ld : LD) (t : FType) (p : Pos) (a b : Bool) : (placeArg ld a t p).2 = (placeArg ld b t p).2 := by
  unfold placeArg
  dsimp only
  split <;> rfl

/-! ## Results -/

theorem smst_iff {ld : LD} {t : FType} (h : Ty ld t ∨ t.tc = .void) :
    (retFlags ld t &&& flagSmst ≠ 0 ↔ t.tc = .struct ∧ retPlace ld t ≠ .mem) ∧
    (retFlags ld t &&& flagRetRef ≠ 0 ↔ retPlace ld t = .mem) := by
  unfold retFlags retPlace
  rcases h with h | h
  · rcases ty_scalar_or h with hs | ⟨ht, hh⟩
    · rw [hs, discover_eq h]
      simp only [reduceCtorEq, if_false, if_true]
      cases hh : homog ld t with
      | none =>
        dsimp only [Option.map_none]
        by_cases h16 : t.size ≤ 16
        · rw [if_pos h16, if_pos h16]; simp [flagSmst, flagRetRef]
        · rw [if_neg h16, if_neg h16]; simp [flagSmst, flagRetRef, flagNothing]
      | some p =>
        obtain ⟨c, n⟩ := p
        cases c <;> cases ld <;> simp [elt, numFlags, flagSmst, flagRetRef, flagFp, flag64, flag128, flagVec]
    · rw [hh]
      obtain ⟨s, a, tc, es⟩ := t
      simp only [FType.tc_mk, FType.size_mk, FType.align_mk] at ht
      cases tc <;> cases ld <;> simp [tab] at ht <;> obtain ⟨rfl, rfl⟩ := ht <;>
        simp [cls, FType.tc, numFlags, flagSmst, flagRetRef, flagFp, flag64, flag128, flagVec]
  · rw [h]
    simp [flagNothing, flagSmst, flagRetRef]

end Verif.Ppc
