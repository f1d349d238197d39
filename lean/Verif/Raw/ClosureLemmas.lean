import Verif.Raw.Closure
import Verif.Raw.StepLemmas

namespace Verif.Raw
open Verif Spec.Raw

@[simp] theorem VM.wr_tr (v : VM) (a : Nat) (bs : List Byte) : (v.wr a bs).tr = v.tr := by
  induction bs generalizing v a with
  | nil => rfl
  | cons b bs ih => rw [VM.wr, ih]

@[simp] theorem Kind.put_tr (k : Kind) (v : VM) (cl : Nat) : (k.put v cl).tr = v.tr := by
  cases k <;> simp [Kind.put]

theorem VM.wr_out (v : VM) (a : Nat) (bs : List Byte) (p : Nat)
    (h : ∀ i, i < bs.length → p ≠ v.tr (a + i)) : (v.wr a bs).phys p = v.phys p := by
  induction bs generalizing v a with
  | nil => rfl
  | cons b bs ih =>
    rw [VM.wr, ih]
    · simp only
      rw [if_neg (by simpa using h 0 (by simp))]
    · intro i hi
      have := h (i + 1) (by simp; omega)
      rwa [show a + (i + 1) = a + 1 + i by omega] at this

theorem VM.wr_in (v : VM) (a : Nat) (bs : List Byte) (i : Nat) (hi : i < bs.length)
    (h : ∀ j, j < bs.length → v.tr (a + j) = v.tr (a + i) → j = i) :
    (v.wr a bs).phys (v.tr (a + i)) = bs.getD i 0 := by
  induction bs generalizing v a i with
  | nil => simp at hi
  | cons b bs ih =>
    rw [VM.wr]
    cases i with
    | zero =>
      rw [VM.wr_out]
      · simp
      · intro j hj e
        simp only at e
        have := h (j + 1) (by simp; omega) (by rw [show a + (j + 1) = a + 1 + j by omega]; exact e.symm)
        omega
    | succ i =>
      have := ih { v with phys := fun p => if p = v.tr a then b else v.phys p } (a + 1) i (by simpa using hi)
        (by
          intro j hj e
          simp only at e
          have := h (j + 1) (by simp; omega)
            (by rw [show a + (j + 1) = a + 1 + j by omega, show a + (i + 1) = a + 1 + i by omega]; exact e)
          omega)
      simp only at this
      rw [show a + (i + 1) = a + 1 + i by omega, this]
      simp

/-- Frame of a loop that writes each slot inside its width. -/
theorem toRawLoop_frame {f : Mem → FType → Nat → Except Abn (List Byte × Nat)} {w : FType → Nat} {T : FType → Prop}
    (h : ∀ m t a, T t → ∃ bs, f m t a = .ok (bs, w t) ∧ bs.length ≤ w t) :
    ∀ (ts : List FType) (as : List Nat) (r : Nat) (m : Mem), as.length = ts.length → (∀ t ∈ ts, T t) →
    ∃ m', toRawLoop f ts as r m = .ok (m', r + sumW w ts) ∧ ∀ x, x < r ∨ r + sumW w ts ≤ x → m' x = m x
  | [], as, r, m, hl, _ => by
    have : as = [] := List.eq_nil_of_length_eq_zero (by simpa using hl)
    subst this
    exact ⟨m, rfl, fun _ _ => rfl⟩
  | t :: ts, [], r, m, hl, _ => by simp at hl
  | t :: ts, a :: as, r, m, hl, hT => by
    simp only [sumW]
    obtain ⟨bs, hf, hlen⟩ := h m t a (hT t (by simp))
    obtain ⟨m', i1, i2⟩ := toRawLoop_frame h ts as (r + w t) (m.wr r bs) (by simpa using hl)
      (fun t ht => hT t (by simp [ht]))
    refine ⟨m', ?_, ?_⟩
    · rw [toRawLoop, hf]
      simp only [i1, Except.ok.injEq, Prod.mk.injEq, true_and]
      omega
    · intro x hx
      rw [i2 x (by omega), Mem.wr_out _ _ _ _ (by omega)]

theorem field_congr {c : Cfg} {m m' : Mem} {a : Nat} (h : ∀ i, i < c.ptr → m' (a + i) = m (a + i)) :
    field c m' a = field c m a := by
  unfold field; rw [Mem.rd_congr h]

/-- A field just written, seen at any address `e` that translates like `a`. -/
theorem VM.field_in {c : Cfg} (v : VM) (a e x : Nat) (hx : x < 256 ^ c.ptr)
    (he : ∀ i, i < c.ptr → v.tr (e + i) = v.tr (a + i))
    (h : ∀ i j, i < c.ptr → j < c.ptr → v.tr (a + j) = v.tr (a + i) → j = i) :
    field c (v.wr a (enc c.be c.ptr x)).view e = x := by
  unfold field
  have : (v.wr a (enc c.be c.ptr x)).view.rd e c.ptr = enc c.be c.ptr x := by
    apply bytes_ext (by simp [enc_length])
    intro i hi
    rw [Mem.rd_length] at hi
    rw [Mem.rd_getD _ _ _ _ hi]
    unfold VM.view
    rw [VM.wr_tr, he i hi, VM.wr_in _ _ _ _ (by rw [enc_length]; exact hi)]
    intro j hj
    exact h i j hi (by rwa [enc_length] at hj)
  rw [this, dec_enc, Nat.mod_eq_of_lt hx]

/-- A field not touched by a write. -/
theorem VM.field_out {c : Cfg} (v : VM) (a e : Nat) (bs : List Byte)
    (h : ∀ i j, i < c.ptr → j < bs.length → v.tr (e + i) ≠ v.tr (a + j)) :
    field c (v.wr a bs).view e = field c v.view e := by
  apply field_congr
  intro i hi
  unfold VM.view
  rw [VM.wr_tr, VM.wr_out]
  intro j hj
  exact h i j hi hj

/-- The fields of a prepared raw closure seen at an alias `e` of `cl`. -/
theorem prepRaw_fields {c : Cfg} {ts translate : Nat} {kind : Kind} {v : VM} {cl cif fn ud codeloc e : Nat}
    (h1 : cif < 256 ^ c.ptr) (h2 : translate < 256 ^ c.ptr) (h3 : codeloc < 256 ^ c.ptr)
    (h4 : fn < 256 ^ c.ptr) (h5 : ud < 256 ^ c.ptr)
    (inj : ∀ i j, i < ts + 5 * c.ptr → j < ts + 5 * c.ptr → v.tr (cl + j) = v.tr (cl + i) → j = i)
    (al : ∀ i, i < ts + 5 * c.ptr → v.tr (e + i) = v.tr (cl + i)) :
    let m := (prepRaw c ts translate kind v cl cif fn ud codeloc).view
    field c m (e + ts) = cif ∧ field c m (e + ts + c.ptr) = translate ∧
    field c m (e + ts + 2 * c.ptr) = codeloc ∧ field c m (e + ts + 3 * c.ptr) = fn ∧
    field c m (e + ts + 4 * c.ptr) = ud := by
  have gin : ∀ (v' : VM) (k x : Nat), v'.tr = v.tr → k ≤ 4 → x < 256 ^ c.ptr →
      field c (v'.wr (cl + ts + k * c.ptr) (enc c.be c.ptr x)).view (e + ts + k * c.ptr) = x := by
    intro v' k x hv hk hx
    have hk' : k * c.ptr ≤ 4 * c.ptr := Nat.mul_le_mul_right _ hk
    apply VM.field_in _ _ _ _ hx
    · intro i hi
      rw [hv, show e + ts + k * c.ptr + i = e + (ts + k * c.ptr + i) by omega,
        show cl + ts + k * c.ptr + i = cl + (ts + k * c.ptr + i) by omega]
      exact al _ (by omega)
    · intro i j hi hj
      rw [hv, show cl + ts + k * c.ptr + i = cl + (ts + k * c.ptr + i) by omega,
        show cl + ts + k * c.ptr + j = cl + (ts + k * c.ptr + j) by omega]
      intro h
      have := inj _ _ (by omega) (by omega) h
      omega
  have gout : ∀ (v' : VM) (k l x : Nat), v'.tr = v.tr → k ≤ 4 → l ≤ 4 → k ≠ l →
      field c (v'.wr (cl + ts + l * c.ptr) (enc c.be c.ptr x)).view (e + ts + k * c.ptr) =
        field c v'.view (e + ts + k * c.ptr) := by
    intro v' k l x hv hk hl hkl
    have hk' : k * c.ptr ≤ 4 * c.ptr := Nat.mul_le_mul_right _ hk
    have hl' : l * c.ptr ≤ 4 * c.ptr := Nat.mul_le_mul_right _ hl
    apply VM.field_out
    intro i j hi hj
    rw [enc_length] at hj
    rw [hv, show e + ts + k * c.ptr + i = e + (ts + k * c.ptr + i) by omega, al _ (by omega),
      show cl + ts + l * c.ptr + j = cl + (ts + l * c.ptr + j) by omega]
    intro h
    have := inj _ _ (by omega) (by omega) h
    rcases Nat.lt_or_gt_of_ne hkl with h | h
    · have := Nat.mul_le_mul_right c.ptr h
      rw [Nat.succ_mul] at this
      omega
    · have := Nat.mul_le_mul_right c.ptr h
      rw [Nat.succ_mul] at this
      omega
  have g0 := fun (v' : VM) x hv hx => gin v' 0 x hv (by omega) hx
  have g1 := fun (v' : VM) x hv hx => gin v' 1 x hv (by omega) hx
  have o0 := fun (v' : VM) (l x) hv hl hkl => gout v' 0 l x hv (by omega) hl hkl
  have o1 := fun (v' : VM) (l x) hv hl hkl => gout v' 1 l x hv (by omega) hl hkl
  simp only [Nat.zero_mul, Nat.add_zero, Nat.one_mul] at g0 g1 o0 o1
  unfold prepRaw
  simp only
  refine ⟨?_, ?_, ?_, ?_, ?_⟩
  · rw [o0 _ 4 _ (by simp) (by omega) (by omega), o0 _ 3 _ (by simp) (by omega) (by omega),
      o0 _ 2 _ (by simp) (by omega) (by omega)]
    have := gout ((kind.put v cl).wr (cl + ts) (enc c.be c.ptr cif)) 0 1 translate (by simp) (by omega) (by omega)
      (by omega)
    simp only [Nat.zero_mul, Nat.add_zero, Nat.one_mul] at this
    rw [this]
    exact g0 _ _ (by simp) h1
  · rw [o1 _ 4 _ (by simp) (by omega) (by omega), o1 _ 3 _ (by simp) (by omega) (by omega),
      o1 _ 2 _ (by simp) (by omega) (by omega)]
    exact g1 _ _ (by simp) h2
  · rw [gout _ 2 4 _ (by simp) (by omega) (by omega) (by omega),
      gout _ 2 3 _ (by simp) (by omega) (by omega) (by omega)]
    exact gin _ 2 _ (by simp) (by omega) h3
  · rw [gout _ 3 4 _ (by simp) (by omega) (by omega) (by omega)]
    exact gin _ 3 _ (by simp) (by omega) h4
  · exact gin _ 4 _ (by simp) (by omega) h5

/-- Memory outside the closure is untouched (static trampolines). -/
theorem prepRaw_static_frame {c : Cfg} {ts translate : Nat} {v : VM} {cl cif fn ud codeloc x : Nat}
    (h : ∀ i, i < ts + 5 * c.ptr → v.tr x ≠ v.tr (cl + i)) :
    (prepRaw c ts translate .static v cl cif fn ud codeloc).view x = v.view x := by
  have g : ∀ (v' : VM) (k y : Nat), v'.tr = v.tr → k ≤ 4 →
      (v'.wr (cl + ts + k * c.ptr) (enc c.be c.ptr y)).view x = v'.view x := by
    intro v' k y hv hk
    have hk' : k * c.ptr ≤ 4 * c.ptr := Nat.mul_le_mul_right _ hk
    unfold VM.view
    rw [VM.wr_tr, VM.wr_out]
    intro j hj
    rw [enc_length] at hj
    rw [hv, show cl + ts + k * c.ptr + j = cl + (ts + k * c.ptr + j) by omega]
    exact h _ (by omega)
  have g0 := fun (v' : VM) y hv => g v' 0 y hv (by omega)
  have g1 := fun (v' : VM) y hv => g v' 1 y hv (by omega)
  simp only [Nat.zero_mul, Nat.add_zero, Nat.one_mul] at g0 g1
  unfold prepRaw Kind.put
  simp only
  rw [g _ 4 _ (by simp) (by omega), g _ 3 _ (by simp) (by omega), g _ 2 _ (by simp) (by omega),
    g1 _ _ (by simp), g0 _ _ (by simp)]

/-! ## How far the decoder walks -/

/-- Step of the little-endian decoder. -/
def leAdv (c : Cfg) (t : FType) : Nat :=
  if byAddr t.tc then c.arg else roundUp t.size c.ptr / c.ptr * c.arg

theorem leWalk {c : Cfg} (hc : CfgOk c) (hbe : c.be = false) : ∀ (ts : List FType) (r : Nat) (m : Mem),
    (∀ t ∈ ts, TypeOk c t) → ∃ ps, toPtrLoop (rawGet c) ts r m = .ok (ps, r + sumW (leAdv c) ts)
  | [], r, m, _ => ⟨[], rfl⟩
  | t :: ts, r, m, h => by
    obtain ⟨ps, ih⟩ := leWalk hc hbe ts (r + leAdv c t) m fun t ht => h t (by simp [ht])
    have ht := h t (by simp)
    have : ∃ p, rawGet c m t r = .ok (p, leAdv c t) := by
      unfold rawGet leAdv
      rw [← align_small hc.ptr ht.small]
      cases htc : t.tc <;> simp [hbe, byAddr]
    obtain ⟨p, hp⟩ := this
    refine ⟨p :: ps, ?_⟩
    rw [toPtrLoop, hp]
    simp only [ih, sumW, Except.ok.injEq, Prod.mk.injEq, true_and]
    omega

theorem sumW_le {w w' : FType → Nat} : ∀ ts : List FType, (∀ t ∈ ts, w t ≤ w' t) → sumW w ts ≤ sumW w' ts
  | [], _ => Nat.le_refl _
  | t :: ts, h => by
    have := sumW_le ts fun t ht => h t (by simp [ht])
    have := h t (by simp)
    simp only [sumW]; omega

theorem sumW_lt {w w' : FType → Nat} : ∀ ts : List FType, (∀ t ∈ ts, w t ≤ w' t) → (∃ t ∈ ts, w t < w' t) →
    sumW w ts < sumW w' ts
  | [], _, h => by simp at h
  | t :: ts, h, h' => by
    have h1 := sumW_le ts fun t ht => h t (by simp [ht])
    have h2 := h t (by simp)
    simp only [sumW]
    obtain ⟨u, hu, hlt⟩ := h'
    rcases List.mem_cons.1 hu with rfl | hu
    · omega
    · have := sumW_lt ts (fun t ht => h t (by simp [ht])) ⟨u, hu, hlt⟩
      omega

theorem rawSize_eq {c : Cfg} (hc : CfgOk c) : ∀ ts : List FType, (∀ t ∈ ts, TypeOk c t) →
    (∀ t ∈ ts, t.tc ≠ .complex) → rawSize c ts = sumW (rawW c) ts
  | [], _, _ => rfl
  | t :: ts, h, hn => by
    have ih := rawSize_eq hc ts (fun t ht => h t (by simp [ht])) (fun t ht => hn t (by simp [ht]))
    have ht := h t (by simp)
    have hnt := hn t (by simp)
    have harg : 0 < c.arg := by have := hc.arg; omega
    have hp : ffiAlign c.ptr c.arg = c.arg := by
      rw [align_small hc.arg (by have := hc.ptr; omega)]
      exact roundUp_one harg (by have := hc.ptr; omega) hc.le
    simp only [sumW, rawSize]
    rw [hp, align_small hc.arg ht.small, ih]
    unfold rawW
    cases htc : t.tc <;> simp_all

/-- Little-endian, 4-byte pointers, 8-byte arguments: each step is at least a slot, and
more for scalars above 4 bytes. -/
theorem leAdv_ge {c : Cfg} (hp : c.ptr = 4) (ha : c.arg = 8) (t : FType) :
    rawW c t ≤ leAdv c t ∧ (4 < t.size → byAddr t.tc = false → rawW c t < leAdv c t) := by
  have h1 : ∀ s : Nat, roundUp s 8 = (s + 7) / 8 * 8 := fun s => rfl
  have h2 : ∀ s : Nat, roundUp s 4 = (s + 3) / 4 * 4 := fun s => rfl
  unfold rawW leAdv
  rw [hp, ha, h1, h2]
  cases htc : t.tc <;> simp only [byAddr] <;> constructor <;> simp <;> omega

end Verif.Raw
