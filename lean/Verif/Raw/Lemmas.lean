import Verif.Raw.Model

namespace Verif.Raw
open Verif

/-- Total advance of the cursor. -/
def sumW (w : FType → Nat) : List FType → Nat
  | [] => 0
  | t :: ts => w t + sumW w ts

/-- `[a, a+n)` does not meet `[lo, hi)`. -/
def Apart (a n lo hi : Nat) : Prop := a + n ≤ lo ∨ hi ≤ a

/-- What makes one argument survive the conversions. -/
structure StepOk (f : Mem → FType → Nat → Except Abn (List Byte × Nat))
    (g : Mem → FType → Nat → Except Abn (Nat × Nat)) (w : FType → Nat) (T : FType → Prop)
    (A : Nat → Prop) : Prop where
  put : ∀ m t a, T t → ∃ bs, f m t a = .ok (bs, w t) ∧ bs.length ≤ w t
  loc : ∀ m m' t a, T t → m'.rd a t.size = m.rd a t.size → f m' t a = f m t a
  get : ∀ m0 m t a r bs, T t → A a → f m0 t a = .ok (bs, w t) → m.rd r bs.length = bs →
    ∃ p, g m t r = .ok (p, w t) ∧
      (p = a ∨ (r ≤ p ∧ p + t.size ≤ r + w t ∧ m.rd p t.size = m0.rd a t.size))

theorem round_trip {f g w T A} (h : StepOk f g w T A) : ∀ (ts : List FType) (as : List Nat) (r : Nat) (m : Mem),
    as.length = ts.length → (∀ t ∈ ts, T t) → (∀ a ∈ as, A a) →
    (∀ (i : Nat) t a, ts[i]? = some t → as[i]? = some a → Apart a t.size r (r + sumW w ts)) →
    ∃ m', toRawLoop f ts as r m = .ok (m', r + sumW w ts) ∧
      (∀ x, x < r ∨ r + sumW w ts ≤ x → m' x = m x) ∧
      ∀ m'' : Mem, (∀ x, r ≤ x → x < r + sumW w ts → m'' x = m' x) →
        ∃ ps, toPtrLoop g ts r m'' = .ok (ps, r + sumW w ts) ∧ ps.length = ts.length ∧
          ∀ (i : Nat) t a p, ts[i]? = some t → as[i]? = some a → ps[i]? = some p →
            p = a ∨ (r ≤ p ∧ p + t.size ≤ r + sumW w ts ∧ m''.rd p t.size = m.rd a t.size)
  | [], as, r, m, hl, _, _, _ => by
    have : as = [] := List.eq_nil_of_length_eq_zero (by simpa using hl)
    subst this
    exact ⟨m, rfl, fun _ _ => rfl, fun m'' _ => ⟨[], rfl, rfl, by simp⟩⟩
  | t :: ts, [], r, m, hl, _, _, _ => by simp at hl
  | t :: ts, a :: as, r, m, hl, hT, hA, hd => by
    simp only [sumW] at hd ⊢
    obtain ⟨bs, hf, hlen⟩ := h.put m t a (hT t (by simp))
    obtain ⟨m', i1, i2, i3⟩ := round_trip h ts as (r + w t) (m.wr r bs) (by simpa using hl)
      (fun t ht => hT t (by simp [ht])) (fun a ha => hA a (by simp [ha]))
      (fun i t' a' h1 h2 => by
        rcases hd (i + 1) t' a' h1 h2 with h | h
        · left; omega
        · right; omega)
    refine ⟨m', ?_, ?_, ?_⟩
    · rw [toRawLoop, hf]
      simp only [i1, Except.ok.injEq, Prod.mk.injEq, true_and]
      omega
    · intro x hx
      rw [i2 x (by omega), Mem.wr_out _ _ _ _ (by omega)]
    · intro m'' hm
      obtain ⟨ps, j1, j2, j3⟩ := i3 m'' (fun x h1 h2 => hm x (by omega) (by omega))
      have hrd : m''.rd r bs.length = bs := by
        refine (Mem.rd_congr fun k hk => ?_).trans (Mem.rd_wr_same m r bs)
        rw [hm _ (by omega) (by omega), i2 _ (by omega)]
      obtain ⟨p, g1, g2⟩ := h.get m m'' t a r bs (hT t (by simp)) (hA a (by simp)) hf hrd
      refine ⟨p :: ps, ?_, by simp [j2], ?_⟩
      · rw [toPtrLoop, g1]
        simp only [j1, Except.ok.injEq, Prod.mk.injEq, true_and]
        omega
      · intro i t' a' p' h1 h2 h3
        cases i with
        | zero =>
          simp only [List.getElem?_cons_zero, Option.some.injEq] at h1 h2 h3
          subst h1; subst h2; subst h3
          rcases g2 with g2 | ⟨x, y, z⟩
          · exact .inl g2
          · exact .inr ⟨x, by omega, z⟩
        | succ i =>
          simp only [List.getElem?_cons_succ] at h1 h2 h3
          rcases j3 i t' a' p' h1 h2 h3 with g2 | ⟨x, y, z⟩
          · exact .inl g2
          · refine .inr ⟨by omega, by omega, ?_⟩
            rw [z]
            apply Mem.rd_wr_disj
            rcases hd (i + 1) t' a' h1 h2 with h | h
            · left; omega
            · right; omega

/-! ## Encodings -/

theorem enc_length (be : Bool) (n v : Nat) : (enc be n v).length = n := by
  unfold enc; split <;> simp

theorem dec_enc (be : Bool) (n v : Nat) : dec be (enc be n v) = v % 256 ^ n := by
  unfold dec enc; cases be <;> simp [leNat_leBytes]

theorem enc_dec (be : Bool) (bs : List Byte) : enc be bs.length (dec be bs) = bs := by
  unfold dec enc
  cases be
  · simp [leBytes_leNat]
  · have := leBytes_leNat bs.reverse
    rw [List.length_reverse] at this
    simp [this]

theorem dec_lt (be : Bool) (bs : List Byte) : dec be bs < 256 ^ bs.length := by
  unfold dec
  cases be
  · simpa using leNat_lt bs
  · have := leNat_lt bs.reverse
    simpa using this

theorem enc_mod (be : Bool) (n v : Nat) : enc be n (v % 256 ^ n) = enc be n v := by
  unfold enc; cases be <;> simp [leBytes_mod]

/-- The low `n` bytes of a `w`-byte object. -/
theorem enc_low_le {n w v : Nat} (h : n ≤ w) : (enc false w v).take n = enc false n v := by
  simp only [enc, Bool.false_eq_true, if_false]
  exact leBytes_take v h

theorem enc_low_be {n w v : Nat} (h : n ≤ w) : (enc true w v).drop (w - n) = enc true n v := by
  simp only [enc, if_true]
  rw [← leBytes_take v h, List.drop_reverse]
  congr 2
  simp
  omega

theorem sext_mod {n w v : Nat} (h : n ≤ w) (hv : v < 256 ^ n) : sext n w v % 256 ^ n = v := by
  unfold sext
  have e256 : ∀ k, 256 ^ k = 2 ^ (8 * k) := by
    intro k; rw [Nat.pow_mul]
  have : (BitVec.signExtend (8 * w) (BitVec.ofNat (8 * n) v)).setWidth (8 * n) = BitVec.ofNat (8 * n) v := by
    apply BitVec.eq_of_getLsbD_eq
    intro i hi
    rw [BitVec.getLsbD_setWidth, BitVec.getLsbD_signExtend]
    have h1 : i < 8 * w := by omega
    simp [hi, h1]
  have h2 := congrArg BitVec.toNat this
  rw [BitVec.toNat_setWidth, BitVec.toNat_ofNat] at h2
  rw [e256] at hv ⊢
  rw [h2, Nat.mod_eq_of_lt hv]

/-- Reading a narrow object back from the wide one it was stored in. -/
theorem wide_read {be : Bool} {m : Mem} {r n w v : Nat} {bs : List Byte} (h : n ≤ w) (hb : bs.length = n)
    (hv : v % 256 ^ n = dec be bs) (hm : m.rd r w = enc be w v) :
    m.rd (if be then r + w - n else r) n = bs := by
  have e : enc be n v = bs := by
    rw [← enc_mod, hv, ← hb, enc_dec]
  cases be with
  | false =>
    simp only [Bool.false_eq_true, if_false]
    rw [← Mem.rd_take m r h, hm, enc_low_le h, e]
  | true =>
    simp only [if_true]
    have := Mem.rd_append m r (w - n) n
    rw [show w - n + n = w by omega, hm] at this
    have h2 := congrArg (List.drop (w - n)) this
    rw [List.drop_append_of_le_length (by simp), enc_low_be h, e] at h2
    rw [h2, show r + w - n = r + (w - n) by omega]
    simp [List.drop_of_length_le]

end Verif.Raw
