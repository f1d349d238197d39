import Verif.M68k.Model
import Verif.Or1k.Call
import Verif.Spec.TypeLemmas

/- The loops of src/m68k/ffi.c against the convention. -/
namespace Verif.M68k
open Verif Verif.Spec.M68k
open Verif.Or1k (wr_rd be4 beNat_rd_lt)

theorem sext_ok {n v : Nat} (hn : n = 1 ∨ n = 2) (hv : v < 256 ^ n) :
    sext n v < 2 ^ 32 ∧ (sext n v : Int) = (if 2 ^ (8 * n - 1) ≤ v then (v : Int) - 2 ^ (8 * n) else v) % 2 ^ 32 := by
  unfold sext
  rcases hn with rfl | rfl <;> split <;> omega

/-- The classes of types. -/
inductive Cls (t : FType) : Prop
  | small (n : Nat) : n = 1 ∧ (t.tc = .uint8 ∨ t.tc = .sint8) ∨ n = 2 ∧ (t.tc = .uint16 ∨ t.tc = .sint16) → t.size = n → Cls t
  | recd : t.tc = .struct → 0 < t.size → Cls t
  | plain : t.tc = .uint32 ∧ t.size = 4 ∨ t.tc = .sint32 ∧ t.size = 4 ∨ t.tc = .float ∧ t.size = 4 ∨ t.tc = .pointer ∧ t.size = 4 ∨
      t.tc = .uint64 ∧ t.size = 8 ∨ t.tc = .sint64 ∧ t.size = 8 ∨ t.tc = .double ∧ t.size = 8 ∨ t.tc = .longdouble ∧ t.size = 12 → Cls t

theorem tab_ok : TabOk tab := by
  intro tc s a h
  cases tc <;> simp [tab] at h <;> obtain ⟨rfl, rfl⟩ := h <;> decide

theorem Ty.cls {t : FType} (h : Ty t) : Cls t := by
  have hp := h.1.size_pos tab_ok
  obtain ⟨h, hc⟩ := h
  cases h with
  | @scalar tc s a h =>
    cases tc <;> simp [tab] at h <;> obtain ⟨rfl, rfl⟩ := h
    case uint8 => exact .small 1 (by simp) rfl
    case sint8 => exact .small 1 (by simp) rfl
    case uint16 => exact .small 2 (by simp) rfl
    case sint16 => exact .small 2 (by simp) rfl
    all_goals exact .plain (by simp)
  | complex => exact absurd rfl hc
  | struct => exact .recd rfl hp

theorem round4 (z : Nat) : (if z % 4 ≠ 0 then up4 z else z) = (z + 3) / 4 * 4 := by
  unfold up4; split <;> omega

theorem prepArg_ok {t : FType} (ht : Cls t) {a argp : Nat} {m : Mem} :
    (prepArg t a argp m).1 = argp + slot t ∧ (∀ x, x < argp ∨ argp + slot t ≤ x → (prepArg t a argp m).2 x = m x) ∧
      ∀ M : Mem, (∀ x, argp ≤ x → x < argp + slot t → M x = (prepArg t a argp m).2 x) → Passed M argp t (m.rd a t.size) := by
  obtain ⟨s, al, tc, es⟩ := t
  unfold slot
  cases ht with
  | small n h hs =>
    have hs : s = n := hs
    subst hs
    have hn : s = 1 ∨ s = 2 := by omega
    have hsl : (s + 3) / 4 * 4 = 4 := by omega
    obtain ⟨v, hv, hi, e⟩ : ∃ v : Nat, v < 2 ^ 32 ∧ (v : Int) = intVal tc (m.rd a s) % 2 ^ 32 ∧ prepArg (.mk s al tc es) a argp m = (argp + 4, m.wr argp (beBytes 4 v)) := by
      have hb := beNat_rd_lt m a s
      have hx := sext_ok hn hb
      have hu : beNat (m.rd a s) < 2 ^ 32 ∧ (beNat (m.rd a s) : Int) = (beNat (m.rd a s) : Int) % 2 ^ 32 := by
        rcases hn with rfl | rfl <;> omega
      rcases h with ⟨rfl, h | h⟩ | ⟨rfl, h | h⟩ <;> cases h
      · exact ⟨_, hu.1, by simp only [intVal, signed]; simpa using hu.2, rfl⟩
      · exact ⟨_, hx.1, by simp only [intVal, signed, Mem.rd_length, true_and]; exact hx.2, rfl⟩
      · exact ⟨_, hu.1, by simp only [intVal, signed]; simpa using hu.2, rfl⟩
      · exact ⟨_, hx.1, by simp only [intVal, signed, Mem.rd_length, true_and]; exact hx.2, rfl⟩
    rw [e]
    dsimp only [FType.size]
    rw [hsl]
    refine ⟨rfl, fun x hx => Mem.wr_out _ _ _ _ (by rw [beBytes_length]; omega), fun M hM => ?_⟩
    have hp : (beNat (M.rd argp 4) : Int) = intVal tc (m.rd a s) % 2 ^ 32 := by
      rw [Mem.rd_congr (m' := M) (m := m.wr argp (beBytes 4 v)) (fun i hi => hM _ (by omega) (by omega)), wr_rd _ _ (beBytes_length _ _), be4 hv, hi]
    rcases h with ⟨_, h | h⟩ | ⟨_, h | h⟩ <;> cases h <;> exact hp
  | recd h hp =>
    cases h
    have hp : 0 < s := hp
    dsimp only [FType.size]
    by_cases h4 : s < 4
    · have e : prepArg (.mk s al .struct es) a argp m = (argp + 4, m.wr (argp + 4 - s) (m.rd a s)) := by simp [prepArg, h4]
      rw [e, show (s + 3) / 4 * 4 = 4 by omega]
      refine ⟨rfl, fun x hx => Mem.wr_out _ _ _ _ (by rw [Mem.rd_length]; omega), fun M hM => ?_⟩
      show if s < 4 then _ else _
      rw [if_pos h4]
      show M.rd (argp + (4 - s)) s = _
      rw [Mem.rd_congr (m' := M) (m := m.wr (argp + 4 - s) (m.rd a s)) (fun i hi => hM _ (by omega) (by omega)), show argp + (4 - s) = argp + 4 - s by omega, wr_rd _ _ (Mem.rd_length _ _ _)]
    · have e : prepArg (.mk s al .struct es) a argp m = (argp + (s + 3) / 4 * 4, m.wr argp (m.rd a s)) := by rw [← round4, prepArg]; exact if_neg h4
      rw [e]
      refine ⟨rfl, fun x hx => Mem.wr_out _ _ _ _ (by rw [Mem.rd_length]; omega), fun M hM => ?_⟩
      show if s < 4 then _ else _
      rw [if_neg h4]
      show M.rd argp s = _
      rw [Mem.rd_congr (m' := M) (m := m.wr argp (m.rd a s)) (fun i hi => hM _ (by omega) (by omega)), wr_rd _ _ (Mem.rd_length _ _ _)]
  | plain h =>
    have h4 : ¬ s < 4 := by dsimp only [FType.size] at h; omega
    dsimp only [FType.size]
    have e : prepArg (.mk s al tc es) a argp m = (argp + (s + 3) / 4 * 4, m.wr argp (m.rd a s)) := by rw [← round4, prepArg]; exact if_neg h4
    rw [e]
    refine ⟨rfl, fun x hx => Mem.wr_out _ _ _ _ (by rw [Mem.rd_length]; omega), fun M hM => ?_⟩
    have hp : M.rd argp s = m.rd a s := by
      rw [Mem.rd_congr (m' := M) (m := m.wr argp (m.rd a s)) (fun i hi => hM _ (by omega) (by omega)), wr_rd _ _ (Mem.rd_length _ _ _)]
    rcases h with ⟨h, _⟩ | ⟨h, _⟩ | ⟨h, _⟩ | ⟨h, _⟩ | ⟨h, _⟩ | ⟨h, _⟩ | ⟨h, _⟩ | ⟨h, _⟩ <;> cases h <;> exact hp

theorem total_cons (t : FType) (ts : List FType) : total (t :: ts) = slot t + total ts := by simp [total]

/-- The arguments are on the stack; nothing else is written. -/
theorem prepArgs_ok {m0 : Mem} {lo hi : Nat} : ∀ {ts : List FType} {as : List Nat} {argp : Nat} {m : Mem}, (∀ t ∈ ts, Cls t) → as.length = ts.length →
    (∀ (i : Nat) (t : FType) (a : Nat), ts[i]? = some t → as[i]? = some a → a + t.size ≤ lo ∨ hi ≤ a) → lo ≤ argp → argp + total ts ≤ hi → (∀ x, x < lo ∨ hi ≤ x → m x = m0 x) →
    (∀ x, x < argp ∨ argp + total ts ≤ x → prepArgs ts as argp m x = m x) ∧
      ∀ M : Mem, (∀ x, argp ≤ x → x < argp + total ts → M x = prepArgs ts as argp m x) → AllPassed M argp ts (vals m0 ts as)
  | [], [], _, _, _, _, _, _, _, _ => ⟨fun _ _ => rfl, fun _ _ => trivial⟩
  | [], _ :: _, _, _, _, hl, _, _, _, _ => by cases hl
  | _ :: _, [], _, _, _, hl, _, _, _, _ => by cases hl
  | t :: ts, a :: as, argp, m, hc, hl, hap, hlo, hhi, hm => by
    rw [total_cons] at hhi ⊢
    obtain ⟨p1, p2, p3⟩ := prepArg_ok (hc t (by simp)) (a := a) (argp := argp) (m := m)
    have h0 := hap 0 t a rfl rfl
    obtain ⟨q1, q2⟩ := prepArgs_ok (ts := ts) (as := as) (argp := argp + slot t) (m := (prepArg t a argp m).2) (fun u hu => hc u (by simp [hu])) (by simpa using hl)
      (fun i u b h1 h2 => hap (i + 1) u b h1 h2) (by omega) (by omega) (fun x hx => (p2 x (by omega)).trans (hm x hx))
    have e : prepArgs (t :: ts) (a :: as) argp m = prepArgs ts as (argp + slot t) (prepArg t a argp m).2 := by rw [prepArgs, p1]
    rw [e]
    refine ⟨fun x hx => by rw [q1 x (by omega), p2 x (by omega)], fun M hM => ⟨?_, q2 M fun x h1 h2 => hM x (by omega) (by omega)⟩⟩
    rw [show m0.rd a t.size = m.rd a t.size from Mem.rd_congr fun i hi => (hm _ (by omega)).symm]
    exact p3 M fun x h1 h2 => by rw [hM x (by omega) (by omega), q1 x (by omega)]

theorem align_dvd {t : FType} (h : Ty t) : t.align = 1 ∨ t.align = 2 := by
  obtain ⟨h, hc⟩ := h
  have : ∀ t, Spec.WF tab t → t.align = 1 ∨ t.align = 2 := by
    intro t h
    induction h with
    | @scalar tc s a h => cases tc <;> simp [tab] at h <;> obtain ⟨rfl, rfl⟩ := h <;> simp
    | @complex tc s a _ h => cases tc <;> simp [tab] at h <;> obtain ⟨rfl, rfl⟩ := h <;> simp
    | struct _ hl ih =>
      obtain ⟨e, _, ⟨⟨m, hm, rfl⟩, _⟩, _⟩ := hl
      rw [List.mem_map] at hm
      obtain ⟨x, hx, rfl⟩ := hm
      exact ih x hx
  exact this t h

/-- `cif->bytes` is the space of all arguments, and of the address of a struct result, which is not used. -/
theorem prepBytes_eq {rt : FType} {ats : List FType} (h : ∀ t ∈ ats, Ty t) : prepBytes rt ats = (if rt.tc = .struct then 4 else 0) + total ats := by
  unfold prepBytes
  have : ∀ (ats : List FType) (b : Nat), (∀ t ∈ ats, Ty t) → b % 4 = 0 →
      ats.foldl (fun b t => (if b % t.align ≠ 0 then (b + t.align - 1) / t.align * t.align else b) + up4 t.size) b = b + total ats := by
    intro ats
    induction ats with
    | nil => intro b _ _; rfl
    | cons t ts ih =>
      intro b h hb
      have ha := align_dvd (h t (by simp))
      have hz : b % t.align = 0 := by rcases ha with ha | ha <;> rw [ha] <;> omega
      rw [List.foldl_cons, if_neg (by omega), ih _ (fun u hu => h u (by simp [hu])) (by unfold up4; omega), total_cons, slot, up4]
      omega
  exact this ats _ h (by split <;> rfl)

theorem small_bytes {n : Nat} {tc : TC} {v : List Byte} {w : Nat} (hn : n = 1 ∨ n = 2) (hl : v.length = n) (h : (w : Int) = intVal tc v % 2 ^ 32) : beBytes n w = v := by
  have hb := beNat_lt v
  rw [hl] at hb
  have : w % 256 ^ n = beNat v := by
    unfold intVal at h
    rw [hl] at h
    rcases hn with rfl | rfl <;> split at h <;> omega
  rw [← beBytes_mod, this, beBytes_beNat' hl]

theorem word_bytes {m : Mem} {a n w : Nat} (hn : n ≤ 4) (h : m.rd a 4 = beBytes 4 w) : m.rd (a + (4 - n)) n = beBytes n w := by
  have e : (4 - n) + n = 4 := by omega
  have h1 : m.rd a ((4 - n) + n) = beBytes ((4 - n) + n) w := by rw [e, h]
  rw [Mem.rd_append] at h1
  have h2 := congrArg (List.drop (4 - n)) h1
  rwa [List.drop_left' (Mem.rd_length _ _ _), beBytes_drop] at h2

/-- Closures find the arguments. -/
theorem closureView_ok {m : Mem} : ∀ {ts : List FType} {vs : List (List Byte)} {a : Nat}, (∀ t ∈ ts, Cls t) → vs.map List.length = ts.map FType.size → AllPassed m a ts vs →
    vals m ts (closureView a ts) = vs ∧ (closureView a ts).length = ts.length
  | [], [], _, _, _, _ => ⟨rfl, rfl⟩
  | [], _ :: _, _, _, hl, _ => by cases hl
  | _ :: _, [], _, _, hl, _ => by cases hl
  | t :: ts, v :: vs, a, hc, hl, hp => by
    obtain ⟨hp1, hp2⟩ := hp
    simp only [List.map_cons, List.cons.injEq] at hl
    have ih := closureView_ok (fun u hu => hc u (by simp [hu])) hl.2 hp2
    have ct := hc t (by simp)
    have hpos : 0 < t.size := by cases ct <;> omega
    obtain ⟨x, hx, e⟩ : ∃ x, closureView a (t :: ts) = x :: closureView (a + slot t) ts ∧ m.rd x t.size = v := by
      by_cases h4 : t.size ≤ 4
      · refine ⟨a + 4 - t.size, by rw [closureView, if_pos h4, show slot t = 4 by unfold slot; omega], ?_⟩
        obtain ⟨s, al, tc, es⟩ := t
        have h4 : s ≤ 4 := h4
        have hpos : 0 < s := hpos
        show m.rd (a + 4 - s) s = v
        rw [show a + 4 - s = a + (4 - s) by omega]
        cases ct with
        | small n h hs =>
          have hs : s = n := hs
          subst hs
          have hi : (beNat (m.rd a 4) : Int) = intVal tc v % 2 ^ 32 := by rcases h with ⟨_, h | h⟩ | ⟨_, h | h⟩ <;> cases h <;> exact hp1
          rw [word_bytes h4 (beBytes_beNat' (Mem.rd_length m a 4)).symm]
          exact small_bytes (by omega) hl.1 hi
        | recd h _ =>
          cases h
          have hp1 : if s < 4 then m.rd (a + (4 - s)) s = v else m.rd a s = v := hp1
          split at hp1
          · exact hp1
          · rw [show a + (4 - s) = a by omega]; exact hp1
        | plain h =>
          have h44 : s = 4 := by dsimp only [FType.size] at h; omega
          rw [show a + (4 - s) = a by omega]
          rcases h with ⟨h, _⟩ | ⟨h, _⟩ | ⟨h, _⟩ | ⟨h, _⟩ | ⟨h, _⟩ | ⟨h, _⟩ | ⟨h, _⟩ | ⟨h, _⟩ <;> cases h <;> exact hp1
      · refine ⟨a, by rw [closureView, if_neg h4, round4, slot], ?_⟩
        obtain ⟨s, al, tc, es⟩ := t
        have h4 : ¬ s ≤ 4 := h4
        cases ct with
        | small n h hs => have hs : s = n := hs; omega
        | recd h _ =>
          cases h
          have hp1 : if s < 4 then m.rd (a + (4 - s)) s = v else m.rd a s = v := hp1
          rw [if_neg (by omega)] at hp1
          exact hp1
        | plain h => rcases h with ⟨h, _⟩ | ⟨h, _⟩ | ⟨h, _⟩ | ⟨h, _⟩ | ⟨h, _⟩ | ⟨h, _⟩ | ⟨h, _⟩ | ⟨h, _⟩ <;> cases h <;> exact hp1
    rw [hx]
    refine ⟨?_, by simp [ih.2]⟩
    show _ :: _ = _ :: _
    rw [e, ih.1]

end Verif.M68k
