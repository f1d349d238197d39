import Verif.X64.CallLemmas

namespace Verif.X64
open Verif Spec Spec.X64

/-- Registers and memory arguments as found in the `alloca` block. -/
def regsOf (m : Buf) (bytes : Nat) : Regs :=
  ⟨fun i j => m.at_ (8 * i + j), fun i j => m.at_ (48 + 16 * i + j), ⟨bytes, fun k => m.at_ (192 + k)⟩⟩

/-- Registers below `g`/`s` and everything in `[176, A)` is unchanged. -/
def Fr (g s A : Nat) (m m' : Buf) : Prop :=
  m'.size = m.size ∧ ∀ k, (k < 8 * g ∨ (48 ≤ k ∧ k < 48 + 16 * s) ∨ (176 ≤ k ∧ k < A)) →
    m'.at_ k = m.at_ k

theorem Fr.refl (g s A m) : Fr g s A m m := ⟨rfl, fun _ _ => rfl⟩

theorem Fr.trans {g s A g' s' A' m m' m''} (h : Fr g s A m m') (h' : Fr g' s' A' m' m'')
    (hg : g ≤ g') (hs : s ≤ s') (hA : A ≤ A') : Fr g s A m m'' :=
  ⟨h'.1.trans h.1, fun k hk => (h'.2 k (by omega)).trans (h.2 k hk)⟩

/-- The place only uses registers below `g`/`s` and memory below `off`. -/
def Below (t : FType) (g s off : Nat) : Place → Prop
  | .regs rs => ∀ r ∈ rs, match r with
    | .gpr i => i < g
    | .sse i => i < s
  | .stack o => o + t.size ≤ off

theorem regByte_frame {g s A b m m'} (h : Fr g s A m m') {r : Reg} {j : Nat}
    (hr : match r with | .gpr i => i < g | .sse i => i < s) (hj : j < 8) :
    regByte (regsOf m' b) r j = regByte (regsOf m b) r j := by
  cases r with
  | gpr i => simp only [regByte, regsOf] at hr ⊢; exact h.2 _ (by omega)
  | sse i => simp only [regByte, regsOf] at hr ⊢; exact h.2 _ (by omega)

theorem PassedAt.frame {g s off b m m' t a p} (h : PassedAt (regsOf m b) t a p)
    (hf : Fr g s (192 + off) m m') (hb : Below t g s off p) : PassedAt (regsOf m' b) t a p := by
  cases p with
  | regs rs =>
    intro q hq
    obtain ⟨r, hr, hv⟩ := h q hq
    refine ⟨r, hr, ?_⟩
    rw [regByte_frame hf (hb r (List.mem_of_getElem? hr)) (by omega), hv]
  | stack o =>
    refine ⟨h.1, fun q hq => ?_⟩
    rw [← h.2 q hq]
    simp only [regsOf]
    simp only [Below] at hb
    exact hf.2 _ (by omega)

theorem WidenedAt.frame {g s off b m m' t a p} (h : WidenedAt (regsOf m b) t a p)
    (hf : Fr g s (192 + off) m m') (hb : Below t g s off p) : WidenedAt (regsOf m' b) t a p := by
  cases p with
  | regs rs =>
    intro h1 h2 i hi j hj
    rw [← h h1 h2 i hi j hj]
    have : i < g := by
      have := hb (.gpr i) (by rw [hi]; simp)
      simpa using this
    simp only [regsOf]
    exact hf.2 _ (by omega)
  | stack o => trivial

theorem nInt_cons (e : EB) (cs) : nInt (e :: cs) = nInt cs + if e = .int then 1 else 0 := by
  unfold nInt; rw [List.count_cons]; cases e <;> simp

theorem nSse_cons (e : EB) (cs) : nSse (e :: cs) = nSse cs + if e = .sse then 1 else 0 := by
  unfold nSse; rw [List.count_cons]; cases e <;> simp

theorem assign_below (cs : List EB) (g s : Nat) : ∀ r ∈ assign cs g s, match r with
    | .gpr i => g ≤ i ∧ i < g + nInt cs
    | .sse i => s ≤ i ∧ i < s + nSse cs := by
  induction cs generalizing g s with
  | nil => simp [assign]
  | cons e cs ih =>
    intro r hr
    cases e with
    | int =>
      simp only [assign, List.mem_cons] at hr
      rw [nInt_cons, nSse_cons]
      rcases hr with rfl | hr
      · simp
      · have := ih _ _ r hr
        cases r <;> simp at this ⊢ <;> omega
    | sse =>
      simp only [assign, List.mem_cons] at hr
      rw [nInt_cons, nSse_cons]
      rcases hr with rfl | hr
      · simp
      · have := ih _ _ r hr
        cases r <;> simp at this ⊢ <;> omega

theorem assign_length (cs : List EB) (g s : Nat) : (assign cs g s).length = cs.length := by
  induction cs generalizing g s with
  | nil => rfl
  | cons e cs ih => cases e <;> simp [assign, ih]

/-- What is copied to a register for one eightbyte. -/
structure EbOk (t : FType) (j : Nat) (c : Cls) : Prop where
  mtch : Match (leaves t 0) j c
  ne : c ≠ .no
  lt : 8 * j < t.size

/-- One iteration of the register loop, by kind of class. -/
theorem copyRegs_cons_int {t a c cs j st} (hc : c = .integer ∨ c = .integersi) :
    copyRegs t a (c :: cs) j st = (match gprValue t a j with
      | .error e => .error e
      | .ok bs =>
        match wrGpr st.mem st.g bs with
        | .error e => .error e
        | .ok m => copyRegs t a cs (j + 1) { st with mem := m, g := st.g + 1 }) := by
  rcases hc with rfl | rfl <;> rfl

theorem copyRegs_cons_sse {t a c cs j st n} (hc : (c = .sse ∨ c = .ssedf) ∧ n = 8 ∨ c = .ssesf ∧ n = 4) :
    copyRegs t a (c :: cs) j st = (match argRead a (8 * j) n with
      | .error e => .error e
      | .ok bs =>
        match wrSse st.mem st.s bs with
        | .error e => .error e
        | .ok m => copyRegs t a cs (j + 1) { st with mem := m, s := st.s + 1 }) := by
  rcases hc with ⟨rfl | rfl, rfl⟩ | ⟨rfl, rfl⟩ <;> rfl

theorem copyRegs_spec {t : FType} (hwf : WF lp64 t) (h64 : t.size < 2 ^ 63) {a : List Byte}
    (ha : a.length = t.size) (b : Nat) : ∀ (cs : List Cls) (j : Nat) (st : CallSt),
    (∀ k (hk : k < cs.length), EbOk t (j + k) cs[k]) →
    st.g + nInt (cs.map toEB) ≤ 6 → st.s + nSse (cs.map toEB) ≤ 8 → 176 ≤ st.mem.size →
    ∃ st', copyRegs t a cs j st = .ok st' ∧ st'.g = st.g + nInt (cs.map toEB) ∧
      st'.s = st.s + nSse (cs.map toEB) ∧ st'.argp = st.argp ∧
      (∀ A, Fr st.g st.s A st.mem st'.mem) ∧
      (∀ q, 8 * j ≤ q → q < 8 * (j + cs.length) → dataByte t q →
        ∃ r, (assign (cs.map toEB) st.g st.s)[q / 8 - j]? = some r ∧
          regByte (regsOf st'.mem b) r (q % 8) = a.getD q 0) ∧
      (t.tc ≠ .struct → t.tc ≠ .complex → t.size ≤ 8 → ∀ i, assign (cs.map toEB) st.g st.s = [.gpr i] →
        ∀ jj, jj < 8 → st'.mem.at_ (8 * i + jj) = (leBytes 8 (extend64 t.tc a)).getD jj 0) := by
  intro cs
  induction cs with
  | nil =>
    intro j st _ _ _ _
    refine ⟨st, rfl, by simp [nInt], by simp [nSse], rfl, fun A => Fr.refl _ _ _ _, ?_, ?_⟩
    · intro q h1 h2; simp at h2; omega
    · simp [assign]
  | cons c cs ih =>
    intro j st hcs hg hs hm
    have h0 := hcs 0 (by simp)
    simp only [Nat.add_zero, List.getElem_cons_zero] at h0
    have hrest : ∀ k (hk : k < cs.length), EbOk t (j + 1 + k) cs[k] := by
      intro k hk
      have := hcs (k + 1) (by simp; omega)
      simp only [List.getElem_cons_succ] at this
      rwa [show j + 1 + k = j + (k + 1) by omega]
    have hdata : ∀ q, dataByte t q → q < t.size := by
      rintro q ⟨l, hl, h1, h2⟩
      have := hwf.leaves_bounds lp64_ok 0 l hl
      omega
    by_cases hint : c = .integer ∨ c = .integersi
    · -- general register
      have heb : toEB c = .int := by simp [toEB, hint]
      rw [copyRegs_cons_int hint]
      simp only [List.map_cons, heb, nInt_cons, nSse_cons, reduceCtorEq, if_false, if_true] at hg hs ⊢
      obtain ⟨bs, hb1, hb2, hb3, hb4⟩ := gprValue_spec hwf ha h0.lt h64
      obtain ⟨m, hw1, hw2, hw3⟩ := wr_spec (m := st.mem) (off := 8 * st.g) (bs := bs) (by omega)
      have hwg : wrGpr st.mem st.g bs = .ok m := by unfold wrGpr; rw [if_pos (by omega), hw1]
      rw [hb1]
      simp only [hwg]
      obtain ⟨st', i1, i2, i3, i4, i5, i6, i7⟩ := ih (j + 1) { st with mem := m, g := st.g + 1 } hrest
        (by simp; omega) (by simpa using hs) (by simp; omega)
      simp only at i2 i3 i4 i5 i6 i7
      have hfr0 : ∀ A, Fr st.g st.s A st.mem m := by
        intro A
        refine ⟨hw2, fun k hk => ?_⟩
        rw [hw3, if_neg (by omega)]
      refine ⟨st', i1, by omega, by omega, i4, ?_, ?_, ?_⟩
      · intro A
        exact (hfr0 A).trans (i5 A) (by omega) (by omega) (Nat.le_refl _)
      · intro q hq1 hq2 hd
        by_cases hhead : q < 8 * j + 8
        · refine ⟨.gpr st.g, by simp [assign, show q / 8 - j = 0 by omega], ?_⟩
          rw [regByte_frame (i5 0) (by simp) (by omega)]
          simp only [regByte, regsOf]
          rw [hw3, if_pos (by omega)]
          rw [show 8 * st.g + q % 8 - 8 * st.g = q - 8 * j by omega]
          exact hb3 q hq1 hhead (hdata q hd)
        · obtain ⟨r, hr1, hr2⟩ := i6 q (by omega) (by simp at hq2; omega) hd
          refine ⟨r, ?_, hr2⟩
          rw [assign, show q / 8 - j = (q / 8 - (j + 1)) + 1 by omega, List.getElem?_cons_succ]
          exact hr1
      · intro n1 n2 n3 i hi jj hjj
        simp only [assign, List.cons.injEq, Reg.gpr.injEq] at hi
        obtain ⟨rfl, hi⟩ := hi
        have hnil : cs = [] := by
          have := congrArg List.length hi
          rw [assign_length] at this
          simpa using this
        have hf := (i5 0).2 (8 * st.g + jj) (.inl (by omega))
        rw [hf, hw3, if_pos (by omega), show 8 * st.g + jj - 8 * st.g = jj by omega, hb4 n1 n2 n3]
    · -- SSE register
      have heb : toEB c = .sse := by simp [toEB, hint]
      have hcase : ∃ n, ((c = .sse ∨ c = .ssedf) ∧ n = 8 ∨ c = .ssesf ∧ n = 4) ∧ 8 * j + n ≤ t.size ∧
          n ≤ 8 ∧ ∀ q, 8 * j ≤ q → q < 8 * j + 8 → dataByte t q → q < 8 * j + n := by
        rcases h0.mtch.rng with h | h | h | h | h | h
        · exact absurd h h0.ne
        · exact absurd (.inl h) hint
        · exact absurd (.inr h) hint
        · obtain ⟨l, hl, _, hf⟩ := h0.mtch.full (.inl h)
          have := hwf.leaves_bounds lp64_ok 0 l hl
          exact ⟨8, .inl ⟨.inl h, rfl⟩, by omega, by omega, fun q _ h _ => h⟩
        · -- float only
          have hex : ∃ l ∈ leaves t 0, touches l j := by
            by_contra hc; exact h0.ne (h0.mtch.no.2 hc)
          obtain ⟨l, hl, ht⟩ := hex
          have h4 := h0.mtch.sf h l hl ht
          have := hwf.leaves_bounds lp64_ok 0 l hl
          refine ⟨4, .inr ⟨h, rfl⟩, by omega, by omega, ?_⟩
          rintro q q1 q2 ⟨l', hl', q3, q4⟩
          have := h0.mtch.sf h l' hl' ⟨by omega, by omega⟩
          omega
        · obtain ⟨l, hl, _, hf⟩ := h0.mtch.full (.inr h)
          have := hwf.leaves_bounds lp64_ok 0 l hl
          exact ⟨8, .inl ⟨.inr h, rfl⟩, by omega, by omega, fun q _ h _ => h⟩
      obtain ⟨n, hcn, hsz, hn8, hdn⟩ := hcase
      rw [copyRegs_cons_sse hcn, argRead_ok (by omega)]
      simp only [List.map_cons, heb, nInt_cons, nSse_cons, reduceCtorEq, if_false, if_true] at hg hs ⊢
      have hbl : ((a.drop (8 * j)).take n).length = n := by simp; omega
      obtain ⟨m, hw1, hw2, hw3⟩ := wr_spec (m := st.mem) (off := 48 + 16 * st.s)
        (bs := (a.drop (8 * j)).take n) (by omega)
      have hwg : wrSse st.mem st.s ((a.drop (8 * j)).take n) = .ok m := by
        unfold wrSse; rw [if_pos (by omega), hw1]
      simp only [hwg]
      obtain ⟨st', i1, i2, i3, i4, i5, i6, i7⟩ := ih (j + 1) { st with mem := m, s := st.s + 1 } hrest
        (by simpa using hg) (by simp; omega) (by simp; omega)
      simp only at i2 i3 i4 i5 i6 i7
      have hfr0 : ∀ A, Fr st.g st.s A st.mem m := by
        intro A
        refine ⟨hw2, fun k hk => ?_⟩
        rw [hw3, if_neg (by omega)]
      refine ⟨st', i1, by omega, by omega, i4, ?_, ?_, ?_⟩
      · intro A
        exact (hfr0 A).trans (i5 A) (by omega) (by omega) (Nat.le_refl _)
      · intro q hq1 hq2 hd
        by_cases hhead : q < 8 * j + 8
        · refine ⟨.sse st.s, by simp [assign, show q / 8 - j = 0 by omega], ?_⟩
          rw [regByte_frame (i5 0) (by simp) (by omega)]
          have hqn := hdn q hq1 hhead hd
          simp only [regByte, regsOf]
          rw [hw3, if_pos (by omega), drop_take_getD (by omega)]
          congr 1; omega
        · obtain ⟨r, hr1, hr2⟩ := i6 q (by omega) (by simp at hq2; omega) hd
          refine ⟨r, ?_, hr2⟩
          rw [assign, show q / 8 - j = (q / 8 - (j + 1)) + 1 by omega, List.getElem?_cons_succ]
          exact hr1
      · intro _ _ _ i hi
        simp [assign] at hi

/-! ### The argument loop -/

theorem stackAlign_spec {t : FType} (hwf : WF lp64 t) :
    stackAlign t = max 8 t.align ∧ (stackAlign t = 8 ∨ stackAlign t = 16) := by
  unfold stackAlign
  rcases hwf.align_cases lp64_ok with h | h | h | h | h <;> rw [h] <;> decide

theorem align_rel {t : FType} (hwf : WF lp64 t) {sp off : Nat} (hsp : sp % 16 = 0)
    (hb : sp + off + 16 < 2 ^ 64) : ffiAlign (sp + off) (stackAlign t) - sp = memOff t off := by
  obtain ⟨h1, h2⟩ := stackAlign_spec hwf
  have hd : stackAlign t ∣ sp := by rcases h2 with h | h <;> rw [h] <;> omega
  rw [ffiAlign_small (by omega) (by omega), roundUp_add_of_dvd (by omega) hd, memOff, ← h1]
  omega

theorem totals_ge (ts : List FType) (g s off : Nat) (hpos : ∀ t ∈ ts, 0 < t.align) :
    off ≤ (totals ts g s off).2.2 := by
  induction ts generalizing g s off with
  | nil => exact Nat.le_refl _
  | cons t ts ih =>
    have hge : off ≤ memOff t off := roundUp_ge (by omega)
    have ih' := fun g s off => ih g s off (fun t ht => hpos t (by simp [ht]))
    unfold totals
    split
    · split
      · exact ih' _ _ _
      · have := ih' g s (memOff t off + t.size); omega
    · have := ih' g s (memOff t off + t.size); omega

theorem _root_.Verif.Spec.X64.ArgsOk.tail {t ts a as} (h : ArgsOk (t :: ts) (a :: as)) : ArgsOk ts as :=
  ⟨fun x hx => h.wf x (by simp [hx]), by simpa using h.len,
   fun i t' a' h1 h2 => h.bytes (i + 1) t' a' (by simpa using h1) (by simpa using h2)⟩

/-- The decision "registers or memory", as the code takes it and as the psABI
prescribes it. -/
theorem arg_cases {t : FType} (hwf : WF lp64 t) (ts : List FType) (g s off : Nat) :
    (∃ ex, examine t false = .ok ex ∧ inRegs ex g s = none ∧
      place (t :: ts) g s off = .stack (memOff t off) :: place ts g s (memOff t off + t.size) ∧
      totals (t :: ts) g s off = totals ts g s (memOff t off + t.size)) ∨
    (∃ ex cls, RegCls t cls ∧ examine t false = .ok ex ∧
      inRegs ex g s = some (cls, nInt (cls.map toEB), nSse (cls.map toEB)) ∧
      g + nInt (cls.map toEB) ≤ 6 ∧ s + nSse (cls.map toEB) ≤ 8 ∧
      place (t :: ts) g s off = .regs (assign (cls.map toEB) g s) ::
        place ts (g + nInt (cls.map toEB)) (s + nSse (cls.map toEB)) off ∧
      totals (t :: ts) g s off = totals ts (g + nInt (cls.map toEB)) (s + nSse (cls.map toEB)) off) := by
  rcases examine_spec hwf false with ⟨h1, h2⟩ | ⟨cls, hr, h1, h2⟩
  · left
    exact ⟨_, h2, rfl, by simp [place, h1], by simp [totals, h1]⟩
  · by_cases hfit : g + nInt (cls.map toEB) ≤ 6 ∧ s + nSse (cls.map toEB) ≤ 8
    · right
      refine ⟨_, cls, hr, h2, ?_, hfit.1, hfit.2, by simp [place, h1, hfit], by simp [totals, h1, hfit]⟩
      simp only [inRegs]
      rw [if_neg (by omega)]
    · left
      refine ⟨_, h2, ?_, by simp [place, h1, hfit], by simp [totals, h1, hfit]⟩
      simp only [inRegs]
      rw [if_pos (by omega)]

theorem callLoop_spec (sp b : Nat) (hsp : sp % 16 = 0) :
    ∀ (ts : List FType) (as : List (List Byte)) (st : CallSt) (off : Nat), ArgsOk ts as →
    st.argp = 192 + off → st.g ≤ 6 → st.s ≤ 8 →
    (totals ts st.g st.s off).2.2 ≤ b → 192 + b ≤ st.mem.size →
    sp + st.mem.size + 16 < 2 ^ 63 →
    ∃ st', callLoop sp ts as st = .ok st' ∧
      (st'.g, st'.s, st'.argp - 192) = totals ts st.g st.s off ∧ 192 ≤ st'.argp ∧
      st'.g ≤ 6 ∧ st'.s ≤ 8 ∧
      Fr st.g st.s (192 + off) st.mem st'.mem ∧
      (∀ k, 192 + b ≤ k → st'.mem.at_ k = st.mem.at_ k) ∧
      AllPassed (regsOf st'.mem b) ts as (place ts st.g st.s off) ∧
      (∀ (i : Nat) t a p, ts[i]? = some t → as[i]? = some a → (place ts st.g st.s off)[i]? = some p →
        WidenedAt (regsOf st'.mem b) t a p) := by
  intro ts
  induction ts with
  | nil =>
    intro as st off hok hargp hg hs ht hm hbig
    refine ⟨st, rfl, by simp [totals, hargp], by omega, hg, hs, Fr.refl _ _ _ _, fun _ _ => rfl, ?_, ?_⟩
    · intro i t a p h; simp at h
    · intro i t a p h; simp at h
  | cons t ts ih =>
    intro as st off hok hargp hg hs htot hm hbig
    cases as with
    | nil => have := hok.len; simp at this
    | cons a as =>
    have hwf := hok.wf t (by simp)
    have hal := hok.bytes 0 t a (by simp) (by simp)
    have hposr : ∀ t ∈ ts, 0 < t.align := fun x hx => (hok.wf x (by simp [hx])).align_pos lp64_ok
    have hmoff : off ≤ memOff t off := roundUp_ge (by omega)
    rcases arg_cases hwf ts st.g st.s off with
      ⟨ex, hex, hin, hpl, htt⟩ | ⟨ex, cls, hr, hex, hin, hng, hns, hpl, htt⟩
    · -- in memory
      rw [htt] at htot
      have htg := totals_ge ts st.g st.s (memOff t off + t.size) hposr
      have hargp' : ffiAlign (sp + st.argp) (stackAlign t) - sp = 192 + memOff t off := by
        rw [hargp, show sp + (192 + off) = (sp + 192) + off by omega]
        have := align_rel hwf (sp := sp + 192) (off := off) (by omega) (by omega)
        have hge : sp + 192 ≤ ffiAlign (sp + 192 + off) (stackAlign t) := by
          obtain ⟨h1, h2⟩ := stackAlign_spec hwf
          rw [ffiAlign_small (by omega) (by omega)]
          have := roundUp_ge (v := sp + 192 + off) (a := stackAlign t) (by omega)
          omega
        omega
      rw [callLoop, hex]
      simp only [hin, hargp']
      rw [argRead_ok (by omega)]
      simp only [List.drop_zero]
      rw [List.take_of_length_le (by omega)]
      obtain ⟨m, hw1, hw2, hw3⟩ := wr_spec (m := st.mem) (off := 192 + memOff t off) (bs := a) (by omega)
      rw [hw1]
      simp only
      obtain ⟨st', i1, i2, i3, i4, i5, i6, i7, i8, i9⟩ := ih as
        { st with mem := m, argp := 192 + memOff t off + t.size } (memOff t off + t.size)
        hok.tail (by simp; omega) hg hs htot (by simp; omega) (by simp; omega)
      simp only at i2 i6 i7 i8 i9
      have hpass : PassedAt (regsOf st'.mem b) t a (.stack (memOff t off)) := by
        apply PassedAt.frame (m := m) (g := st.g) (s := st.s) (off := memOff t off + t.size) ?_ i6
        · exact Nat.le_refl _
        · refine ⟨by simp only [regsOf]; omega, fun q hq => ?_⟩
          simp only [regsOf]
          rw [hw3, if_pos (by omega)]
          congr 1; omega
      refine ⟨st', i1, by rw [htt]; exact i2, i3, i4, i5, ?_, ?_, ?_, ?_⟩
      · refine Fr.trans (m' := m) ⟨hw2, fun k hk => ?_⟩ i6 (Nat.le_refl _) (Nat.le_refl _) (by omega)
        rw [hw3, if_neg (by omega)]
      · intro k hk
        rw [i7 k hk, hw3, if_neg (by omega)]
      · rw [hpl]
        intro i t' a' p' h1 h2 h3
        cases i with
        | zero =>
          simp only [List.getElem?_cons_zero, Option.some.injEq] at h1 h2 h3
          subst h1 h2 h3
          exact hpass
        | succ i =>
          simp only [List.getElem?_cons_succ] at h1 h2 h3
          exact i8 i t' a' p' h1 h2 h3
      · rw [hpl]
        intro i t' a' p' h1 h2 h3
        cases i with
        | zero =>
          simp only [List.getElem?_cons_zero, Option.some.injEq] at h3
          subst h3
          trivial
        | succ i =>
          simp only [List.getElem?_cons_succ] at h1 h2 h3
          exact i9 i t' a' p' h1 h2 h3
    · -- in registers
      rw [htt] at htot
      rw [callLoop, hex]
      simp only [hin]
      have hsz16 := hr.size
      obtain ⟨st1, j1, j2, j3, j4, j5, j6, j7⟩ := copyRegs_spec hwf (by omega) hal b cls 0 st
        (by
          intro k hk
          have := hr.mtch k hk
          rw [Nat.zero_add]
          exact ⟨this.1, this.2, by have := hr.len; omega⟩) hng hns (by omega)
      rw [j1]
      simp only
      have hsize := (j5 0).1
      obtain ⟨st', i1, i2, i3, i4, i5, i6, i7, i8, i9⟩ := ih as st1 off hok.tail (by omega)
        (by omega) (by omega) (by rw [j2, j3]; exact htot) (by omega) (by omega)
      rw [j2, j3] at i2 i6 i8 i9
      have hbel : Below t (st.g + nInt (cls.map toEB)) (st.s + nSse (cls.map toEB)) off
          (.regs (assign (cls.map toEB) st.g st.s)) := by
        intro r hr
        have := assign_below _ _ _ r hr
        cases r <;> simp at this ⊢ <;> omega
      have hpass : PassedAt (regsOf st'.mem b) t a (.regs (assign (cls.map toEB) st.g st.s)) := by
        apply PassedAt.frame ?_ i6 hbel
        intro q hq
        have hql : q < 8 * (0 + cls.length) := by
          obtain ⟨l, hl, h1, h2⟩ := hq
          have := hwf.leaves_bounds lp64_ok 0 l hl
          rw [hr.len]; omega
        obtain ⟨r, h1, h2⟩ := j6 q (by omega) hql hq
        exact ⟨r, by simpa using h1, h2⟩
      have hwide : WidenedAt (regsOf st'.mem b) t a (.regs (assign (cls.map toEB) st.g st.s)) := by
        apply WidenedAt.frame ?_ i6 hbel
        intro h1 h2 i hi j hj
        have hle : t.size ≤ 8 := by
          have := congrArg List.length hi
          rw [assign_length, List.length_map, hr.len] at this
          simp at this; omega
        exact j7 h1 h2 hle i hi j hj
      refine ⟨st', i1, by rw [htt]; exact i2, i3, i4, i5, ?_, ?_, ?_, ?_⟩
      · exact (j5 _).trans i6 (by omega) (by omega) (Nat.le_refl _)
      · intro k hk
        rw [i7 k hk]
        exact (j5 (k + 1)).2 k (.inr (.inr ⟨by omega, by omega⟩))
      · rw [hpl]
        intro i t' a' p' h1 h2 h3
        cases i with
        | zero =>
          simp only [List.getElem?_cons_zero, Option.some.injEq] at h1 h2 h3
          subst h1 h2 h3
          exact hpass
        | succ i =>
          simp only [List.getElem?_cons_succ] at h1 h2 h3
          exact i8 i t' a' p' h1 h2 h3
      · rw [hpl]
        intro i t' a' p' h1 h2 h3
        cases i with
        | zero =>
          simp only [List.getElem?_cons_zero, Option.some.injEq] at h1 h2 h3
          subst h1 h2 h3
          exact hwide
        | succ i =>
          simp only [List.getElem?_cons_succ] at h1 h2 h3
          exact i9 i t' a' p' h1 h2 h3

end Verif.X64
